import Verif.Proofs.CrdDesc
import Mathlib.Algebra.Order.Field.Rat
import Mathlib.Tactic.LinearCombination
import Mathlib.Tactic.NormNum

/-!
# C53, C54, C75: descent of the objective and fixed points of coordinate descent
-/

namespace GoSelect

open Finset Spec

variable {K : Type} [Field K] [LinearOrder K]

/-- The coefficients returned by `LassoCrdDesc` with the empirical covariance matrix. -/
def lassoResult {S : Type} (X : Mat K) (y : Nat → K) (lamb tol : K) (corr : LassoCorrection K S) (s : S)
    (maxIter : Nat) : Nat → K :=
  (cdLoop (lassoProblem X y lamb tol corr) maxIter (cdInit (lassoProblem X y lamb tol corr) s)).1.beta

/-- `lassoResult` is what the call returns (data with at least one column). -/
theorem lassoResult_spec {S : Type} (X : Mat K) (y : Nat → K) (lamb tol : K) (corr : LassoCorrection K S)
    (s : S) (x0 : Option (List K)) (maxIter : Nat) (hc : X.nc ≠ 0) :
    (lassoCrdDesc (lassoProblem X y lamb tol corr) s x0 maxIter).map Prod.fst =
      some (lassoResult X y lamb tol corr s maxIter) := by
  unfold lassoCrdDesc lassoResult
  rw [if_neg (by simp [lassoProblem, empiricalCov, hc])]
  rfl

theorem cdInit_zero {S : Type} (p : CDProblem K S) (s : S) : (cdInit p s).beta = fun _ => 0 := rfl

theorem lassoProblem_inv {S : Type} (X : Mat K) (y : Nat → K) (lamb tol : K)
    (corr : LassoCorrection K S) (s : S) (n : Nat) :
    LoopInv X (lassoProblem X y lamb tol corr)
      (cdLoop (lassoProblem X y lamb tol corr) n (cdInit (lassoProblem X y lamb tol corr) s)).1 :=
  cdLoop_inv X _ rfl rfl n _ (cdInit_inv X _ rfl s)

/-- C53: after any number of iterations `covDotBeta` is the covariance matrix times the current
coefficients, for every correction. -/
theorem C53_covDotBeta {S : Type} (X : Mat K) (y : Nat → K) (lamb tol : K)
    (corr : LassoCorrection K S) (s : S) (n : Nat) :
    let st := (cdLoop (lassoProblem X y lamb tol corr) n (cdInit (lassoProblem X y lamb tol corr) s)).1
    st.covDotBeta = mulSlice (empiricalCov X) st.beta ∧ st.betaOld = st.beta :=
  ⟨funext (lassoProblem_inv X y lamb tol corr s n).dot, (lassoProblem_inv X y lamb tol corr s n).old⟩

/-- C53: within a sweep too: after each prefix of the coordinates of a sweep `covDotBeta` is the
covariance matrix times the coefficients of that moment. -/
theorem C53_covDotBeta_sweep {S : Type} (X : Mat K) (y : Nat → K) (lamb tol : K)
    (corr : LassoCorrection K S) (s : S) (n m : Nat) :
    let p := lassoProblem X y lamb tol corr
    let st := (cdLoop p n (cdInit p s)).1
    let st' := (st.iterIndices.take m).foldl (cdCoord p) st
    st'.covDotBeta = mulSlice (empiricalCov X) st'.beta := by
  intro p st st'
  have h := lassoProblem_inv X y lamb tol corr s n
  have h' := cdSweep_inv X p rfl (st.iterIndices.take m) st
    (fun j hj => (h.idx j (List.mem_of_mem_take hj)).2) (h.nodup.sublist (List.take_sublist _ _)) (h.sweep _)
  exact funext h'.dot

/-- C53: the indices visited are feature numbers from 1 on, without repetition; the slices are never
indexed out of range. -/
theorem C53_indices {S : Type} (X : Mat K) (y : Nat → K) (lamb tol : K)
    (corr : LassoCorrection K S) (s : S) (n : Nat) :
    let st := (cdLoop (lassoProblem X y lamb tol corr) n (cdInit (lassoProblem X y lamb tol corr) s)).1
    st.iterIndices.Nodup ∧ ∀ j ∈ st.iterIndices, 1 ≤ j ∧ j < X.nc :=
  ⟨(lassoProblem_inv X y lamb tol corr s n).nodup, (lassoProblem_inv X y lamb tol corr s n).idx⟩

variable [IsStrictOrderedRing K]

/-- One more iteration never increases the elastic net objective. -/
theorem elastic_step {S : Type} (X : Mat K) (y : Nat → K) (lamb tol L : K) (corr : LassoCorrection K S)
    (hc : IsElastic L corr) (s : S) (hl : 0 ≤ lamb) (hn : 0 < X.nr)
    (hdiag : ∀ j, 1 ≤ j → j < X.nc → 0 < (empiricalCov X).get j j ∧ L ≤ (empiricalCov X).get j j) (n : Nat) :
    elasticObjective X y lamb L (lassoResult X y lamb tol corr s (n + 1)) ≤
      elasticObjective X y lamb L (lassoResult X y lamb tol corr s n) := by
  unfold lassoResult
  rw [cdLoop_succ]
  split
  · exact le_refl _
  · have h := lassoProblem_inv X y lamb tol corr s n
    set p := lassoProblem X y lamb tol corr with hp
    set st := (cdLoop p n (cdInit p s)).1 with hst
    rw [(cdIter_shape p st).1]
    exact cdSweep_decrease X y p L rfl rfl rfl hc hl hn st.iterIndices st
      (fun j hj => (h.idx j hj).2) (fun j hj => hdiag j (h.idx j hj).1 (h.idx j hj).2) h.nodup (h.sweep _)

theorem pureLasso_elastic : IsElastic (0 : K) pureLasso := fun _ _ _ => by simp [pureLasso]

/-- C53: each update of a coordinate of a sweep, in any state that the loop reaches, never increases
the lasso objective, and lowers it by at least `C_jj/2` times the square of the change. -/
theorem C53_coordinate (X : Mat K) (y : Nat → K) (lamb tol : K) (hl : 0 ≤ lamb) (hn : 0 < X.nr)
    (hdiag : ∀ j, 1 ≤ j → j < X.nc → 0 < (empiricalCov X).get j j) (n m : Nat) :
    let p := lassoProblem X y lamb tol pureLasso
    let st := (cdLoop p n (cdInit p ())).1
    let st' := (st.iterIndices.take m).foldl (cdCoord p) st
    ∀ j, st.iterIndices[m]? = some j →
      lassoObjective X y lamb (cdCoord p st' j).beta +
        (empiricalCov X).get j j / 2 * ((cdCoord p st' j).beta j - st'.beta j) ^ 2 ≤
          lassoObjective X y lamb st'.beta := by
  intro p st st' j hj
  have h := lassoProblem_inv X y lamb tol pureLasso () n
  have hm : m < st.iterIndices.length := by
    by_contra hc
    rw [List.getElem?_eq_none (by omega)] at hj
    exact absurd hj (by simp)
  have hjm : j ∈ st.iterIndices := by
    rw [List.getElem?_eq_getElem hm] at hj
    exact (Option.some.inj hj) ▸ List.getElem_mem hm
  have hsplit : st.iterIndices = st.iterIndices.take m ++ (j :: st.iterIndices.drop (m + 1)) := by
    rw [List.getElem?_eq_getElem hm] at hj
    rw [← Option.some.inj hj]
    rw [← List.drop_eq_getElem_cons hm, List.take_append_drop]
  have hnd : (st.iterIndices.take m ++ (j :: st.iterIndices.drop (m + 1))).Nodup := hsplit ▸ h.nodup
  have hjt : j ∉ st.iterIndices.take m := by
    intro hmem
    exact (List.nodup_append.1 hnd).2.2 j hmem j (by simp) rfl
  have hsw := cdSweep_inv X p rfl (st.iterIndices.take m) st
    (fun k hk => (h.idx k (List.mem_of_mem_take hk)).2) (h.nodup.sublist (List.take_sublist _ _)) (h.sweep _)
  obtain ⟨g1, -, -, g4⟩ := foldl_cdCoord_const p (st.iterIndices.take m) st
  have hinv : SweepInv X st' [j] := by
    refine ⟨hsw.dot, ?_⟩
    intro k hk
    simp only [List.mem_singleton] at hk
    subst hk
    change (List.foldl (cdCoord p) st (st.iterIndices.take m)).beta k =
      (List.foldl (cdCoord p) st (st.iterIndices.take m)).betaOld k
    rw [g4 k hjt, g1]
    exact (congrFun h.old k).symm
  obtain ⟨hj1, hj2⟩ := h.idx j hjm
  have hd := coord_decrease X y lamb 0 hl st'.beta j hj2 hn (hdiag j hj1 hj2) _ rfl
  have hv := cdCoord_value X y p 0 rfl rfl rfl pureLasso_elastic st' j [] hinv
  rw [hv, Function.update_self]
  rw [elastic_zero, elastic_zero, sub_zero] at hd
  exact hd

/-- C53: one more iteration never makes the lasso objective worse. -/
theorem C53_descent (X : Mat K) (y : Nat → K) (lamb tol : K) (hl : 0 ≤ lamb) (hn : 0 < X.nr)
    (hdiag : ∀ j, 1 ≤ j → j < X.nc → 0 < (empiricalCov X).get j j) (n : Nat) :
    lassoObjective X y lamb (lassoResult X y lamb tol pureLasso () (n + 1)) ≤
      lassoObjective X y lamb (lassoResult X y lamb tol pureLasso () n) := by
  have := elastic_step X y lamb tol 0 pureLasso pureLasso_elastic () hl hn
    (fun j h1 h2 => ⟨hdiag j h1 h2, (hdiag j h1 h2).le⟩) n
  rwa [elastic_zero, elastic_zero] at this

/-- C53: the result is never worse than the zero vector. -/
theorem C53_zero (X : Mat K) (y : Nat → K) (lamb tol : K) (hl : 0 ≤ lamb) (hn : 0 < X.nr)
    (hdiag : ∀ j, 1 ≤ j → j < X.nc → 0 < (empiricalCov X).get j j) (n : Nat) :
    lassoObjective X y lamb (lassoResult X y lamb tol pureLasso () n) ≤
      lassoObjective X y lamb (fun _ => 0) := by
  induction n with
  | zero => exact le_refl _
  | succ n ih => exact (C53_descent X y lamb tol hl hn hdiag n).trans ih

/-- The KKT condition with a quadratic penalty of weight `L`. -/
def ElasticKKT (X : Mat K) (y : Nat → K) (lamb L : K) (b : Nat → K) (j : Nat) : Prop :=
  |gradient X y b j - L * b j| ≤ lamb ∧ (gradient X y b j - L * b j) * b j = lamb * |b j|

/-- Coefficients that no exact coordinate step changes. -/
theorem kkt_of_fixed (X : Mat K) (y : Nat → K) (lamb L : K) (hl : 0 ≤ lamb) (b : Nat → K) (j : Nat)
    (hc : 0 < (empiricalCov X).get j j)
    (h : softThreshold (gradient X y b j + (empiricalCov X).get j j * b j - L * b j) lamb /
      (empiricalCov X).get j j = b j) :
    ElasticKKT X y lamb L b j := by
  unfold ElasticKKT
  set c := (empiricalCov X).get j j
  set g := gradient X y b j
  have hu : softThreshold (g + c * b j - L * b j) lamb = c * b j := by
    rw [div_eq_iff hc.ne'] at h; rw [h]; ring
  obtain ⟨h1, h2⟩ := softThreshold_subgradient (x := g + c * b j - L * b j) hl
  rw [hu] at h1 h2
  have e : g + c * b j - L * b j - c * b j = g - L * b j := by ring
  rw [e] at h1 h2
  refine ⟨h1, ?_⟩
  have : (g - L * b j) * b j * c = lamb * |b j| * c := by
    rw [abs_mul, abs_of_pos hc] at h2
    linear_combination h2
  exact mul_right_cancel₀ hc.ne' this

/-- KKT conditions for all features but the first imply optimality among vectors with the same first
coordinate. -/
theorem minimal_of_kkt (X : Mat K) (y : Nat → K) (lamb L : K) (hL : 0 ≤ L) (hn : 0 < X.nr) (b b' : Nat → K)
    (hk : ∀ j, 1 ≤ j → j < X.nc → ElasticKKT X y lamb L b j) (h0 : b' 0 = b 0) :
    elasticObjective X y lamb L b ≤ elasticObjective X y lamb L b' := by
  have h := objective_convex X y lamb b b' hn
  have hsum : ∑ j ∈ range X.nc, gradient X y b j * (b' j - b j) ≤
      lamb * (∑ j ∈ range X.nc, |b' j| - ∑ j ∈ range X.nc, |b j|) +
      L / 2 * (∑ j ∈ range X.nc, b' j ^ 2 - ∑ j ∈ range X.nc, b j ^ 2) := by
    rw [← Finset.sum_sub_distrib, ← Finset.sum_sub_distrib, Finset.mul_sum, Finset.mul_sum,
      ← Finset.sum_add_distrib]
    apply Finset.sum_le_sum
    intro j hj
    rcases Nat.eq_zero_or_pos j with rfl | hj0
    · rw [h0]; simp
    · obtain ⟨h1, h2⟩ := hk j hj0 (mem_range.1 hj)
      have := subgradient_le h1 h2 (b' j)
      have h3 : 0 ≤ L / 2 * (b' j - b j) ^ 2 := by positivity
      have e : gradient X y b j * (b' j - b j) = (gradient X y b j - L * b j) * (b' j - b j) +
        L / 2 * (b' j ^ 2 - b j ^ 2) - L / 2 * (b' j - b j) ^ 2 := by ring
      rw [e]
      linarith
  unfold elasticObjective
  linarith

/-- A state of the loop with all features active that a sweep leaves unchanged satisfies the KKT
conditions. -/
theorem kkt_of_sweep_fixed {S : Type} (X : Mat K) (y : Nat → K) (lamb tol L : K)
    (corr : LassoCorrection K S) (hcorr : IsElastic L corr) (hl : 0 ≤ lamb)
    (hdiag : ∀ j, 1 ≤ j → j < X.nc → 0 < (empiricalCov X).get j j) (st : CDState K S)
    (hold : st.betaOld = st.beta) (hdot : st.covDotBeta = mulSlice (empiricalCov X) st.beta)
    (hnd : st.iterIndices.Nodup) (hidx : ∀ j ∈ st.iterIndices, 1 ≤ j ∧ j < X.nc)
    (hfix : (cdSweep (lassoProblem X y lamb tol corr) st).beta = st.beta) :
    ∀ j ∈ st.iterIndices, ElasticKKT X y lamb L st.beta j := by
  set p := lassoProblem X y lamb tol corr with hp
  have key : ∀ (todo : List Nat) (s : CDState K S), todo.Nodup → (∀ j ∈ todo, 1 ≤ j ∧ j < X.nc) →
      SweepInv X s todo → (todo.foldl (cdCoord p) s).beta = s.beta →
        ∀ j ∈ todo, ElasticKKT X y lamb L s.beta j := by
    intro todo
    induction todo with
    | nil => intro s _ _ _ _ j hj; simp at hj
    | cons i todo ih =>
      intro s hnd hi hinv hf j hj
      obtain ⟨hit, hnd'⟩ := List.nodup_cons.1 hnd
      obtain ⟨hi1, hi2⟩ := hi i (by simp)
      have hv := cdCoord_value X y p L rfl rfl rfl hcorr s i todo hinv
      rw [List.foldl_cons] at hf
      have hfi := congrFun hf i
      rw [(foldl_cdCoord_const p todo (cdCoord p s i)).2.2.2 i hit, hv, Function.update_self] at hfi
      have hsame : (cdCoord p s i).beta = s.beta := by
        rw [hv, hfi, Function.update_eq_self]
      rcases List.mem_cons.1 hj with rfl | hj
      · exact kkt_of_fixed X y lamb L hl s.beta j (hdiag j hi1 hi2) hfi
      · have := ih (cdCoord p s i) hnd' (fun k hk => hi k (by simp [hk]))
          (cdCoord_inv X p rfl s i todo hi2 hnd hinv) (by rw [hf, hsame]) j hj
        rwa [hsame] at this
  exact key st.iterIndices st hnd hidx ⟨congrFun hdot, fun k _ => by rw [hold]⟩ hfix

/-- C54: a state of the loop with all features active that a sweep leaves unchanged is a solution of
the lasso problem (among vectors with the same first coordinate), and satisfies the KKT conditions. -/
theorem C54_fixed_point (X : Mat K) (y : Nat → K) (lamb tol : K) (hl : 0 ≤ lamb) (hn : 0 < X.nr)
    (hdiag : ∀ j, 1 ≤ j → j < X.nc → 0 < (empiricalCov X).get j j) (st : CDState K Unit)
    (hold : st.betaOld = st.beta) (hdot : st.covDotBeta = mulSlice (empiricalCov X) st.beta)
    (hnd : st.iterIndices.Nodup) (hidx : ∀ j, j ∈ st.iterIndices ↔ 1 ≤ j ∧ j < X.nc)
    (hfix : (cdSweep (lassoProblem X y lamb tol pureLasso) st).beta = st.beta) :
    (∀ j, 1 ≤ j → j < X.nc → KKT X y lamb st.beta j) ∧
    ∀ b', b' 0 = st.beta 0 → lassoObjective X y lamb st.beta ≤ lassoObjective X y lamb b' := by
  have h := kkt_of_sweep_fixed X y lamb tol 0 pureLasso pureLasso_elastic hl hdiag st hold hdot hnd
    (fun j hj => (hidx j).1 hj) hfix
  have hk : ∀ j, 1 ≤ j → j < X.nc → ElasticKKT X y lamb 0 st.beta j := fun j h1 h2 =>
    h j ((hidx j).2 ⟨h1, h2⟩)
  refine ⟨?_, ?_⟩
  · intro j h1 h2
    have := hk j h1 h2
    unfold ElasticKKT at this
    rwa [zero_mul, sub_zero] at this
  · intro b' h0
    have := minimal_of_kkt X y lamb 0 le_rfl hn st.beta b' hk h0
    rwa [elastic_zero, elastic_zero] at this

/-- C75: for every weight `Lamb ≥ 0` a full sweep that changes nothing gives a minimiser of the elastic
net objective. -/
theorem C75_fixed_point (X : Mat K) (y : Nat → K) (lamb tol L : K) (hl : 0 ≤ lamb) (hL : 0 ≤ L)
    (hn : 0 < X.nr)
    (hdiag : ∀ j, 1 ≤ j → j < X.nc → 0 < (empiricalCov X).get j j) (st : CDState K Unit)
    (hold : st.betaOld = st.beta) (hdot : st.covDotBeta = mulSlice (empiricalCov X) st.beta)
    (hnd : st.iterIndices.Nodup) (hidx : ∀ j, j ∈ st.iterIndices ↔ 1 ≤ j ∧ j < X.nc)
    (hfix : (cdSweep (lassoProblem X y lamb tol (elasticNet L)) st).beta = st.beta) :
    ∀ b', b' 0 = st.beta 0 → elasticObjective X y lamb L st.beta ≤ elasticObjective X y lamb L b' := by
  have h := kkt_of_sweep_fixed X y lamb tol L (elasticNet L) (fun _ _ _ => rfl) hl hdiag st hold hdot hnd
    (fun j hj => (hidx j).1 hj) hfix
  exact fun b' h0 => minimal_of_kkt X y lamb L hL hn st.beta b' (fun j h1 h2 => h j ((hidx j).2 ⟨h1, h2⟩)) h0

/-- C54, on calls: if the first sweep of a call (over all features) leaves the zero vector unchanged,
the zero vector solves the lasso problem with free first coordinate excluded. -/
theorem C54_zero (X : Mat K) (y : Nat → K) (lamb tol : K) (hl : 0 ≤ lamb) (hn : 0 < X.nr)
    (hdiag : ∀ j, 1 ≤ j → j < X.nc → 0 < (empiricalCov X).get j j)
    (hfix : lassoResult X y lamb tol pureLasso () 1 = fun _ => 0) :
    ∀ b', b' 0 = 0 → lassoObjective X y lamb (fun _ => 0) ≤ lassoObjective X y lamb b' := by
  have hi := cdInit_inv X (lassoProblem X y lamb tol pureLasso) rfl ()
  refine (C54_fixed_point X y lamb tol hl hn hdiag (cdInit (lassoProblem X y lamb tol pureLasso) ())
    hi.old (funext hi.dot) hi.nodup ?_ ?_).2
  · intro j
    constructor
    · exact hi.idx j
    · rintro ⟨h1, h2⟩
      simp only [cdInit, List.mem_map, List.mem_range, lassoProblem]
      exact ⟨j - 1, by omega, by omega⟩
  · have h := (cdIter_shape (lassoProblem X y lamb tol pureLasso)
      (cdInit (lassoProblem X y lamb tol pureLasso) ())).1
    rw [← h]
    have hl1 := cdLoop_succ (lassoProblem X y lamb tol pureLasso) 0
      (cdInit (lassoProblem X y lamb tol pureLasso) ())
    unfold lassoResult at hfix
    rw [hl1] at hfix
    simp only [cdLoop, Bool.false_eq_true, if_false] at hfix
    exact hfix

/-- One sweep of the elastic net objective: partial form of C75 (`Lamb` at most every diagonal entry of
the covariance matrix). -/
theorem C75_descent_partial (X : Mat K) (y : Nat → K) (lamb tol L : K) (hl : 0 ≤ lamb) (hn : 0 < X.nr)
    (hdiag : ∀ j, 1 ≤ j → j < X.nc → 0 < (empiricalCov X).get j j ∧ L ≤ (empiricalCov X).get j j) (n : Nat) :
    elasticObjective X y lamb L (lassoResult X y lamb tol (elasticNet L) () (n + 1)) ≤
      elasticObjective X y lamb L (lassoResult X y lamb tol (elasticNet L) () n) :=
  elastic_step X y lamb tol L (elasticNet L) (fun _ _ _ => rfl) () hl hn hdiag n

/-- C75: hence the result is never worse than the zero vector. -/
theorem C75_zero_partial (X : Mat K) (y : Nat → K) (lamb tol L : K) (hl : 0 ≤ lamb) (hn : 0 < X.nr)
    (hdiag : ∀ j, 1 ≤ j → j < X.nc → 0 < (empiricalCov X).get j j ∧ L ≤ (empiricalCov X).get j j) (n : Nat) :
    elasticObjective X y lamb L (lassoResult X y lamb tol (elasticNet L) () n) ≤
      elasticObjective X y lamb L (fun _ => 0) := by
  induction n with
  | zero => exact le_refl _
  | succ n ih => exact (C75_descent_partial X y lamb tol L hl hn hdiag n).trans ih

/-! ### Concrete data -/

/-- Two rows: a zero column (the normalised constant column) and `(1, -1)`. -/
def exX : Mat ℚ := ⟨2, 2, fun r c => if c = 0 then 0 else if r = 0 then 1 else -1⟩

def exY : Nat → ℚ := fun r => if r = 0 then 3 else -3

theorem exDiag : ∀ j, 1 ≤ j → j < exX.nc → 0 < (empiricalCov exX).get j j := by
  intro j h1 h2
  have : j = 1 := by simp only [exX] at h2; omega
  subst this
  decide +kernel

/-- The hypotheses of C53 hold and the objective really goes down: from 9/2 to 5/2. -/
example : 0 < exX.nr ∧ (∀ j, 1 ≤ j → j < exX.nc → 0 < (empiricalCov exX).get j j) ∧
    lassoObjective exX exY 1 (fun _ => 0) = 9 / 2 ∧
    lassoObjective exX exY 1 (lassoResult exX exY 1 (1 / 100) pureLasso () 1) = 5 / 2 := by
  refine ⟨by decide, exDiag, ?_, ?_⟩ <;> decide +kernel

/-- The hypotheses of C54 hold for the non-zero state reached after one iteration. -/
example :
    let p := lassoProblem exX exY 1 (1 / 100) pureLasso
    let st := (cdLoop p 1 (cdInit p ())).1
    st.beta 1 = 2 ∧ ∀ b', b' 0 = st.beta 0 → lassoObjective exX exY 1 st.beta ≤ lassoObjective exX exY 1 b' := by
  intro p st
  have hst := lassoProblem_inv exX exY 1 (1 / 100) pureLasso () 1
  have hidx : st.iterIndices = [1] := by decide +kernel
  refine ⟨by decide +kernel, (C54_fixed_point exX exY 1 (1 / 100) (by norm_num) (by decide) exDiag st
    hst.old (funext hst.dot) hst.nodup ?_ ?_).2⟩
  · intro j
    rw [hidx]
    simp only [List.mem_singleton, exX]
    omega
  · funext k
    by_cases hk : k = 1
    · subst hk; decide +kernel
    · exact (foldl_cdCoord_const p st.iterIndices st).2.2.2 k (by rw [hidx]; simpa using hk)

/-- With penalty `Lamb = 3 > C_11 = 1` the second sweep makes the elastic net objective worse: C75 is
false without the condition on the diagonal. -/
theorem C75_refuted :
    ∃ (X : Mat ℚ) (y : Nat → ℚ) (lamb tol L : ℚ), 0 ≤ lamb ∧ 0 ≤ L ∧ 0 < X.nr ∧
      (∀ j, 1 ≤ j → j < X.nc → 0 < (empiricalCov X).get j j) ∧
      elasticObjective X y lamb L (lassoResult X y lamb tol (elasticNet L) () 1) <
        elasticObjective X y lamb L (lassoResult X y lamb tol (elasticNet L) () 2) ∧
      elasticObjective X y lamb L (fun _ => 0) <
        elasticObjective X y lamb L (lassoResult X y lamb tol (elasticNet L) () 2) := by
  refine ⟨exX, exY, 1, 1 / 100, 3, by norm_num, by norm_num, by decide, exDiag, ?_, ?_⟩ <;> decide +kernel

/-- The condition of the partial theorem is met by `Lamb = 1/2`, and the objective goes down. -/
example : (∀ j, 1 ≤ j → j < exX.nc → 0 < (empiricalCov exX).get j j ∧ 1 / 2 ≤ (empiricalCov exX).get j j) ∧
    elasticObjective exX exY 1 (1 / 2) (lassoResult exX exY 1 (1 / 100) (elasticNet (1 / 2)) () 1) <
      elasticObjective exX exY 1 (1 / 2) (fun _ => 0) := by
  refine ⟨?_, by decide +kernel⟩
  intro j h1 h2
  have : j = 1 := by simp only [exX] at h2; omega
  subst this
  constructor <;> decide +kernel

/-- The hypotheses of `C75_fixed_point` hold for `Lamb = 1/2` and the coefficient 4/3. -/
example :
    let b : Nat → ℚ := fun k => if k = 1 then 4 / 3 else 0
    ∀ b', b' 0 = 0 → elasticObjective exX exY 1 (1 / 2) b ≤ elasticObjective exX exY 1 (1 / 2) b' := by
  intro b
  refine C75_fixed_point exX exY 1 (1 / 100) (1 / 2) (by norm_num) (by norm_num) (by decide) exDiag
    ⟨b, b, mulSlice (empiricalCov exX) b, [1], false, ()⟩ rfl rfl (by simp) ?_ ?_
  · intro j
    simp only [List.mem_singleton, exX]
    omega
  · funext k
    by_cases hk : k = 1
    · subst hk; decide +kernel
    · exact (foldl_cdCoord_const _ [1] _).2.2.2 k (by simpa using hk)

end GoSelect
