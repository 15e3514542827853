import Verif.Props.C52
import Verif.Spec.Lasso
import Mathlib.Algebra.BigOperators.Ring.Finset
import Mathlib.Algebra.Order.BigOperators.Group.Finset
import Mathlib.Tactic.FieldSimp

/-! Coordinate descent: effect of one coordinate update, of a sweep, of the loop. -/

namespace GoSelect

open Finset Spec

variable {K : Type} [Field K] [LinearOrder K]

theorem sum_update (n j : Nat) (hj : j < n) (a b : Nat → K) (v : K) :
    ∑ k ∈ range n, a k * Function.update b j v k = ∑ k ∈ range n, a k * b k + a j * (v - b j) := by
  have : ∑ k ∈ range n, (a k * Function.update b j v k - a k * b k) = a j * (v - b j) := by
    rw [Finset.sum_eq_single j]
    · rw [Function.update_self]; ring
    · intro k _ hk
      rw [Function.update_of_ne hk]; ring
    · intro h; exact absurd (mem_range.2 hj) h
  rw [Finset.sum_sub_distrib] at this
  rw [← this]; ring

theorem sum_update_fun (n j : Nat) (hj : j < n) (f : K → K) (b : Nat → K) (v : K) :
    ∑ k ∈ range n, f (Function.update b j v k) = ∑ k ∈ range n, f (b k) + (f v - f (b j)) := by
  have : ∑ k ∈ range n, (f (Function.update b j v k) - f (b k)) = f v - f (b j) := by
    rw [Finset.sum_eq_single j]
    · rw [Function.update_self]
    · intro k _ hk
      rw [Function.update_of_ne hk]; ring
    · intro h; exact absurd (mem_range.2 hj) h
  rw [Finset.sum_sub_distrib] at this
  rw [← this]; ring

theorem residual_update (X : Mat K) (y b : Nat → K) (r j : Nat) (hj : j < X.nc) (v : K) :
    residual X y (Function.update b j v) r = residual X y b r - X.get r j * (v - b j) := by
  unfold residual
  rw [sum_update _ _ hj]; ring

/-- The correlation with the residual from the covariance matrix. -/
theorem gradient_eq (X : Mat K) (y b : Nat → K) (j : Nat) :
    gradient X y b j = xTy X y j / X.nr - ∑ k ∈ range X.nc, (empiricalCov X).get j k * b k := by
  unfold gradient residual xTy empiricalCov
  simp only [mul_sub, Finset.sum_sub_distrib]
  congr 1
  · ring
  · rw [Finset.mul_sum]
    simp only [Finset.mul_sum, Finset.sum_mul]
    rw [Finset.sum_comm]
    apply Finset.sum_congr rfl
    intro k _
    apply Finset.sum_congr rfl
    intro r _
    ring

/-- Difference of correlations. -/
theorem gradient_sub (X : Mat K) (y b b' : Nat → K) (j : Nat) :
    gradient X y b j - gradient X y b' j = -∑ k ∈ range X.nc, (empiricalCov X).get j k * (b k - b' k) := by
  rw [gradient_eq, gradient_eq]
  simp only [mul_sub, Finset.sum_sub_distrib]
  ring

variable [IsStrictOrderedRing K]

theorem objective_update (X : Mat K) (y : Nat → K) (lamb : K) (b : Nat → K) (j : Nat) (hj : j < X.nc)
    (hnr : 0 < X.nr) (v : K) :
    lassoObjective X y lamb (Function.update b j v) =
      lassoObjective X y lamb b - (v - b j) * gradient X y b j +
        (v - b j) ^ 2 / 2 * (empiricalCov X).get j j + lamb * (|v| - |b j|) := by
  have hn : (X.nr : K) ≠ 0 := by positivity
  unfold lassoObjective
  rw [sum_update_fun _ _ hj (fun z => |z|)]
  have h1 : ∑ r ∈ range X.nr, residual X y (Function.update b j v) r ^ 2 =
      ∑ r ∈ range X.nr, residual X y b r ^ 2 - 2 * (v - b j) * ∑ r ∈ range X.nr, X.get r j * residual X y b r +
        (v - b j) ^ 2 * ∑ r ∈ range X.nr, X.get r j * X.get r j := by
    rw [Finset.mul_sum, Finset.mul_sum, ← Finset.sum_sub_distrib, ← Finset.sum_add_distrib]
    apply Finset.sum_congr rfl
    intro r _
    rw [residual_update X y b r j hj v]; ring
  rw [h1]
  unfold gradient empiricalCov
  simp only
  field_simp
  ring

/-- The objective lies above its linearisation. -/
theorem objective_convex (X : Mat K) (y : Nat → K) (lamb : K) (b b' : Nat → K) (hnr : 0 < X.nr) :
    lassoObjective X y lamb b - ∑ j ∈ range X.nc, gradient X y b j * (b' j - b j) +
      lamb * (∑ j ∈ range X.nc, |b' j| - ∑ j ∈ range X.nc, |b j|) ≤ lassoObjective X y lamb b' := by
  have hn : (0 : K) < X.nr := by positivity
  have hres : ∀ r, residual X y b' r = residual X y b r - ∑ j ∈ range X.nc, X.get r j * (b' j - b j) := by
    intro r
    unfold residual
    simp only [mul_sub, Finset.sum_sub_distrib]
    ring
  have hcross : ∑ j ∈ range X.nc, gradient X y b j * (b' j - b j) =
      (1 / (X.nr : K)) * ∑ r ∈ range X.nr, residual X y b r * ∑ j ∈ range X.nc, X.get r j * (b' j - b j) := by
    unfold gradient
    simp only [Finset.mul_sum, Finset.sum_mul]
    rw [Finset.sum_comm]
    apply Finset.sum_congr rfl
    intro r _
    apply Finset.sum_congr rfl
    intro j _
    ring
  have hsq : ∑ r ∈ range X.nr, residual X y b' r ^ 2 =
      ∑ r ∈ range X.nr, residual X y b r ^ 2 -
        2 * ∑ r ∈ range X.nr, residual X y b r * ∑ j ∈ range X.nc, X.get r j * (b' j - b j) +
        ∑ r ∈ range X.nr, (∑ j ∈ range X.nc, X.get r j * (b' j - b j)) ^ 2 := by
    rw [Finset.mul_sum, ← Finset.sum_sub_distrib, ← Finset.sum_add_distrib]
    apply Finset.sum_congr rfl
    intro r _
    rw [hres r]; ring
  have hpos : 0 ≤ ∑ r ∈ range X.nr, (∑ j ∈ range X.nc, X.get r j * (b' j - b j)) ^ 2 :=
    Finset.sum_nonneg (fun r _ => sq_nonneg _)
  unfold lassoObjective
  rw [hcross, hsq]
  have h2 : 0 ≤ (1 / (2 * (X.nr : K))) *
      ∑ r ∈ range X.nr, (∑ j ∈ range X.nc, X.get r j * (b' j - b j)) ^ 2 := by positivity
  have h3 : (1 / (2 * (X.nr : K))) * (2 * ∑ r ∈ range X.nr, residual X y b r *
      ∑ j ∈ range X.nc, X.get r j * (b' j - b j)) =
      (1 / (X.nr : K)) * ∑ r ∈ range X.nr, residual X y b r * ∑ j ∈ range X.nc, X.get r j * (b' j - b j) := by
    field_simp
  nlinarith [h2, h3]

/-- The objective with a quadratic penalty of weight `L`; the lasso objective for `L = 0`. -/
theorem elastic_zero (X : Mat K) (y : Nat → K) (lamb : K) (b : Nat → K) :
    elasticObjective X y lamb 0 b = lassoObjective X y lamb b := by
  unfold elasticObjective; simp

/-- One coordinate update `v = soft(g + c b_j - L b_j) / c`. -/
theorem coord_decrease (X : Mat K) (y : Nat → K) (lamb L : K) (hl : 0 ≤ lamb) (b : Nat → K) (j : Nat)
    (hj : j < X.nc) (hnr : 0 < X.nr) (hc : 0 < (empiricalCov X).get j j) (v : K)
    (hv : v = softThreshold (gradient X y b j + (empiricalCov X).get j j * b j - L * b j) lamb /
      (empiricalCov X).get j j) :
    elasticObjective X y lamb L (Function.update b j v) +
      ((empiricalCov X).get j j - L) / 2 * (v - b j) ^ 2 ≤ elasticObjective X y lamb L b := by
  set c := (empiricalCov X).get j j with hcd
  set g := gradient X y b j with hg
  set u := softThreshold (g + c * b j - L * b j) lamb with hu
  obtain ⟨h1, h2⟩ := softThreshold_subgradient (x := g + c * b j - L * b j) hl
  rw [← hu] at h1 h2
  have huv : u = c * v := by rw [hv]; field_simp
  have h2' : (g + c * b j - L * b j - u) * v = lamb * |v| := by
    have e : (g + c * b j - L * b j - u) * v * c = lamb * |v| * c := by
      have : lamb * |u| = lamb * |v| * c := by rw [huv, abs_mul, abs_of_pos hc]; ring
      rw [← this, ← h2, huv]; ring
    exact mul_right_cancel₀ hc.ne' e
  have h3 := subgradient_le h1 h2' (b j)
  unfold elasticObjective
  rw [objective_update X y lamb b j hj hnr v, ← hg, ← hcd, sum_update_fun _ _ hj (fun z => z ^ 2)]
  rw [huv] at h3
  have e1 : (g + c * b j - L * b j - c * v) * (b j - v) =
      -(v - b j) * g + (c * (v - b j) ^ 2) + L * b j * (v - b j) := by ring
  rw [e1] at h3
  have e2 : L / 2 * (∑ k ∈ range X.nc, b k ^ 2 + (v ^ 2 - b j ^ 2)) =
      L / 2 * ∑ k ∈ range X.nc, b k ^ 2 + L / 2 * (v - b j) ^ 2 + L * b j * (v - b j) := by ring
  rw [e2]
  have e3 : (v - b j) ^ 2 / 2 * c + (c - L) / 2 * (v - b j) ^ 2 + L / 2 * (v - b j) ^ 2 = c * (v - b j) ^ 2 := by
    ring
  linarith

/-! ### Sweeps -/

variable {S : Type}

/-- Consistency of the state in the middle of a sweep with the coordinates `todo` still to come. -/
structure SweepInv (X : Mat K) (st : CDState K S) (todo : List Nat) : Prop where
  dot : ∀ i, st.covDotBeta i = ∑ k ∈ range X.nc, (empiricalCov X).get i k * st.beta k
  old : ∀ k ∈ todo, st.beta k = st.betaOld k

omit [IsStrictOrderedRing K] in
theorem cdCoord_inv (X : Mat K) (p : CDProblem K S) (hp : p.cov = empiricalCov X) (st : CDState K S)
    (j : Nat) (todo : List Nat) (hj : j < X.nc) (hnd : (j :: todo).Nodup) (h : SweepInv X st (j :: todo)) :
    SweepInv X (cdCoord p st j) todo := by
  obtain ⟨hjt, -⟩ := List.nodup_cons.1 hnd
  constructor
  · intro i
    simp only [cdCoord, updateCovDotBeta]
    rw [sum_update _ _ hj, h.dot i, h.old j (by simp), hp]
  · intro k hk
    simp only [cdCoord]
    rw [Function.update_of_ne (by rintro rfl; exact hjt hk)]
    exact h.old k (by simp [hk])

omit [IsStrictOrderedRing K] in
theorem cdSweep_inv (X : Mat K) (p : CDProblem K S) (hp : p.cov = empiricalCov X) (todo : List Nat)
    (st : CDState K S) (hlt : ∀ j ∈ todo, j < X.nc) (hnd : todo.Nodup) (h : SweepInv X st todo) :
    SweepInv X (todo.foldl (cdCoord p) st) [] := by
  induction todo generalizing st with
  | nil => exact h
  | cons j todo ih =>
    rw [List.foldl_cons]
    exact ih _ (fun k hk => hlt k (by simp [hk])) (List.nodup_cons.1 hnd).2
      (cdCoord_inv X p hp st j todo (hlt j (by simp)) hnd h)

omit [IsStrictOrderedRing K] in
theorem foldl_cdCoord_const (p : CDProblem K S) (todo : List Nat) (st : CDState K S) :
    (todo.foldl (cdCoord p) st).betaOld = st.betaOld ∧
    (todo.foldl (cdCoord p) st).iterIndices = st.iterIndices ∧
    (todo.foldl (cdCoord p) st).corrState = st.corrState ∧
    ∀ k ∉ todo, (todo.foldl (cdCoord p) st).beta k = st.beta k := by
  induction todo generalizing st with
  | nil => simp
  | cons j todo ih =>
    rw [List.foldl_cons]
    obtain ⟨h1, h2, h3, h4⟩ := ih (cdCoord p st j)
    refine ⟨h1, h2, h3, ?_⟩
    intro k hk
    simp only [List.mem_cons, not_or] at hk
    rw [h4 k hk.2]
    simp only [cdCoord]
    rw [Function.update_of_ne hk.1]

/-- The corrections for which `Deriv` is `L * beta_j`. -/
def IsElastic (L : K) (corr : LassoCorrection K S) : Prop := ∀ s b j, corr.deriv s b j = L * b j

omit [IsStrictOrderedRing K] in
/-- The value that `cdCoord` writes. -/
theorem cdCoord_value (X : Mat K) (y : Nat → K) (p : CDProblem K S) (L : K)
    (hp : p.cov = empiricalCov X) (hxy : p.XTy = xTy X y) (hnr : p.nr = X.nr) (hc : IsElastic L p.corr)
    (st : CDState K S) (j : Nat) (todo : List Nat) (h : SweepInv X st (j :: todo)) :
    (cdCoord p st j).beta = Function.update st.beta j
      (softThreshold (gradient X y st.beta j + (empiricalCov X).get j j * st.beta j - L * st.beta j) p.lamb /
        (empiricalCov X).get j j) := by
  simp only [cdCoord]
  congr 2
  · rw [hc, hxy, hnr, hp, h.dot j, ← h.old j (by simp), gradient_eq]
    congr 1
    ring
  · rw [hp]

/-- A sweep never increases the objective when `L` is at most every diagonal entry. -/
theorem cdSweep_decrease (X : Mat K) (y : Nat → K) (p : CDProblem K S) (L : K)
    (hp : p.cov = empiricalCov X) (hxy : p.XTy = xTy X y) (hnr : p.nr = X.nr) (hc : IsElastic L p.corr)
    (hl : 0 ≤ p.lamb) (hn : 0 < X.nr) (todo : List Nat) (st : CDState K S) (hlt : ∀ j ∈ todo, j < X.nc)
    (hdiag : ∀ j ∈ todo, 0 < (empiricalCov X).get j j ∧ L ≤ (empiricalCov X).get j j)
    (hnd : todo.Nodup) (h : SweepInv X st todo) :
    elasticObjective X y p.lamb L (todo.foldl (cdCoord p) st).beta ≤ elasticObjective X y p.lamb L st.beta := by
  induction todo generalizing st with
  | nil => exact le_refl _
  | cons j todo ih =>
    rw [List.foldl_cons]
    have hj := hlt j (by simp)
    obtain ⟨hpos, hL⟩ := hdiag j (by simp)
    have h1 := ih (cdCoord p st j) (fun k hk => hlt k (by simp [hk])) (fun k hk => hdiag k (by simp [hk]))
      (List.nodup_cons.1 hnd).2 (cdCoord_inv X p hp st j todo hj hnd h)
    have h2 := coord_decrease X y p.lamb L hl st.beta j hj hn hpos _ rfl
    rw [← cdCoord_value X y p L hp hxy hnr hc st j todo h] at h2
    have h3 : 0 ≤ ((empiricalCov X).get j j - L) / 2 *
      (softThreshold (gradient X y st.beta j + (empiricalCov X).get j j * st.beta j - L * st.beta j) p.lamb /
        (empiricalCov X).get j j - st.beta j) ^ 2 := by
      apply mul_nonneg
      · linarith
      · exact sq_nonneg _
    linarith

/-! ### The loop -/

/-- Invariant of the outer loop. -/
structure LoopInv (X : Mat K) (p : CDProblem K S) (st : CDState K S) : Prop where
  old : st.betaOld = st.beta
  dot : ∀ i, st.covDotBeta i = ∑ k ∈ range X.nc, (empiricalCov X).get i k * st.beta k
  nodup : st.iterIndices.Nodup
  idx : ∀ j ∈ st.iterIndices, 1 ≤ j ∧ j < p.nFeat
  zero : ∀ k, (k = 0 ∨ p.nFeat ≤ k) → st.beta k = 0

omit [IsStrictOrderedRing K] in
theorem LoopInv.sweep {X : Mat K} {p : CDProblem K S} {st : CDState K S} (h : LoopInv X p st)
    (l : List Nat) : SweepInv X st l := ⟨h.dot, fun k _ => by rw [h.old]⟩

omit [IsStrictOrderedRing K] in
theorem cdInit_inv (X : Mat K) (p : CDProblem K S) (hp : p.cov = empiricalCov X) (s : S) :
    LoopInv X p (cdInit p s) := by
  refine ⟨rfl, ?_, ?_, ?_, fun _ _ => rfl⟩
  · intro i
    simp [cdInit, mulSlice]
  · simp only [cdInit]
    exact List.Nodup.map (fun a b h => by omega) List.nodup_range
  · intro j hj
    simp only [cdInit, List.mem_map, List.mem_range] at hj
    omega

theorem unionNat_spec (a b : List Nat) (ha : a.Nodup) :
    (unionNat a b).Nodup ∧ ∀ j, j ∈ unionNat a b ↔ j ∈ a ∨ j ∈ b := by
  unfold unionNat
  induction b generalizing a with
  | nil => simp [ha]
  | cons x b ih =>
    rw [List.foldl_cons]
    by_cases hx : a.contains x = true
    · rw [if_pos hx]
      obtain ⟨h1, h2⟩ := ih a ha
      refine ⟨h1, fun j => ?_⟩
      rw [h2]
      simp only [List.contains_iff_mem] at hx
      constructor
      · rintro (h | h)
        · exact .inl h
        · exact .inr (by simp [h])
      · rintro (h | h)
        · exact .inl h
        · rcases List.mem_cons.1 h with rfl | h
          · exact .inl hx
          · exact .inr h
    · rw [if_neg hx]
      simp only [List.contains_iff_mem] at hx
      obtain ⟨h1, h2⟩ := ih (a ++ [x]) (by
        rw [List.nodup_append]
        exact ⟨ha, by simp, by
          intro u hu v hv
          simp only [List.mem_singleton] at hv
          rintro rfl
          exact hx (hv ▸ hu)⟩)
      refine ⟨h1, fun j => ?_⟩
      rw [h2]
      simp only [List.mem_append, List.mem_cons, List.not_mem_nil, or_false]
      tauto

omit [IsStrictOrderedRing K] in
/-- Shape of the state after one iteration. -/
theorem cdIter_shape (p : CDProblem K S) (st : CDState K S) :
    (cdIter p st).1.beta = (cdSweep p st).beta ∧ (cdIter p st).1.betaOld = (cdSweep p st).beta ∧
    (cdIter p st).1.covDotBeta = (cdSweep p st).covDotBeta ∧
    ((cdIter p st).1.iterIndices =
        (cdSweep p st).iterIndices.filter (fun j => decide (|(cdSweep p st).beta j| > lassoCrdDescZero)) ∨
      (cdIter p st).1.iterIndices = unionNat
        ((cdSweep p st).iterIndices.filter (fun j => decide (|(cdSweep p st).beta j| > lassoCrdDescZero)))
        (unsatisfiedKKT p.nFeat p.XTy (cdSweep p st).covDotBeta (cdSweep p st).beta p.lamb p.corr
          (p.corr.update (cdSweep p st).corrState (cdSweep p st).beta))) := by
  unfold cdIter
  simp only
  split
  · split
    · exact ⟨rfl, rfl, rfl, .inl rfl⟩
    · exact ⟨rfl, rfl, rfl, .inr rfl⟩
  · exact ⟨rfl, rfl, rfl, .inl rfl⟩

omit [IsStrictOrderedRing K] in
theorem cdIter_inv (X : Mat K) (p : CDProblem K S) (hp : p.cov = empiricalCov X) (hnf : p.nFeat = X.nc)
    (st : CDState K S) (h : LoopInv X p st) : LoopInv X p (cdIter p st).1 := by
  obtain ⟨h1, h2, h3, h4⟩ := cdIter_shape p st
  have hlt : ∀ j ∈ st.iterIndices, j < X.nc := fun j hj => hnf ▸ (h.idx j hj).2
  have hs := cdSweep_inv X p hp st.iterIndices st hlt h.nodup (h.sweep _)
  obtain ⟨-, g2, -, g4⟩ := foldl_cdCoord_const p st.iterIndices st
  have hit : (cdSweep p st).iterIndices = st.iterIndices := g2
  have hfn : ((cdSweep p st).iterIndices.filter
      (fun j => decide (|(cdSweep p st).beta j| > lassoCrdDescZero))).Nodup := by
    rw [hit]; exact h.nodup.filter _
  refine ⟨by rw [h1, h2], by rw [h1, h3]; exact hs.dot, ?_, ?_, ?_⟩
  · rcases h4 with h4 | h4
    · rw [h4]; exact hfn
    · rw [h4]; exact (unionNat_spec _ _ hfn).1
  · intro j hj
    rcases h4 with h4 | h4
    · rw [h4, hit] at hj
      exact h.idx j (List.mem_filter.1 hj).1
    · rw [h4, (unionNat_spec _ _ hfn).2, hit] at hj
      rcases hj with hj | hj
      · exact h.idx j (List.mem_filter.1 hj).1
      · simp only [unsatisfiedKKT, List.mem_filter, List.mem_range, Bool.and_eq_true, decide_eq_true_eq] at hj
        exact ⟨hj.2.1, hj.1⟩
  · intro k hk
    rw [h1]
    have : k ∉ st.iterIndices := by
      intro hm
      have := h.idx k hm
      omega
    change (st.iterIndices.foldl (cdCoord p) st).beta k = 0
    rw [g4 k this]
    exact h.zero k hk

omit [IsStrictOrderedRing K] in
theorem cdLoop_inv (X : Mat K) (p : CDProblem K S) (hp : p.cov = empiricalCov X) (hnf : p.nFeat = X.nc)
    (n : Nat) (st : CDState K S) (h : LoopInv X p st) : LoopInv X p (cdLoop p n st).1 := by
  induction n generalizing st with
  | zero => exact h
  | succ n ih =>
    rw [cdLoop]
    have hi := cdIter_inv X p hp hnf st h
    split
    · rename_i st' he; rw [he] at hi; exact hi
    · rename_i st' he; rw [he] at hi; exact ih st' hi

omit [IsStrictOrderedRing K] in
/-- One more iteration: nothing happens after the `break`. -/
theorem cdLoop_succ (p : CDProblem K S) (n : Nat) (st : CDState K S) :
    cdLoop p (n + 1) st = if (cdLoop p n st).2 then cdLoop p n st else cdIter p (cdLoop p n st).1 := by
  induction n generalizing st with
  | zero =>
    simp only [cdLoop]
    rcases h : cdIter p st with ⟨st', b⟩
    cases b <;> simp
  | succ n ih =>
    rw [cdLoop]
    rcases h : cdIter p st with ⟨st', b⟩
    cases b
    · simp only
      rw [ih st']
      conv_rhs => rw [cdLoop]
      simp only [h]
    · simp only
      conv_rhs => rw [cdLoop]
      simp [h]

end GoSelect
