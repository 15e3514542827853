import Verif.Model.CohenTarget
import Verif.Proofs.NestedLasso
import Verif.Props.C55_C56

/-! C85: the lasso as a target of Cohen's kappa selects by the rows of the sample only. -/

namespace GoSelect

open Finset
open scoped List

/-! ### Corrections without memory -/

/-- A correction whose influence on the next fit does not depend on what it has seen before: the derivative at zero
coefficients does not depend on the state, and an update replaces the state. -/
structure Memoryless {S : Type} (corr : LassoCorrection ℝ S) : Prop where
  deriv : ∀ s s' j, corr.deriv s (fun _ => 0) j = corr.deriv s' (fun _ => 0) j
  update : ∀ s s' b, corr.update s b = corr.update s' b

theorem pureLasso_memoryless : Memoryless (pureLasso (K := ℝ)) := ⟨fun _ _ _ => rfl, fun _ _ _ => rfl⟩

theorem elasticNet_memoryless (l : ℝ) : Memoryless (elasticNet l) := ⟨fun _ _ _ => rfl, fun _ _ _ => rfl⟩

theorem cLasso_memoryless (n : Nat) (eta : ℝ) : Memoryless (cLasso n eta) :=
  ⟨fun s s' j => by simp [cLasso], fun _ _ _ => rfl⟩

section
variable {S : Type}

/-- The two states differ only in the state of the correction. -/
def SameButCorr (st st' : CDState ℝ S) : Prop := st' = { st with corrState := st'.corrState }

theorem cdCoord_same {p : CDProblem ℝ S} (hp : Memoryless p.corr) {st st' : CDState ℝ S} (h : SameButCorr st st')
    (h0 : st.betaOld = fun _ => 0) (j : Nat) : SameButCorr (cdCoord p st j) (cdCoord p st' j) := by
  unfold SameButCorr at h ⊢
  rw [h]
  unfold cdCoord
  simp only [h0]
  rw [hp.deriv st'.corrState st.corrState]

theorem cdSweep_same {p : CDProblem ℝ S} (hp : Memoryless p.corr) (l : List Nat) {st st' : CDState ℝ S}
    (h : SameButCorr st st') (h0 : st.betaOld = fun _ => 0) :
    SameButCorr (l.foldl (cdCoord p) st) (l.foldl (cdCoord p) st') := by
  induction l generalizing st st' with
  | nil => exact h
  | cons j l ih =>
    rw [List.foldl_cons, List.foldl_cons]
    exact ih (cdCoord_same hp h h0 j) h0

theorem cdIter_same {p : CDProblem ℝ S} (hp : Memoryless p.corr) {st st' : CDState ℝ S} (h : SameButCorr st st')
    (h0 : st.betaOld = fun _ => 0) : cdIter p st = cdIter p st' := by
  have hs : SameButCorr (cdSweep p st) (cdSweep p st') := by
    unfold cdSweep
    have : st'.iterIndices = st.iterIndices := by rw [h]
    rw [this]
    exact cdSweep_same hp _ h h0
  unfold SameButCorr at hs
  unfold cdIter
  rw [hs]
  simp only
  rw [hp.update (cdSweep p st).corrState (cdSweep p st').corrState]

/-- The coefficients do not depend on the state in which the correction is when the fit begins. -/
theorem cdLoop_memoryless {p : CDProblem ℝ S} (hp : Memoryless p.corr) (n : Nat) (s s' : S) :
    (cdLoop p n (cdInit p s)).1.beta = (cdLoop p n (cdInit p s')).1.beta := by
  cases n with
  | zero => rfl
  | succ n =>
    rw [cdLoop, cdLoop, cdIter_same hp (st := cdInit p s) (st' := cdInit p s') rfl rfl]

theorem lassoCrdDesc_memoryless {p : CDProblem ℝ S} (hp : Memoryless p.corr) (n : Nat) (s s' : S)
    (x0 x0' : Option (List ℝ)) :
    (lassoCrdDesc p s x0 n).map Prod.fst = (lassoCrdDesc p s' x0' n).map Prod.fst := by
  unfold lassoCrdDesc
  split
  · rfl
  · simp only [Option.map_some]
    rw [cdLoop_memoryless hp n s s']

end

/-- The first feature is never touched. -/
def ZeroInv {S : Type} (st : CDState ℝ S) : Prop := st.beta 0 = 0 ∧ 0 ∉ st.iterIndices

theorem cdIter_zero {S : Type} (p : CDProblem ℝ S) (st : CDState ℝ S) (h : ZeroInv st) : ZeroInv (cdIter p st).1 := by
  obtain ⟨h1, -, -, h4⟩ := cdIter_shape p st
  obtain ⟨-, g2, -, g4⟩ := foldl_cdCoord_const p st.iterIndices st
  have hit : (cdSweep p st).iterIndices = st.iterIndices := g2
  refine ⟨?_, ?_⟩
  · rw [h1]
    exact (g4 0 h.2).trans h.1
  · rcases h4 with h4 | h4
    · rw [h4, hit]
      exact fun hm => h.2 (List.mem_filter.1 hm).1
    · rw [h4, hit]
      intro hm
      have key : ∀ (b a : List Nat), 0 ∈ unionNat a b → 0 ∈ a ∨ 0 ∈ b := by
        intro b
        induction b with
        | nil => intro a ha; exact .inl ha
        | cons v b ih =>
          intro a ha
          unfold unionNat at ha
          rw [List.foldl_cons] at ha
          have ha : 0 ∈ unionNat (if a.contains v then a else a ++ [v]) b := ha
          rcases ih _ ha with h | h
          · split at h
            · exact .inl h
            · rw [List.mem_append, List.mem_singleton] at h
              rcases h with h | h
              · exact .inl h
              · exact .inr (h ▸ List.mem_cons_self ..)
          · exact .inr (List.mem_cons_of_mem _ h)
      rcases key _ _ hm with hm | hm
      · exact h.2 (List.mem_filter.1 hm).1
      · simp [unsatisfiedKKT] at hm

theorem cdLoop_zero {S : Type} (p : CDProblem ℝ S) (n : Nat) (s : S) : (cdLoop p n (cdInit p s)).1.beta 0 = 0 := by
  have key : ∀ n st, ZeroInv st → ZeroInv (cdLoop p n st).1 := by
    intro n
    induction n with
    | zero => intro st h; exact h
    | succ n ih =>
      intro st h
      have hi := cdIter_zero p st h
      rw [cdLoop]
      split
      · rename_i st' he; rw [he] at hi; exact hi
      · rename_i st' he; rw [he] at hi; exact ih st' hi
  exact (key n _ ⟨rfl, by simp [cdInit]⟩).1

/-! ### The selection -/

section
variable {S : Type}

/-- What `getSelection` computes, as a function of the normalised sample. -/
theorem getSelection_fst (t : CohenTarget S) (m : CohenMemory S) (indices : List Nat) :
    (t.getSelection m indices).map Prod.fst =
      if indices = [] ∨ t.X.nc = 0 ∨ ∃ i ∈ indices, t.X.nr ≤ i ∨ t.y.length ≤ i then none
      else (newNormalizedData (subRows t.X indices) (indices.map (fun i => t.y.getD i 0))).bind (fun normD =>
        (t.cov.get normD.X).bind (fun cov =>
          match finValues normD.y with
          | none => some []
          | some y =>
            (lassoCrdDesc (⟨normD.X.nr, normD.X.nc, cov, xTy normD.X (fun r => y.getD r 0), t.lamb, t.tol, t.corr⟩ :
              CDProblem ℝ S) m.corrState none t.maxIter).map (fun r =>
                (List.range t.X.nc).filter (fun i => decide (|r.1 i| > lassoCrdDescZero))))) := by
  unfold CohenTarget.getSelection
  split
  · rfl
  cases newNormalizedData (subRows t.X indices) (indices.map (fun i => t.y.getD i 0)) with
  | none => rfl
  | some normD =>
    simp only [Option.bind_some]
    cases t.cov.get normD.X with
    | none => rfl
    | some cov =>
      simp only [Option.bind_some]
      cases finValues normD.y with
      | none => rfl
      | some y =>
        simp only [Option.map_map]
        unfold lassoCrdDesc
        split <;> rfl

/-- **C85 (no memory).** What `GetSelection` returns depends on the target and the indices only, not on earlier
calls: whatever starting vector and whatever state of the correction they have left behind. -/
theorem C85_no_memory (t : CohenTarget S) (hc : Memoryless t.corr) (m m' : CohenMemory S) (indices : List Nat) :
    (t.getSelection m indices).map Prod.fst = (t.getSelection m' indices).map Prod.fst := by
  rw [getSelection_fst, getSelection_fst]
  split
  · rfl
  congr 1
  funext normD
  congr 1
  funext cov
  split
  · rfl
  · rename_i y _
    have := lassoCrdDesc_memoryless (p := ⟨normD.X.nr, normD.X.nc, cov, xTy normD.X (fun r => y.getD r 0), t.lamb,
      t.tol, t.corr⟩) hc t.maxIter m.corrState m'.corrState none none
    have e : ∀ o : Option ((Nat → ℝ) × Option (List ℝ)),
        o.map (fun r => (List.range t.X.nc).filter (fun i => decide (|r.1 i| > lassoCrdDescZero))) =
        (o.map Prod.fst).map (fun b => (List.range t.X.nc).filter (fun i => decide (|b i| > lassoCrdDescZero))) := by
      intro o; cases o <;> rfl
    rw [e, e, this]

/-- **C85 (valid).** The selected features are ascending, exist, and are not the first feature. -/
theorem C85_valid (t : CohenTarget S) (m m' : CohenMemory S) (indices sel : List Nat)
    (h : t.getSelection m indices = some (sel, m')) :
    sel.Pairwise (· < ·) ∧ ∀ i ∈ sel, i < t.X.nc ∧ i ≠ 0 := by
  have h1 := congrArg (Option.map Prod.fst) h
  rw [getSelection_fst] at h1
  split at h1
  · simp at h1
  simp only [Option.map_some] at h1
  rw [Option.bind_eq_some_iff] at h1
  obtain ⟨normD, hn, h1⟩ := h1
  rw [Option.bind_eq_some_iff] at h1
  obtain ⟨cov, hcov, h1⟩ := h1
  split at h1
  · simp only [Option.some.injEq] at h1
    subst h1
    simp
  · rename_i y _
    rw [Option.map_eq_some_iff] at h1
    obtain ⟨r, hr, h1⟩ := h1
    subst h1
    refine ⟨(List.pairwise_lt_range).filter _, fun i hi => ?_⟩
    rw [List.mem_filter, List.mem_range] at hi
    refine ⟨hi.1, ?_⟩
    rintro rfl
    unfold lassoCrdDesc at hr
    split at hr
    · simp at hr
    · simp only [Option.some.injEq] at hr
      subst hr
      have hz := cdLoop_zero (⟨normD.X.nr, normD.X.nc, cov, xTy normD.X (fun r => y.getD r 0), t.lamb, t.tol,
        t.corr⟩ : CDProblem ℝ S) t.maxIter m.corrState
      have hi2 := of_decide_eq_true hi.2
      simp only [hz, abs_zero] at hi2
      norm_num [lassoCrdDescZero] at hi2

end

/-! ### The order of the rows -/

theorem colOf_subRows (X : Mat ℝ) (indices : List Nat) (c : Nat) :
    colOf (subRows X indices) c = indices.map (fun i => X.get i c) := by
  unfold colOf subRows
  apply List.ext_getElem
  · simp
  · intro i h1 h2
    simp only [List.length_map, List.length_range] at h1
    simp [List.getElem_map, h1]

theorem goMean_perm {v w : List ℝ} (h : v ~ w) : goMean v = goMean w := by
  rw [goMean_eq, goMean_eq]
  unfold Spec.mean
  rw [h.sum_eq, h.length_eq]

theorem goStd_perm {v w : List ℝ} (h : v ~ w) : goStd v = goStd w := by
  unfold goStd
  simp only [h.length_eq, goMean_perm h]
  rw [foldl_add_map, foldl_add_map, (h.map _).sum_eq]

/-- Sums over the rows of a sample. -/
theorem sum_rows (indices : List Nat) (f : Nat → ℝ) :
    ∑ r ∈ range indices.length, f (indices.getD r 0) = (indices.map f).sum := by
  rw [Finset.sum_range]
  rw [← List.sum_ofFn]
  congr 1
  apply List.ext_getElem
  · simp
  · intro i h1 h2
    simp at h1
    simp [h1]

/-- The value of a finite float. -/
def flVal : Fl ℝ → ℝ
  | .fin x => x
  | _ => 0

theorem finValues_map {β : Type} (f : β → Fl ℝ) (l : List β) :
    (finValues (l.map f) = some (l.map (fun x => flVal (f x))) ∧ ∀ x ∈ l, ∃ v, f x = .fin v) ∨
      (finValues (l.map f) = none ∧ ∃ x ∈ l, ∀ v, f x ≠ .fin v) := by
  by_cases h : ∀ x ∈ l, ∃ v, f x = .fin v
  · left
    refine ⟨?_, h⟩
    have : l.map f = (l.map (fun x => flVal (f x))).map .fin := by
      rw [List.map_map]
      apply List.map_congr_left
      intro x hx
      obtain ⟨v, hv⟩ := h x hx
      simp [hv, flVal]
    rw [this, finValues_fin]
  · right
    push Not at h
    obtain ⟨x, hx, hv⟩ := h
    refine ⟨?_, x, hx, hv⟩
    cases hf : finValues (l.map f) with
    | none => rfl
    | some w =>
      exfalso
      have := finValues_some hf
      have hm : f x ∈ l.map f := List.mem_map_of_mem hx
      rw [this] at hm
      obtain ⟨v, -, hv'⟩ := List.mem_map.1 hm
      exact hv v hv'.symm

/-- How an entry of column `c` is normalised in a sample. -/
noncomputable def normEntry (X : Mat ℝ) (indices : List Nat) (c : Nat) (x : ℝ) : ℝ :=
  if c < X.nc then
    (x - goMean (indices.map (fun i => X.get i c))) /
      (if goStd (indices.map (fun i => X.get i c)) < 1 / 10 ^ 10 then 1 else goStd (indices.map (fun i => X.get i c)))
  else x

theorem normEntry_perm (X : Mat ℝ) {indices indices' : List Nat} (h : indices ~ indices') :
    normEntry X indices = normEntry X indices' := by
  funext c x
  unfold normEntry
  rw [goMean_perm (h.map _), goStd_perm (h.map _)]

theorem normalized_sample {X : Mat ℝ} {indices : List Nat} {y : List ℝ} {d : NormalizedData}
    (h : newNormalizedData (subRows X indices) y = some d) :
    d.X.nr = indices.length ∧ d.X.nc = X.nc ∧ d.y = normalizeArray y ∧
      ∀ r < indices.length, ∀ c, d.X.get r c = normEntry X indices c (X.get (indices.getD r 0) c) := by
  rcases newNormalizedData_inv (subRows X indices) y with ⟨-, h1⟩ | ⟨d', h1, h2, h3, -⟩
  · rw [h] at h1; simp at h1
  rw [h, Option.some.injEq] at h1
  subst h1
  refine ⟨h2.nr, h2.nc, h3, fun r hr c => ?_⟩
  unfold normEntry
  by_cases hc : c < X.nc
  · rw [h2.done r c hc hr, colOf_subRows, if_pos hc]
    rfl
  · rw [h2.todo r c (not_lt.1 hc), if_neg hc]
    rfl

section
variable {S : Type}

/-- **C85 (rows).** The order in which the rows of the sample are listed does not matter. -/
theorem C85_rows (t : CohenTarget S) (hcov : t.cov = .empirical ∨ t.cov = .identity) (m : CohenMemory S)
    {indices indices' : List Nat} (h : indices ~ indices') :
    (t.getSelection m indices).map Prod.fst = (t.getSelection m indices').map Prod.fst := by
  rw [getSelection_fst, getSelection_fst]
  have e1 : (indices = [] ∨ t.X.nc = 0 ∨ ∃ i ∈ indices, t.X.nr ≤ i ∨ t.y.length ≤ i) ↔
      (indices' = [] ∨ t.X.nc = 0 ∨ ∃ i ∈ indices', t.X.nr ≤ i ∨ t.y.length ≤ i) := by
    have e0 : indices = [] ↔ indices' = [] := by
      constructor
      · rintro rfl; exact List.nil_perm.1 h
      · rintro rfl; exact List.perm_nil.1 h
    rw [e0]
    simp only [h.mem_iff]
  by_cases hp : indices = [] ∨ t.X.nc = 0 ∨ ∃ i ∈ indices, t.X.nr ≤ i ∨ t.y.length ≤ i
  · rw [if_pos hp, if_pos (e1.1 hp)]
  rw [if_neg hp, if_neg (fun h => hp (e1.2 h))]
  have hpanic : newNormalizedData (subRows t.X indices) (indices.map (fun i => t.y.getD i 0)) = none ↔
      newNormalizedData (subRows t.X indices') (indices'.map (fun i => t.y.getD i 0)) = none := by
    rw [C48_panic, C48_panic]
    simp only [colOf_subRows]
    simp only [goStd_perm (h.map _)]
    exact Iff.rfl
  cases hd : newNormalizedData (subRows t.X indices) (indices.map (fun i => t.y.getD i 0)) with
  | none => rw [hpanic.1 hd]
  | some d =>
    cases hd' : newNormalizedData (subRows t.X indices') (indices'.map (fun i => t.y.getD i 0)) with
    | none => rw [hpanic.2 hd'] at hd; simp at hd
    | some d' =>
      obtain ⟨g1, g2, g3, g4⟩ := normalized_sample hd
      obtain ⟨k1, k2, k3, k4⟩ := normalized_sample hd'
      have hlen := h.length_eq
      have hsum : ∀ f : Nat → ℝ, ∑ r ∈ range indices.length, f (indices.getD r 0) =
          ∑ r ∈ range indices'.length, f (indices'.getD r 0) := by
        intro f
        rw [sum_rows, sum_rows, (h.map f).sum_eq]
      have hcov' : t.cov.get d.X = t.cov.get d'.X := by
        rcases hcov with hc | hc
        · rw [hc]
          simp only [CovKind.get, empiricalCov, g1, g2, k1, k2, hlen]
          congr 2
          funext i j
          congr 1
          rw [← hlen]
          rw [Finset.sum_congr rfl (fun r hr => by
            rw [g4 r (Finset.mem_range.1 hr), g4 r (Finset.mem_range.1 hr)])]
          conv_rhs => rw [hlen]
          rw [Finset.sum_congr (s₂ := range indices'.length) rfl (fun r hr => by
            rw [k4 r (Finset.mem_range.1 hr), k4 r (Finset.mem_range.1 hr)])]
          rw [normEntry_perm t.X h]
          exact hsum (fun a => normEntry t.X indices' i (t.X.get a i) * normEntry t.X indices' j (t.X.get a j))
        · rw [hc]
          simp only [CovKind.get, identityCov, g2, k2]
      simp only [Option.bind_some]
      rw [hcov']
      congr 1
      funext cov
      -- the response
      have hy : (indices.map (fun i => t.y.getD i 0)) ~ (indices'.map (fun i => t.y.getD i 0)) := h.map _
      set mu := goMean (indices'.map (fun i => t.y.getD i 0)) with hmu
      set sd := goStd (indices'.map (fun i => t.y.getD i 0)) with hsd
      let F : Nat → Fl ℝ := fun i => Fl.divFin (t.y.getD i 0 - mu) sd
      have hF : d.y = indices.map F := by
        rw [g3]
        unfold normalizeArray
        simp only [goMean_perm hy, goStd_perm hy, List.map_map]
        rfl
      have hF' : d'.y = indices'.map F := by
        rw [k3]
        unfold normalizeArray
        simp only [List.map_map]
        rfl
      rw [hF, hF']
      rcases finValues_map F indices with ⟨q1, q2⟩ | ⟨q1, x, hx, q2⟩
      · rcases finValues_map F indices' with ⟨q1', -⟩ | ⟨-, x, hx, q2'⟩
        · rw [q1, q1']
          simp only
          have hx : xTy d.X (fun r => (indices.map (fun i => flVal (F i))).getD r 0) =
              xTy d'.X (fun r => (indices'.map (fun i => flVal (F i))).getD r 0) := by
            funext j
            unfold xTy
            rw [g1, k1]
            beta_reduce
            have e : ∀ (l : List Nat) (r : Nat), r < l.length →
                (l.map (fun i => flVal (F i))).getD r 0 = flVal (F (l.getD r 0)) := by
              intro l r hr
              simp [List.getD_eq_getElem?_getD, hr]
            rw [Finset.sum_congr rfl (fun r hr => by
              rw [g4 r (Finset.mem_range.1 hr), e _ r (Finset.mem_range.1 hr)])]
            rw [Finset.sum_congr (s₂ := range indices'.length) rfl (fun r hr => by
              rw [k4 r (Finset.mem_range.1 hr), e _ r (Finset.mem_range.1 hr)])]
            rw [normEntry_perm t.X h]
            exact hsum (fun a => normEntry t.X indices' j (t.X.get a j) * flVal (F a))
          rw [hx, g1, g2, k1, k2, hlen]
        · exfalso
          obtain ⟨v, hv⟩ := q2 x (h.mem_iff.2 hx)
          exact q2' v hv
      · rcases finValues_map F indices' with ⟨-, q2'⟩ | ⟨q1', -⟩
        · exfalso
          obtain ⟨v, hv⟩ := q2' x (h.mem_iff.1 hx)
          exact q2 v hv
        · rw [q1, q1']

/-- With the thresholded covariance matrix of the whole data set `GetSelection` panics for every sample of another
size, so that Cohen's kappa cannot be computed. -/
theorem C85_thresholded_panics (t : CohenTarget S) (thr : ℝ) (hcov : t.cov = .thresholded t.X thr) (m : CohenMemory S)
    (indices : List Nat) (hlen : indices.length ≠ t.X.nr) : t.getSelection m indices = none := by
  have h1 : (t.getSelection m indices).map Prod.fst = none := by
    rw [getSelection_fst]
    split
    · rfl
    cases hd : newNormalizedData (subRows t.X indices) (indices.map (fun i => t.y.getD i 0)) with
    | none => rfl
    | some d =>
      simp only [Option.bind_some]
      have : t.cov.get d.X = none := by
        rw [hcov]
        simp only [CovKind.get, sparseThresholdedGet]
        rw [if_neg]
        intro hm
        unfold matEqualApprox at hm
        rw [Bool.and_eq_true, decide_eq_true_eq] at hm
        exact hlen ((normalized_sample hd).1.symm.trans hm.1.1)
      rw [this]
      rfl
  cases h : t.getSelection m indices with
  | none => rfl
  | some x => rw [h] at h1; simp at h1

end
/-! ### An example -/

namespace CohenTargetExample

def col1 : Nat → ℝ
  | 0 => 1 | 2 => -1 | 3 => 7 | _ => 0

/-- A column of ones and a second column, of which the rows 0, 1, 2 have mean 0 and variance 1. -/
noncomputable def t : CohenTarget Unit :=
  ⟨⟨4, 2, fun r c => if c = 0 then 1 else col1 r⟩, [1, 0, -1, 5], 1 / 10, .identity, 1, 1 / 10, pureLasso⟩

theorem std1 : goMean [(1 : ℝ), 0, -1] = 0 ∧ goStd [(1 : ℝ), 0, -1] = 1 := by
  have h0 : goMean [(1 : ℝ), 0, -1] = 0 := by norm_num [goMean]
  refine ⟨h0, ?_⟩
  unfold goStd
  simp only [h0]
  norm_num

theorem sampleCol : [0, 1, 2].map (fun i => t.X.get i 1) = [1, 0, -1] := by simp [t, col1]

theorem sampleY : [0, 1, 2].map (fun i => t.y.getD i 0) = [1, 0, -1] := by simp [t]

theorem cdLoop_one {S : Type} (p : CDProblem ℝ S) (st : CDState ℝ S) :
    (cdLoop p 1 st).1.beta = (cdSweep p st).beta := by
  have h := (cdIter_shape p st).1
  rw [cdLoop]
  split
  · rename_i st' he; rw [he] at h; exact h
  · rename_i st' he; rw [he] at h; exact h

/-- From the first three rows the second feature is selected. -/
theorem selected (m : CohenMemory Unit) : (t.getSelection m [0, 1, 2]).map Prod.fst = some [1] := by
  rw [getSelection_fst, if_neg (by simp [t])]
  rcases newNormalizedData_inv (subRows t.X [0, 1, 2]) ([0, 1, 2].map (fun i => t.y.getD i 0)) with
    ⟨⟨c, hc, h0, hs⟩, -⟩ | ⟨d, h1, -⟩
  · exfalso
    have hc : c < 2 := hc
    obtain rfl : c = 1 := by omega
    rw [colOf_subRows, sampleCol, std1.2] at hs
    norm_num at hs
  · rw [h1, Option.bind_some]
    obtain ⟨g1, g2, g3, g4⟩ := normalized_sample h1
    have hx : ∀ r < 3, d.X.get r 1 = col1 r := by
      intro r hr
      rw [g4 r hr]
      unfold normEntry
      rw [if_pos (by decide), sampleCol, std1.1, std1.2, if_neg (by norm_num)]
      rcases r with _ | _ | _ | r
      · simp [t, col1]
      · simp [t, col1]
      · simp [t, col1]
      · omega
    have hy : finValues d.y = some [1, 0, -1] := by
      rw [g3, sampleY]
      unfold normalizeArray
      rw [std1.1, std1.2]
      have : ([1, 0, -1] : List ℝ).map (fun v => Fl.divFin (v - 0) 1) = [1, 0, -1].map .fin := by
        simp [Fl.divFin]
      rw [this, finValues_fin]
    simp only [t, CovKind.get, Option.bind_some]
    rw [hy]
    have hxy : xTy d.X (fun r => ([1, 0, -1] : List ℝ).getD r 0) 1 = 2 := by
      unfold xTy
      rw [g1]
      simp only [List.length_cons, List.length_nil, zero_add, Nat.reduceAdd, Finset.sum_range_succ, Finset.sum_range_zero]
      rw [hx 0 (by decide), hx 1 (by decide), hx 2 (by decide)]
      norm_num [col1]
    have g1' : d.X.nr = 3 := g1
    have g2' : d.X.nc = 2 := g2
    simp only [g1', g2', identityCov]
    unfold lassoCrdDesc
    rw [if_neg (by simp)]
    simp only [Option.map_some, Option.some.injEq]
    rw [cdLoop_one]
    simp only [cdSweep, cdInit, List.range_succ, List.range_zero, List.nil_append, List.map_cons, List.map_nil,
      List.foldl_cons, List.foldl_nil, cdCoord, hxy, pureLasso, mulSlice, Nat.reduceSub]
    norm_num [softThreshold, lassoCrdDescZero, List.filter]

/-- In any order of the rows, and after any earlier calls. -/
example (m : CohenMemory Unit) : (t.getSelection m [2, 0, 1]).map Prod.fst = some [1] :=
  (C85_rows t (.inr rfl) m (by decide)).trans (selected m)

example (m m' : CohenMemory Unit) :
    (t.getSelection m [0, 1, 2]).map Prod.fst = (t.getSelection m' [0, 1, 2]).map Prod.fst :=
  C85_no_memory t pureLasso_memoryless m m' _

/-- The same target with the thresholded covariance matrix panics. -/
example (m : CohenMemory Unit) : ({ t with cov := .thresholded t.X 2 } : CohenTarget Unit).getSelection m [0, 1, 2] = none :=
  C85_thresholded_panics _ 2 rfl m _ (by simp [t])

end CohenTargetExample

end GoSelect
