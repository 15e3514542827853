import Verif.Props.C06_C07
import Verif.Props.C12_regression
import Verif.Props.C93
import Verif.Props.C99
import Verif.Props.C65_C66
import Mathlib.Logic.Equiv.Basic
import Mathlib.Algebra.BigOperators.Field
import Mathlib.Tactic.NormNum

/-!
C107: what the search finds does not depend on the units of the features and of the response, nor on the order of the
rows and of the columns.
-/

namespace GoSelect

open Finset Spec

/-! ### Specification -/

/-- `X'`, `y'` are the data `X`, `y` in other units and in another order: row `i` is row `ρ i` of the old data, column
`j` is column `π j` in a unit that makes its numbers `s j` times as large; the numbers of the response are `t` times as
large. -/
structure Spec.SameDataIn (X X' : Mat ℝ) (y y' : List ℝ) (ρ π : Equiv.Perm Nat) (s : Nat → ℝ) (t : ℝ) : Prop where
  nr : X'.nr = X.nr
  nc : X'.nc = X.nc
  row : ∀ i, ρ i < X.nr ↔ i < X.nr
  col : ∀ j, π j < X.nc ↔ j < X.nc
  unit : ∀ j, s j ≠ 0
  unitY : t ≠ 0
  get : ∀ i j, i < X.nr → j < X.nc → X'.get i j = s j * X.get (ρ i) (π j)
  target : ∀ i, i < X.nr → vec y' i = t * vec y (ρ i)

/-- `m'` selects in the new order the features that `m` selects in the old one. -/
def Spec.SameFeatures (π : Equiv.Perm Nat) (m m' : List Bool) : Prop :=
  m'.length = m.length ∧ ∀ j, HasFeature m' j ↔ HasFeature m (π j)

/-- The coefficient of feature `i` in a model with the coefficients `c`; 0 if the model does not have the feature. -/
def Spec.coeffAt (m : List Bool) (c : List ℝ) (i : Nat) : ℝ := extend (features m) (vec c) i

/-! ### Full coefficient vectors -/

section
variable {X X' : Mat ℝ} {y y' : List ℝ} {ρ π : Equiv.Perm Nat} {s : Nat → ℝ} {t : ℝ}

theorem sum_range_perm {n : Nat} (σ : Equiv.Perm Nat) (h : ∀ i, σ i < n ↔ i < n) (f : Nat → ℝ) :
    ∑ i ∈ range n, f (σ i) = ∑ i ∈ range n, f i :=
  sum_equiv σ (fun i => by rw [mem_range, mem_range, h]) fun _ _ => rfl

theorem Spec.SameDataIn.lin (h : SameDataIn X X' y y' ρ π s t) {b b' : Nat → ℝ}
    (hb : ∀ j < X.nc, b' j = t / s j * b (π j)) {i : Nat} (hi : i < X.nr) :
    lin X' b' i = t * lin X b (ρ i) := by
  unfold Spec.lin
  rw [h.nc, ← sum_range_perm π h.col (fun j => X.get (ρ i) j * b j), mul_sum]
  refine sum_congr rfl fun j hj => ?_
  have hj' := mem_range.1 hj
  rw [h.get i j hi hj', hb j hj']
  have := h.unit j
  field_simp

theorem Spec.SameDataIn.sse (h : SameDataIn X X' y y' ρ π s t) {b b' : Nat → ℝ}
    (hb : ∀ j < X.nc, b' j = t / s j * b (π j)) : sse X' b' (vec y') = t ^ 2 * sse X b (vec y) := by
  unfold Spec.sse
  rw [h.nr, ← sum_range_perm ρ h.row (fun i => (Spec.lin X b i - vec y i) ^ 2), mul_sum]
  refine sum_congr rfl fun i hi => ?_
  have hi' := mem_range.1 hi
  rw [h.lin hb hi', h.target i hi']
  ring

/-- The data in the old units. -/
theorem Spec.SameDataIn.symm (h : SameDataIn X X' y y' ρ π s t) :
    SameDataIn X' X y' y ρ.symm π.symm (fun j => 1 / s (π.symm j)) (1 / t) where
  nr := h.nr.symm
  nc := h.nc.symm
  row i := by rw [h.nr, ← h.row, Equiv.apply_symm_apply]
  col j := by rw [h.nc, ← h.col, Equiv.apply_symm_apply]
  unit j := one_div_ne_zero (h.unit _)
  unitY := one_div_ne_zero h.unitY
  get i j hi hj := by
    rw [h.nr] at hi
    rw [h.nc] at hj
    have h1 : ρ.symm i < X.nr := by rw [← h.row, Equiv.apply_symm_apply]; exact hi
    have h2 : π.symm j < X.nc := by rw [← h.col, Equiv.apply_symm_apply]; exact hj
    rw [h.get _ _ h1 h2, Equiv.apply_symm_apply, Equiv.apply_symm_apply]
    have := h.unit (π.symm j)
    field_simp
  target i hi := by
    rw [h.nr] at hi
    have h1 : ρ.symm i < X.nr := by rw [← h.row, Equiv.apply_symm_apply]; exact hi
    rw [h.target _ h1, Equiv.apply_symm_apply]
    have := h.unitY
    field_simp

end

/-- Least squares among the coefficient vectors that vanish outside the model. -/
theorem leastSquares_full {X : Mat ℝ} {m : List Bool} (hlen : m.length ≤ X.nc) {c y : Nat → ℝ} :
    IsLeastSquares (designOf X m) c y ↔
      ∀ b, (∀ j, ¬ HasFeature m j → b j = 0) → sse X (extend (features m) c) y ≤ sse X b y := by
  have hlt : ∀ i ∈ features m, i < X.nc := fun i hi => (features_lt hi).trans_le hlen
  have e : ∀ b, sse (designOf X m) b y = sse X (extend (features m) b) y := fun b =>
    sum_congr rfl fun i _ => by rw [designOf_eq, lin_cols (features_nodup m) hlt]
  constructor
  · intro h b hb
    rw [← e]
    refine (h (fun k => b ((features m).getD k 0))).trans (le_of_eq ?_)
    refine sum_congr rfl fun i _ => ?_
    rw [designOf_eq, lin_restrict (features_nodup m) hlt b fun i hi => hb i fun h => hi ((mem_features m i).2 h)]
  · intro h b
    rw [e, e]
    exact h _ fun j hj => if_neg fun h => hj ((mem_features m j).1 h)

/-- Two least-squares solutions predict the same. -/
theorem leastSquares_lin_unique {X : Mat ℝ} {b c y : Nat → ℝ} (hb : IsLeastSquares X b y) (hc : IsLeastSquares X c y) {i : Nat}
    (hi : i < X.nr) : lin X b i = lin X c i := by
  have h1 := hb (fun j => (b j + c j) / 2)
  have h2 := hc b
  have h3 := hb c
  have el : ∀ i, lin X (fun j => (b j + c j) / 2) i = (lin X b i + lin X c i) / 2 := by
    intro i
    unfold lin
    rw [← sum_add_distrib, Finset.sum_div]
    exact sum_congr rfl fun j _ => by ring
  have key : sse X (fun j => (b j + c j) / 2) y =
      (sse X b y + sse X c y) / 2 - 1 / 4 * ∑ i ∈ range X.nr, (lin X b i - lin X c i) ^ 2 := by
    unfold sse
    rw [← sum_add_distrib, Finset.sum_div, mul_sum, ← sum_sub_distrib]
    refine sum_congr rfl fun i _ => ?_
    rw [el]
    ring
  have h0 : ∑ i ∈ range X.nr, (lin X b i - lin X c i) ^ 2 ≤ 0 := by linarith
  have := (sum_eq_zero_iff_of_nonneg fun i _ => sq_nonneg (lin X b i - lin X c i)).1
    (le_antisymm h0 (sum_nonneg fun i _ => sq_nonneg _)) i (mem_range.2 hi)
  exact sub_eq_zero.1 (pow_eq_zero_iff (two_ne_zero) |>.1 this)

/-! ### Models in another order -/

theorem hasFeature_lt {m : List Bool} {j : Nat} (h : HasFeature m j) : j < m.length := by
  unfold HasFeature at h
  by_contra hn
  rw [List.getElem?_eq_none (by omega)] at h
  cases h

/-- Every model has a counterpart. -/
theorem exists_sameFeatures {n : Nat} {π : Equiv.Perm Nat} (hπ : ∀ j, π j < n ↔ j < n) {m : List Bool} (hm : m.length = n) :
    ∃ m', SameFeatures π m m' := by
  refine ⟨(List.range n).map fun j => m.getD (π j) false, by simp [hm], fun j => ?_⟩
  unfold HasFeature
  by_cases hj : j < n
  · have h1 : π j < m.length := by rw [hm, hπ]; exact hj
    simp [hj, h1]
  · have h1 : ¬ π j < m.length := by rw [hm, hπ]; exact hj
    simp [hj, h1]

theorem Spec.SameFeatures.card {π : Equiv.Perm Nat} {m m' : List Bool} (h : SameFeatures π m m') : card m' = card m := by
  have hp : ((features m').map π).Perm (features m) := by
    refine (List.perm_ext_iff_of_nodup ((features_nodup m').map π.injective) (features_nodup m)).2 fun i => ?_
    rw [List.mem_map, mem_features]
    constructor
    · rintro ⟨j, hj, rfl⟩
      exact (h.2 j).1 ((mem_features m' j).1 hj)
    · intro hi
      exact ⟨π.symm i, (mem_features m' _).2 ((h.2 _).2 (by rw [Equiv.apply_symm_apply]; exact hi)),
        Equiv.apply_symm_apply π i⟩
  have := hp.length_eq
  rwa [List.length_map] at this

theorem Spec.SameFeatures.symm {π : Equiv.Perm Nat} {m m' : List Bool} (h : SameFeatures π m m') :
    SameFeatures π.symm m' m :=
  ⟨h.1.symm, fun j => by rw [h.2, Equiv.apply_symm_apply]⟩

/-! ### The fits of a model -/

section
variable {X X' : Mat ℝ} {y y' : List ℝ} {ρ π : Equiv.Perm Nat} {s : Nat → ℝ} {t : ℝ}

/-- A least-squares solution in the new units. -/
theorem Spec.SameDataIn.leastSquares (h : SameDataIn X X' y y' ρ π s t) {m m' : List Bool} (hm : m.length = X.nc)
    (hmm : SameFeatures π m m') {c c' : Nat → ℝ}
    (hc : ∀ j < X.nc, extend (features m') c' j = t / s j * extend (features m) c (π j))
    (hls : IsLeastSquares (designOf X m) c (vec y)) : IsLeastSquares (designOf X' m') c' (vec y') := by
  rw [leastSquares_full (by rw [h.nc, hmm.1, hm])]
  rw [leastSquares_full hm.le] at hls
  intro b' hb'
  have hz : ∀ j, ¬ HasFeature m j → s (π.symm j) / t * b' (π.symm j) = 0 := by
    intro j hj
    rw [hb' _ (fun hf => hj (by rw [hmm.2, Equiv.apply_symm_apply] at hf; exact hf)), mul_zero]
  have h1 := hls (fun j => s (π.symm j) / t * b' (π.symm j)) hz
  have e2 := h.sse (b := fun j => s (π.symm j) / t * b' (π.symm j)) (b' := b') (fun j _ => by
    simp only [Equiv.symm_apply_apply]
    have h1 := h.unit j
    have h2 := h.unitY
    field_simp)
  rw [h.sse hc, e2]
  exact mul_le_mul_of_nonneg_left h1 (sq_nonneg t)

/-- The coefficients of the model in the new units. -/
theorem exists_coeff (h : SameDataIn X X' y y' ρ π s t) {m m' : List Bool} (hmm : SameFeatures π m m') (c : Nat → ℝ) :
    ∃ c', ∀ j < X.nc, extend (features m') c' j = t / s j * extend (features m) c (π j) := by
  refine ⟨fun k => t / s ((features m').getD k 0) * extend (features m) c (π ((features m').getD k 0)), fun j _ => ?_⟩
  by_cases hj : j ∈ features m'
  · rw [extend, if_pos hj]
    have h1 : (features m').idxOf j < (features m').length := List.idxOf_lt_length_iff.2 hj
    have e : (features m').getD ((features m').idxOf j) 0 = j := by
      rw [List.getD_eq_getElem?_getD, List.getElem?_eq_getElem h1]
      simp
    simp only [e]
  · have hj' : π j ∉ features m := fun hf => hj ((mem_features _ _).2 ((hmm.2 j).2 ((mem_features _ _).1 hf)))
    rw [extend, if_neg hj, extend, if_neg hj', mul_zero]

end

/-- C107 (fits): the residual sum of squares of a model changes by the square of the unit of the response; its
predictions are the same, and so are its coefficients, in the new units, if the columns are independent. -/
theorem C107_fit_partial (svd : Mat ℝ → SVD ℝ) {X X' : Mat ℝ} {y y' : List ℝ} {ρ π : Equiv.Perm Nat} {s : Nat → ℝ} {t : ℝ}
    (h : SameDataIn X X' y y' ρ π s t) (hy : y.length = X.nr) (hy' : y'.length = X'.nr) {m m' : List Bool}
    (hm : m.length = X.nc) (hpos : 0 < card m) (hmm : SameFeatures π m m') (he : ExactFit svd X m)
    (he' : ExactFit svd X' m') :
    ∃ c r c' r', fitModel svd X y m = some (c, r) ∧ fitModel svd X' y' m' = some (c', r') ∧ r' = t ^ 2 * r ∧
      (∀ i < X.nr, lin (designOf X' m') (vec c') i = t * lin (designOf X m) (vec c) (ρ i)) ∧
      ((∀ b, (∀ i < X.nr, lin (designOf X m) b i = 0) → ∀ k < card m, b k = 0) →
        ∀ j < X.nc, coeffAt m' c' j = t / s j * coeffAt m c (π j)) := by
  have hm' : m'.length = X'.nc := by rw [hmm.1, hm, h.nc]
  obtain ⟨c, f1, f2, f3⟩ := fitModel_eq_some (svd := svd) hy hpos hm.le
  obtain ⟨c', g1, g2, g3⟩ := fitModel_eq_some (svd := svd) hy' (hmm.card.symm ▸ hpos) hm'.le
  have hc := fit_leastSquares he f2
  have hc' := fit_leastSquares he' g2
  have hlt : ∀ i ∈ features m, i < X.nc := fun i hi => (features_lt hi).trans_le hm.le
  have hlt' : ∀ i ∈ features m', i < X'.nc := fun i hi => (features_lt hi).trans_le hm'.le
  obtain ⟨b, hb⟩ := exists_coeff h.symm hmm.symm (vec c')
  have hbls : IsLeastSquares (designOf X m) b (vec y) := h.symm.leastSquares hm' hmm.symm hb hc'
  have hb' : ∀ j < X.nc, extend (features m') (vec c') j = t / s j * extend (features m) b (π j) := by
    intro j hj
    rw [hb (π j) (by rw [h.nc, h.col]; exact hj)]
    simp only [Equiv.symm_apply_apply]
    have h1 := h.unit j
    have h2 := h.unitY
    field_simp
  have hlin : ∀ i < X.nr, lin (designOf X m) b i = lin (designOf X m) (vec c) i :=
    fun i hi => leastSquares_lin_unique hbls hc hi
  refine ⟨c, _, c', _, f1, g1, ?_, fun i hi => ?_, fun hind j hj => ?_⟩
  · have e1 : sse (designOf X' m') (vec c') (vec y') = sse X' (extend (features m') (vec c')) (vec y') :=
      sum_congr rfl fun i _ => by rw [designOf_eq, lin_cols (features_nodup m') hlt']
    have e2 : sse X (extend (features m) b) (vec y) = sse (designOf X m) b (vec y) :=
      sum_congr rfl fun i _ => by rw [designOf_eq, lin_cols (features_nodup m) hlt]
    rw [e1, h.sse hb', e2, le_antisymm (hbls (vec c)) (hc b)]
  · rw [designOf_eq, lin_cols (features_nodup m') hlt', h.lin hb' hi, ← hlin (ρ i) ((h.row i).2 hi), designOf_eq,
      lin_cols (features_nodup m) hlt]
  · unfold coeffAt
    rw [hb' j hj]
    congr 1
    unfold extend
    split
    · rename_i hf
      have hk := List.idxOf_lt_length_iff.2 hf
      have := hind (fun k => b k - vec c k) (fun i hi => by rw [lin_sub, hlin i hi, sub_self]) _ hk
      exact sub_eq_zero.1 this
    · rfl

/-! ### The searches -/

theorem aicc_unit {k n : Nat} {r t : ℝ} (hr : 0 < r) (ht : t ≠ 0) :
    aicc k n (t ^ 2 * r) = aicc k n r + n * Real.log (t ^ 2) := by
  unfold aicc aic
  rw [Real.log_mul (pow_ne_zero 2 ht) hr.ne']
  ring

/-- A model with one feature. -/
theorem exists_single {n : Nat} (h : 0 < n) : ∃ m : List Bool, m.length = n ∧ card m = 1 := by
  refine ⟨true :: List.replicate (n - 1) false, by simp; omega, ?_⟩
  rw [card_eq_count]
  simp [List.count_replicate]

theorem eq_replicate_false {m : List Bool} (h : card m = 0) : m = List.replicate m.length false := by
  rw [card_eq_count, List.count_eq_zero] at h
  refine List.eq_replicate_iff.2 ⟨rfl, fun b hb => ?_⟩
  cases b
  · rfl
  · exact absurd hb h

/-- The best score is that of a model. -/
theorem best_model {svd : Mat ℝ → SVD ℝ} {X : Mat ℝ} {y : List ℝ} (hdata : GoodData svd X y) (hnc : 0 < X.nc)
    (hnr : 1 < X.nr) {q : Int} {cutoff : ℝ} {M : Int} (hM : 2 ≤ M) {st : SState ℝ}
    (h : SelectReaches (regressionSearch svd X y (List.replicate X.nc false) q cutoff) M [] st) (hd : st.main = .done)
    (ht : st.torn = false) (ho : st.overflows = 0) :
    ∃ (m : List Bool) (c : List ℝ) (r : ℝ), m.length = X.nc ∧ 0 < card m ∧ card m < X.nr ∧ fitModel svd X y m = some (c, r) ∧
      st.hs.bestScore = -aicc (card m) X.nr r := by
  obtain ⟨m1, e1, e2⟩ := exists_single hnc
  have hlen := (C12_no_better_model _ M hM [] (hdata.validBounds _ q cutoff) (.inl rfl) st h hd ht ho m1 e1 (by omega)
    (by rw [e2]; exact hnr) (by
      intro e
      have : card m1 = card (List.replicate X.nc false) := congrArg Spec.card e
      rw [card_replicate_false] at this
      omega)).1
  rcases C12_best_is_real _ M hM [] st h hlen with ⟨n, hn, -⟩ | ⟨m, h1, h2, h3, ⟨h4, h5⟩ | ⟨h4, -⟩⟩
  · cases hn
  · obtain ⟨c, f1, -⟩ := fitModel_eq_some (svd := svd) hdata.rows h4 (le_of_eq h1)
    refine ⟨m, c, _, h1, h4, h3, f1, ?_⟩
    rw [h5]
    simp [regressionSearch, regressionProblem, f1]
  · refine absurd ?_ h2
    have e := eq_replicate_false h4
    rw [h1] at e
    exact e

/-- The best score in the new units is at least that in the old ones. -/
theorem best_le {svd : Mat ℝ → SVD ℝ} {X X' : Mat ℝ} {y y' : List ℝ} {ρ π : Equiv.Perm Nat} {s : Nat → ℝ} {t : ℝ}
    (h : SameDataIn X X' y y' ρ π s t) (hdata : GoodData svd X y) (hdata' : GoodData svd X' y')
    {q' : Int} {cutoff' : ℝ} {M' : Int} (hM' : 2 ≤ M') {st' : SState ℝ}
    (h1' : SelectReaches (regressionSearch svd X' y' (List.replicate X'.nc false) q' cutoff') M' [] st')
    (h2' : st'.main = .done) (h3' : st'.torn = false) (h4' : st'.overflows = 0)
    {m : List Bool} {c : List ℝ} {r : ℝ} (hm : m.length = X.nc) (hpos : 0 < card m) (hrows : card m < X.nr)
    (hf : fitModel svd X y m = some (c, r)) :
    ∃ m' c' r', SameFeatures π m m' ∧ fitModel svd X' y' m' = some (c', r') ∧
      -aicc (card m') X'.nr r' = -aicc (card m) X.nr r - X.nr * Real.log (t ^ 2) ∧
      -aicc (card m') X'.nr r' ≤ st'.hs.bestScore := by
  obtain ⟨m', hmm⟩ := exists_sameFeatures h.col hm
  have hm' : m'.length = X'.nc := by rw [hmm.1, hm, h.nc]
  have hpos' : 0 < card m' := hmm.card.symm ▸ hpos
  have hrows' : card m' < X'.nr := by rw [hmm.card, h.nr]; exact hrows
  obtain ⟨c0, r0, c', r', f1, g1, hr, -⟩ := C107_fit_partial svd h hdata.rows hdata'.rows hm hpos hmm
    (hdata.exact m hm hpos hrows) (hdata'.exact m' hm' hpos' hrows')
  rw [hf, Option.some.injEq, Prod.mk.injEq] at f1
  obtain ⟨rfl, rfl⟩ := f1
  have h0 : 0 < r := smallestFloat_pos.trans_le (hdata.tiny m c r hm hpos hrows hf)
  refine ⟨m', c', r', hmm, g1, ?_, ?_⟩
  · rw [hr, hmm.card, h.nr, aicc_unit h0 h.unitY]
    ring
  · obtain ⟨c2, r2, k1, k2, -, k4⟩ := C12_regression svd X' y' hdata' _ (.inl rfl) q' cutoff' M' hM' [] st' h1' h2' h3' h4' m'
      hm' hpos' hrows' (by
        intro e
        have : card m' = card (List.replicate X'.nc false) := congrArg Spec.card e
        rw [card_replicate_false] at this
        omega)
    have e : r2 = r' := by
      obtain ⟨c3, d1, d2, d3⟩ := fitModel_eq_some (svd := svd) hdata'.rows hpos' hm'.le
      rw [d1, Option.some.injEq, Prod.mk.injEq] at g1
      obtain ⟨rfl, rfl⟩ := g1
      rw [d2, Option.some.injEq] at k1
      subst k1
      rw [rss_eq_some (X := designOf X' m') d3 hdata'.rows, Option.some.injEq] at k2
      exact k2.symm
    rwa [e] at k4

/-- **C107 (partial).** Two finished searches, one of them on the data in other units and another order, whatever their
schedules, capacities and cutoffs: the best scores differ by a number that depends only on the unit of the response, and a
best model of the first search is, in the new order, a best model of the second.  Missing: data whose fits are truncated
in some of the units, see `C107_refuted`. -/
theorem C107_search_partial (svd : Mat ℝ → SVD ℝ) {X X' : Mat ℝ} {y y' : List ℝ} {ρ π : Equiv.Perm Nat} {s : Nat → ℝ}
    {t : ℝ} (h : SameDataIn X X' y y' ρ π s t) (hdata : GoodData svd X y) (hdata' : GoodData svd X' y')
    (hnc : 0 < X.nc) (hnr : 1 < X.nr) (q q' : Int) (cutoff cutoff' : ℝ) (M M' : Int) (hM : 2 ≤ M) (hM' : 2 ≤ M')
    (st st' : SState ℝ)
    (h1 : SelectReaches (regressionSearch svd X y (List.replicate X.nc false) q cutoff) M [] st)
    (h2 : st.main = .done) (h3 : st.torn = false) (h4 : st.overflows = 0)
    (h1' : SelectReaches (regressionSearch svd X' y' (List.replicate X'.nc false) q' cutoff') M' [] st')
    (h2' : st'.main = .done) (h3' : st'.torn = false) (h4' : st'.overflows = 0) :
    st'.hs.bestScore = st.hs.bestScore - X.nr * Real.log (t ^ 2) ∧
    ∀ n ∈ st.hs.items, n.score = st.hs.bestScore → ∃ m' c' r', SameFeatures π n.model m' ∧
      fitModel svd X' y' m' = some (c', r') ∧ -aicc (card m') X'.nr r' = st'.hs.bestScore := by
  have hscore : st'.hs.bestScore = st.hs.bestScore - X.nr * Real.log (t ^ 2) := by
    obtain ⟨m, c, r, a1, a2, a3, a4, a5⟩ := best_model hdata hnc hnr hM h1 h2 h3 h4
    obtain ⟨m', c', r', b1, b2, b3, b4, b5⟩ := best_model hdata' (h.nc.symm ▸ hnc) (h.nr.symm ▸ hnr) hM' h1' h2' h3' h4'
    obtain ⟨_, _, _, _, _, e1, e2⟩ := best_le h hdata hdata' hM' h1' h2' h3' h4' a1 a2 a3 a4
    obtain ⟨_, _, _, _, _, e3, e4⟩ := best_le h.symm hdata' hdata hM h1 h2 h3 h4 b1 b2 b3 b4
    have e5 : Real.log ((1 / t) ^ 2) = -Real.log (t ^ 2) := by
      rw [one_div, inv_pow, Real.log_inv]
    rw [e5, h.nr] at e3
    rw [h.nr] at b5
    linarith
  refine ⟨hscore, fun n hn hs => ?_⟩
  obtain ⟨-, hnodes⟩ := C13_each_model_once _ M (by omega) st h1
  obtain ⟨l1, l2, l3⟩ := hnodes n hn
  have hpos : 0 < card n.model := by
    rcases Nat.eq_zero_or_pos (card n.model) with h0 | h0
    · refine absurd ?_ l2
      have e := eq_replicate_false h0
      rw [l1] at e
      exact e
    · exact h0
  obtain ⟨c, f1, -⟩ := fitModel_eq_some (svd := svd) hdata.rows hpos (le_of_eq l1)
  have hsc := ((C13_own_score _ M (by omega) st h1 n hn).1 hpos).1
  have e : (regressionSearch svd X y (List.replicate X.nc false) q cutoff).aicc (card n.model)
      (regressionSearch svd X y (List.replicate X.nc false) q cutoff).nrows
      ((regressionSearch svd X y (List.replicate X.nc false) q cutoff).rss n.model) =
      aicc (card n.model) X.nr (sse (designOf X n.model) (vec c) (vec y)) := by
    simp [regressionSearch, regressionProblem, f1]
  rw [e, hs] at hsc
  obtain ⟨m', c', r', e1, e2, e3, -⟩ := best_le h hdata hdata' hM' h1' h2' h3' h4' l1 hpos l3 f1
  exact ⟨m', c', r', e1, e2, by rw [e3, hscore, hsc]⟩

/-- **C107 (partial), `BruteForceSelect`.** The lists have the same models in the same order of scores: every score is
shifted by the same number. -/
theorem C107_ranking_partial (svd : Mat ℝ → SVD ℝ) {X X' : Mat ℝ} {y y' : List ℝ} {ρ π : Equiv.Perm Nat} {s : Nat → ℝ}
    {t : ℝ} (h : SameDataIn X X' y y' ρ π s t) (hdata : GoodData svd X y) (hdata' : GoodData svd X' y')
    (hsize : X.nc < X.nr) (hs hs' : Highscore ℝ) (hr : BruteForceReturns (regressionProblem svd X y) hs)
    (hr' : BruteForceReturns (regressionProblem svd X' y') hs') :
    hs'.len = hs.len ∧ ∀ n ∈ hs.items, ∃ n' ∈ hs'.items, SameFeatures π n.model n'.model ∧
      n'.score = n.score - X.nr * Real.log (t ^ 2) := by
  obtain ⟨h0, a1, -, a3, a4⟩ := C06_every_model_once (regressionProblem svd X y)
  obtain ⟨h0', b1, -, b3, b4⟩ := C06_every_model_once (regressionProblem svd X' y')
  cases hr.unique a1
  cases hr'.unique b1
  have hnc : (regressionProblem svd X' y').ncols = (regressionProblem svd X y).ncols := h.nc
  refine ⟨by rw [hnc] at b4; omega, fun n hn => ?_⟩
  obtain ⟨l1, l2⟩ := (a3 n.model).1 (List.mem_map_of_mem hn)
  have l1' : n.model.length = X.nc := l1
  obtain ⟨m', hmm⟩ := exists_sameFeatures h.col l1'
  have hm' : m'.length = X'.nc := by rw [hmm.1, l1', h.nc]
  have hpos' : 0 < card m' := hmm.card.symm ▸ l2
  obtain ⟨n', hn', rfl⟩ := List.mem_map.1 ((b3 m').2 ⟨hm', hpos'⟩)
  refine ⟨n', hn', hmm, ?_⟩
  have hrows : card n.model < X.nr := by
    have : card n.model ≤ n.model.length := by rw [card_eq_count]; exact List.count_le_length
    omega
  obtain ⟨c, r, c', r', f1, g1, hrr, -⟩ := C107_fit_partial svd h hdata.rows hdata'.rows l1' l2 hmm
    (hdata.exact _ l1' l2 hrows) (hdata'.exact _ hm' hpos' (by rw [hmm.card, h.nr]; exact hrows))
  have h0 : 0 < r := smallestFloat_pos.trans_le (hdata.tiny _ c r l1' l2 hrows f1)
  have e1 := (C06_own_score _ hs hr n hn).2
  have e2 := (C06_own_score _ hs' hr' n' hn').2
  have e1' : n.score = -aicc (card n.model) X.nr r := by rw [e1]; simp [regressionProblem, f1]
  have e2' : n'.score = -aicc (card n'.model) X'.nr r' := by rw [e2]; simp [regressionProblem, g1]
  rw [e2', e1', hrr, hmm.card, h.nr, aicc_unit h0 h.unitY]
  ring

/-! ### Units that are too small -/

/-- A singular vector is mapped to a multiple of the other. -/
theorem svd_vector {d : SVD ℝ} {X : Mat ℝ} (h : d.Of X) {k i : Nat} (hk : k < d.p) (hi : i < X.nr) :
    lin X (fun j => d.v j k) i = d.u i k * d.s k := by
  rw [svd_lin h _ hi, sum_eq_single k]
  · rw [h.vOrth k k hk hk, if_pos rfl, mul_one]
  · intro l hl hlk
    rw [h.vOrth l k (mem_range.1 hl) hk, if_neg hlk, mul_zero, mul_zero]
  · intro hn
    exact absurd (mem_range.2 hk) hn

/-- A singular value is at most the square root of the sum of the squares of all entries. -/
theorem svd_sq {d : SVD ℝ} {X : Mat ℝ} (h : d.Of X) {k : Nat} (hk : k < d.p) :
    d.s k ^ 2 = ∑ i ∈ range X.nr, lin X (fun j => d.v j k) i ^ 2 := by
  have e : ∑ i ∈ range X.nr, lin X (fun j => d.v j k) i ^ 2 = d.s k ^ 2 * ∑ i ∈ range X.nr, d.u i k * d.u i k := by
    rw [mul_sum]
    refine sum_congr rfl fun i hi => ?_
    rw [svd_vector h hk (mem_range.1 hi)]
    ring
  rw [e, h.uOrth k k hk hk, if_pos rfl, mul_one]

theorem svd_sq_le {d : SVD ℝ} {X : Mat ℝ} (h : d.Of X) {k : Nat} (hk : k < d.p) :
    d.s k ^ 2 ≤ ∑ i ∈ range X.nr, ∑ j ∈ range X.nc, X.get i j ^ 2 := by
  rw [svd_sq h hk]
  refine sum_le_sum fun i _ => ?_
  refine (sum_mul_sq_le_sq_mul_sq (range X.nc) (fun j => X.get i j) (fun j => d.v j k)).trans (le_of_eq ?_)
  have : ∑ j ∈ range X.nc, d.v j k ^ 2 = 1 := by
    rw [← h.vOrth k k hk hk |>.trans (if_pos rfl)]
    exact sum_congr rfl fun j _ => by ring
  rw [this, mul_one]

/-- **C107 (what happens instead).** In units so large that all numbers of the features are tiny, every coefficient is 0:
all models have the same residual sum of squares, that of no model at all. -/
theorem C107_tiny (svd : Mat ℝ → SVD ℝ) (X : Mat ℝ) (y : List ℝ) (hy : y.length = X.nr) (m : List Bool)
    (hm : m.length ≤ X.nc) (hpos : 0 < card m) (hsvd : (svd (designOf X m)).Of (designOf X m))
    (htiny : ∑ i ∈ range X.nr, ∑ j ∈ range X.nc, X.get i j ^ 2 ≤ (1 / 10 ^ 6) ^ 2) :
    fitModel svd X y m = some (List.replicate (card m) 0, ∑ i ∈ range X.nr, vec y i ^ 2) := by
  have hinv : ∀ k < (svd (designOf X m)).p, invSigma ((svd (designOf X m)).s k) = 0 := by
    intro k hk
    refine if_neg (not_lt.2 ?_)
    have h1 := svd_sq_le hsvd hk
    have h2 : ∑ i ∈ range (designOf X m).nr, ∑ j ∈ range (designOf X m).nc, (designOf X m).get i j ^ 2 ≤
        ∑ i ∈ range X.nr, ∑ j ∈ range X.nc, X.get i j ^ 2 := by
      refine sum_le_sum fun i _ => ?_
      show ∑ k ∈ range (features m).length, X.get i ((features m).getD k 0) ^ 2 ≤ _
      rw [sum_getD_finset (features_nodup m) (fun j => X.get i j ^ 2)]
      refine sum_le_sum_of_subset_of_nonneg (fun j hj => ?_) fun _ _ _ => sq_nonneg _
      exact mem_range.2 ((features_lt (List.mem_toFinset.1 hj)).trans_le hm)
    exact abs_le_of_sq_le_sq (h1.trans (h2.trans htiny)) (by positivity)
  obtain ⟨c, f1, f2, f3⟩ := fitModel_eq_some (svd := svd) hy hpos hm
  rw [fit_eq_some (X := designOf X m) hy.symm, Option.some.injEq] at f2
  have hc : c = List.replicate (card m) 0 := by
    rw [← f2]
    refine List.eq_replicate_iff.2 ⟨by simp [designOf], fun b hb => ?_⟩
    obtain ⟨j, -, rfl⟩ := List.mem_map.1 hb
    exact sum_eq_zero fun k hk => by simp only [hinv k (mem_range.1 hk), mul_zero]
  rw [f1, hc]
  congr 2
  refine sum_congr rfl fun i _ => ?_
  have : lin (designOf X m) (vec (List.replicate (card m) 0)) i = 0 := by
    refine sum_eq_zero fun k _ => ?_
    have : vec (List.replicate (card m) (0 : ℝ)) k = 0 := by
      unfold vec
      rw [List.getD_eq_getElem?_getD, List.getElem?_replicate]
      split <;> rfl
    rw [this, mul_zero]
  rw [this]
  ring

/-- All claims of C107 about `SelectModel` with the default options, for all data that it can handle. -/
def Spec.UnitFree (svd : Mat ℝ → SVD ℝ) : Prop :=
  ∀ X X' y y' ρ π s t, SameDataIn X X' y y' ρ π s t → y.length = X.nr → y'.length = X'.nr → 3 ≤ X.nc → X.nc < X.nr →
    ∀ st st', SelectReaches (regressionSearch svd X y (List.replicate X.nc false) 10000000 0) 10 [] st →
      SelectReaches (regressionSearch svd X' y' (List.replicate X'.nc false) 10000000 0) 10 [] st' →
      st.main = .done → st.torn = false → st.overflows = 0 →
      st'.main = .done → st'.torn = false → st'.overflows = 0 →
      st'.hs.bestScore = st.hs.bestScore - X.nr * Real.log (t ^ 2)

/-- Every decomposition of orthonormal columns has the singular values 1. -/
theorem orthonormal_untruncated {d : SVD ℝ} {X : Mat ℝ} (h : d.Of X)
    (ho : ∀ k l, k < X.nc → l < X.nc → ∑ i ∈ range X.nr, X.get i k * X.get i l = if k = l then 1 else 0) :
    Untruncated d X := by
  refine ⟨h, fun k hk => .inr ?_⟩
  have h1 : d.s k ^ 2 = 1 := by
    rw [svd_sq h hk]
    have e : ∀ b : Nat → ℝ, ∑ i ∈ range X.nr, lin X b i ^ 2 = ∑ j ∈ range X.nc, b j * b j := by
      intro b
      have : ∀ i, lin X b i ^ 2 = ∑ j ∈ range X.nc, b j * (X.get i j * lin X b i) := by
        intro i
        have : ∑ j ∈ range X.nc, b j * (X.get i j * lin X b i) = lin X b i * lin X b i := by
          conv_rhs => rw [lin, sum_mul]
          exact sum_congr rfl fun j _ => by rw [lin]; ring
        rw [this, sq]
      rw [sum_congr rfl fun i _ => this i, sum_comm]
      refine sum_congr rfl fun j hj => ?_
      rw [← mul_sum]
      exact congrArg _ (orth_expand ho b (mem_range.1 hj))
    rw [e, h.vOrth k k hk hk, if_pos rfl]
  have h2 : d.s k = 1 := by
    have := h.nonneg k hk
    nlinarith
  rw [h2, div_lt_one (by positivity)]
  norm_num

namespace UnitExample

/-- Three unit vectors. -/
noncomputable def X : Mat ℝ := unitX 5 3

/-- The first feature explains nearly all of the response. -/
noncomputable def y : List ℝ := [100, 0, 0, 0, 1]

/-- The same in other units. -/
noncomputable def X' : Mat ℝ := ⟨5, 3, fun i j => 1 / 10 ^ 8 * X.get i j⟩

theorem same : SameDataIn X X' y y (Equiv.refl _) (Equiv.refl _) (fun _ => 1 / 10 ^ 8) 1 where
  nr := rfl
  nc := rfl
  row _ := Iff.rfl
  col _ := Iff.rfl
  unit _ := by norm_num
  unitY := one_ne_zero
  get _ _ _ _ := rfl
  target i _ := by simp

theorem exact {svd : Mat ℝ → SVD ℝ} (hsvd : ∀ A, (svd A).Of A) {m : List Bool} (hm : m.length = 3) : ExactFit svd X m :=
  orthonormal_untruncated (hsvd _) (unitX_exact (K := ℝ) (n := 5) (by omega) hm).1.uOrth

theorem fit_ge {svd : Mat ℝ → SVD ℝ} (hsvd : ∀ A, (svd A).Of A) {m : List Bool} (hm : m.length = 3) (hpos : 0 < card m)
    {c : List ℝ} {r : ℝ} (hf : fitModel svd X y m = some (c, r)) :
    1 ≤ r ∧ (HasFeature m 0 → r = 1) := by
  obtain ⟨c', f1, f2, -⟩ := fitModel_eq_some (svd := svd) (X := X) (y := y) rfl hpos hm.le
  rw [hf, Option.some.injEq, Prod.mk.injEq] at f1
  have h4 : ∀ i, 3 ≤ i → ¬ HasFeature m i := fun i hi h => by have := hasFeature_lt h; omega
  rw [f1.2, X, unitX_sse (fit_leastSquares (exact hsvd hm) f2)]
  simp only [sum_range_succ, sum_range_zero, h4 4 (by omega), h4 3 (by omega)]
  norm_num [vec, y]
  split <;> norm_num

theorem good {svd : Mat ℝ → SVD ℝ} (hsvd : ∀ A, (svd A).Of A) : GoodData svd X y where
  rows := rfl
  small := by show (5 : Nat) ≤ 2 ^ 63; norm_num
  exact m hm _ _ := exact hsvd hm
  tiny m c r hm hp _ hf := by
    have := (fit_ge hsvd hm hp hf).1
    refine smallestFloat_le_tol.trans (le_trans ?_ this)
    unfold rssTol
    norm_num
  tol h := absurd h (by show ¬ 5 ≤ 3; omega)

theorem sum_sq : ∑ i ∈ range X'.nr, vec y i ^ 2 = 10001 := by
  show ∑ i ∈ range 5, vec y i ^ 2 = 10001
  simp only [sum_range_succ, sum_range_zero]
  norm_num [vec, y]

theorem tiny : ∑ i ∈ range X'.nr, ∑ j ∈ range X'.nc, X'.get i j ^ 2 ≤ (1 / 10 ^ 6) ^ 2 := by
  show ∑ i ∈ range 5, ∑ j ∈ range 3, (1 / 10 ^ 8 * (unitX 5 3 : Mat ℝ).get i j) ^ 2 ≤ (1 / 10 ^ 6) ^ 2
  simp only [sum_range_succ, sum_range_zero, unitX]
  norm_num

end UnitExample

/-- The hypotheses of the theorems can be met: the first two rows and the first two columns are exchanged, the sign of all
features and the unit of the response are changed. -/
example (svd : Mat ℝ → SVD ℝ) (hsvd : ∀ A, (svd A).Of A) : ∃ X', SameDataIn UnitExample.X X' UnitExample.y [0, 200, 0, 0, 2]
    (Equiv.swap 0 1) (Equiv.swap 0 1) (fun _ => -1) 2 ∧ GoodData svd UnitExample.X UnitExample.y ∧
    GoodData svd X' [0, 200, 0, 0, 2] ∧ 3 ≤ X'.nc ∧ X'.nc < X'.nr := by
  have hsw : ∀ n, 2 ≤ n → ∀ i, Equiv.swap 0 1 i < n ↔ i < n := by
    intro n hn i
    rw [Equiv.swap_apply_def]
    split
    · omega
    · split <;> omega
  have hsame : SameDataIn UnitExample.X ⟨5, 3, fun i j => -1 * UnitExample.X.get i j⟩ UnitExample.y [0, 200, 0, 0, 2]
      (Equiv.swap 0 1) (Equiv.swap 0 1) (fun _ => -1) 2 :=
    { nr := rfl
      nc := rfl
      row := hsw 5 (by omega)
      col := hsw 3 (by omega)
      unit := fun _ => by norm_num
      unitY := by norm_num
      get := fun i j _ _ => by simp [UnitExample.X, unitX, (Equiv.swap 0 1).injective.eq_iff]
      target := fun i hi => by
        have hi : i < 5 := hi
        interval_cases i <;> norm_num [vec, UnitExample.y, Equiv.swap_apply_def] }
  have hexact : ∀ m : List Bool, m.length = 3 → ExactFit svd ⟨5, 3, fun i j => -1 * UnitExample.X.get i j⟩ m := by
    intro m hm
    refine orthonormal_untruncated (hsvd _) fun k l hk hl => ?_
    rw [← (unitX_exact (K := ℝ) (n := 5) (by omega) hm).1.uOrth k l hk hl]
    exact sum_congr rfl fun i _ => by simp [designOf, UnitExample.X, orthSvd]
  have hrss : ∀ m c r, m.length = 3 → 0 < Spec.card m → fitModel svd ⟨5, 3, fun i j => -1 * UnitExample.X.get i j⟩
      [0, 200, 0, 0, 2] m = some (c, r) → 1 ≤ r := by
    intro m c r hm hp hf
    obtain ⟨m0, hmm⟩ := exists_sameFeatures (π := (Equiv.swap 0 1).symm) (n := 3)
      (by rw [Equiv.symm_swap]; exact hsw 3 (by omega)) hm
    have hm0 : m0.length = 3 := hmm.1.trans hm
    obtain ⟨c1, r1, c2, r2, e1, e2, e3, -⟩ := C107_fit_partial svd hsame rfl rfl hm0 (hmm.card.symm ▸ hp) hmm.symm
      (UnitExample.exact hsvd hm0) (hexact m hm)
    rw [hf, Option.some.injEq, Prod.mk.injEq] at e2
    have := (UnitExample.fit_ge hsvd hm0 (hmm.card.symm ▸ hp) e1).1
    rw [e2.2, e3]
    linarith
  refine ⟨_, hsame, UnitExample.good hsvd, ?_, by show 3 ≤ 3; omega, by show 3 < 5; omega⟩
  exact
    { rows := rfl
      small := by show (5 : Nat) ≤ 2 ^ 63; norm_num
      exact := fun m hm _ _ => hexact m hm
      tiny := fun m c r hm hp _ hf => by
        refine smallestFloat_le_tol.trans (le_trans ?_ (hrss m c r hm hp hf))
        unfold rssTol
        norm_num
      tol := fun h => absurd h (by show ¬ 5 ≤ 3; omega) }

/-- **C107 is false in general.** With the same features in units that make all numbers 10^8 times smaller the search finds
no model better than none: `Fit` treats the columns as 0.  This holds for every decomposition that meets the contract;
and there are such decompositions. -/
theorem C107_refuted : (∃ svd : Mat ℝ → SVD ℝ, ∀ A, (svd A).Of A) ∧
    ∀ svd : Mat ℝ → SVD ℝ, (∀ A, (svd A).Of A) → ¬ UnitFree svd := by
  refine ⟨⟨fun A => (C65_contract A).choose, fun A => (C65_contract A).choose_spec⟩, fun svd hsvd hall => ?_⟩
  obtain ⟨st, r1, r2, r3⟩ := C93_can_end (regressionSearch svd UnitExample.X UnitExample.y [false, false, false] 10000000 0) 10
    (by norm_num) [] (newHighscore 10) _ rfl rfl
  obtain ⟨st', r1', r2', r3'⟩ := C93_can_end
    (regressionSearch svd UnitExample.X' UnitExample.y [false, false, false] 10000000 0) 10
    (by norm_num) [] (newHighscore 10) _ rfl rfl
  have r4 := C93_no_eviction _ 10 (by norm_num) [] st r1 (by show (2 : Int) ^ 2 ≤ 10000000; norm_num)
  have r4' := C93_no_eviction _ 10 (by norm_num) [] st' r1' (by show (2 : Int) ^ 2 ≤ 10000000; norm_num)
  have heq := hall _ _ _ _ _ _ _ _ UnitExample.same rfl rfl (by show 3 ≤ 3; omega) (by show 3 < 5; omega) st st' r1 r1'
    r2 r3 r4 r2' r3' r4'
  rw [one_pow, Real.log_one, mul_zero, sub_zero] at heq
  have hgood := UnitExample.good hsvd
  -- the search in the old units
  have hlow : -(10 / 3 : ℝ) ≤ st.hs.bestScore := by
    obtain ⟨c, r, f1, f2, -, f4⟩ := C12_regression svd _ _ hgood [false, false, false] (.inl rfl) _ _ 10 (by norm_num) [] st r1
      r2 r3 r4 [true, false, false] rfl (by decide) (by show 1 < 5; omega) (by decide)
    obtain ⟨c0, g1, g2, g3⟩ := fitModel_eq_some (svd := svd) (X := UnitExample.X) (y := UnitExample.y)
      (m := [true, false, false]) rfl (by decide) (by show 3 ≤ 3; omega)
    rw [g2, Option.some.injEq] at f1
    subst f1
    rw [rss_eq_some (X := designOf UnitExample.X _) g3 rfl, Option.some.injEq] at f2
    rw [f2] at g1
    have hr : r = 1 := (UnitExample.fit_ge hsvd rfl (by decide) g1).2 rfl
    refine le_trans (le_of_eq ?_) f4
    rw [hr]
    show -(10 / 3 : ℝ) = -aicc 1 5 1
    norm_num [aicc, aic]
  have hneg : st.hs.bestScore < 0 := by
    obtain ⟨m, c, r, h1, h2, -, h4, h5⟩ := best_model hgood (by show 0 < 3; omega) (by show 1 < 5; omega) (by norm_num) r1
      r2 r3 r4
    rw [h5]
    have hr := (UnitExample.fit_ge hsvd h1 h2 h4).1
    have := C02_aic_le_aicc (card m) UnitExample.X.nr r
    have h0 : 0 ≤ (UnitExample.X.nr : ℝ) * Real.log r := mul_nonneg (Nat.cast_nonneg _) (Real.log_nonneg hr)
    have h2' : (1 : ℝ) ≤ (card m : ℝ) := by exact_mod_cast h2
    unfold aic at this
    linarith
  -- the search in the new units
  by_cases hlen : 0 < st'.hs.len
  · rcases C12_best_is_real _ 10 (by norm_num) [] st' r1' hlen with ⟨n, hn, -⟩ | ⟨m, h1, h2, h3, ⟨h4, h5⟩ | ⟨h4, -⟩⟩
    · cases hn
    · have hf := C107_tiny svd UnitExample.X' UnitExample.y rfl m (le_of_eq h1) h4 (hsvd _) UnitExample.tiny
      have h6 : st'.hs.bestScore = -aicc (card m) 5 10001 := by
        rw [h5]
        simp only [regressionSearch, regressionProblem, hf, UnitExample.sum_sq]
        rfl
      have h7 := C02_aic_le_aicc (card m) 5 10001
      have h8 : (9 / 10 : ℝ) ≤ Real.log 10001 :=
        le_trans (by norm_num) (Real.one_sub_inv_le_log_of_pos (by norm_num : (0 : ℝ) < 10001))
      have h9 : (0 : ℝ) ≤ (card m : ℝ) := Nat.cast_nonneg _
      unfold aic at h7
      push_cast at h7
      linarith
    · refine absurd ?_ h2
      have e := eq_replicate_false h4
      rw [h1] at e
      exact e
  · have h0 : st'.hs.bestScore = 0 := by
      have : st'.hs.items = [] := List.length_eq_zero_iff.1 (by unfold Highscore.len at hlen; omega)
      rw [Highscore.bestScore, this]
    linarith

end GoSelect
