import Verif.Props.C171
import Verif.Proofs.Redundant

/-!
# C174: orthogonal matching pursuit and the order of the features
-/

namespace GoSelect

open Finset Spec

/-- Feature `i` has the largest correlation with the residuals `r`, larger than that of every other feature. -/
def Spec.ClearChoice (X : Mat ℝ) (r : Nat → ℝ) (i : Nat) : Prop :=
  (∃ q < X.nr, r q ≠ 0) ∧ ∀ k < X.nc, k ≠ i →
    (∑ q ∈ range X.nr, X.get q k * r q) ^ 2 * ∑ q ∈ range X.nr, X.get q i * X.get q i <
      (∑ q ∈ range X.nr, X.get q i * r q) ^ 2 * ∑ q ∈ range X.nr, X.get q k * X.get q k

section
variable {svd svd' : Mat ℝ → SVD ℝ} {X X' : Mat ℝ} {y y' : List ℝ} {ρ π : Equiv.Perm Nat} {s : Nat → ℝ} {t : ℝ}

theorem vec_ompRes (svd : Mat ℝ → SVD ℝ) (hy : y.length = X.nr) {m : List Bool} (hm : m.length = X.nc) {i : Nat} (hi : i < X.nr) :
    vec (ompRes svd X y m) i = lin X (coeffAt m (ompFit svd X y m)) i - vec y i := by
  have hlt : ∀ i ∈ features m, i < X.nc := fun i hi => (features_lt hi).trans_le hm.le
  have e : lin (designOf X m) (vec (ompFit svd X y m)) i = lin X (coeffAt m (ompFit svd X y m)) i := by
    rw [designOf_eq, lin_cols (features_nodup m) hlt]
    rfl
  rw [← e]
  unfold ompRes ompPred vec
  have hiy : i < y.length := hy ▸ hi
  simp [List.getD_eq_getElem?_getD, List.getElem?_zipWith, hi, hiy]

theorem ompRmse_res (svd : Mat ℝ → SVD ℝ) (hy : y.length = X.nr) (m : List Bool) :
    ompRmse svd X y m = √((∑ i ∈ range X.nr, vec (ompRes svd X y m) i ^ 2) / X.nr) := by
  unfold ompRmse
  rw [hy]
  congr 2
  refine sum_congr rfl fun i hi => ?_
  have hi' : i < X.nr := mem_range.1 hi
  have hiy : i < y.length := hy ▸ hi'
  have : vec (ompRes svd X y m) i = (ompPred svd X y m).getD i 0 - y.getD i 0 := by
    have hl : i < (ompPred svd X y m).length := by simp [ompPred, hi']
    unfold ompRes vec
    simp [List.getD_eq_getElem?_getD, List.getElem?_zipWith, hl, hiy]
  rw [this]
  ring

theorem sameFeatures_modelOf (h : SameDataIn X X' y y' ρ π s t) {l l' : List Nat} (hl : l'.map π = l) (hlt : ∀ i ∈ l, i < X.nc) :
    SameFeatures π (modelOf X.nc l) (modelOf X'.nc l') := by
  have hlt' : ∀ i ∈ l', i < X'.nc := fun i hi => by
    rw [h.nc, ← h.col]
    exact hlt _ (hl ▸ List.mem_map_of_mem hi)
  refine ⟨by simp [modelOf, h.nc], fun j => ?_⟩
  rw [modelOf_feature _ _ hlt, modelOf_feature _ _ hlt', ← hl]
  constructor
  · exact fun hj => List.mem_map_of_mem hj
  · intro hj
    obtain ⟨k, hk, e⟩ := List.mem_map.1 hj
    exact π.injective e ▸ hk

theorem ompFit_same (h : SameDataIn X X' y y' ρ π s t) (hsign : ∀ j, s j ^ 2 = 1) (hy : y.length = X.nr) (hy' : y'.length = X'.nr)
    (hd : ∀ A, (svd A).Of A) (hd' : ∀ A, (svd' A).Of A) {m m' : List Bool} (hm : m.length = X.nc) (hpos : 0 < Spec.card m)
    (hmm : SameFeatures π m m') :
    ∀ j < X.nc, coeffAt m' (ompFit svd' X' y' m') j = t * s j * coeffAt m (ompFit svd X y m) (π j) := by
  have hm' : m'.length = X'.nc := by rw [hmm.1, hm, h.nc]
  obtain ⟨c, r, c', f1, g1, hc⟩ := C171_fit svd svd' h hsign hy hy' hm hpos hmm (hd _) (hd' _)
  obtain ⟨b, k1, k2, -⟩ := fitModel_eq_some (svd := svd) hy hpos hm.le
  obtain ⟨b', l1, l2, -⟩ := fitModel_eq_some (svd := svd') hy' (hmm.card.symm ▸ hpos) hm'.le
  rw [f1, Option.some.injEq, Prod.mk.injEq] at k1
  rw [g1, Option.some.injEq, Prod.mk.injEq] at l1
  rw [ompFit_fit svd X y hy.symm, Option.some.injEq] at k2
  rw [ompFit_fit svd' X' y' hy'.symm, Option.some.injEq] at l2
  rw [k2, l2, ← k1.1, ← l1.1]
  exact hc

theorem card_modelOf_pos {n : Nat} {l : List Nat} (hne : l ≠ []) (hlt : ∀ i ∈ l, i < n) : 0 < Spec.card (modelOf n l) := by
  obtain ⟨i, hi⟩ := List.exists_mem_of_ne_nil _ hne
  exact List.length_pos_iff.2 (List.ne_nil_of_mem ((mem_features _ _).2 ((modelOf_feature n l hlt i).2 hi)))

theorem ompRes_same (h : SameDataIn X X' y y' ρ π s t) (hsign : ∀ j, s j ^ 2 = 1) (hy : y.length = X.nr) (hy' : y'.length = X'.nr)
    (hd : ∀ A, (svd A).Of A) (hd' : ∀ A, (svd' A).Of A) {m m' : List Bool} (hm : m.length = X.nc) (hpos : 0 < Spec.card m)
    (hmm : SameFeatures π m m') {i : Nat} (hi : i < X.nr) :
    vec (ompRes svd' X' y' m') i = t * vec (ompRes svd X y m) (ρ i) := by
  have hm' : m'.length = X'.nc := by rw [hmm.1, hm, h.nc]
  have hf := ompFit_same h hsign hy hy' hd hd' hm hpos hmm
  rw [vec_ompRes svd' hy' hm' (by rw [h.nr]; exact hi), vec_ompRes svd hy hm ((h.row i).2 hi), h.target i hi,
    h.lin (b := coeffAt m (ompFit svd X y m)) ?_ hi]
  · ring
  · intro j hj
    have e3 : t * s j = t / s j := by
      rw [eq_div_iff (h.unit j), mul_assoc, ← pow_two, hsign, mul_one]
    rw [hf j hj, e3]

theorem resAt_same (h : SameDataIn X X' y y' ρ π s t) (hsign : ∀ j, s j ^ 2 = 1) (hy : y.length = X.nr) (hy' : y'.length = X'.nr)
    (hd : ∀ A, (svd A).Of A) (hd' : ∀ A, (svd' A).Of A) {l l' : List Nat} (hl : l'.map π = l) (hlt : ∀ i ∈ l, i < X.nc) {i : Nat}
    (hi : i < X.nr) : vec (resAt svd' X' y' l') i = t * vec (resAt svd X y l) (ρ i) := by
  unfold resAt
  by_cases h0 : l = []
  · have h0' : l' = [] := by rw [h0] at hl; exact List.map_eq_nil_iff.1 hl
    rw [if_pos h0, if_pos h0', h.target i hi]
  · have h0' : l' ≠ [] := by
      rintro rfl
      exact h0 hl.symm
    rw [if_neg h0, if_neg h0']
    exact ompRes_same h hsign hy hy' hd hd' (by simp [modelOf]) (card_modelOf_pos h0 hlt) (sameFeatures_modelOf h hl hlt) hi

theorem ompRmse_same (h : SameDataIn X X' y y' ρ π s t) (hsign : ∀ j, s j ^ 2 = 1) (hy : y.length = X.nr) (hy' : y'.length = X'.nr)
    (hd : ∀ A, (svd A).Of A) (hd' : ∀ A, (svd' A).Of A) {l l' : List Nat} (h0 : l ≠ []) (hl : l'.map π = l)
    (hlt : ∀ i ∈ l, i < X.nc) :
    ompRmse svd' X' y' (modelOf X'.nc l') = |t| * ompRmse svd X y (modelOf X.nc l) := by
  rw [ompRmse_res svd' hy', ompRmse_res svd hy, h.nr, ← Real.sqrt_sq_eq_abs, ← Real.sqrt_mul (sq_nonneg t), ← mul_div_assoc]
  congr 2
  rw [← sum_range_perm ρ h.row (fun i => vec (ompRes svd X y (modelOf X.nc l)) i ^ 2), mul_sum]
  refine sum_congr rfl fun i hi => ?_
  rw [ompRes_same h hsign hy hy' hd hd' (by simp [modelOf]) (card_modelOf_pos h0 hlt) (sameFeatures_modelOf h hl hlt)
    (mem_range.1 hi)]
  ring

/-- The features chosen on the two data sets correspond. -/
theorem pick_same (h : SameDataIn X X' y y' ρ π s t) (hsign : ∀ j, s j ^ 2 = 1)
    (hcol : ∀ i < X.nc, ∃ q < X.nr, X.get q i ≠ 0) {r r' : List ℝ} (hr : ∀ i < X.nr, vec r' i = t * vec r (ρ i)) {x x' : Nat}
    (hc : ClearChoice X (vec r) x) (hx : x < X.nc) (hp : argmax (ompProj X' r') = some x') : π x' = x := by
  have hcol' : ∀ i < X'.nc, colNorm X' i ≠ 0 := by
    intro i hi
    rw [h.nc] at hi
    obtain ⟨q, hq, hne⟩ := hcol (π i) ((h.col i).2 hi)
    refine colNorm_ne_zero ⟨ρ.symm q, ?_, ?_⟩
    · rw [h.nr, ← h.row, Equiv.apply_symm_apply]
      exact hq
    · rw [h.get _ _ (by rw [← h.row, Equiv.apply_symm_apply]; exact hq) hi, Equiv.apply_symm_apply]
      exact mul_ne_zero (h.unit i) hne
  have hn : norm2 r' ≠ 0 := by
    intro h0
    obtain ⟨q, hq, hne⟩ := hc.1
    have hq' : ρ.symm q < X.nr := by rw [← h.row, Equiv.apply_symm_apply]; exact hq
    have e := hr _ hq'
    rw [Equiv.apply_symm_apply] at e
    have : vec r' (ρ.symm q) = 0 := norm2_eq_zero _ h0 _
    rw [this] at e
    exact mul_ne_zero h.unitY hne e.symm
  obtain ⟨hx', hmax⟩ := pick_sq hn hcol' hp
  rw [h.nc] at hx'
  have prod : ∀ j < X.nc, (∑ q ∈ range X'.nr, X'.get q j * r'.getD q 0) ^ 2 =
      t ^ 2 * (∑ q ∈ range X.nr, X.get q (π j) * vec r q) ^ 2 := by
    intro j hj
    have e : ∑ q ∈ range X'.nr, X'.get q j * r'.getD q 0 = s j * t * ∑ q ∈ range X.nr, X.get q (π j) * vec r q := by
      rw [h.nr, ← sum_range_perm ρ h.row (fun q => X.get q (π j) * vec r q), mul_sum]
      refine sum_congr rfl fun q hq => ?_
      have := hr q (mem_range.1 hq)
      unfold vec at this
      rw [this, h.get _ _ (mem_range.1 hq) hj]
      unfold vec
      ring
    rw [e, mul_pow, mul_pow, hsign, one_mul]
  have sq : ∀ j < X.nc, ∑ q ∈ range X'.nr, X'.get q j * X'.get q j = ∑ q ∈ range X.nr, X.get q (π j) * X.get q (π j) := by
    intro j hj
    rw [h.nr, ← sum_range_perm ρ h.row (fun q => X.get q (π j) * X.get q (π j))]
    refine sum_congr rfl fun q hq => ?_
    rw [h.get _ _ (mem_range.1 hq) hj]
    have : s j * X.get (ρ q) (π j) * (s j * X.get (ρ q) (π j)) = s j ^ 2 * (X.get (ρ q) (π j) * X.get (ρ q) (π j)) := by ring
    rw [this, hsign, one_mul]
  by_contra hne
  have k1 := hc.2 _ ((h.col x').2 hx') hne
  have hxs : π.symm x < X.nc := by rw [← h.col, Equiv.apply_symm_apply]; exact hx
  have k2 := hmax (π.symm x) (by rw [h.nc]; exact hxs)
  rw [prod _ hxs, prod _ hx', sq _ hxs, sq _ hx', Equiv.apply_symm_apply, mul_assoc, mul_assoc] at k2
  have ht : 0 < t ^ 2 := by have := h.unitY; positivity
  have k3 := le_of_mul_le_mul_left k2 ht
  linarith

/-- The coefficients of the final state. -/
theorem state_coeff {k : Nat} {st : OmpState} {d : List Nat} {l x : Nat} (h2 : OmpInv svd X y k st d l x) (hk : k ≠ 0) {j : Nat}
    (hj : j < X.nc) : vec st.coeff j = coeffAt st.model (ompFit svd X y st.model) j := by
  obtain ⟨g1, g2, g3⟩ := (h2.fit hk).1
  unfold coeffAt extend
  by_cases hf : j ∈ features st.model
  · rw [if_pos hf]
    have hi := List.idxOf_lt_length_iff.2 hf
    have e : (features st.model).getD ((features st.model).idxOf j) 0 = j := by
      rw [List.getD_eq_getElem?_getD, List.getElem?_eq_getElem hi]
      simp
    have := g3 _ hi
    rw [e] at this
    unfold vec
    rw [List.getD_eq_getElem?_getD, List.getD_eq_getElem?_getD, this]
  · rw [if_neg hf]
    have := g2 j hj fun hh => hf ((mem_features _ _).2 hh)
    unfold vec
    rw [List.getD_eq_getElem?_getD, this]
    rfl

end

/-- **C174.** If `Omp` reaches its tolerance and had a clear choice in every iteration, it does the same on the data with the rows and
columns in another order, columns with other signs and the target in another unit: `Order` lists the same features, `Coeff` has the same
coefficients, in the new order, signs and unit.  Also if singular values are discarded, and whichever decompositions are found. -/
theorem C174_omp (svd svd' : Mat ℝ → SVD ℝ) {X X' : Mat ℝ} {y y' : List ℝ} {ρ π : Equiv.Perm Nat} {s : Nat → ℝ} {t : ℝ}
    (h : SameDataIn X X' y y' ρ π s t) (hsign : ∀ j, s j ^ 2 = 1) (hy' : y'.length = X'.nr)
    (hd : ∀ A, (svd A).Of A) (hd' : ∀ A, (svd' A).Of A) (hcol : ∀ i < X.nc, ∃ q < X.nr, X.get q i ≠ 0) {tol : ℝ} {res : OmpResult}
    (hres : omp svd X y tol = some res) (d : List Nat) (hord : res.order = d.map Int.ofNat)
    (hclear : ∀ j (hj : j < d.length), ClearChoice X (vec (resAt svd X y (d.take j))) d[j]) (htol : rmse X res.coeff y < tol) :
    ∃ (res' : OmpResult) (d' : List Nat), omp svd' X' y' (|t| * tol) = some res' ∧ res'.order = d'.map Int.ofNat ∧ d'.map π = d ∧
      ∀ j < X.nc, vec res'.coeff j = t * s j * vec res.coeff (π j) := by
  obtain ⟨h0, hc, hy⟩ := omp_some svd X y tol hres
  obtain ⟨st, k, d1, l, x, h1, h2, -, hk, hd1, hlate⟩ := omp_main svd X y tol h0 hc hy
  have h0' : y'.length ≠ 0 := by rw [hy', h.nr, hy]; exact h0
  have hc' : X'.nc ≠ 0 := by rw [h.nc]; exact hc
  obtain ⟨st', k', d', l', x', h1', h2', hend', hk', hd1', hlate'⟩ := omp_main svd' X' y' (|t| * tol) h0' hc' hy'.symm
  rw [h1, Option.some.injEq] at hres
  subst hres
  have hdd : d1 = d := by
    have : d1.map Int.ofNat = d.map Int.ofNat := hord
    exact List.map_injective_iff.2 (fun a b hab => by simpa using hab) this
  subst hdd
  have htpos : 0 < |t| := abs_pos.2 h.unitY
  have take : ∀ j, j ≤ d1.length → j ≤ d'.length → (d'.take j).map π = d1.take j := by
    intro j
    induction j with
    | zero => intro _ _; simp
    | succ j ih =>
      intro hj hj'
      have e := ih (by omega) (by omega)
      have hlt : ∀ i ∈ d1.take j, i < X.nc := fun i hi => h2.lt i (List.mem_of_mem_take hi)
      have hp := pick_same h hsign hcol (fun i hi => resAt_same h hsign hy.symm hy' hd hd' e hlt hi) (hclear j (by omega))
        (h2.lt _ (List.getElem_mem _)) (h2'.pick j (by omega))
      rw [List.take_succ_eq_append_getElem (by omega), List.take_succ_eq_append_getElem (by omega), List.map_append, e,
        List.map_singleton, hp]
  have hmodel := h2.model_eq
  have hlen : d'.length = d1.length := by
    rcases Nat.lt_trichotomy d'.length d1.length with hlt | he | hgt
    · exfalso
      have e := take d'.length hlt.le le_rfl
      rw [List.take_length] at e
      have hltc : ∀ i ∈ d1.take d'.length, i < X.nc := fun i hi => h2.lt i (List.mem_of_mem_take hi)
      have hne : d1.take d'.length ≠ [] := by
        intro hnil
        rw [hnil] at e
        exact hd1' (List.map_eq_nil_iff.1 e)
      rcases hend' with hend' | hend'
      · have hle : d1.length ≤ X.nc := by have := h2.count; have := h2.le; omega
        have hl' : l' ≠ 0 := by have := h2'.count; have := h.nc; omega
        obtain ⟨hx', hp'⟩ := h2'.stall hl'
        rw [h2'.res] at hp'
        have hp := pick_same h hsign hcol (fun i hi => resAt_same h hsign hy.symm hy' hd hd' e hltc hi) (hclear _ hlt)
          (h2.lt _ (List.getElem_mem _)) hp'
        have hmem : d1[d'.length] ∈ d1.take d'.length := by
          rw [← hp, ← e]
          exact List.mem_map_of_mem hx'
        obtain ⟨i, hi, ei⟩ := List.mem_take_iff_getElem.1 hmem
        have := (h2.nodup.getElem_inj_iff).1 ei
        omega
      · rw [h2'.model_eq, ompRmse_same h hsign hy.symm hy' hd hd' hne e hltc] at hend'
        exact hlate d'.length (List.length_pos_iff.2 hd1') hlt (lt_of_mul_lt_mul_left hend' htpos.le)
    · exact he
    · exfalso
      have e := take d1.length le_rfl hgt.le
      rw [List.take_length] at e
      refine hlate' d1.length (List.length_pos_iff.2 hd1) hgt ?_
      rw [ompRmse_same h hsign hy.symm hy' hd hd' hd1 e h2.lt, ← hmodel, ompRmse_eq svd X y hy h2 hk]
      exact mul_lt_mul_of_pos_left htol htpos
  have e := take d1.length le_rfl hlen.ge
  rw [← hlen, List.take_length, hlen, List.take_length] at e
  refine ⟨_, d', h1', rfl, e, fun j hj => ?_⟩
  show vec st'.coeff j = t * s j * vec st.coeff (π j)
  rw [state_coeff h2' hk' (by rw [h.nc]; exact hj), state_coeff h2 hk ((h.col j).2 hj)]
  refine ompFit_same h hsign hy.symm hy' hd hd' h2.len ?_ ?_ j hj
  · rw [hmodel]
    exact card_modelOf_pos hd1 h2.lt
  · rw [hmodel, h2'.model_eq]
    exact sameFeatures_modelOf h e h2.lt

namespace OmpExample

/-- Two of the features of `UnitExample` matter. -/
noncomputable def y : List ℝ := [100, 10, 0, 0, 1]

theorem refl (X : Mat ℝ) (y : List ℝ) : SameDataIn X X y y (Equiv.refl _) (Equiv.refl _) (fun _ => 1) 1 where
  nr := rfl
  nc := rfl
  row _ := Iff.rfl
  col _ := Iff.rfl
  unit _ := one_ne_zero
  unitY := one_ne_zero
  get _ _ _ _ := by simp
  target i _ := by simp

theorem res {svd : Mat ℝ → SVD ℝ} (hd : ∀ A, (svd A).Of A) {m : List Bool} (hm : m.length = 3) {i : Nat} (hi : i < 5) :
    vec (ompRes svd UnitExample.X y m) i = if HasFeature m i then 0 else -vec y i := by
  have off : ∀ i < 5, ¬ HasFeature m i → vec (ompRes svd UnitExample.X y m) i = -vec y i := by
    intro i hi hf
    rw [vec_ompRes svd (X := UnitExample.X) (y := y) rfl hm hi]
    have : lin UnitExample.X (coeffAt m (ompFit svd UnitExample.X y m)) i = 0 := by
      refine sum_eq_zero fun j _ => ?_
      by_cases hj : i = j
      · subst hj
        have : coeffAt m (ompFit svd UnitExample.X y m) i = 0 := if_neg fun h => hf ((mem_features _ _).1 h)
        rw [this, mul_zero]
      · simp [UnitExample.X, unitX, hj]
    rw [this, zero_sub]
  have hsum : ∑ i ∈ range 5, vec (ompRes svd UnitExample.X y m) i ^ 2 = ∑ i ∈ range 5, if HasFeature m i then 0 else vec y i ^ 2 := by
    have h1 := unitX_sse (fit_leastSquares (UnitExample.exact hd hm) (ompFit_fit svd UnitExample.X y rfl m))
    rw [← h1]
    refine sum_congr rfl fun i hi => ?_
    have hi' : i < 5 := mem_range.1 hi
    unfold ompRes ompPred vec
    have hx : i < UnitExample.X.nr := hi'
    have hy : i < y.length := hi'
    simp [List.getD_eq_getElem?_getD, List.getElem?_zipWith, hx, hy]
    rfl
  have hz : ∑ i ∈ range 5, (vec (ompRes svd UnitExample.X y m) i ^ 2 - if HasFeature m i then 0 else vec y i ^ 2) = 0 := by
    rw [sum_sub_distrib, hsum, sub_self]
  rw [Finset.sum_eq_zero_iff_of_nonneg] at hz
  · have h2 := hz i (mem_range.2 hi)
    split_ifs with hf
    · rw [if_pos hf, sub_zero] at h2
      exact pow_eq_zero_iff two_ne_zero |>.1 h2
    · exact off i hi hf
  · intro i hi
    split_ifs with hf
    · rw [sub_zero]
      exact sq_nonneg _
    · rw [off i (mem_range.1 hi) hf]
      simp

theorem rmse_eq {svd : Mat ℝ → SVD ℝ} (hd : ∀ A, (svd A).Of A) {m : List Bool} (hm : m.length = 3) :
    ompRmse svd UnitExample.X y m = √((∑ i ∈ range 5, if HasFeature m i then 0 else vec y i ^ 2) / 5) := by
  rw [ompRmse_res svd (X := UnitExample.X) (y := y) rfl]
  show √((∑ i ∈ range 5, _) / ((5 : Nat) : ℝ)) = _
  norm_num only
  congr 2
  refine sum_congr rfl fun i hi => ?_
  rw [res hd hm (mem_range.1 hi)]
  split_ifs
  · norm_num
  · ring

theorem feature {l : List Nat} (hl : ∀ i ∈ l, i < 3) (i : Nat) : HasFeature (modelOf UnitExample.X.nc l) i ↔ i ∈ l :=
  modelOf_feature 3 l hl i

theorem clear {svd : Mat ℝ → SVD ℝ} (hd : ∀ A, (svd A).Of A) (j : Nat) (hj : j < 2) :
    ClearChoice UnitExample.X (vec (resAt svd UnitExample.X y ([0, 1].take j))) ([0, 1] : List Nat)[j] := by
  have corr : ∀ (r : Nat → ℝ) (k : Nat), k < 3 → ∑ q ∈ range UnitExample.X.nr, UnitExample.X.get q k * r q = r k := by
    intro r k hk
    show ∑ q ∈ range 5, (if q = k then 1 else 0) * r q = r k
    simp only [ite_mul, one_mul, zero_mul]
    rw [Finset.sum_ite_eq', if_pos (mem_range.2 (by omega))]
  have len : ∀ k < 3, ∑ q ∈ range UnitExample.X.nr, UnitExample.X.get q k * UnitExample.X.get q k = 1 := by
    intro k hk
    rw [corr _ k hk]
    simp [UnitExample.X, unitX]
  interval_cases j
  · refine ⟨⟨0, by show 0 < 5; omega, by norm_num [resAt, vec, y]⟩, fun k hk hne => ?_⟩
    have hk : k < 3 := hk
    rw [len _ hk, len _ (by norm_num), corr _ _ hk, corr _ _ (by norm_num)]
    have hne : k ≠ 0 := hne
    interval_cases k
    · exact absurd rfl hne
    · norm_num [resAt, vec, y]
    · norm_num [resAt, vec, y]
  · have e : ∀ i < 5, vec (resAt svd UnitExample.X y ([0, 1].take 1)) i = if i = 0 then 0 else -vec y i := by
      intro i hi
      show vec (ompRes svd UnitExample.X y (modelOf UnitExample.X.nc [0])) i = _
      rw [res hd (by rfl) hi]
      simp only [feature (l := [0]) (by simp), List.mem_singleton]
    refine ⟨⟨1, by show 1 < 5; omega, by rw [e 1 (by omega)]; norm_num [vec, y]⟩, fun k hk hne => ?_⟩
    have hk : k < 3 := hk
    have hne : k ≠ 1 := hne
    rw [len _ hk, len _ (by norm_num), corr _ _ hk, corr _ _ (by norm_num), e k (by omega)]
    show _ < vec (resAt svd UnitExample.X y ([0, 1].take 1)) 1 ^ 2 * 1
    rw [e 1 (by omega)]
    interval_cases k
    · norm_num [vec, y]
    · exact absurd rfl hne
    · norm_num [vec, y]

theorem columns : ∀ i < UnitExample.X.nc, ∃ q < UnitExample.X.nr, UnitExample.X.get q i ≠ 0 := by
  intro i hi
  have hi : i < 3 := hi
  exact ⟨i, by show i < 5; omega, by simp [UnitExample.X, unitX]⟩

/-- The run on these data meets the hypotheses of `C174_omp`. -/
theorem run (svd : Mat ℝ → SVD ℝ) (hd : ∀ A, (svd A).Of A) : ∃ r, omp svd UnitExample.X y 1 = some r ∧
    r.order = ([0, 1] : List Nat).map Int.ofNat ∧ rmse UnitExample.X r.coeff y < 1 ∧
    ∀ j (hj : j < ([0, 1] : List Nat).length), ClearChoice UnitExample.X (vec (resAt svd UnitExample.X y ([0, 1].take j)))
      ([0, 1] : List Nat)[j] := by
  obtain ⟨st, k, d, l, x, h1, h2, hend, hk, hd1, hlate⟩ := omp_main svd UnitExample.X y 1 (by simp [y]) (by show 3 ≠ 0; omega) rfl
  have pick : ∀ (r : List ℝ) (a b : Nat), ClearChoice UnitExample.X (vec r) a → a < 3 →
      argmax (ompProj UnitExample.X r) = some b → b = a := fun r a b hc ha hb =>
    pick_same (refl UnitExample.X y) (by simp) columns (fun i _ => by simp) hc ha hb
  have r1 : ¬ ompRmse svd UnitExample.X y (modelOf UnitExample.X.nc [0]) < 1 := by
    rw [rmse_eq hd (by rfl)]
    simp only [feature (l := [0]) (by simp), sum_range_succ, sum_range_zero]
    rw [not_lt]
    refine Real.le_sqrt_of_sq_le ?_
    norm_num [vec, y]
  have r2 : ompRmse svd UnitExample.X y (modelOf UnitExample.X.nc [0, 1]) < 1 := by
    rw [rmse_eq hd (by rfl)]
    simp only [feature (l := [0, 1]) (by simp), sum_range_succ, sum_range_zero]
    rw [Real.sqrt_lt' one_pos]
    norm_num [vec, y]
  rcases d with _ | ⟨a, d⟩
  · exact absurd rfl hd1
  have ha : a = 0 := pick _ 0 a (clear hd 0 (by omega)) (by omega) (h2.pick 0 (by simp))
  subst ha
  rcases d with _ | ⟨b, d⟩
  · exfalso
    rcases hend with hend | hend
    · have hl : l ≠ 0 := by
        have := h2.count
        have h3 : UnitExample.X.nc = 3 := rfl
        simp at this
        omega
      obtain ⟨hx, hp⟩ := h2.stall hl
      rw [h2.res] at hp
      have := pick _ 1 x (clear hd 1 (by omega)) (by omega) hp
      simp at hx
      omega
    · rw [h2.model_eq] at hend
      exact r1 hend
  have hb : b = 1 := pick _ 1 b (clear hd 1 (by omega)) (by omega) (h2.pick 1 (by simp))
  subst hb
  rcases d with _ | ⟨c, d⟩
  · refine ⟨_, h1, rfl, ?_, fun j hj => clear hd j hj⟩
    show rmse UnitExample.X st.coeff y < 1
    rw [← ompRmse_eq svd UnitExample.X y rfl h2 hk, h2.model_eq]
    exact r2
  · exact absurd r2 (hlate 2 (by omega) (by simp))

example (svd : Mat ℝ → SVD ℝ) (hd : ∀ A, (svd A).Of A) : ∃ (r : OmpResult) (d' : List Nat),
    omp svd UnitExample.X y (|1| * 1) = some r ∧ r.order = d'.map Int.ofNat ∧ d'.map (Equiv.refl Nat) = [0, 1] := by
  obtain ⟨r, h1, h2, h3, h4⟩ := run svd hd
  obtain ⟨r', d', g1, g2, g3, -⟩ := C174_omp svd svd (refl UnitExample.X y) (by simp) rfl hd hd columns h1 [0, 1] h2 h4 h3
  exact ⟨r', d', g1, g2, g3⟩

end OmpExample

end GoSelect
