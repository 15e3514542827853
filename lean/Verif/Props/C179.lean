import Verif.Props.C174
import Verif.Props.C178

/-!
# C179: leaving out columns that orthogonal matching pursuit does not choose
-/

namespace GoSelect

open Finset Spec

section
variable {svd svd' : Mat ℝ → SVD ℝ} {idx : List Nat} {X X' : Mat ℝ} {y : List ℝ}

theorem Spec.ColumnsOf.colNorm (h : ColumnsOf idx X X') {j : Nat} (hj : j < idx.length) :
    GoSelect.colNorm X' j = GoSelect.colNorm X (idx.getD j 0) := by
  unfold GoSelect.colNorm
  rw [h.nr]
  congr 1
  refine sum_congr rfl fun q hq => ?_
  rw [h.get q (mem_range.1 hq) j hj]

theorem Spec.ColumnsOf.dot (h : ColumnsOf idx X X') (r : List ℝ) {j : Nat} (hj : j < idx.length) :
    ∑ q ∈ Finset.range X'.nr, X'.get q j * r.getD q 0 = ∑ q ∈ Finset.range X.nr, X.get q (idx.getD j 0) * r.getD q 0 := by
  rw [h.nr]
  refine sum_congr rfl fun q hq => ?_
  rw [h.get q (mem_range.1 hq) j hj]

/-- If the column chosen is kept, it is chosen among the columns kept; also if other columns are equally correlated. -/
theorem pick_columns (h : ColumnsOf idx X X') (hcol : ∀ i, i < X.nc → colNorm X i ≠ 0) {r : List ℝ} {x x' : Nat}
    (hp : argmax (ompProj X r) = some x) (hx : x ∈ idx) (hp' : argmax (ompProj X' r) = some x') : idx.getD x' 0 = x := by
  classical
  have hq := List.idxOf_lt_length_iff.2 hx
  have eq : idx.getD (idx.idxOf x) 0 = x := by
    rw [List.getD_eq_getElem?_getD, List.getElem?_eq_getElem hq]
    simp
  have hcol' : ∀ i, i < X'.nc → colNorm X' i ≠ 0 := fun i hi => by
    rw [h.nc] at hi
    rw [h.colNorm hi]
    exact hcol _ (h.range _ (h.getD_mem hi))
  by_cases hr : norm2 r = 0
  · have hz : ∀ q, r.getD q 0 = 0 := fun q => norm2_eq_zero r hr q
    have hx0 := argmax_stuck (by have := h.range x hx; omega) hcol (fun i _ => by simp only [hz, mul_zero, sum_const_zero]) hp
    have hx0' := argmax_stuck (by rw [h.nc]; omega) hcol' (fun i _ => by simp only [hz, mul_zero, sum_const_zero]) hp'
    subst hx0
    subst hx0'
    rcases Nat.eq_zero_or_pos (idx.idxOf 0) with e | e
    · rw [e] at eq
      exact eq
    · have := h.lt e hq
      omega
  · rw [ompProj_fin X _ hr hcol, argmax_map_fin] at hp
    rw [ompProj_fin X' _ hr hcol', argmax_map_fin] at hp'
    obtain ⟨v, hv1, hv2, hv3⟩ := (C36_argmax _).2 _ hp
    obtain ⟨w, hw1, hw2, hw3⟩ := (C36_argmax _).2 _ hp'
    have hxlt : x < X.nc := h.range x hx
    have hx' : x' < X'.nc := by simpa using (List.getElem?_eq_some_iff.1 hw1).1
    have hx'' : x' < idx.length := h.nc ▸ hx'
    rw [List.getElem?_map, List.getElem?_range hxlt, Option.map_some, Option.some.injEq] at hv1
    rw [List.getElem?_map, List.getElem?_range hx', Option.map_some, Option.some.injEq, h.dot r hx'', h.colNorm hx''] at hw1
    have hk := h.range _ (h.getD_mem hx'')
    rcases Nat.lt_trichotomy x' (idx.idxOf x) with hlt | he | hgt
    · exfalso
      have h1 := h.lt hlt hq
      rw [eq] at h1
      have h2 := hv3 _ h1 w (by rw [List.getElem?_map, List.getElem?_range hk, Option.map_some, hw1])
      have h3 := hw2 v (List.mem_map.2 ⟨idx.idxOf x, List.mem_range.2 (h.nc ▸ hq), by rw [h.dot r hq, h.colNorm hq, eq, hv1]⟩)
      exact absurd h2 (not_lt.2 h3)
    · rw [he]
      exact eq
    · exfalso
      have h2 := hw3 _ hgt v (by
        rw [List.getElem?_map, List.getElem?_range (h.nc ▸ hq), Option.map_some, h.dot r hq, h.colNorm hq, eq, hv1])
      have h3 := hv2 w (List.mem_map.2 ⟨_, List.mem_range.2 hk, hw1⟩)
      exact absurd h2 (not_lt.2 h3)

theorem sameModel_modelOf (h : ColumnsOf idx X X') {l l' : List Nat} (hl : l'.map (fun j => idx.getD j 0) = l)
    (hlt' : ∀ i ∈ l', i < X'.nc) : SameModel idx (modelOf X.nc l) (modelOf X'.nc l') := by
  have hlt : ∀ i ∈ l, i < X.nc := by
    intro i hi
    rw [← hl] at hi
    obtain ⟨j, hj, rfl⟩ := List.mem_map.1 hi
    exact h.range _ (h.getD_mem (h.nc ▸ hlt' j hj))
  obtain ⟨m, m1, m2⟩ := h.lift (m' := modelOf X'.nc l') (by simp [modelOf])
  have e : m = modelOf X.nc l := by
    apply model_ext (by simp [modelOf, m1])
    intro i
    rw [modelOf_feature _ _ hlt, ← mem_features, m2, ← hl]
    simp only [List.mem_map, mem_features, modelOf_feature _ _ hlt']
  exact e ▸ m2

theorem ompFit_columns (h : ColumnsOf idx X X') (hy : y.length = X.nr) (hd : ∀ A, (svd A).Of A) (hd' : ∀ A, (svd' A).Of A)
    {m m' : List Bool} (hm : m.length = X.nc) (hm' : m'.length = X'.nc) (hpos : 0 < Spec.card m') (hmm : SameModel idx m m') :
    ompFit svd' X' y m' = ompFit svd X y m := by
  have hy' : y.length = X'.nr := by rw [hy, h.nr]
  obtain ⟨c, r, f1, g1⟩ := C177_fit svd svd' hd hd' h hy hm hm' hpos hmm
  obtain ⟨b, k1, k2, -⟩ := fitModel_eq_some (svd := svd) hy (hmm.card ▸ hpos) hm.le
  obtain ⟨b', l1, l2, -⟩ := fitModel_eq_some (svd := svd') hy' hpos hm'.le
  rw [f1, Option.some.injEq, Prod.mk.injEq] at k1
  rw [g1, Option.some.injEq, Prod.mk.injEq] at l1
  rw [ompFit_fit svd X y hy.symm, Option.some.injEq] at k2
  rw [ompFit_fit svd' X' y hy'.symm, Option.some.injEq] at l2
  rw [k2, l2, ← k1.1, ← l1.1]

theorem ompPred_columns (h : ColumnsOf idx X X') (hy : y.length = X.nr) (hd : ∀ A, (svd A).Of A) (hd' : ∀ A, (svd' A).Of A)
    {m m' : List Bool} (hm : m.length = X.nc) (hm' : m'.length = X'.nc) (hpos : 0 < Spec.card m') (hmm : SameModel idx m m') :
    ompPred svd' X' y m' = ompPred svd X y m := by
  unfold ompPred
  rw [h.nr, ompFit_columns h hy hd hd' hm hm' hpos hmm]
  apply List.map_congr_left
  intro i hi
  have hi' : i < X.nr := by simpa using hi
  unfold Spec.lin
  show ∑ j ∈ Finset.range (Spec.card m'), _ = ∑ j ∈ Finset.range (Spec.card m), _
  rw [hmm.card]
  refine sum_congr rfl fun j hj => ?_
  rw [h.design hm' hmm hi' (mem_range.1 hj)]

theorem resAt_columns (h : ColumnsOf idx X X') (hy : y.length = X.nr) (hd : ∀ A, (svd A).Of A) (hd' : ∀ A, (svd' A).Of A)
    {l l' : List Nat} (hl : l'.map (fun j => idx.getD j 0) = l) (hlt' : ∀ i ∈ l', i < X'.nc) :
    resAt svd' X' y l' = resAt svd X y l := by
  unfold resAt
  by_cases h0 : l' = []
  · have h0' : l = [] := by rw [← hl, h0]; rfl
    rw [if_pos h0, if_pos h0']
  · have h0' : l ≠ [] := by
      rintro rfl
      exact h0 (List.map_eq_nil_iff.1 hl)
    rw [if_neg h0, if_neg h0']
    unfold ompRes
    rw [ompPred_columns h hy hd hd' (by simp [modelOf]) (by simp [modelOf]) (card_modelOf_pos h0 hlt') (sameModel_modelOf h hl hlt')]

theorem ompRmse_columns (h : ColumnsOf idx X X') (hy : y.length = X.nr) (hd : ∀ A, (svd A).Of A) (hd' : ∀ A, (svd' A).Of A)
    {l l' : List Nat} (hl : l'.map (fun j => idx.getD j 0) = l) (h0 : l' ≠ []) (hlt' : ∀ i ∈ l', i < X'.nc) :
    ompRmse svd' X' y (modelOf X'.nc l') = ompRmse svd X y (modelOf X.nc l) := by
  unfold ompRmse
  rw [ompPred_columns h hy hd hd' (by simp [modelOf]) (by simp [modelOf]) (card_modelOf_pos h0 hlt') (sameModel_modelOf h hl hlt'), h.nr]

end

/-- **C179.** If `Omp` reaches its tolerance it does the same on any of the columns that include those chosen: `Order` lists the same
features in the same order and `Coeff` has the same coefficients.  Also if several columns are equally correlated with the residuals, if
singular values are discarded, and whichever decompositions are found. -/
theorem C179_omp (svd svd' : Mat ℝ → SVD ℝ) {idx : List Nat} {X X' : Mat ℝ} {y : List ℝ} (h : ColumnsOf idx X X')
    (hd : ∀ A, (svd A).Of A) (hd' : ∀ A, (svd' A).Of A) (hcol : ∀ i < X.nc, ∃ q < X.nr, X.get q i ≠ 0) {tol : ℝ} {res : OmpResult}
    (hres : omp svd X y tol = some res) (hkept : ∀ i ∈ res.order, ∃ k ∈ idx, i = Int.ofNat k) (htol : rmse X res.coeff y < tol) :
    ∃ (res' : OmpResult) (d' : List Nat), omp svd' X' y tol = some res' ∧ res'.order = d'.map Int.ofNat ∧
      res.order = d'.map (fun k => Int.ofNat (idx.getD k 0)) ∧ ∀ k < idx.length, vec res'.coeff k = vec res.coeff (idx.getD k 0) := by
  obtain ⟨h0, hc, hy⟩ := omp_some svd X y tol hres
  obtain ⟨st, k, d, l, x, h1, h2, -, hk, hd1, hlate⟩ := omp_main svd X y tol h0 hc hy
  rw [h1, Option.some.injEq] at hres
  subst hres
  have hsub : ∀ i ∈ d, i ∈ idx := by
    intro i hi
    obtain ⟨j, hj, e⟩ := hkept (Int.ofNat i) (List.mem_map_of_mem hi)
    have : i = j := by simpa using e
    exact this ▸ hj
  have hle : d.length ≤ idx.length := (h2.nodup.subperm hsub).length_le
  have hc' : X'.nc ≠ 0 := by
    rw [h.nc]
    have := List.length_pos_iff.2 hd1
    omega
  have hcn : ∀ i, i < X.nc → colNorm X i ≠ 0 := fun i hi => colNorm_ne_zero (hcol i hi)
  obtain ⟨st', k', d', l', x', h1', h2', hend', hk', hd1', hlate'⟩ := omp_main svd' X' y tol h0 hc' (by rw [h.nr, hy])
  have take : ∀ j, j ≤ d.length → j ≤ d'.length → (d'.take j).map (fun j => idx.getD j 0) = d.take j := by
    intro j
    induction j with
    | zero => intro _ _; simp
    | succ j ih =>
      intro hj hj'
      have e := ih (by omega) (by omega)
      have hlt : ∀ i ∈ d'.take j, i < X'.nc := fun i hi => h2'.lt i (List.mem_of_mem_take hi)
      have p1 := h2.pick j (by omega)
      have p2 := h2'.pick j (by omega)
      rw [resAt_columns h hy.symm hd hd' e hlt] at p2
      have hp := pick_columns h hcn p1 (hsub _ (List.getElem_mem _)) p2
      rw [List.take_succ_eq_append_getElem (by omega), List.take_succ_eq_append_getElem (by omega), List.map_append, e,
        List.map_singleton, hp]
  have hlen : d'.length = d.length := by
    rcases Nat.lt_trichotomy d'.length d.length with hlt | he | hgt
    · exfalso
      have e := take d'.length hlt.le le_rfl
      rw [List.take_length] at e
      rcases hend' with hend' | hend'
      · have hl' : l' ≠ 0 := by have := h2'.count; have := h.nc; omega
        obtain ⟨hx', hp'⟩ := h2'.stall hl'
        rw [h2'.res, resAt_columns h hy.symm hd hd' e h2'.lt] at hp'
        have hp := pick_columns h hcn (h2.pick _ hlt) (hsub _ (List.getElem_mem _)) hp'
        have hmem : d[d'.length] ∈ d.take d'.length := by
          rw [← hp, ← e]
          exact List.mem_map_of_mem (f := fun j => idx.getD j 0) hx'
        obtain ⟨i, hi, ei⟩ := List.mem_take_iff_getElem.1 hmem
        have := (h2.nodup.getElem_inj_iff).1 ei
        omega
      · rw [h2'.model_eq, ompRmse_columns h hy.symm hd hd' e hd1' h2'.lt] at hend'
        exact hlate d'.length (List.length_pos_iff.2 hd1') hlt hend'
    · exact he
    · exfalso
      have e := take d.length le_rfl hgt.le
      rw [List.take_length] at e
      refine hlate' d.length (List.length_pos_iff.2 hd1) hgt ?_
      rw [ompRmse_columns h hy.symm hd hd' e ?_ fun i hi => h2'.lt i (List.mem_of_mem_take hi), ← h2.model_eq,
        ompRmse_eq svd X y hy h2 hk]
      · exact htol
      · intro hnil
        rw [hnil] at e
        exact hd1 e.symm
  have e := take d.length le_rfl hlen.ge
  rw [← hlen, List.take_length, hlen, List.take_length] at e
  have hmm : SameModel idx st.model st'.model := by
    rw [h2.model_eq, h2'.model_eq]
    exact sameModel_modelOf h e h2'.lt
  have hpos : 0 < Spec.card st'.model := by
    rw [h2'.model_eq]
    exact card_modelOf_pos hd1' h2'.lt
  have hfit := ompFit_columns h hy.symm hd hd' h2.len h2'.len hpos hmm
  refine ⟨_, d', h1', rfl, ?_, fun j hj => ?_⟩
  · show d.map Int.ofNat = _
    rw [← e, List.map_map]
    rfl
  · show vec st'.coeff j = vec st.coeff (idx.getD j 0)
    obtain ⟨-, a2, a3⟩ := (h2.fit hk).1
    obtain ⟨-, b2, b3⟩ := (h2'.fit hk').1
    unfold vec
    rw [List.getD_eq_getElem?_getD, List.getD_eq_getElem?_getD]
    congr 1
    have hfe : features st.model = (features st'.model).map (fun j => idx.getD j 0) := hmm
    by_cases hf : j ∈ features st'.model
    · have hi := List.idxOf_lt_length_iff.2 hf
      have u1 := b3 _ hi
      have u2 := a3 ((features st'.model).idxOf j) (hmm.card ▸ hi)
      have v1 : (features st'.model).getD ((features st'.model).idxOf j) 0 = j := by
        rw [List.getD_eq_getElem?_getD, List.getElem?_eq_getElem hi]
        simp
      have v2 : (features st.model).getD ((features st'.model).idxOf j) 0 = idx.getD j 0 := by
        rw [hfe, List.getD_eq_getElem?_getD, List.getElem?_map, List.getElem?_eq_getElem hi]
        simp
      rw [v1] at u1
      rw [v2] at u2
      rw [u1, u2, hfit]
    · rw [b2 j (h.nc ▸ hj) fun hh => hf ((mem_features _ _).2 hh), a2 _ (h.range _ (h.getD_mem hj)) fun hh => hf ?_]
      have hh' := (mem_features _ _).2 hh
      rw [hfe] at hh'
      obtain ⟨i, hi, ei⟩ := List.mem_map.1 hh'
      have hi' : i < idx.length := by
        rw [← h.nc, ← h2'.len]
        exact features_lt hi
      have := congrArg idx.idxOf ei
      rw [h.idxOf_getD hi', h.idxOf_getD hj] at this
      exact this ▸ hi

namespace OmpExample

/-- The first two of the three columns of the example of C174. -/
theorem kept : ColumnsOf [0, 1] UnitExample.X ⟨5, 2, fun i j => UnitExample.X.get i ([0, 1].getD j 0)⟩ := by
  refine ⟨rfl, rfl, by simp, ?_, fun i _ j _ => rfl⟩
  intro f hf
  show f < 3
  simp at hf
  omega

/-- Without the last column the same features are chosen. -/
example (svd : Mat ℝ → SVD ℝ) (hd : ∀ A, (svd A).Of A) : ∃ r r' : OmpResult, omp svd UnitExample.X y 1 = some r ∧ r.order = [0, 1] ∧
    omp svd ⟨5, 2, fun i j => UnitExample.X.get i ([0, 1].getD j 0)⟩ y 1 = some r' ∧ vec r'.coeff 1 = vec r.coeff 1 := by
  obtain ⟨r, h1, h2, h3, -⟩ := run svd hd
  obtain ⟨r', d', g1, -, -, g4⟩ := C179_omp svd svd kept hd hd columns h1 (by
    intro i hi
    rw [h2] at hi
    obtain ⟨k, hk, rfl⟩ := List.mem_map.1 hi
    exact ⟨k, hk, rfl⟩) h3
  exact ⟨r, r', h1, h2, g1, g4 1 (by simp)⟩

end OmpExample

end GoSelect
