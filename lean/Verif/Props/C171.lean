import Verif.Props.C170

/-!
# C171: the order and the signs of the features
-/

namespace GoSelect

open Finset Spec

theorem sum_range_reindex {n : Nat} {τ : Nat → Nat} (hτ : ∀ k < n, τ k < n) (hinj : ∀ k < n, ∀ l < n, τ k = τ l → k = l)
    (f : Nat → ℝ) : ∑ k ∈ range n, f (τ k) = ∑ k ∈ range n, f k := by
  have hi : Set.InjOn τ (range n : Set Nat) := fun k hk l hl e =>
    hinj k (mem_range.1 (Finset.mem_coe.1 hk)) l (mem_range.1 (Finset.mem_coe.1 hl)) e
  have himg : (range n).image τ = range n := by
    refine Finset.eq_of_subset_of_card_le (fun k hk => ?_) ?_
    · obtain ⟨l, hl, rfl⟩ := Finset.mem_image.1 hk
      exact mem_range.2 (hτ l (mem_range.1 hl))
    · rw [Finset.card_image_of_injOn hi]
  conv_rhs => rw [← himg]
  rw [Finset.sum_image hi]

/-- A decomposition for rows and columns in another order, the columns with other signs. -/
theorem svd_reorder {d : SVD ℝ} {D D' : Mat ℝ} (hd : d.Of D) (hnr : D'.nr = D.nr) (hnc : D'.nc = D.nc) {ρ : Equiv.Perm Nat}
    (hρ : ∀ i, ρ i < D.nr ↔ i < D.nr) {τ : Nat → Nat} (hτ : ∀ k < D.nc, τ k < D.nc)
    (hinj : ∀ k < D.nc, ∀ l < D.nc, τ k = τ l → k = l) {σ : Nat → ℝ} (hσ : ∀ k, σ k ^ 2 = 1)
    (hget : ∀ i k, i < D.nr → k < D.nc → D'.get i k = σ k * D.get (ρ i) (τ k)) :
    SVD.Of ⟨d.p, fun i k => d.u (ρ i) k, d.s, fun k l => σ k * d.v (τ k) l⟩ D' := by
  refine ⟨?_, ?_, ?_, ?_, hd.nonneg, hd.sorted⟩
  · rw [hnr, hnc]
    exact hd.size
  · intro i k hi hk
    rw [hnr] at hi
    rw [hnc] at hk
    rw [hget i k hi hk, hd.prod _ _ ((hρ i).2 hi) (hτ k hk), Finset.mul_sum]
    exact Finset.sum_congr rfl fun l _ => by ring
  · intro k l hk hl
    rw [← hd.uOrth k l hk hl, hnr]
    exact sum_range_perm ρ hρ (fun i => d.u i k * d.u i l)
  · intro k l hk hl
    rw [← hd.vOrth k l hk hl, hnc, ← sum_range_reindex hτ hinj (fun j => d.v j k * d.v j l)]
    refine Finset.sum_congr rfl fun j _ => ?_
    have : σ j * d.v (τ j) k * (σ j * d.v (τ j) l) = σ j ^ 2 * (d.v (τ j) k * d.v (τ j) l) := by ring
    rw [this, hσ, one_mul]

/-- **C171.** With the rows and columns in another order, columns with other signs and the target in another unit, the fit of a model is
the same: coefficients in the new order, signs and unit, and the residual sum of squares in the new unit.  Also if singular values
are discarded, and whichever decompositions are found. -/
theorem C171_fit (svd svd' : Mat ℝ → SVD ℝ) {X X' : Mat ℝ} {y y' : List ℝ} {ρ π : Equiv.Perm Nat} {s : Nat → ℝ} {t : ℝ}
    (h : SameDataIn X X' y y' ρ π s t) (hsign : ∀ j, s j ^ 2 = 1) (hy : y.length = X.nr) (hy' : y'.length = X'.nr)
    {m m' : List Bool} (hm : m.length = X.nc) (hpos : 0 < Spec.card m) (hmm : SameFeatures π m m')
    (hd : (svd (designOf X m)).Of (designOf X m)) (hd' : (svd' (designOf X' m')).Of (designOf X' m')) :
    ∃ c r c', fitModel svd X y m = some (c, r) ∧ fitModel svd' X' y' m' = some (c', t ^ 2 * r) ∧
      ∀ j < X.nc, coeffAt m' c' j = t * s j * coeffAt m c (π j) := by
  have hm' : m'.length = X'.nc := by rw [hmm.1, hm, h.nc]
  obtain ⟨c, f1, f2, f3⟩ := fitModel_eq_some (svd := svd) hy hpos hm.le
  obtain ⟨c', g1, g2, g3⟩ := fitModel_eq_some (svd := svd') hy' (hmm.card.symm ▸ hpos) hm'.le
  have hlt : ∀ i ∈ features m, i < X.nc := fun i hi => (features_lt hi).trans_le hm.le
  have hlt' : ∀ i ∈ features m', i < X'.nc := fun i hi => (features_lt hi).trans_le hm'.le
  have hcard : Spec.card m' = Spec.card m := hmm.card
  have nth : ∀ k < Spec.card m', (features m').getD k 0 ∈ features m' := by
    intro k hk
    have hk' : k < (features m').length := hk
    have e : (features m').getD k 0 = (features m')[k] := by simp [hk']
    rw [e]
    exact List.getElem_mem hk'
  have hπ : ∀ j, j ∈ features m' ↔ π j ∈ features m := fun j => by rw [mem_features, mem_features]; exact hmm.2 j
  set τ : Nat → Nat := fun k => (features m).idxOf (π ((features m').getD k 0)) with hτdef
  set σ : Nat → ℝ := fun k => s ((features m').getD k 0) with hσdef
  have at_idx : ∀ (L : List Nat) (i : Nat), i ∈ L → L.getD (L.idxOf i) 0 = i := by
    intro L i hi
    have h1 := List.idxOf_lt_length_iff.2 hi
    rw [List.getD_eq_getElem?_getD, List.getElem?_eq_getElem h1]
    simp
  have hτ : ∀ k < Spec.card m, τ k < Spec.card m := fun k hk =>
    List.idxOf_lt_length_iff.2 ((hπ _).1 (nth k (hcard ▸ hk)))
  have hτget : ∀ k < Spec.card m, (features m).getD (τ k) 0 = π ((features m').getD k 0) := fun k hk =>
    at_idx _ _ ((hπ _).1 (nth k (hcard ▸ hk)))
  have hinj : ∀ k < Spec.card m, ∀ l < Spec.card m, τ k = τ l → k = l := by
    intro k hk l hl e
    have e1 := hτget k hk
    rw [e, hτget l hl] at e1
    have e2 := π.injective e1
    have hk' : k < (features m').length := (hcard ▸ hk : k < Spec.card m')
    have hl' : l < (features m').length := (hcard ▸ hl : l < Spec.card m')
    have e3 : (features m')[l] = (features m')[k] := by simpa [hk', hl'] using e2
    exact ((features_nodup m').getElem_inj_iff.1 e3).symm
  have hget : ∀ i k, i < X.nr → k < Spec.card m → (designOf X' m').get i k = σ k * (designOf X m).get (ρ i) (τ k) := by
    intro i k hi hk
    show X'.get i ((features m').getD k 0) = σ k * X.get (ρ i) ((features m).getD (τ k) 0)
    rw [hτget k hk, h.get i _ hi (by rw [← h.nc]; exact hlt' _ (nth k (hcard ▸ hk)))]
  have hd2 := svd_reorder (D := designOf X m) (D' := designOf X' m') hd h.nr hcard h.row hτ hinj (fun k => hsign _) hget
  obtain ⟨c2, r2, k1, k2, -, -⟩ := C170_fit _ (svd' (designOf X' m')) (designOf X' m') (designOf X' m') y' y' hd2 hd' hy' hy'
    ⟨rfl, fun _ _ _ _ => rfl, fun _ _ => rfl, rfl⟩
  rw [g2, Option.some.injEq] at k2
  subst k2
  have hcoef : ∀ k < Spec.card m, vec c' k = t * σ k * vec c (τ k) := by
    intro k hk
    rw [fit_eq_some (X := designOf X' m') hy'.symm, Option.some.injEq] at k1
    rw [fit_eq_some (X := designOf X m) hy.symm, Option.some.injEq] at f2
    rw [← k1, ← f2]
    have n1 : (designOf X' m').nc = Spec.card m := hcard
    have n2 : (designOf X m).nc = Spec.card m := rfl
    have n3 : (designOf X' m').nr = X.nr := h.nr
    have n4 : (designOf X m).nr = X.nr := rfl
    unfold vec
    rw [getD_map_range, if_pos (n1 ▸ hk), getD_map_range, if_pos (n2 ▸ hτ k hk)]
    unfold svdCoeff
    rw [Finset.mul_sum, n3, n4]
    refine Finset.sum_congr rfl fun l _ => ?_
    have e : ∑ i ∈ range X.nr, (svd (designOf X m)).u (ρ i) l * y'.getD i 0 =
        t * ∑ i ∈ range X.nr, (svd (designOf X m)).u i l * y.getD i 0 := by
      rw [← sum_range_perm ρ h.row (fun i => (svd (designOf X m)).u i l * y.getD i 0), Finset.mul_sum]
      refine Finset.sum_congr rfl fun i hi => ?_
      have := h.target i (mem_range.1 hi)
      unfold vec at this
      rw [this]
      ring
    rw [e]
    ring
  have hext : ∀ j < X.nc, extend (features m') (vec c') j = t * s j * extend (features m) (vec c) (π j) := by
    intro j _
    by_cases hj : j ∈ features m'
    · have hk : (features m').idxOf j < Spec.card m := hcard ▸ List.idxOf_lt_length_iff.2 hj
      rw [extend, if_pos hj, extend, if_pos ((hπ j).1 hj), hcoef _ hk]
      simp only [hσdef, hτdef, at_idx _ _ hj]
    · rw [extend, if_neg hj, extend, if_neg fun hf => hj ((hπ j).2 hf), mul_zero]
  refine ⟨c, _, c', f1, ?_, fun j hj => hext j hj⟩
  have e1 : sse (designOf X' m') (vec c') (vec y') = sse X' (extend (features m') (vec c')) (vec y') :=
    Finset.sum_congr rfl fun i _ => by rw [designOf_eq, lin_cols (features_nodup m') hlt']
  have e2 : sse X (extend (features m) (vec c)) (vec y) = sse (designOf X m) (vec c) (vec y) :=
    Finset.sum_congr rfl fun i _ => by rw [designOf_eq, lin_cols (features_nodup m) hlt]
  have hb : ∀ j < X.nc, extend (features m') (vec c') j = t / s j * extend (features m) (vec c) (π j) := by
    intro j hj
    have e3 : t * s j = t / s j := by
      rw [eq_div_iff (h.unit j), mul_assoc, ← pow_two, hsign, mul_one]
    rw [hext j hj, e3]
  rw [g1, e1, h.sse hb, e2]

/-- **C171.** `BruteForceSelect` ranks the models in the same way whatever the order of the rows and columns, the signs of the columns
and the unit of the target: every score is shifted by the same number.  Also if singular values are discarded. -/
theorem C171_ranking (svd svd' : Mat ℝ → SVD ℝ) {X X' : Mat ℝ} {y y' : List ℝ} {ρ π : Equiv.Perm Nat} {s : Nat → ℝ}
    {t : ℝ} (h : SameDataIn X X' y y' ρ π s t) (hsign : ∀ j, s j ^ 2 = 1) (hy : y.length = X.nr) (hy' : y'.length = X'.nr)
    (hd : ∀ A, (svd A).Of A) (hd' : ∀ A, (svd' A).Of A)
    (hrss : ∀ m c r, m.length = X.nc → 0 < Spec.card m → fitModel svd X y m = some (c, r) → 0 < r) (hs hs' : Highscore ℝ)
    (hr : BruteForceReturns (regressionProblem svd X y) hs) (hr' : BruteForceReturns (regressionProblem svd' X' y') hs') :
    hs'.len = hs.len ∧ ∀ n ∈ hs.items, ∃ n' ∈ hs'.items, SameFeatures π n.model n'.model ∧
      n'.score = n.score - X.nr * Real.log (t ^ 2) ∧
      ∀ j < X.nc, coeffAt n'.model n'.coeff j = t * s j * coeffAt n.model n.coeff (π j) := by
  obtain ⟨h0, a1, -, a3, a4⟩ := C06_every_model_once (regressionProblem svd X y)
  obtain ⟨h0', b1, -, b3, b4⟩ := C06_every_model_once (regressionProblem svd' X' y')
  cases hr.unique a1
  cases hr'.unique b1
  have hnc : (regressionProblem svd' X' y').ncols = (regressionProblem svd X y).ncols := h.nc
  refine ⟨by rw [hnc] at b4; omega, fun n hn => ?_⟩
  obtain ⟨l1, l2⟩ := (a3 n.model).1 (List.mem_map_of_mem hn)
  have l1' : n.model.length = X.nc := l1
  obtain ⟨m', hmm⟩ := exists_sameFeatures h.col l1'
  have hm' : m'.length = X'.nc := by rw [hmm.1, l1', h.nc]
  have hpos' : 0 < Spec.card m' := hmm.card.symm ▸ l2
  obtain ⟨n', hn', rfl⟩ := List.mem_map.1 ((b3 m').2 ⟨hm', hpos'⟩)
  refine ⟨n', hn', hmm, ?_⟩
  obtain ⟨c, r, c', f1, g1, hc⟩ := C171_fit svd svd' h hsign hy hy' l1' l2 hmm (hd _) (hd' _)
  have h0 : 0 < r := hrss _ c r l1' l2 f1
  have e1 := C06_own_score _ hs hr n hn
  have e2 := C06_own_score _ hs' hr' n' hn'
  have e1' : n.score = -aicc (Spec.card n.model) X.nr r := by rw [e1.2]; simp [regressionProblem, f1]
  have e2' : n'.score = -aicc (Spec.card n'.model) X'.nr (t ^ 2 * r) := by rw [e2.2]; simp [regressionProblem, g1]
  have k1 : n.coeff = c := by rw [e1.1]; simp [regressionProblem, f1]
  have k2 : n'.coeff = c' := by rw [e2.1]; simp [regressionProblem, g1]
  refine ⟨?_, fun j hj => by rw [k1, k2]; exact hc j hj⟩
  rw [e2', e1', hmm.card, h.nr, aicc_unit h0 h.unitY]
  ring

/-- Two equal columns: their common model has a singular value of zero, which is discarded. -/
def twinX : Mat ℝ := ⟨3, 2, fun i _ => if i = 0 then 1 else 0⟩

example : ∃ X', SameDataIn twinX X' [0, 1, 2] [2, 4, 0] (Equiv.swap 0 2 * Equiv.swap 0 1) (Equiv.swap 0 1)
    (fun j => if j = 0 then -1 else 1) 2 ∧ (∀ j : Nat, (if j = 0 then -1 else 1 : ℝ) ^ 2 = 1) ∧
    (∀ (svd : Mat ℝ → SVD ℝ) m c r, m.length = twinX.nc → 0 < Spec.card m → fitModel svd twinX [0, 1, 2] m = some (c, r) → 0 < r) ∧
    ∀ i, lin twinX (fun j => if j = 0 then 1 else -1) i = 0 := by
  have hρ : ∀ i, (Equiv.swap 0 2 * Equiv.swap 0 1 : Equiv.Perm Nat) i < 3 ↔ i < 3 := by
    intro i
    rw [Equiv.Perm.mul_apply, Equiv.swap_apply_def, Equiv.swap_apply_def]
    split_ifs <;> omega
  refine ⟨⟨3, 2, fun i j => (if j = 0 then -1 else 1) *
    twinX.get ((Equiv.swap 0 2 * Equiv.swap 0 1 : Equiv.Perm Nat) i) (Equiv.swap 0 1 j)⟩, ?_, ?_, ?_, ?_⟩
  · exact
      { nr := rfl
        nc := rfl
        row := hρ
        col := fun i => by
          show Equiv.swap 0 1 i < 2 ↔ i < 2
          rw [Equiv.swap_apply_def]
          split_ifs <;> omega
        unit := fun j => by split_ifs <;> norm_num
        unitY := by norm_num
        get := fun _ _ _ _ => rfl
        target := fun i hi => by
          have hi : i < 3 := hi
          interval_cases i <;> norm_num [vec, Equiv.swap_apply_def] }
  · intro j
    split_ifs <;> norm_num
  · intro svd m c r hm hpos hf
    obtain ⟨c', f1, -, -⟩ := fitModel_eq_some (svd := svd) (X := twinX) (y := [0, 1, 2]) rfl hpos hm.le
    rw [f1, Option.some.injEq, Prod.mk.injEq] at hf
    rw [← hf.2]
    refine lt_of_lt_of_le ?_ (Finset.single_le_sum (f := fun i => (lin (designOf twinX m) (vec c') i - vec [0, 1, 2] i) ^ 2)
      (fun i _ => sq_nonneg _) (mem_range.2 (by show 1 < 3; omega) : 1 ∈ range (designOf twinX m).nr))
    have : lin (designOf twinX m) (vec c') 1 = 0 := Finset.sum_eq_zero fun k _ => by simp [designOf, twinX]
    simp only [this]
    norm_num [vec]
  · intro i
    simp [lin, twinX, Finset.sum_range_succ]

end GoSelect
