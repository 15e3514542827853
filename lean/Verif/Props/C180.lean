import Verif.Props.C174
import Verif.Props.C176

/-!
# C180: orthogonal matching pursuit on repeated rows
-/

namespace GoSelect

open Finset Spec

section
variable {svd svd' : Mat ℝ → SVD ℝ} {X X' : Mat ℝ} {y y' : List ℝ} {tol : ℝ}

/-- The same choices and errors for the same features. -/
structure SameOmp (svd svd' : Mat ℝ → SVD ℝ) (X X' : Mat ℝ) (y y' : List ℝ) : Prop where
  nc : X'.nc = X.nc
  proj : ∀ l : List Nat, (∀ i ∈ l, i < X.nc) → ompProj X' (resAt svd' X' y' l) = ompProj X (resAt svd X y l)
  rmse : ∀ l : List Nat, l ≠ [] → (∀ i ∈ l, i < X.nc) → ompRmse svd' X' y' (modelOf X'.nc l) = ompRmse svd X y (modelOf X.nc l)

theorem SameOmp.symm (h : SameOmp svd svd' X X' y y') : SameOmp svd' svd X' X y' y :=
  ⟨h.nc.symm, fun l hl => (h.proj l (h.nc ▸ hl)).symm, fun l h0 hl => (h.rmse l h0 (h.nc ▸ hl)).symm⟩

theorem SameOmp.take (h : SameOmp svd svd' X X' y y') {t t' k k' x x' : Nat} {st st' : OmpState} {d d' : List Nat}
    (h2 : OmpInv svd X y t st d k x) (h2' : OmpInv svd' X' y' t' st' d' k' x') (j : Nat) (hj : j ≤ d.length) (hj' : j ≤ d'.length) :
    d'.take j = d.take j := by
  classical
  induction j with
  | zero => simp
  | succ j ih =>
    have e := ih (by omega) (by omega)
    have p1 := h2.pick j (by omega)
    have p2 := h2'.pick j (by omega)
    rw [e, h.proj _ (fun i hi => h2.lt i (List.mem_of_mem_take hi)), p1, Option.some.injEq] at p2
    rw [List.take_succ_eq_append_getElem (by omega), List.take_succ_eq_append_getElem (by omega), e, p2]

theorem SameOmp.le (h : SameOmp svd svd' X X' y y') {t t' k k' x x' : Nat} {st st' : OmpState} {d d' : List Nat}
    (h2 : OmpInv svd X y t st d k x) (h2' : OmpInv svd' X' y' t' st' d' k' x') (hd : d ≠ [])
    (hend : t = X.nc ∨ ompRmse svd X y st.model < tol)
    (hlate : ∀ j, 0 < j → j < d'.length → ¬ ompRmse svd' X' y' (modelOf X'.nc (d'.take j)) < tol) : d'.length ≤ d.length := by
  classical
  by_contra hgt
  rw [not_le] at hgt
  have e := h.take h2 h2' d.length le_rfl hgt.le
  rw [List.take_length] at e
  rcases hend with hend | hend
  · have hk : k ≠ 0 := by
      have := h2.count
      have := h2'.count
      have := h2'.le
      have := h.nc
      omega
    obtain ⟨hx, hp⟩ := h2.stall hk
    have p2 := h2'.pick d.length hgt
    rw [e, h.proj _ h2.lt, ← h2.res, hp, Option.some.injEq] at p2
    have hx' : d'[d.length] ∈ d'.take d.length := by
      rw [e, ← p2]
      exact hx
    obtain ⟨i, hi, ei⟩ := List.mem_take_iff_getElem.1 hx'
    have := (h2'.nodup.getElem_inj_iff).1 ei
    omega
  · refine hlate d.length (List.length_pos_iff.2 hd) hgt ?_
    rw [e, h.rmse d hd h2.lt, ← h2.model_eq]
    exact hend

/-- Runs with the same choices and errors. -/
theorem SameOmp.run (h : SameOmp svd svd' X X' y y') (hy' : X'.nr = y'.length) (h0' : y'.length ≠ 0) {res : OmpResult}
    (hres : omp svd X y tol = some res) : ∃ (res' : OmpResult) (m : List Bool), omp svd' X' y' tol = some res' ∧
      res'.order = res.order ∧ m.length = X.nc ∧ 0 < Spec.card m ∧ (∀ j < X.nc, vec res.coeff j = coeffAt m (ompFit svd X y m) j) ∧
      ∀ j < X.nc, vec res'.coeff j = coeffAt m (ompFit svd' X' y' m) j := by
  obtain ⟨h0, hc, hy⟩ := omp_some svd X y tol hres
  obtain ⟨st, t, d, k, x, h1, h2, hend, ht, hd, hlate⟩ := omp_main svd X y tol h0 hc hy
  obtain ⟨st', t', d', k', x', h1', h2', hend', ht', hd', hlate'⟩ := omp_main svd' X' y' tol h0' (h.nc ▸ hc) hy'
  rw [h1, Option.some.injEq] at hres
  subst hres
  have l1 := h.le h2 h2' hd hend hlate'
  have l2 := h.symm.le h2' h2 hd' hend' hlate
  have e := h.take h2 h2' d.length le_rfl l2
  rw [List.take_length, le_antisymm l2 l1, List.take_length] at e
  subst e
  have hm : st'.model = st.model := by rw [h2.model_eq, h2'.model_eq, h.nc]
  refine ⟨_, st.model, h1', rfl, h2.len, ?_, fun j hj => state_coeff h2 ht hj, fun j hj => ?_⟩
  · rw [h2.model_eq]
    exact card_modelOf_pos hd h2.lt
  · have := state_coeff h2' ht' (j := j) (by rw [h.nc]; exact hj)
    rw [hm] at this
    exact this

end

section
variable {svd : Mat ℝ → SVD ℝ} {k : Nat} {X X' : Mat ℝ} {y y' : List ℝ}

theorem vec_ompRes_design (svd : Mat ℝ → SVD ℝ) (hy : y.length = X.nr) (m : List Bool) {i : Nat} (hi : i < X.nr) :
    vec (ompRes svd X y m) i = lin (designOf X m) (vec (ompFit svd X y m)) i - vec y i := by
  unfold ompRes ompPred vec
  have hiy : i < y.length := hy ▸ hi
  simp [List.getD_eq_getElem?_getD, List.getElem?_zipWith, hi, hiy]

theorem divFin_scale [DecidableLT ℝ] [DecidableEq ℝ] {c : ℝ} (hc : 0 < c) (a b : ℝ) : Fl.divFin (c * a) (c * b) = Fl.divFin a b := by
  unfold Fl.divFin
  simp only [mul_eq_zero, hc.ne', false_or, mul_pos_iff_of_pos_left hc, mul_div_mul_left _ _ hc.ne']

/-- Repeated residuals have the same correlations with the repeated columns. -/
theorem ompProj_repeated (h : Repeated k X X' y y') (hk : 1 ≤ k) {r r' : List ℝ} (hr : r.length = X.nr) (hr' : r'.length = X'.nr)
    (hrr : ∀ i < X'.nr, vec r' i = vec r (i % X.nr)) : ompProj X' r' = ompProj X r := by
  classical
  have hk0 : (0 : ℝ) < k := by exact_mod_cast hk
  have hn : norm2 r' = √k * norm2 r := by
    unfold norm2
    rw [← Real.sqrt_mul hk0.le, hr, hr', h.nr, ← sum_repeat k X.nr (fun i => r.getD i 0 ^ 2)]
    congr 1
    refine sum_congr rfl fun i hi => ?_
    have := hrr i (h.nr ▸ mem_range.1 hi)
    unfold vec at this
    rw [this]
  unfold ompProj
  rw [h.nc]
  apply List.map_congr_left
  intro j hj
  have hj' : j < X.nc := List.mem_range.1 hj
  have hcn : colNorm X' j = √k * colNorm X j := by
    unfold colNorm
    rw [← Real.sqrt_mul hk0.le, h.nr, ← sum_repeat k X.nr (fun i => X.get i j * X.get i j)]
    congr 1
    refine sum_congr rfl fun i hi => ?_
    rw [h.get i (h.nr ▸ mem_range.1 hi) j hj']
  have hdot : ∑ i ∈ range X'.nr, X'.get i j * r'.getD i 0 = k * ∑ i ∈ range X.nr, X.get i j * r.getD i 0 := by
    rw [h.nr, ← sum_repeat k X.nr (fun i => X.get i j * r.getD i 0)]
    refine sum_congr rfl fun i hi => ?_
    have := hrr i (h.nr ▸ mem_range.1 hi)
    unfold vec at this
    rw [this, h.get i (h.nr ▸ mem_range.1 hi) j hj']
  have hden : norm2 r' * colNorm X' j = k * (norm2 r * colNorm X j) := by
    rw [hn, hcn]
    have := Real.mul_self_sqrt hk0.le
    calc √k * norm2 r * (√k * colNorm X j) = √k * √k * (norm2 r * colNorm X j) := by ring
      _ = _ := by rw [this]
  rw [hdot, hden, divFin_scale hk0]

theorem ompRes_repeated (h : Repeated k X X' y y') (hk : 1 ≤ k) (hsvd : ∀ A, (svd A).Of A) (hy : y.length = X.nr)
    (hy' : y'.length = X'.nr) {m : List Bool} (hm : m.length = X.nc) (hpos : 0 < Spec.card m) (he : ExactFit svd X m) :
    (∀ i < X'.nr, lin (designOf X' m) (vec (ompFit svd X' y' m)) i = lin (designOf X m) (vec (ompFit svd X y m)) (i % X.nr)) ∧
    (∀ i < X'.nr, vec (ompRes svd X' y' m) i = vec (ompRes svd X y m) (i % X.nr)) ∧
    ((∀ b, (∀ i < X.nr, lin (designOf X m) b i = 0) → ∀ j < Spec.card m, b j = 0) → ompFit svd X' y' m = ompFit svd X y m) := by
  obtain ⟨c, r, c', f1, g1, hl, hc⟩ := C176_fit svd hsvd hk h hy hy' hm hpos he
  obtain ⟨b, k1, k2, -⟩ := fitModel_eq_some (svd := svd) hy hpos hm.le
  obtain ⟨b', l1, l2, -⟩ := fitModel_eq_some (svd := svd) (X := X') hy' hpos (by rw [h.nc]; exact hm.le)
  rw [f1, Option.some.injEq, Prod.mk.injEq] at k1
  rw [g1, Option.some.injEq, Prod.mk.injEq] at l1
  rw [ompFit_fit svd X y hy.symm, Option.some.injEq] at k2
  rw [ompFit_fit svd X' y' hy'.symm, Option.some.injEq] at l2
  rw [k2, l2, ← k1.1, ← l1.1]
  refine ⟨hl, fun i hi => ?_, hc⟩
  rw [vec_ompRes_design svd hy' m hi, vec_ompRes_design svd hy m (h.mod_lt hi), k2, l2, ← k1.1, ← l1.1, hl i hi, h.resp i hi]

theorem sameOmp_repeated (h : Repeated k X X' y y') (hk : 1 ≤ k) (hsvd : ∀ A, (svd A).Of A) (hy : y.length = X.nr)
    (hy' : y'.length = X'.nr) (he : ∀ m : List Bool, m.length = X.nc → 0 < Spec.card m → ExactFit svd X m) :
    SameOmp svd svd X X' y y' := by
  refine ⟨h.nc, fun l hl => ?_, fun l h0 hl => ?_⟩
  · unfold resAt
    by_cases h0 : l = []
    · rw [if_pos h0, if_pos h0]
      exact ompProj_repeated h hk hy hy' h.resp
    · rw [if_neg h0, if_neg h0, h.nc]
      have hp := card_modelOf_pos h0 hl
      have hm : (modelOf X.nc l).length = X.nc := by simp [modelOf]
      refine ompProj_repeated h hk (by simp [ompRes, ompPred, hy]) (by simp [ompRes, ompPred, hy']) ?_
      exact (ompRes_repeated h hk hsvd hy hy' hm hp (he _ hm hp)).2.1
  · have hp := card_modelOf_pos h0 hl
    have hm : (modelOf X.nc l).length = X.nc := by simp [modelOf]
    have hk0 : (k : ℝ) ≠ 0 := by exact_mod_cast (by omega : k ≠ 0)
    have hr := (ompRes_repeated h hk hsvd hy hy' hm hp (he _ hm hp)).2.1
    rw [ompRmse_res svd hy', ompRmse_res svd hy, h.nc]
    congr 1
    have e : ∑ i ∈ range X'.nr, vec (ompRes svd X' y' (modelOf X.nc l)) i ^ 2 =
        k * ∑ i ∈ range X.nr, vec (ompRes svd X y (modelOf X.nc l)) i ^ 2 := by
      rw [h.nr, ← sum_repeat k X.nr (fun i => vec (ompRes svd X y (modelOf X.nc l)) i ^ 2)]
      refine sum_congr rfl fun i hi => ?_
      rw [hr i (h.nr ▸ mem_range.1 hi)]
    rw [e, h.nr]
    push_cast
    rw [mul_div_mul_left _ _ hk0]

end

/-- **C180.** `Omp` on the data with all rows `k` times returns the same `Order` and the same predictions, for every tolerance, and the
same `Coeff` if the columns are independent. -/
theorem C180_omp (svd : Mat ℝ → SVD ℝ) (hsvd : ∀ A, (svd A).Of A) {k : Nat} (hk : 1 ≤ k) {X X' : Mat ℝ} {y y' : List ℝ}
    (h : Repeated k X X' y y') (hy' : y'.length = X'.nr)
    (he : ∀ m : List Bool, m.length = X.nc → 0 < Spec.card m → ExactFit svd X m) {tol : ℝ} {res : OmpResult}
    (hres : omp svd X y tol = some res) :
    ∃ res' : OmpResult, omp svd X' y' tol = some res' ∧ res'.order = res.order ∧
      (∀ i < X'.nr, lin X' (vec res'.coeff) i = lin X (vec res.coeff) (i % X.nr)) ∧
      ((∀ b : Nat → ℝ, (∀ i < X.nr, lin X b i = 0) → ∀ j < X.nc, b j = 0) → ∀ j < X.nc, vec res'.coeff j = vec res.coeff j) := by
  obtain ⟨h0, hc, hy⟩ := omp_some svd X y tol hres
  have h0' : y'.length ≠ 0 := by
    rw [hy', h.nr, hy]
    exact Nat.mul_ne_zero (by omega) h0
  obtain ⟨res', m, r1, r2, hm, hp, r3, r4⟩ := (sameOmp_repeated h hk hsvd hy.symm hy' he).run hy'.symm h0' hres
  obtain ⟨q1, -, -⟩ := ompRes_repeated h hk hsvd hy.symm hy' hm hp (he m hm hp)
  have hlt : ∀ i ∈ features m, i < X.nc := fun i hi => (features_lt hi).trans_le hm.le
  have lin1 : ∀ i, lin X (vec res.coeff) i = lin (designOf X m) (vec (ompFit svd X y m)) i := by
    intro i
    rw [designOf_eq, lin_cols (features_nodup m) hlt]
    exact sum_congr rfl fun j hj => by rw [r3 j (mem_range.1 hj)]; rfl
  have lin2 : ∀ i, lin X' (vec res'.coeff) i = lin (designOf X' m) (vec (ompFit svd X' y' m)) i := by
    intro i
    rw [designOf_eq, lin_cols (features_nodup m) (fun i hi => h.nc ▸ hlt i hi)]
    exact sum_congr rfl fun j hj => by rw [r4 j (h.nc ▸ mem_range.1 hj)]; rfl
  have pred : ∀ i < X'.nr, lin X' (vec res'.coeff) i = lin X (vec res.coeff) (i % X.nr) := by
    intro i hi
    rw [lin1, lin2]
    exact q1 i hi
  refine ⟨res', r1, r2, pred, fun hind j hj => ?_⟩
  have := hind (fun j => vec res'.coeff j - vec res.coeff j) (fun i hi => ?_) j hj
  · exact sub_eq_zero.1 this
  · have hi' : i < X'.nr := by
      rw [h.nr]
      calc i < X.nr := hi
        _ ≤ k * X.nr := Nat.le_mul_of_pos_left _ (by omega)
    have e := pred i hi'
    rw [Nat.mod_eq_of_lt hi] at e
    have e2 : lin X' (vec res'.coeff) i = lin X (vec res'.coeff) i := by
      unfold Spec.lin
      rw [h.nc]
      refine sum_congr rfl fun j hj => ?_
      rw [h.get i hi' j (mem_range.1 hj), Nat.mod_eq_of_lt hi]
    rw [lin_sub, ← e, e2, sub_self]

namespace OmpExample

/-- The data of C174 with all rows twice. -/
example (svd : Mat ℝ → SVD ℝ) (hd : ∀ A, (svd A).Of A) : ∃ r r' : OmpResult, omp svd UnitExample.X y 1 = some r ∧ r.order = [0, 1] ∧
    omp svd ⟨10, 3, fun i j => UnitExample.X.get (i % 5) j⟩ (y ++ y) 1 = some r' ∧ r'.order = [0, 1] := by
  obtain ⟨r, h1, h2, -, -⟩ := run svd hd
  have hr : Repeated 2 UnitExample.X ⟨10, 3, fun i j => UnitExample.X.get (i % 5) j⟩ y (y ++ y) := by
    refine ⟨rfl, rfl, fun i _ j _ => rfl, fun i hi => ?_⟩
    have hi : i < 10 := hi
    interval_cases i <;> rfl
  obtain ⟨r', g1, g2, -⟩ := C180_omp svd hd (by omega : 1 ≤ 2) hr rfl (fun m hm _ => UnitExample.exact hd hm) h1
  exact ⟨r, r', h1, h2, g1, g2.trans h2⟩

end OmpExample

end GoSelect
