import Verif.Props.C180

/-!
# C182: orthogonal matching pursuit with smaller tolerances
-/

namespace GoSelect

open Finset Spec

section
variable {svd : Mat ℝ → SVD ℝ} {X : Mat ℝ} {y : List ℝ} {tol tol' : ℝ} {res res' : OmpResult}

theorem SameOmp.refl (svd : Mat ℝ → SVD ℝ) (X : Mat ℝ) (y : List ℝ) : SameOmp svd svd X X y y :=
  ⟨rfl, fun _ _ => rfl, fun _ _ _ => rfl⟩

/-- Two runs that list the same features have the same coefficients. -/
theorem coeff_of_order {st st' : OmpState} {d : List Nat} {t t' k k' x x' : Nat} (h2 : OmpInv svd X y t st d k x)
    (h2' : OmpInv svd X y t' st' d k' x') (ht : t ≠ 0) (ht' : t' ≠ 0) : st'.coeff = st.coeff := by
  refine List.ext_getElem (by rw [h2.clen, h2'.clen]) fun j h1 h1' => ?_
  have hj : j < X.nc := by rw [← h2.clen]; exact h1'
  have e : vec st'.coeff j = vec st.coeff j := by
    rw [state_coeff h2 ht hj, state_coeff h2' ht' hj, h2.model_eq, h2'.model_eq]
  simpa [vec, List.getD_eq_getElem?_getD, h1, h1'] using e

end

/-- **C182.** With a smaller tolerance `Omp` continues the run: the features listed for the larger tolerance come first, in the same
order. -/
theorem C182_prefix (svd : Mat ℝ → SVD ℝ) (X : Mat ℝ) (y : List ℝ) {tol tol' : ℝ} (htt : tol ≤ tol') {res res' : OmpResult}
    (h : omp svd X y tol = some res) (h' : omp svd X y tol' = some res') : res'.order <+: res.order := by
  obtain ⟨h0, hc, hy⟩ := omp_some svd X y tol h
  obtain ⟨st, t, d, k, x, h1, h2, hend, ht, hd, hlate⟩ := omp_main svd X y tol h0 hc hy
  obtain ⟨st', t', d', k', x', h1', h2', hend', ht', hd', hlate'⟩ := omp_main svd X y tol' h0 hc hy
  rw [h1, Option.some.injEq] at h
  rw [h1', Option.some.injEq] at h'
  subst h
  subst h'
  have hle := (SameOmp.refl svd X y).le h2 h2' hd (hend.imp_right fun hh => hh.trans_le htt) hlate'
  have e := (SameOmp.refl svd X y).take h2 h2' d'.length hle le_rfl
  rw [List.take_length] at e
  show d'.map Int.ofNat <+: d.map Int.ofNat
  rw [e]
  exact (List.take_prefix _ _).map _

/-- **C182.** If the result for the larger tolerance also meets the smaller one, both results are equal. -/
theorem C182_same (svd : Mat ℝ → SVD ℝ) (X : Mat ℝ) (y : List ℝ) {tol tol' : ℝ} (htt : tol ≤ tol') {res' : OmpResult}
    (h' : omp svd X y tol' = some res') (hmet : rmse X res'.coeff y < tol) : omp svd X y tol = some res' := by
  obtain ⟨h0, hc, hy⟩ := omp_some svd X y tol' h'
  obtain ⟨st, t, d, k, x, h1, h2, hend, ht, hd, hlate⟩ := omp_main svd X y tol h0 hc hy
  obtain ⟨st', t', d', k', x', h1', h2', hend', ht', hd', hlate'⟩ := omp_main svd X y tol' h0 hc hy
  rw [h1', Option.some.injEq] at h'
  subst h'
  have hle := (SameOmp.refl svd X y).le h2 h2' hd (hend.imp_right fun hh => hh.trans_le htt) hlate'
  have hge := (SameOmp.refl svd X y).le h2' h2 hd' (.inr (by rw [ompRmse_eq svd X y hy h2' ht']; exact hmet)) hlate
  have e := (SameOmp.refl svd X y).take h2 h2' d'.length hle le_rfl
  rw [List.take_length, le_antisymm hle hge, List.take_length] at e
  subst e
  rw [h1, coeff_of_order h2' h2 ht' ht]

/-- **C182.** With exact fits a smaller tolerance never leads to a larger error. -/
theorem C182_error (svd : Mat ℝ → SVD ℝ) (X : Mat ℝ) (y : List ℝ) (hex : ∀ m, m.length = X.nc → ExactFit svd X m) {tol tol' : ℝ}
    (htt : tol ≤ tol') {res res' : OmpResult} (h : omp svd X y tol = some res) (h' : omp svd X y tol' = some res') :
    rmse X res.coeff y ≤ rmse X res'.coeff y := by
  obtain ⟨m, c, -, -, -, hl, hz, -⟩ := C62_coeff svd X y tol' h'
  have hb := C62_best_on_order svd X y tol h hex (vec res'.coeff) (fun i hi => ?_)
  · unfold rmse
    exact Real.sqrt_le_sqrt (div_le_div_of_nonneg_right hb (Nat.cast_nonneg _))
  · have hi' : (i : Int) ∉ res'.order := fun hm => hi ((C182_prefix svd X y htt h h').subset hm)
    unfold vec
    rw [List.getD_eq_getElem?_getD]
    by_cases hlt : i < X.nc
    · rw [hz i hlt hi']
      rfl
    · rw [List.getElem?_eq_none (by omega)]
      rfl

namespace OmpExample

/-- The run of C174 with the tolerances 1 and 1/4. -/
example (svd : Mat ℝ → SVD ℝ) (hd : ∀ A, (svd A).Of A) : ∃ r r' : OmpResult, omp svd UnitExample.X y 1 = some r' ∧
    r'.order = [0, 1] ∧ omp svd UnitExample.X y (1 / 4) = some r ∧ [0, 1] <+: r.order ∧
    rmse UnitExample.X r.coeff y ≤ rmse UnitExample.X r'.coeff y := by
  obtain ⟨r', h1, h2, -, -⟩ := run svd hd
  obtain ⟨r, hr⟩ : ∃ r, omp svd UnitExample.X y (1 / 4) = some r := by
    refine Option.ne_none_iff_exists'.1 fun hn => ?_
    rcases (C62_panic svd UnitExample.X y (1 / 4)).1 hn with h | h | h
    · simp [y] at h
    · exact absurd h (by show ¬ 3 = 0; omega)
    · exact h rfl
  have hp := C182_prefix svd UnitExample.X y (by norm_num : (1 / 4 : ℝ) ≤ 1) hr h1
  rw [h2] at hp
  exact ⟨r, r', h1, h2, hr, hp, C182_error svd _ _ (fun m hm => UnitExample.exact hd hm) (by norm_num) hr h1⟩

/-- The run of C174 meets smaller tolerances than 1. -/
example (svd : Mat ℝ → SVD ℝ) (hd : ∀ A, (svd A).Of A) : ∃ (r : OmpResult) (tol : ℝ), tol < 1 ∧ omp svd UnitExample.X y tol = some r ∧
    r.order = [0, 1] := by
  obtain ⟨r, h1, h2, h3, -⟩ := run svd hd
  obtain ⟨tol, g1, g2⟩ := exists_between h3
  exact ⟨r, tol, g2, C182_same svd _ _ g2.le h1 g1, h2⟩

end OmpExample

end GoSelect
