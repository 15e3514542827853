import Verif.Proofs.Design
import Verif.Model.Criteria
import Verif.Spec.Fit

/-! Fit and RSS of a model. -/

namespace GoSelect

open Finset Spec

section
variable {K : Type} [Field K] [LinearOrder K]

theorem fitModel_eq_some {svd : Mat K → SVD K} {X : Mat K} {y : List K} {m : List Bool}
    (hy : y.length = X.nr) (hpos : 0 < card m) (hlen : m.length ≤ X.nc) :
    ∃ c, fitModel svd X y m = some (c, sse (designOf X m) (vec c) (vec y)) ∧
      fit (svd (designOf X m)) (designOf X m) y = some c ∧ c.length = card m := by
  refine ⟨_, ?_, fit_eq_some hy.symm, ?_⟩
  · have hd : getDesignMatrix m X = some (designOf X m) := getDesignMatrix_some hpos hlen
    have hf := fit_eq_some (d := svd (designOf X m)) (X := designOf X m) (y := y) hy.symm
    unfold fitModel
    simp only [hd, hf]
    rw [rss_eq_some (X := designOf X m) (by simp) hy]
  · simp [designOf]

variable [IsStrictOrderedRing K]

theorem fit_leastSquares {d : SVD K} {X : Mat K} {y c : List K} (h : Untruncated d X)
    (hf : fit d X y = some c) : IsLeastSquares X (vec c) (vec y) := by
  have hn : X.nr = y.length := by
    by_contra hn
    rw [fit, if_pos hn] at hf
    cases hf
  rw [fit_eq_some hn, Option.some.injEq] at hf
  have hls := svdCoeff_leastSquares h.1 (fun k => invSigma (d.s k)) (vec y) fun k hk =>
    invSigma_spec ((h.2 k hk).imp_right fun h => h.trans_le (le_abs_self _))
  intro b
  refine le_trans (le_of_eq ?_) (hls b)
  refine sse_congr X (fun j hj => ?_) fun _ _ => rfl
  rw [← hf]
  simp only [vec]
  rw [getD_map_range, if_pos hj]

theorem designOf_eq (X : Mat K) (m : List Bool) : designOf X m = colsOf X (features m) := rfl

/-- Residuals of nested models. -/
theorem fitModel_nested {svd : Mat K → SVD K} {X : Mat K} {y : List K} {a b : List Bool}
    (hla : a.length ≤ X.nc) (hlb : b.length ≤ X.nc) (hy : y.length = X.nr)
    (hsub : ContainedIn a b) (ha : 0 < card a) (hb : ExactFit svd X b) {ca cb : List K} {ra rb : K}
    (hfa : fitModel svd X y a = some (ca, ra)) (hfb : fitModel svd X y b = some (cb, rb)) :
    rb ≤ ra := by
  have hbpos := lt_of_lt_of_le ha (card_le_of_contained hsub)
  obtain ⟨ca', h1, -, -⟩ := fitModel_eq_some (svd := svd) hy ha hla
  obtain ⟨cb', h2, h3, -⟩ := fitModel_eq_some (svd := svd) hy hbpos hlb
  rw [h1, Option.some.injEq, Prod.mk.injEq] at hfa
  rw [h2, Option.some.injEq, Prod.mk.injEq] at hfb
  obtain ⟨-, rfl⟩ := hfa
  obtain ⟨-, rfl⟩ := hfb
  have hls := fit_leastSquares hb h3
  rw [designOf_eq] at hls ⊢
  exact sse_nested (features_nodup a) (features_nodup b)
    (fun i hi => (features_lt hi).trans_le hla) (fun i hi => (features_lt hi).trans_le hlb)
    (fun i hi => (mem_features b i).2 (hsub i ((mem_features a i).1 hi))) _ _ _ hls

end

end GoSelect
