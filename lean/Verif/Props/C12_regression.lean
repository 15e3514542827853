import Verif.Model.Regression
import Verif.Props.C03
import Verif.Props.C12_C13

/-! C12 for real data: the bounds of `BoundsAICC` make the search exhaustive. -/

namespace GoSelect

open Spec

/-- The smallest positive `float64`. -/
noncomputable def smallestFloat : ℝ := 1 / 2 ^ 1074

/-- The data set is well formed and the numerics harmless: the fits of models with fewer features than rows are
least-squares fits with an RSS that is a positive float; if there are at least as many columns as rows, the RSS is at
least `RssTol`. -/
structure GoodData (svd : Mat ℝ → SVD ℝ) (X : Mat ℝ) (y : List ℝ) : Prop where
  rows : y.length = X.nr
  /-- lengths of Go slices are below `2^63` -/
  small : X.nr ≤ 2 ^ 63
  exact : ∀ m, m.length = X.nc → 0 < card m → card m < X.nr → ExactFit svd X m
  tiny : ∀ m c r, m.length = X.nc → 0 < card m → card m < X.nr →
    fitModel svd X y m = some (c, r) → smallestFloat ≤ r
  tol : X.nr ≤ X.nc → ∀ m c r, m.length = X.nc → 0 < card m → card m < X.nr →
    fitModel svd X y m = some (c, r) → rssTol ≤ r

theorem smallestFloat_pos : 0 < smallestFloat := by unfold smallestFloat; positivity

theorem smallestFloat_le_tol : smallestFloat ≤ rssTol := by
  unfold smallestFloat rssTol
  refine one_div_le_one_div_of_le (by positivity) ?_
  calc (10 : ℝ) ^ 12 ≤ 2 ^ 40 := by norm_num
    _ ≤ 2 ^ 1074 := pow_le_pow_right₀ (by norm_num) (by norm_num)

theorem log_smallestFloat : -1074 ≤ Real.log smallestFloat := by
  have h2 : Real.log 2 ≤ 1 := by
    have := Real.log_le_sub_one_of_pos (x := 2) (by norm_num)
    linarith
  have : Real.log smallestFloat = -(1074 * Real.log 2) := by
    unfold smallestFloat
    rw [one_div, Real.log_inv, Real.log_pow]
    norm_num
  linarith

/-- No finite AICc is as small as `-1e100`. -/
theorem aicc_ge_huge {k n : Nat} {r : ℝ} (hn : n ≤ 2 ^ 63) (hr : smallestFloat ≤ r) : -(10 : ℝ) ^ 100 ≤ aicc k n r := by
  refine le_trans ?_ (C02_aic_le_aicc _ _ _)
  have h1 : -1074 ≤ Real.log r := log_smallestFloat.trans (Real.log_le_log smallestFloat_pos hr)
  have h2 : (n : ℝ) ≤ 2 ^ 63 := by exact_mod_cast hn
  have h3 : (0 : ℝ) ≤ n := Nat.cast_nonneg _
  have h4 : (0 : ℝ) ≤ k := Nat.cast_nonneg _
  have h5 : (n : ℝ) * -1074 ≤ n * Real.log r := mul_le_mul_of_nonneg_left h1 h3
  have h6 : (2 : ℝ) ^ 63 * 1074 ≤ 10 ^ 100 := by norm_num
  unfold aic
  nlinarith

theorem many_columns {X : Mat ℝ} {p : List Bool} {l : Nat} (hp : p.length = X.nc)
    (h : ∃ g, SamePrefix l p g ∧ X.nr ≤ card g) : X.nr ≤ X.nc := by
  obtain ⟨g, hg, hc⟩ := h
  have h1 : card g ≤ g.length := by rw [card_eq_count]; exact List.count_le_length
  have := hg.1
  omega

theorem GoodData.validBounds {svd : Mat ℝ → SVD ℝ} {X : Mat ℝ} {y : List ℝ} (h : GoodData svd X y)
    (root : List Bool) (maxQueue : Int) (cutoff : ℝ) :
    ValidBounds (regressionSearch svd X y root maxQueue cutoff) := by
  have fitted : ∀ m, Candidate (regressionSearch svd X y root maxQueue cutoff) m →
      ∃ c r, fitModel svd X y m = some (c, r) ∧ smallestFloat ≤ r ∧
        aiccOf (regressionSearch svd X y root maxQueue cutoff) m = aicc (card m) X.nr r := by
    rintro m ⟨h1, h2, h3⟩
    have h1' : m.length = X.nc := h1
    obtain ⟨c, hc, -⟩ := fitModel_eq_some (svd := svd) h.rows h2 h1'.le
    refine ⟨c, _, hc, h.tiny m c _ h1' h2 h3 hc, ?_⟩
    simp [aiccOf, regressionSearch, regressionProblem, hc]
  refine ⟨fun p l m hp hl hpos hpre hm => ?_, fun m hm => ?_⟩
  · obtain ⟨c, r, hf, -, he⟩ := fitted m hm
    rw [he]
    have hp' : p.length = X.nc := hp
    have hl' : l ≤ p.length := hp'.symm ▸ hl
    obtain ⟨⟨lo, up⟩, hb⟩ := (C03_no_panic svd X y p l h.rows hp'.le hl' hpos).2
    have hb' : (regressionSearch svd X y root maxQueue cutoff).bounds p l = (lo, up) := by
      simp [regressionSearch, hb]
    rw [hb']
    exact (C03_aicc svd X y p l h.rows hp'.le lo up hb
      (fun m hm => h.exact m (hm.1 ▸ hp'))
      (fun m c r hm h1 h2 h3 => smallestFloat_pos.trans_le (h.tiny m c r (hm.1 ▸ hp') h1 h2 h3))
      m hpre hm.2.1 hm.2.2 c r hf (fun hg => h.tol (many_columns hp' hg) m c r hm.1 hm.2.1 hm.2.2 hf)).1
  · obtain ⟨c, r, hf, ht, he⟩ := fitted m hm
    rw [he]
    exact aicc_ge_huge h.small ht

/-- `SelectModel` on a data set: when it returns (no overflow message, no torn read), every model
`m` with at least one feature, fewer features than rows and different from the root model satisfies
`-AICc(m) ≤ BestScore()`, where `AICc(m)` is computed from the least-squares fit of `m`. -/
theorem C12_regression (svd : Mat ℝ → SVD ℝ) (X : Mat ℝ) (y : List ℝ) (hdata : GoodData svd X y)
    (root : List Bool) (hroot : root = List.replicate X.nc false ∨ X.nc < X.nr)
    (maxQueue : Int) (cutoff : ℝ) (M : Int) (hM : 2 ≤ M) (pre : List (Node ℝ)) (s : SState ℝ)
    (h : SelectReaches (regressionSearch svd X y root maxQueue cutoff) M pre s)
    (hd : s.main = .done) (ht : s.torn = false) (ho : s.overflows = 0)
    (m : List Bool) (hlen : m.length = X.nc) (hpos : 0 < card m) (hrows : card m < X.nr)
    (hmr : m ≠ root) :
    ∃ c r, fit (svd (designOf X m)) (designOf X m) y = some c ∧
      rss (designOf X m) c y = some r ∧ IsLeastSquares (designOf X m) (vec c) (vec y) ∧
      -aicc (card m) X.nr r ≤ s.hs.bestScore := by
  obtain ⟨c, hc, hfit, hcl⟩ := fitModel_eq_some (svd := svd) hdata.rows hpos hlen.le
  refine ⟨c, _, hfit, rss_eq_some hcl hdata.rows,
    fit_leastSquares (hdata.exact m hlen hpos hrows) hfit, ?_⟩
  have := (C12_no_better_model _ M hM pre (hdata.validBounds root maxQueue cutoff) hroot s h hd ht ho
    m hlen hpos hrows hmr).2
  have e : (regressionSearch svd X y root maxQueue cutoff).aicc (card m)
      (regressionSearch svd X y root maxQueue cutoff).nrows
      ((regressionSearch svd X y root maxQueue cutoff).rss m) =
      aicc (card m) X.nr (sse (designOf X m) (vec c) (vec y)) := by
    simp [regressionSearch, regressionProblem, hc]
  rw [e] at this
  exact this

/-- A data set that meets the hypotheses: the first 3 unit vectors of length 5. -/
example : GoodData orthSvd (unitX 5 3) [1, 2, 3, 4, 5] where
  rows := rfl
  small := by show (5 : Nat) ≤ 2 ^ 63; norm_num
  exact m hm _ _ := unitX_exact (by omega) hm
  tiny m c r hm hp _ hf := smallestFloat_le_tol.trans
    (unitX_rss 5 3 (by omega) _ rfl (by norm_num [vec]) m hm c r hp hf)
  tol h := absurd h (by show ¬ 5 ≤ 3; omega)

end GoSelect
