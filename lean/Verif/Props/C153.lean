import Verif.Proofs.LassoOracle
import Verif.Props.C127
import Verif.Props.C55_C56
import Verif.Props.C149

/-!
# C153: how far the predictions of the lasso are from the truth
-/

namespace GoSelect

open Finset Spec MeasureTheory ProbabilityTheory

section

variable {K : Type} [Field K] [LinearOrder K] [IsStrictOrderedRing K]

/-- C153: `f` are the values without the noise. If no column has an inner product with the noise beyond `ε`, the predictions
of a lasso solution with a regularisation of at least `ε` are nearly as close to `f` as those of any coefficients `b` whatever,
whether or not `f` is a combination of the features. Coefficients that only come within `γ` of the smallest objective lose
`2γ`. -/
theorem C153_prediction {X : Mat K} {y f : Nat → K} {lamb ε γ : K} {β : Nat → K} (hε : 0 ≤ ε)
    (hn : NoiseAtMost X (fun r => y r - f r) ε) (hl : ε ≤ lamb) (h : ∀ b, lassoRisk X y lamb β ≤ lassoRisk X y lamb b + γ)
    (b : Nat → K) : sse X β f ≤ sse X b f + 2 * (lamb + ε) * absSum X.nc b + 2 * γ :=
  slow_rate hn hl (h b) hε

/-- C153: if `f` is a combination of the features in `S` and these are not nearly combinations of the others, the error of the
predictions of a lasso solution and that of its coefficients is proportional to the number of features in `S`. -/
theorem C153_sparse {X : Mat K} {y b : Nat → K} {lamb ε φ : K} {β : Nat → K} {S : Finset Nat} (hc : CompatibleOn X S φ)
    (hb : ∀ i, i ∉ S → b i = 0) (hn : NoiseAtMost X (fun r => y r - lin X b r) ε) (hl : 2 * ε ≤ lamb) (hl0 : 0 < lamb)
    (h : IsLassoMin X y lamb β) :
    sse X β (lin X b) ≤ 9 * lamb ^ 2 * S.card / φ ∧ absSum X.nc (fun j => β j - b j) ≤ 4 * lamb * S.card / φ :=
  fast_rate hc hb hn hl hl0 (h b)

/-- C153: columns of the same length that are nearly orthogonal meet the condition. -/
theorem C153_orthogonal {X : Mat K} {S : Finset Nat} {q μ : K} (hS : ∀ i ∈ S, i < X.nc) (hq : 0 < q) (hμ : 0 ≤ μ)
    (hlen : ∀ j, j < X.nc → colProd X j j = q) (hcoh : ∀ i j, i < X.nc → j < X.nc → i ≠ j → |colProd X i j| ≤ μ * q)
    (hsmall : 16 * S.card * μ < 1) : CompatibleOn X S (q * (1 - 16 * S.card * μ)) :=
  compatible_of_coherence hS hq hμ hlen hcoh hsmall

/-- C153: both bounds hold for the nodes of `LassoLars` and the points between them (no iteration being degenerate). -/
theorem C153_lars {X : Mat K} {y : Nat → K} {tol lambMin : K} {est : Nat → List Nat → List K → Option (List K × List K)}
    {path : List (LassoLarsNode K)} (h : CleanRun X y tol lambMin est path) {lamb : K} {β : Nat → K}
    (hp : OnPath path lamb β) :
    (∀ f ε, 0 ≤ ε → NoiseAtMost X (fun r => y r - f r) ε → ε ≤ lamb →
      ∀ b, sse X β f ≤ sse X b f + 2 * (lamb + ε) * absSum X.nc b) ∧
    ∀ b ε φ S, CompatibleOn X S φ → (∀ i, i ∉ S → b i = 0) → NoiseAtMost X (fun r => y r - lin X b r) ε → 2 * ε ≤ lamb →
      0 < lamb → sse X β (lin X b) ≤ 9 * lamb ^ 2 * S.card / φ ∧ absSum X.nc (fun j => β j - b j) ≤ 4 * lamb * S.card / φ := by
  obtain ⟨-, hm⟩ := CleanRun.onPath h hp
  refine ⟨fun f ε hε hn hl b => ?_, fun b ε φ S hc hb hn hl hl0 => C153_sparse hc hb hn hl hl0 hm⟩
  have := C153_prediction (γ := 0) hε hn hl (fun b' => by simpa using hm b') b
  simpa using this

/-- C153: the bound for the coefficients `LassoCrdDesc` reports as converged, per row, compared with all coefficients that do
not use the first feature: what is lost are the tolerance, the violation `v` of the optimality conditions by features that
were given up, and the coefficients cut at 1e-16. -/
theorem C153_crd (X : Mat K) (y f : Nat → K) (lamb tol v ε : K) (hl : ε ≤ lamb) (hε : 0 ≤ ε) (ht : 0 ≤ tol) (hv : 0 ≤ v)
    (hnr : 0 < X.nr) (hdiag : ∀ j, 1 ≤ j → j < X.nc → 0 < (empiricalCov X).get j j) (n : Nat)
    (hconv : reportsConvergence X y lamb tol pureLasso () n)
    (hun : ∀ j, 1 ≤ j → j < X.nc → |lassoResult X y lamb tol pureLasso () n j| ≤ 1 / 10 ^ 16 →
      |gradient X y (lassoResult X y lamb tol pureLasso () n) j| ≤ lamb + v)
    (hn : NoiseAtMost X (fun r => y r - f r) (X.nr * ε)) :
    let β := lassoResult X y lamb tol pureLasso () n
    ∃ m, (∃ k, |β k| = m) ∧ ∀ b : Nat → K, b 0 = 0 → sse X β f / X.nr ≤ sse X b f / X.nr + 2 * (lamb + ε) * absSum X.nc b +
      2 * (∑ j ∈ range X.nc, (tol * m * ∑ k ∈ range X.nc, |(empiricalCov X).get j k| + v) * |b j - β j| +
        2 * lamb * X.nc / 10 ^ 16) := by
  intro β
  obtain ⟨m, hm, hgap⟩ := C55_gap_partial X y lamb tol v (hε.trans hl) ht hv hnr hdiag n hconv hun
  refine ⟨m, hm, fun b hb => ?_⟩
  have hr : (0 : K) < X.nr := by exact_mod_cast hnr
  have h1 := mul_le_mul_of_nonneg_left (hgap b hb) hr.le
  set γ := ∑ j ∈ range X.nc, (tol * m * ∑ k ∈ range X.nc, |(empiricalCov X).get j k| + v) * |b j - β j| +
        2 * lamb * X.nc / 10 ^ 16 with hγ
  have h2 : lassoRisk X y (X.nr * lamb) β ≤ lassoRisk X y (X.nr * lamb) b + X.nr * γ := by
    rw [C108_scale X y lamb hnr, C108_scale X y lamb hnr, ← mul_add, hγ, ← add_assoc]
    exact h1
  have h3 := slow_rate hn (mul_le_mul_of_nonneg_left hl hr.le) h2 (by positivity)
  rw [div_add' _ _ _ hr.ne', div_add' _ _ _ hr.ne', div_le_div_iff_of_pos_right hr]
  refine h3.trans (le_of_eq ?_)
  ring

end

/-- C153: if the noise in the rows is independent with tails no heavier than those of a normal distribution of variance `σ²`,
then, except with probability `δ`, the predictions of all lasso solutions with a regularisation of at least
`σ √(2 q log(2p/δ))` (`p` features, `q` a bound of the squared lengths of the columns) are nearly as close to the values
without noise as those of all other coefficients. -/
theorem C153_random {Ω : Type} [MeasurableSpace Ω] {P : Measure Ω} {e : ℕ → Ω → ℝ} {σ : ℝ}
    (h : SubgaussianNoise P e σ) (X : Mat ℝ) {q δ : ℝ} (hσ : 0 < σ) (hq0 : 0 < q)
    (hq : ∀ j, j < X.nc → colProd X j j ≤ q) (hδ : 0 < δ) (f : Nat → ℝ) :
    P.real {ω | ¬ ∀ lamb β, noiseBound σ q X.nc δ ≤ lamb → IsLassoMin X (fun r => f r + e r ω) lamb β →
      ∀ b, sse X β f ≤ sse X b f + 2 * (lamb + noiseBound σ q X.nc δ) * absSum X.nc b} ≤ δ := by
  have := h.indep.isProbabilityMeasure
  refine le_trans (measureReal_mono ?_ (measure_ne_top _ _)) (noiseBound_tail h X hσ hq0 hq hδ)
  intro ω hω hn
  apply hω
  intro lamb β hl hm b
  have hn' : NoiseAtMost X (fun r => f r + e r ω - f r) (noiseBound σ q X.nc δ) := by
    simpa only [add_sub_cancel_left] using hn
  have hε : 0 ≤ noiseBound σ q X.nc δ := mul_nonneg hσ.le (Real.sqrt_nonneg _)
  have := C153_prediction (γ := 0) hε hn' hl (fun b' => by rw [add_zero]; exact hm b') b
  rwa [mul_zero, add_zero] at this

/-- C153: and, except with probability `δ`, if the values without noise are a combination of the features in `S`, every lasso
solution with a regularisation of at least twice that bound has an error proportional to the number of these features. -/
theorem C153_random_sparse {Ω : Type} [MeasurableSpace Ω] {P : Measure Ω} {e : ℕ → Ω → ℝ} {σ : ℝ}
    (h : SubgaussianNoise P e σ) (X : Mat ℝ) {q δ φ : ℝ} (hσ : 0 < σ) (hq0 : 0 < q)
    (hq : ∀ j, j < X.nc → colProd X j j ≤ q) (hδ : 0 < δ) {S : Finset Nat} (hc : CompatibleOn X S φ) {b : Nat → ℝ}
    (hb : ∀ i, i ∉ S → b i = 0) :
    P.real {ω | ¬ ∀ lamb β, 2 * noiseBound σ q X.nc δ ≤ lamb → 0 < lamb →
      IsLassoMin X (fun r => lin X b r + e r ω) lamb β →
      sse X β (lin X b) ≤ 9 * lamb ^ 2 * S.card / φ ∧ absSum X.nc (fun j => β j - b j) ≤ 4 * lamb * S.card / φ} ≤ δ := by
  have := h.indep.isProbabilityMeasure
  refine le_trans (measureReal_mono ?_ (measure_ne_top _ _)) (noiseBound_tail h X hσ hq0 hq hδ)
  intro ω hω hn
  apply hω
  intro lamb β hl hl0 hm
  refine C153_sparse hc hb ?_ hl hl0 hm
  simpa only [add_sub_cancel_left] using hn

/-- C153: normal noise and bounded noise are of this kind. -/
theorem C153_noise {Ω : Type} [MeasurableSpace Ω] {P : Measure Ω} {e : ℕ → Ω → ℝ} {σ : ℝ} :
    (NormalNoise P e σ → SubgaussianNoise P e σ) ∧
    (0 ≤ σ → (∀ r, AEMeasurable (e r) P) → (∀ r, ∀ᵐ ω ∂P, |e r ω| ≤ σ) → (∀ r, ∫ ω, e r ω ∂P = 0) → iIndepFun e P →
      SubgaussianNoise P e σ) :=
  ⟨fun h => h.subgaussian, fun hσ hm hb h0 hi => subgaussian_of_bounded hσ hm hb h0 hi⟩

/-! ### Examples -/

namespace LarsExample

/-- The second feature alone makes the signal -3, the noise is 1 in the first row. -/
theorem oracle_noise : NoiseAtMost X (fun r => y r - lin X (fun j => if j = 1 then -3 else 0) r) 1 := by
  intro j hj
  have : j = 0 ∨ j = 1 := by simp only [X] at hj; omega
  rcases this with rfl | rfl <;> decide +kernel

theorem oracle_compatible : CompatibleOn X {1} (1 : ℚ) := by
  have h := C153_orthogonal (X := X) (S := {1}) (q := 1) (μ := 0) (by simp [X]) one_pos le_rfl ?_ ?_ (by simp)
  · simpa using h
  · intro j hj
    have : j = 0 ∨ j = 1 := by simp only [X] at hj; omega
    rcases this with rfl | rfl <;> decide +kernel
  · intro i j hi hj hij
    have h1 : i = 0 ∨ i = 1 := by simp only [X] at hi; omega
    have h2 : j = 0 ∨ j = 1 := by simp only [X] at hj; omega
    rcases h1 with rfl | rfl <;> rcases h2 with rfl | rfl <;> first | exact absurd rfl hij | decide +kernel

/-- The point of the path with the regularisation 2 has the squared error 4; the bounds are 18 and 36. -/
example : ∃ β, OnPath [⟨[0], 3, [1]⟩, ⟨[0, -2], 1, [0, 1]⟩] 2 β ∧
    let b : Nat → ℚ := fun j => if j = 1 then -3 else 0
    sse X β (lin X b) = 4 ∧ sse X β (lin X b) ≤ sse X b (lin X b) + 2 * (2 + 1) * absSum 2 b ∧
    sse X β (lin X b) ≤ 9 * 2 ^ 2 * (1 : ℕ) / 1 ∧ absSum 2 (fun j => β j - b j) ≤ 4 * 2 * (1 : ℕ) / 1 := by
  have h1 : OnPath [⟨[0], 3, [1]⟩, ⟨[0, -2], 1, [0, 1]⟩] (2 : ℚ) _ :=
    ⟨0, _, _, 1 / 2, rfl, .inr rfl, by norm_num, by norm_num, by norm_num, rfl⟩
  obtain ⟨h2, h3⟩ := C153_lars cleanRun h1
  have h4 := h3 (fun j => if j = 1 then -3 else 0) 1 1 {1} oracle_compatible
    (fun i hi => by rw [if_neg (by simpa using hi)]) oracle_noise (by norm_num) (by norm_num)
  exact ⟨_, h1, by decide +kernel, h2 _ 1 (by norm_num) oracle_noise (by norm_num) _, h4⟩

end LarsExample

/-- The hypotheses of `C153_crd` hold for the data of C55 if there is noise of up to `8/105`. -/
example : reportsConvergence kktX kktY (8 / 105) (1 / 10 ^ 9) pureLasso () 3 ∧
    NoiseAtMost kktX (fun r => kktY r - (kktY r - 1 / 105 * u2 r)) (kktX.nr * (8 / 105)) := by
  refine ⟨by unfold reportsConvergence; decide +kernel, fun j hj => ?_⟩
  have : j = 0 ∨ j = 1 ∨ j = 2 ∨ j = 3 := by simp only [kktX] at hj; omega
  rcases this with rfl | rfl | rfl | rfl <;> decide +kernel

namespace NormalRows

/-- Standard normal noise, two columns of alternating zeros and ones: in at least 95 of 100 samples, the predictions of all lasso
solutions with the regularisation `√(2 n log 80)` are within `4 √(2 n log 80) ‖b‖₁` of every linear signal `b`. -/
example (n : ℕ) (hn : 0 < n) (b : ℕ → ℝ) :
    rows.real {ω | ¬ ∀ β, IsLassoMin (CoinRows.alt n) (fun r => lin (CoinRows.alt n) b r + e r ω)
      (Real.sqrt (2 * n * Real.log 80)) β →
      sse (CoinRows.alt n) β (lin (CoinRows.alt n) b) ≤ 4 * Real.sqrt (2 * n * Real.log 80) * absSum 2 b} ≤ 1 / 20 := by
  have hn' : (0 : ℝ) < n := by exact_mod_cast hn
  have h := C153_random (C153_noise.1 noise) (CoinRows.alt n) (q := n) (δ := 1 / 20) one_pos hn' ?_ (by norm_num)
    (lin (CoinRows.alt n) b)
  · refine le_trans (measureReal_mono ?_ (measure_ne_top _ _)) h
    intro ω hω hall
    apply hω
    have hb : noiseBound 1 n (CoinRows.alt n).nc (1 / 20) = Real.sqrt (2 * n * Real.log 80) := by
      have e80 : (2 * ((CoinRows.alt n).nc : ℝ) / (1 / 20)) = 80 := by
        show (2 * ((2 : ℕ) : ℝ) / (1 / 20)) = 80
        norm_num
      unfold noiseBound
      rw [e80, one_mul]
    intro β hm
    have h1 := hall _ β (le_of_eq hb) hm b
    have h2 : sse (CoinRows.alt n) b (lin (CoinRows.alt n) b) = 0 := Finset.sum_eq_zero (fun r _ => by ring)
    rw [h2, hb] at h1
    refine h1.trans (le_of_eq ?_)
    show _ = 4 * Real.sqrt (2 * n * Real.log 80) * absSum (CoinRows.alt n).nc b
    ring
  · intro j hj
    have hsq : ∀ r, (CoinRows.alt n).get r j * (CoinRows.alt n).get r j ≤ 1 := by
      intro r
      simp only [CoinRows.alt]
      split_ifs <;> norm_num
    unfold colProd
    refine (Finset.sum_le_sum (fun r _ => hsq r)).trans (le_of_eq ?_)
    simp [CoinRows.alt]

end NormalRows

end GoSelect
