import Verif.Proofs.GaussMarkov
import Verif.Proofs.UnitDesign
import Mathlib.Probability.ProbabilityMassFunction.Integrals
import Mathlib.Probability.Distributions.Uniform

/-!
# C130: what least-squares fits of noisy data are on average

The response is a fixed signal plus noise with mean 0, equal variance and no correlation between rows.
-/

namespace GoSelect

open Finset Spec MeasureTheory

variable {Ω : Type} [MeasurableSpace Ω] {P : Measure Ω} [IsProbabilityMeasure P]

/-- The responses `μ + e` of the rows in one realisation of the noise. -/
def Spec.noisy (n : Nat) (μ : Nat → ℝ) (e : Nat → Ω → ℝ) (ω : Ω) : List ℝ := (List.range n).map (fun r => μ r + e r ω)

omit [MeasurableSpace Ω] in
theorem vec_noisy (n : Nat) (μ : Nat → ℝ) (e : Nat → Ω → ℝ) (ω : Ω) {r : Nat} (hr : r < n) :
    vec (noisy n μ e ω) r = μ r + e r ω := by
  rw [vec, noisy, getD_map_range, if_pos hr]

omit [MeasurableSpace Ω] in
theorem fit_noisy {d : SVD ℝ} {X : Mat ℝ} {μ : Nat → ℝ} {e : Nat → Ω → ℝ} {ω : Ω} {c : List ℝ}
    (hc : fit d X (noisy X.nr μ e ω) = some c) {j : Nat} (hj : j < X.nc) :
    vec c j = fitCoeff d X μ j + ∑ i ∈ range X.nr, fitWeight d j i * e i ω := by
  rw [fit_vec hc hj, fitCoeff, ← sum_add_distrib]
  refine sum_congr rfl fun i hi => ?_
  rw [vec_noisy _ _ _ _ (mem_range.1 hi)]
  ring

/-- **C130 (unbiased).** When the columns are independent and no singular value is truncated, the fitted coefficients of
`X β` plus noise with mean 0 are `β` on average. -/
theorem C130_unbiased (d : SVD ℝ) (X : Mat ℝ) (hd : Untruncated d X) (hX : IndependentColumns X) (β : Nat → ℝ)
    (e : Nat → Ω → ℝ) (hint : ∀ r < X.nr, Integrable (e r) P) (hmean : ∀ r < X.nr, ∫ ω, e r ω ∂P = 0)
    (c : Ω → List ℝ) (hc : ∀ ω, fit d X (noisy X.nr (lin X β) e ω) = some (c ω)) (j : Nat) (hj : j < X.nc) :
    Integrable (fun ω => vec (c ω) j) P ∧ ∫ ω, vec (c ω) j ∂P = β j := by
  have hi : ∀ r ∈ range X.nr, Integrable (fun ω => fitWeight d j r * e r ω) P :=
    fun r hr => (hint r (mem_range.1 hr)).const_mul _
  have e1 : (fun ω => vec (c ω) j) = fun ω => β j + ∑ r ∈ range X.nr, fitWeight d j r * e r ω := by
    funext ω
    rw [fit_noisy (hc ω) hj, fitCoeff_lin hd hX β hj]
  rw [e1]
  refine ⟨(integrable_const _).add (integrable_finsetSum _ hi), ?_⟩
  rw [integral_add (integrable_const _) (integrable_finsetSum _ hi), integral_finsetSum _ hi, integral_const,
    sum_eq_zero, add_zero]
  · simp
  · intro r hr
    rw [integral_const_mul, hmean r (mem_range.1 hr), mul_zero]

/-- `A` computes estimates from the responses that are exact when there is no noise. -/
def Spec.ExactWithoutNoise (X : Mat ℝ) (A : Nat → Nat → ℝ) : Prop :=
  ∀ b : Nat → ℝ, ∀ j < X.nc, ∑ i ∈ range X.nr, A j i * lin X b i = b j

/-- The error of the combination `a` of estimates `b` of the coefficients `β`. -/
def Spec.errorOf (k : Nat) (a b β : Nat → ℝ) : ℝ := ∑ j ∈ range k, a j * (b j - β j)

section best
variable {d : SVD ℝ} {X : Mat ℝ} {β a : Nat → ℝ} {e : Nat → Ω → ℝ} {σ : ℝ} {c : Ω → List ℝ} {A : Nat → Nat → ℝ}

omit [MeasurableSpace Ω] in
theorem fit_error (hd : Untruncated d X) (hX : IndependentColumns X)
    (hc : ∀ ω, fit d X (noisy X.nr (lin X β) e ω) = some (c ω)) (a : Nat → ℝ) (ω : Ω) :
    errorOf X.nc a (vec (c ω)) β = ∑ i ∈ range X.nr, (∑ j ∈ range X.nc, a j * fitWeight d j i) * e i ω := by
  have h : ∀ j ∈ range X.nc, a j * (vec (c ω) j - β j) = ∑ i ∈ range X.nr, a j * fitWeight d j i * e i ω := by
    intro j hj
    rw [fit_noisy (hc ω) (mem_range.1 hj), fitCoeff_lin hd hX β (mem_range.1 hj), add_sub_cancel_left, mul_sum]
    exact sum_congr rfl fun i _ => by ring
  rw [errorOf, sum_congr rfl h, sum_comm]
  exact sum_congr rfl fun i _ => by rw [sum_mul]

omit [MeasurableSpace Ω] in
theorem linear_error (hA : ExactWithoutNoise X A) (a : Nat → ℝ) (ω : Ω) :
    errorOf X.nc a (fun j => ∑ i ∈ range X.nr, A j i * vec (noisy X.nr (lin X β) e ω) i) β =
      ∑ i ∈ range X.nr, (∑ j ∈ range X.nc, a j * A j i) * e i ω := by
  have h : ∀ j ∈ range X.nc, a j * (∑ i ∈ range X.nr, A j i * vec (noisy X.nr (lin X β) e ω) i - β j) =
      ∑ i ∈ range X.nr, a j * A j i * e i ω := by
    intro j hj
    have h1 : ∑ i ∈ range X.nr, A j i * vec (noisy X.nr (lin X β) e ω) i =
        ∑ i ∈ range X.nr, A j i * lin X β i + ∑ i ∈ range X.nr, A j i * e i ω := by
      rw [← sum_add_distrib]
      refine sum_congr rfl fun i hi => ?_
      rw [vec_noisy _ _ _ _ (mem_range.1 hi)]
      ring
    rw [h1, hA β j (mem_range.1 hj), add_sub_cancel_left, mul_sum]
    exact sum_congr rfl fun i _ => by ring
  rw [errorOf, sum_congr rfl h, sum_comm]
  exact sum_congr rfl fun i _ => by rw [sum_mul]

theorem weights_split (hd : Untruncated d X) (hX : IndependentColumns X) (hA : ExactWithoutNoise X A) (a : Nat → ℝ) :
    ∑ i ∈ range X.nr, (∑ j ∈ range X.nc, a j * A j i) ^ 2 =
      ∑ i ∈ range X.nr, (∑ j ∈ range X.nc, a j * fitWeight d j i) ^ 2 +
      ∑ i ∈ range X.nr, (∑ j ∈ range X.nc, a j * (A j i - fitWeight d j i)) ^ 2 := by
  have hcross : ∑ i ∈ range X.nr, (∑ j ∈ range X.nc, a j * (A j i - fitWeight d j i)) *
      (∑ l ∈ range X.nc, a l * fitWeight d l i) = 0 := by
    simp only [sum_mul_sum]
    rw [sum_comm]
    refine sum_eq_zero fun j hj => ?_
    rw [sum_comm]
    refine sum_eq_zero fun l _ => ?_
    have := fitWeight_orth (l := l) hd hX hA (mem_range.1 hj)
    rw [← mul_zero (a j * a l), ← this, mul_sum]
    exact sum_congr rfl fun i _ => by ring
  have h2 : ∀ i ∈ range X.nr, (∑ j ∈ range X.nc, a j * A j i) ^ 2 =
      (∑ j ∈ range X.nc, a j * fitWeight d j i) ^ 2 + (∑ j ∈ range X.nc, a j * (A j i - fitWeight d j i)) ^ 2 +
      2 * ((∑ j ∈ range X.nc, a j * (A j i - fitWeight d j i)) * (∑ l ∈ range X.nc, a l * fitWeight d l i)) := by
    intro i _
    have : ∑ j ∈ range X.nc, a j * A j i =
        ∑ j ∈ range X.nc, a j * (A j i - fitWeight d j i) + ∑ l ∈ range X.nc, a l * fitWeight d l i := by
      rw [← sum_add_distrib]
      exact sum_congr rfl fun j _ => by ring
    rw [this]
    ring
  rw [sum_congr rfl h2, sum_add_distrib, sum_add_distrib, ← mul_sum, hcross]
  ring

/-- **C130 (best).** No other linear estimator that is exact on noise-free data has a smaller mean squared error, for any
combination of the coefficients. -/
theorem C130_best (hd : Untruncated d X) (hX : IndependentColumns X) (he : WhiteNoise P X.nr e σ)
    (hc : ∀ ω, fit d X (noisy X.nr (lin X β) e ω) = some (c ω)) (hA : ExactWithoutNoise X A) (a : Nat → ℝ) :
    ∫ ω, errorOf X.nc a (vec (c ω)) β ^ 2 ∂P ≤
      ∫ ω, errorOf X.nc a (fun j => ∑ i ∈ range X.nr, A j i * vec (noisy X.nr (lin X β) e ω) i) β ^ 2 ∂P := by
  simp only [fit_error hd hX hc, linear_error hA]
  rw [(noise_square he _).2, (noise_square he _).2, weights_split hd hX hA a]
  refine mul_le_mul_of_nonneg_right ?_ (sq_nonneg _)
  exact le_add_of_nonneg_right (sum_nonneg fun i _ => sq_nonneg _)

/-- **C130 (the only best one).** When the noise is not 0, a linear estimator that is exact on noise-free data and has the
mean squared error of the fit returns what the fit returns, for every response. -/
theorem C130_only_best (hd : Untruncated d X) (hX : IndependentColumns X) (he : WhiteNoise P X.nr e σ) (hσ : σ ≠ 0)
    (hc : ∀ ω, fit d X (noisy X.nr (lin X β) e ω) = some (c ω)) (hA : ExactWithoutNoise X A) (a : Nat → ℝ)
    (heq : ∫ ω, errorOf X.nc a (fun j => ∑ i ∈ range X.nr, A j i * vec (noisy X.nr (lin X β) e ω) i) β ^ 2 ∂P =
      ∫ ω, errorOf X.nc a (vec (c ω)) β ^ 2 ∂P)
    (y b : List ℝ) (hb : fit d X y = some b) :
    ∑ j ∈ range X.nc, a j * ∑ i ∈ range X.nr, A j i * vec y i = ∑ j ∈ range X.nc, a j * vec b j := by
  simp only [fit_error hd hX hc, linear_error hA] at heq
  rw [(noise_square he _).2, (noise_square he _).2, weights_split hd hX hA a] at heq
  have h0 : ∑ i ∈ range X.nr, (∑ j ∈ range X.nc, a j * (A j i - fitWeight d j i)) ^ 2 = 0 := by
    have := mul_right_cancel₀ (pow_ne_zero 2 hσ) heq
    linarith
  have h1 : ∀ i ∈ range X.nr, ∑ j ∈ range X.nc, a j * (A j i - fitWeight d j i) = 0 := fun i hi =>
    pow_eq_zero_iff two_ne_zero |>.1 ((sum_eq_zero_iff_of_nonneg fun i _ => sq_nonneg _).1 h0 i hi)
  have h2 : ∑ j ∈ range X.nc, a j * ∑ i ∈ range X.nr, A j i * vec y i - ∑ j ∈ range X.nc, a j * vec b j =
      ∑ i ∈ range X.nr, (∑ j ∈ range X.nc, a j * (A j i - fitWeight d j i)) * vec y i := by
    simp only [sum_mul]
    rw [sum_comm, ← sum_sub_distrib]
    refine sum_congr rfl fun j hj => ?_
    rw [fit_vec hb (mem_range.1 hj), ← mul_sub, ← sum_sub_distrib, mul_sum]
    exact sum_congr rfl fun i _ => by ring
  rw [← sub_eq_zero, h2]
  exact sum_eq_zero fun i hi => by rw [h1 i hi, zero_mul]

/-- The quadratic form of the noise that a fit takes up. -/
theorem taken_up (he : WhiteNoise P X.nr e σ) (hd : Untruncated d X) (hX : IndependentColumns X) :
    Integrable (fun ω => ∑ i ∈ range X.nr, e i ω * lin X (fitCoeff d X (fun r => e r ω)) i) P ∧
      ∫ ω, ∑ i ∈ range X.nr, e i ω * lin X (fitCoeff d X (fun r => e r ω)) i ∂P = X.nc * σ ^ 2 := by
  have h : ∀ ω, ∑ i ∈ range X.nr, e i ω * lin X (fitCoeff d X (fun r => e r ω)) i =
      ∑ i ∈ range X.nr, ∑ s ∈ range X.nr, (∑ j ∈ range X.nc, X.get i j * fitWeight d j s) * (e i ω * e s ω) := by
    intro ω
    refine sum_congr rfl fun i _ => ?_
    simp only [lin, fitCoeff, mul_sum, sum_mul]
    rw [sum_comm]
    exact sum_congr rfl fun s _ => sum_congr rfl fun j _ => by ring
  simp only [h]
  obtain ⟨h1, h2⟩ := noise_quadratic he (fun i s => ∑ j ∈ range X.nc, X.get i j * fitWeight d j s)
  exact ⟨h1, by rw [h2, hat_trace hd hX]⟩

/-- **C130 (predictions).** On average the squared distance of the predictions from the noise-free response is `σ²` per
fitted column. -/
theorem C130_predictions (hd : Untruncated d X) (hX : IndependentColumns X) (he : WhiteNoise P X.nr e σ)
    (hc : ∀ ω, fit d X (noisy X.nr (lin X β) e ω) = some (c ω)) :
    ∫ ω, ∑ i ∈ range X.nr, (lin X (vec (c ω)) i - lin X β i) ^ 2 ∂P = X.nc * σ ^ 2 := by
  rw [← (taken_up he hd hX).2]
  congr 1
  funext ω
  have h1 := orthogonal_of_isLeastSquares X _ _ (fitCoeff_leastSquares hd (fun r => e r ω)) (fitCoeff d X (fun r => e r ω))
  rw [← sub_eq_zero, ← h1, ← sum_sub_distrib]
  refine sum_congr rfl fun i _ => ?_
  have h2 : lin X (vec (c ω)) i = lin X β i + lin X (fitCoeff d X (fun r => e r ω)) i := by
    rw [← lin_add']
    refine lin_congr X (fun j hj => ?_) i
    rw [fit_noisy (hc ω) hj, fitCoeff_lin hd hX β hj]
    rfl
  rw [h2]
  ring

end best

/-! ### The residual sum of squares of a model -/

section rss
variable {svd : Mat ℝ → SVD ℝ} {X : Mat ℝ} {e : Nat → Ω → ℝ} {σ : ℝ}

/-- **C130 (residuals).** The residual sum of squares of a model with `k` features, for the response `μ` plus noise, is on
average that of the model for `μ`, plus `(n - k) σ²`. -/
theorem C130_rss (μ : Nat → ℝ) (he : WhiteNoise P X.nr e σ) (m : List Bool) (hm : m.length ≤ X.nc) (hpos : 0 < card m)
    (hd : ExactFit svd X m) (hX : IndependentColumns (designOf X m)) (c : Ω → List ℝ) (R : Ω → ℝ)
    (hR : ∀ ω, fitModel svd X (noisy X.nr μ e ω) m = some (c ω, R ω))
    (b : Nat → ℝ) (hb : IsLeastSquares (designOf X m) b μ) :
    Integrable R P ∧ ∫ ω, R ω ∂P = sse (designOf X m) b μ + ((X.nr : ℝ) - card m) * σ ^ 2 := by
  set D := designOf X m with hD
  have hb' : sse D b μ = sse D (fitCoeff (svd D) D μ) μ := le_antisymm (hb _) (fitCoeff_leastSquares hd μ b)
  have hR' : R = fun ω => sse D (fitCoeff (svd D) D μ) μ +
      -2 * (∑ i ∈ range D.nr, (lin D (fitCoeff (svd D) D μ) i - μ i) * e i ω) +
      (∑ i ∈ range D.nr, e i ω * e i ω - ∑ i ∈ range D.nr, e i ω * lin D (fitCoeff (svd D) D (fun r => e r ω)) i) := by
    funext ω
    obtain ⟨c', h1, h2, -⟩ := fitModel_eq_some (svd := svd) (X := X) (y := noisy X.nr μ e ω) (m := m)
      (by simp [noisy]) hpos hm
    rw [hR ω, Option.some.injEq, Prod.mk.injEq] at h1
    rw [h1.2]
    have h3 := sse_fit_split hd μ (fun r => e r ω)
    rw [← hD] at h3 h2 ⊢
    have h4 : sse D (vec c') (vec (noisy X.nr μ e ω)) =
        sse D (fitCoeff (svd D) D (fun i => μ i + e i ω)) (fun i => μ i + e i ω) := by
      refine sse_congr D (fun j hj => ?_) (fun i hi => vec_noisy _ _ _ _ hi)
      rw [fit_vec h2 hj, fitCoeff]
      exact sum_congr rfl fun i hi => by rw [vec_noisy _ _ _ _ (show i < X.nr from mem_range.1 hi)]
    rw [h4, h3]
    ring
  have i1 : Integrable (fun ω => ∑ i ∈ range D.nr, (lin D (fitCoeff (svd D) D μ) i - μ i) * e i ω) P ∧
      ∫ ω, ∑ i ∈ range D.nr, (lin D (fitCoeff (svd D) D μ) i - μ i) * e i ω ∂P = 0 :=
    noise_linear he (fun i => lin D (fitCoeff (svd D) D μ) i - μ i)
  have i2 : Integrable (fun ω => ∑ i ∈ range D.nr, e i ω * lin D (fitCoeff (svd D) D (fun r => e r ω)) i) P ∧
      ∫ ω, ∑ i ∈ range D.nr, e i ω * lin D (fitCoeff (svd D) D (fun r => e r ω)) i ∂P = D.nc * σ ^ 2 :=
    taken_up (X := D) he hd hX
  have i3 : Integrable (fun ω => ∑ i ∈ range D.nr, e i ω * e i ω) P ∧
      ∫ ω, ∑ i ∈ range D.nr, e i ω * e i ω ∂P = X.nr * σ ^ 2 := by
    have hi : ∀ r ∈ range D.nr, Integrable (fun ω => e r ω * e r ω) P :=
      fun r hr => he.int2 r (mem_range.1 hr) r (mem_range.1 hr)
    refine ⟨integrable_finsetSum _ hi, ?_⟩
    rw [integral_finsetSum _ hi]
    have : ∑ r ∈ range D.nr, ∫ ω, e r ω * e r ω ∂P = ∑ _r ∈ range D.nr, σ ^ 2 :=
      sum_congr rfl fun r hr => he.var r (mem_range.1 hr)
    rw [this, sum_const, card_range, nsmul_eq_mul]
    rfl
  have i4 : Integrable (fun ω => sse D (fitCoeff (svd D) D μ) μ +
      -2 * (∑ i ∈ range D.nr, (lin D (fitCoeff (svd D) D μ) i - μ i) * e i ω)) P :=
    (integrable_const _).add (i1.1.const_mul _)
  rw [hR']
  have i5 : Integrable (fun ω => ∑ i ∈ range D.nr, e i ω * e i ω -
      ∑ i ∈ range D.nr, e i ω * lin D (fitCoeff (svd D) D (fun r => e r ω)) i) P := i3.1.sub i2.1
  refine ⟨i4.add i5, ?_⟩
  rw [integral_add i4 i5, integral_sub i3.1 i2.1, i3.2, i2.2,
    integral_add (integrable_const _) (i1.1.const_mul _), integral_const_mul]
  rw [i1.2, hb', integral_const]
  have : D.nc = card m := rfl
  rw [this]
  simp
  ring

/-- **C130 (variance estimate).** The residual sum of squares of a model that contains every feature of the signal, divided by
the number of rows minus the number of its features, is the variance of the noise on average. -/
theorem C130_variance (β : Nat → ℝ) (he : WhiteNoise P X.nr e σ) (m : List Bool) (hm : m.length = X.nc) (hpos : 0 < card m)
    (hβ : ∀ j, ¬ HasFeature m j → β j = 0) (hn : card m < X.nr) (hd : ExactFit svd X m)
    (hX : IndependentColumns (designOf X m)) (c : Ω → List ℝ) (R : Ω → ℝ)
    (hR : ∀ ω, fitModel svd X (noisy X.nr (lin X β) e ω) m = some (c ω, R ω)) :
    ∫ ω, R ω / ((X.nr : ℝ) - card m) ∂P = σ ^ 2 := by
  have hlin : ∀ i, lin (designOf X m) (fun k => β ((features m).getD k 0)) i = lin X β i := fun i => by
    rw [designOf_eq]
    exact lin_restrict (features_nodup m) (fun j hj => hm ▸ features_lt hj) β
      (fun j hj => hβ j fun h => hj ((mem_features m j).2 h)) i
  have h0 : sse (designOf X m) (fun k => β ((features m).getD k 0)) (lin X β) = 0 := by
    refine sum_eq_zero fun i _ => ?_
    rw [hlin]
    ring
  have h := (C130_rss (lin X β) he m hm.le hpos hd hX c R hR (fun k => β ((features m).getD k 0))
    (fun b => h0 ▸ sum_nonneg fun i _ => sq_nonneg _)).2
  rw [integral_div, h, h0, zero_add]
  have : (0 : ℝ) < (X.nr : ℝ) - card m := sub_pos.2 (by exact_mod_cast hn)
  field_simp

end rss

/-! ### Example: two rows disturbed by independent coins -/

namespace CoinNoise

/-- Two fair coins. -/
noncomputable def coins : Measure (Bool × Bool) := (PMF.uniformOfFintype (Bool × Bool)).toMeasure

instance : IsProbabilityMeasure coins := PMF.toMeasure.isProbabilityMeasure _

/-- Row 0 is disturbed by the first coin, row 1 by the second one. -/
def e (r : Nat) (ω : Bool × Bool) : ℝ := if r = 0 then (if ω.1 then 1 else -1) else (if ω.2 then 1 else -1)

theorem integral_coins (f : Bool × Bool → ℝ) :
    ∫ ω, f ω ∂coins = (f (true, true) + f (true, false) + f (false, true) + f (false, false)) / 4 := by
  rw [coins, PMF.integral_eq_sum]
  simp [Fintype.sum_prod_type, PMF.uniformOfFintype_apply]
  ring

theorem white : WhiteNoise coins 2 e 1 := by
  have two : ∀ r < 2, r = 0 ∨ r = 1 := fun r hr => by omega
  refine ⟨fun r _ => .of_finite, fun r hr => ?_, fun r _ s _ => .of_finite, fun r hr => ?_, fun r hr s hs h => ?_⟩
  · rw [integral_coins]
    rcases two r hr with rfl | rfl <;> norm_num [e]
  · rw [integral_coins]
    rcases two r hr with rfl | rfl <;> norm_num [e]
  · rw [integral_coins]
    rcases two r hr with rfl | rfl <;> rcases two s hs with rfl | rfl <;>
      first | exact absurd rfl h | norm_num [e]

/-- The model with the only feature of the unit vector in two rows. -/
theorem independent : IndependentColumns (designOf (unitX 2 1 : Mat ℝ) [true]) := by
  intro b hb j hj
  have h0 := hb 0 (by decide)
  change j < 1 at hj
  obtain rfl : j = 0 := by omega
  simpa [lin, designOf, unitX, features, Spec.card] using h0

/-- The response is 3 in row 0 and 0 in row 1, plus noise of variance 1: the residual sum of squares of the model is 1 on
average. -/
example : ∃ (c : Bool × Bool → List ℝ) (R : Bool × Bool → ℝ),
    (∀ ω, fitModel orthSvd (unitX 2 1 : Mat ℝ) (noisy 2 (lin (unitX 2 1) (fun j => if j = 0 then 3 else 0)) e ω) [true] = some (c ω, R ω)) ∧
    ∫ ω, R ω / (((2 : Nat) : ℝ) - ((1 : Nat) : ℝ)) ∂coins = 1 := by
  have h : ∀ ω, ∃ p : List ℝ × ℝ, fitModel orthSvd (unitX 2 1 : Mat ℝ) (noisy 2 (lin (unitX 2 1) (fun j => if j = 0 then 3 else 0)) e ω) [true] =
      some p := by
    intro ω
    obtain ⟨c, h1, -⟩ := fitModel_eq_some (svd := orthSvd) (X := (unitX 2 1 : Mat ℝ))
      (y := noisy 2 (lin (unitX 2 1) (fun j => if j = 0 then 3 else 0)) e ω) (m := [true]) (by simp [noisy, unitX]) (by decide) (by decide)
    exact ⟨_, h1⟩
  choose p hp using h
  refine ⟨fun ω => (p ω).1, fun ω => (p ω).2, hp, ?_⟩
  have := C130_variance (X := (unitX 2 1 : Mat ℝ)) (svd := orthSvd) (fun j => if j = 0 then 3 else 0) white [true] rfl
    (by decide) (fun j hj => ?_) (by decide) (unitX_exact (by decide) rfl) independent (fun ω => (p ω).1)
    (fun ω => (p ω).2) ?_
  · rw [one_pow] at this
    exact this
  · rw [if_neg]
    rintro rfl
    exact hj ((mem_features _ _).1 (by decide))
  · intro ω
    exact hp ω

/-- The fit of a unit vector is at least as good as the sum of both responses, which is exact without noise too. -/
example (c : Bool × Bool → List ℝ)
    (hc : ∀ ω, fit (orthSvd (designOf (unitX 2 1 : Mat ℝ) [true])) (designOf (unitX 2 1 : Mat ℝ) [true])
      (noisy 2 (lin (designOf (unitX 2 1 : Mat ℝ) [true]) (fun _ => 3)) e ω) = some (c ω)) :
    ∫ ω, errorOf 1 (fun _ => 1) (vec (c ω)) (fun _ => 3) ^ 2 ∂coins ≤
      ∫ ω, errorOf 1 (fun _ => 1) (fun _ => ∑ i ∈ range 2, 1 *
        vec (noisy 2 (lin (designOf (unitX 2 1 : Mat ℝ) [true]) (fun _ => 3)) e ω) i) (fun _ => 3) ^ 2 ∂coins := by
  refine C130_best (X := designOf (unitX 2 1 : Mat ℝ) [true]) (A := fun _ _ => 1) (unitX_exact (by decide) rfl) independent
    white hc ?_ _
  intro b j hj
  change j < 1 at hj
  obtain rfl : j = 0 := by omega
  simp [lin, designOf, unitX, features, Spec.card, sum_range_succ]

end CoinNoise

end GoSelect
