import Verif.Proofs.LeastSquares
import Verif.Proofs.FitModel
import Verif.Props.C64
import Mathlib.MeasureTheory.Integral.Bochner.Set
import Mathlib.MeasureTheory.Integral.Bochner.Basic

/-! The fitted coefficients as linear functions of the response, and expectations of linear and quadratic functions of noise. -/

namespace GoSelect

open Finset Spec MeasureTheory

section
variable {K : Type} [Field K] [LinearOrder K] [IsStrictOrderedRing K]

/-- The columns of `X` are linearly independent. -/
def Spec.IndependentColumns (X : Mat K) : Prop :=
  ∀ b : Nat → K, (∀ i < X.nr, lin X b i = 0) → ∀ j < X.nc, b j = 0

/-- The weight of row `i` in coefficient `j` of the fit. -/
def fitWeight (d : SVD K) (j i : Nat) : K := ∑ k ∈ range d.p, d.v j k * invSigma (d.s k) * d.u i k

theorem svdCoeff_weight (d : SVD K) (X : Mat K) (y : Nat → K) (j : Nat) :
    svdCoeff d X (fun k => invSigma (d.s k)) y j = ∑ i ∈ range X.nr, fitWeight d j i * y i := by
  unfold svdCoeff fitWeight
  simp only [sum_mul, mul_sum]
  rw [sum_comm]
  exact sum_congr rfl fun i _ => sum_congr rfl fun k _ => by ring

/-- What `fit` returns, as weights of the responses. -/
theorem fit_vec {d : SVD K} {X : Mat K} {y c : List K} (hf : fit d X y = some c) {j : Nat} (hj : j < X.nc) :
    vec c j = ∑ i ∈ range X.nr, fitWeight d j i * vec y i := by
  have hn : X.nr = y.length := by
    by_contra hn
    rw [fit, if_pos hn] at hf
    cases hf
  rw [fit_eq_some hn, Option.some.injEq] at hf
  rw [← hf, vec, getD_map_range, if_pos hj, svdCoeff_weight]

/-- Fitted coefficients of any response. -/
def fitCoeff (d : SVD K) (X : Mat K) (y : Nat → K) (j : Nat) : K := ∑ i ∈ range X.nr, fitWeight d j i * y i

theorem fitCoeff_leastSquares {d : SVD K} {X : Mat K} (h : Untruncated d X) (y : Nat → K) :
    IsLeastSquares X (fitCoeff d X y) y := by
  have e : fitCoeff d X y = svdCoeff d X (fun k => invSigma (d.s k)) y := by
    funext j
    rw [svdCoeff_weight]; rfl
  rw [e]
  refine svdCoeff_leastSquares h.1 _ y fun k hk => invSigma_spec ?_
  rcases h.2 k hk with h0 | h0
  · exact .inl h0
  · exact .inr (h0.trans_le (le_abs_self _))

omit [IsStrictOrderedRing K] in
theorem fitCoeff_add (d : SVD K) (X : Mat K) (y z : Nat → K) (j : Nat) :
    fitCoeff d X (fun i => y i + z i) j = fitCoeff d X y j + fitCoeff d X z j := by
  simp only [fitCoeff, mul_add, sum_add_distrib]

/-- With independent columns the fit recovers the coefficients of noise-free data. -/
theorem fitCoeff_lin {d : SVD K} {X : Mat K} (h : Untruncated d X) (hi : IndependentColumns X) (b : Nat → K) {j : Nat}
    (hj : j < X.nc) : fitCoeff d X (lin X b) j = b j := by
  have h0 : sse X (fitCoeff d X (lin X b)) (lin X b) ≤ 0 := by
    refine (fitCoeff_leastSquares h (lin X b) b).trans (le_of_eq ?_)
    simp [sse]
  have h1 : ∀ i < X.nr, lin X (fun j => fitCoeff d X (lin X b) j - b j) i = 0 := by
    intro i hi
    have := (sum_eq_zero_iff_of_nonneg fun i _ => sq_nonneg _).1
      (le_antisymm h0 (sum_nonneg fun i _ => sq_nonneg _)) i (mem_range.2 hi)
    rw [lin_sub]
    exact pow_eq_zero_iff (two_ne_zero) |>.1 this
  exact sub_eq_zero.1 (hi _ h1 j hj)

omit [LinearOrder K] [IsStrictOrderedRing K] in
theorem lin_single (X : Mat K) {l : Nat} (hl : l < X.nc) (i : Nat) :
    lin X (fun m => if m = l then 1 else 0) i = X.get i l := by
  simp [lin, hl]

/-- `W X = I`. -/
theorem fitWeight_col {d : SVD K} {X : Mat K} (h : Untruncated d X) (hi : IndependentColumns X) {j l : Nat}
    (hj : j < X.nc) (hl : l < X.nc) : ∑ i ∈ range X.nr, fitWeight d j i * X.get i l = if j = l then 1 else 0 := by
  have := fitCoeff_lin h hi (fun m => if m = l then 1 else 0) hj
  rw [← this]
  exact sum_congr rfl fun i _ => by rw [lin_single X hl]

/-- The weights are combinations of the columns. -/
theorem fitWeight_span {d : SVD K} {X : Mat K} (h : Untruncated d X) (j : Nat) :
    ∃ g : Nat → K, ∀ i < X.nr, fitWeight d j i = lin X g i := by
  refine ⟨fun l => ∑ k ∈ range d.p, d.v l k * (d.v j k * invSigma (d.s k) ^ 2), fun i hi => ?_⟩
  rw [svd_lin h.1 _ hi]
  refine sum_congr rfl fun k hk => ?_
  rw [orth_expand h.1.vOrth (fun l => d.v j l * invSigma (d.s l) ^ 2) (mem_range.1 hk)]
  have : d.s k * invSigma (d.s k) ^ 2 = invSigma (d.s k) := by
    rcases h.2 k (mem_range.1 hk) with h0 | h0
    · rw [h0]
      simp [invSigma]
    · have hp : (0 : K) < 1 / 10 ^ 6 := by positivity
      have h1 : d.s k ≠ 0 := (hp.trans h0).ne'
      rw [invSigma, if_pos (h0.trans_le (le_abs_self _))]
      field_simp
  linear_combination (-(d.u i k * d.v j k)) * this

/-- A linear estimator that is exact on noise-free data differs from the fit by weights orthogonal to those of the fit. -/
theorem fitWeight_orth {d : SVD K} {X : Mat K} (h : Untruncated d X) (hi : IndependentColumns X) {A : Nat → Nat → K}
    (hA : ∀ b : Nat → K, ∀ j < X.nc, ∑ i ∈ range X.nr, A j i * lin X b i = b j) {j l : Nat} (hj : j < X.nc) :
    ∑ i ∈ range X.nr, (A j i - fitWeight d j i) * fitWeight d l i = 0 := by
  obtain ⟨g, hg⟩ := fitWeight_span h l
  have e : ∑ i ∈ range X.nr, (A j i - fitWeight d j i) * fitWeight d l i =
      ∑ i ∈ range X.nr, A j i * lin X g i - fitCoeff d X (lin X g) j := by
    rw [fitCoeff, ← sum_sub_distrib]
    refine sum_congr rfl fun i hi => ?_
    rw [hg i (mem_range.1 hi)]
    ring
  rw [e, hA g j hj, fitCoeff_lin h hi g hj, sub_self]

/-- The trace of the hat matrix. -/
theorem hat_trace {d : SVD K} {X : Mat K} (h : Untruncated d X) (hi : IndependentColumns X) :
    ∑ i ∈ range X.nr, ∑ j ∈ range X.nc, X.get i j * fitWeight d j i = X.nc := by
  rw [sum_comm]
  have : ∀ j ∈ range X.nc, ∑ i ∈ range X.nr, X.get i j * fitWeight d j i = 1 := by
    intro j hj
    have := fitWeight_col h hi (mem_range.1 hj) (mem_range.1 hj)
    rw [if_pos rfl] at this
    rw [← this]
    exact sum_congr rfl fun i _ => mul_comm _ _
  rw [sum_congr rfl this]
  simp

omit [LinearOrder K] [IsStrictOrderedRing K] in
theorem lin_add' (X : Mat K) (b c : Nat → K) (i : Nat) : lin X (fun j => b j + c j) i = lin X b i + lin X c i := by
  simp only [lin, mul_add, sum_add_distrib]

/-- The sum of squares of a fit to `μ + e`: bias, cross term, noise, and what the fit takes up of the noise. -/
theorem sse_fit_split {d : SVD K} {X : Mat K} (h : Untruncated d X) (μ e : Nat → K) :
    sse X (fitCoeff d X (fun i => μ i + e i)) (fun i => μ i + e i) =
      sse X (fitCoeff d X μ) μ - 2 * ∑ i ∈ range X.nr, (lin X (fitCoeff d X μ) i - μ i) * e i +
      (∑ i ∈ range X.nr, e i * e i - ∑ i ∈ range X.nr, e i * lin X (fitCoeff d X e) i) := by
  have h1 := orthogonal_of_isLeastSquares X _ _ (fitCoeff_leastSquares h μ) (fitCoeff d X e)
  have h2 := orthogonal_of_isLeastSquares X _ _ (fitCoeff_leastSquares h e) (fitCoeff d X e)
  have h3 : sse X (fitCoeff d X (fun i => μ i + e i)) (fun i => μ i + e i) =
      sse X (fitCoeff d X μ) μ - 2 * ∑ i ∈ range X.nr, (lin X (fitCoeff d X μ) i - μ i) * e i +
      (∑ i ∈ range X.nr, e i * e i - ∑ i ∈ range X.nr, e i * lin X (fitCoeff d X e) i) +
      2 * ∑ i ∈ range X.nr, (lin X (fitCoeff d X μ) i - μ i) * lin X (fitCoeff d X e) i +
      ∑ i ∈ range X.nr, (lin X (fitCoeff d X e) i - e i) * lin X (fitCoeff d X e) i := by
    unfold sse
    simp only [mul_sum, ← sum_add_distrib, ← sum_sub_distrib]
    refine sum_congr rfl fun i _ => ?_
    have : lin X (fitCoeff d X (fun i => μ i + e i)) i = lin X (fitCoeff d X μ) i + lin X (fitCoeff d X e) i := by
      rw [← lin_add']
      exact lin_congr X (fun j _ => fitCoeff_add d X μ e j) i
    rw [this]
    ring
  rw [h3, h1, h2]
  ring

end

/-! ### Noise -/

/-- Uncorrelated noise with mean 0 and variance `σ²` in each of `n` rows. -/
structure Spec.WhiteNoise {Ω : Type} [MeasurableSpace Ω] (P : Measure Ω) (n : Nat) (e : Nat → Ω → ℝ) (σ : ℝ) : Prop where
  int : ∀ r < n, Integrable (e r) P
  mean : ∀ r < n, ∫ ω, e r ω ∂P = 0
  int2 : ∀ r < n, ∀ s < n, Integrable (fun ω => e r ω * e s ω) P
  var : ∀ r < n, ∫ ω, e r ω * e r ω ∂P = σ ^ 2
  uncorr : ∀ r < n, ∀ s < n, r ≠ s → ∫ ω, e r ω * e s ω ∂P = 0

section
variable {Ω : Type} [MeasurableSpace Ω] {P : Measure Ω} {n : Nat} {e : Nat → Ω → ℝ} {σ : ℝ}

theorem noise_linear (h : WhiteNoise P n e σ) (w : Nat → ℝ) :
    Integrable (fun ω => ∑ r ∈ range n, w r * e r ω) P ∧ ∫ ω, ∑ r ∈ range n, w r * e r ω ∂P = 0 := by
  have hi : ∀ r ∈ range n, Integrable (fun ω => w r * e r ω) P := fun r hr => (h.int r (mem_range.1 hr)).const_mul _
  refine ⟨integrable_finsetSum _ hi, ?_⟩
  rw [integral_finsetSum _ hi]
  refine sum_eq_zero fun r hr => ?_
  rw [integral_const_mul, h.mean r (mem_range.1 hr), mul_zero]

theorem noise_quadratic (h : WhiteNoise P n e σ) (M : Nat → Nat → ℝ) :
    Integrable (fun ω => ∑ r ∈ range n, ∑ s ∈ range n, M r s * (e r ω * e s ω)) P ∧
      ∫ ω, ∑ r ∈ range n, ∑ s ∈ range n, M r s * (e r ω * e s ω) ∂P = (∑ r ∈ range n, M r r) * σ ^ 2 := by
  have hi : ∀ r ∈ range n, ∀ s ∈ range n, Integrable (fun ω => M r s * (e r ω * e s ω)) P :=
    fun r hr s hs => (h.int2 r (mem_range.1 hr) s (mem_range.1 hs)).const_mul _
  have hi' : ∀ r ∈ range n, Integrable (fun ω => ∑ s ∈ range n, M r s * (e r ω * e s ω)) P :=
    fun r hr => integrable_finsetSum _ (hi r hr)
  refine ⟨integrable_finsetSum _ hi', ?_⟩
  rw [integral_finsetSum _ hi', sum_mul]
  refine sum_congr rfl fun r hr => ?_
  rw [integral_finsetSum _ (hi r hr), sum_eq_single r]
  · rw [integral_const_mul, h.var r (mem_range.1 hr)]
  · intro s hs hsr
    rw [integral_const_mul, h.uncorr r (mem_range.1 hr) s (mem_range.1 hs) (Ne.symm hsr), mul_zero]
  · exact fun hn => absurd hr hn

theorem noise_square (h : WhiteNoise P n e σ) (w : Nat → ℝ) :
    Integrable (fun ω => (∑ r ∈ range n, w r * e r ω) ^ 2) P ∧
      ∫ ω, (∑ r ∈ range n, w r * e r ω) ^ 2 ∂P = (∑ r ∈ range n, w r ^ 2) * σ ^ 2 := by
  have hsq : ∀ ω, (∑ r ∈ range n, w r * e r ω) ^ 2 = ∑ r ∈ range n, ∑ s ∈ range n, w r * w s * (e r ω * e s ω) := by
    intro ω
    rw [sq, sum_mul_sum]
    exact sum_congr rfl fun r _ => sum_congr rfl fun s _ => by ring
  simp only [hsq]
  obtain ⟨h1, h2⟩ := noise_quadratic h (fun r s => w r * w s)
  refine ⟨h1, ?_⟩
  rw [h2]
  simp only [sq]

end

end GoSelect
