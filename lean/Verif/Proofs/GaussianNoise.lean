import Verif.Props.C131
import Mathlib.Probability.Distributions.Gaussian.HasGaussianLaw.Independence
import Mathlib.Probability.Distributions.Gaussian.Real
import Mathlib.Probability.Moments.MGFAnalytic
import Mathlib.Analysis.Complex.ExponentialBounds
import Mathlib.Analysis.Real.Pi.Bounds

/-! Independent noise with the normal distribution. -/

namespace GoSelect

open Finset MeasureTheory ProbabilityTheory Spec
open scoped NNReal

/-- Independent noise with the normal distribution of mean 0 and variance `σ²` in every row. -/
structure Spec.NormalNoise {Ω : Type} [MeasurableSpace Ω] (P : Measure Ω) (e : ℕ → Ω → ℝ) (σ : ℝ) : Prop where
  law : ∀ r, HasLaw (e r) (gaussianReal 0 (σ ^ 2).toNNReal) P
  indep : iIndepFun e P

/-- The fourth moment of the normal distribution. -/
theorem normal_fourth (v : ℝ≥0) : ∫ x, x ^ 4 ∂gaussianReal 0 v = 3 * (v : ℝ) ^ 2 := by
  have h0 : ∫ x, x ^ 4 ∂gaussianReal 0 v = iteratedDeriv 4 (mgf (fun x ↦ x) (gaussianReal 0 v)) 0 := by
    rw [iteratedDeriv_mgf_zero] <;> simp
  rw [h0, mgf_fun_id_gaussianReal, iteratedDeriv_succ, iteratedDeriv_succ, iteratedDeriv_succ, iteratedDeriv_one]
  simp only [zero_mul, zero_add]
  have hd : ∀ t : ℝ, HasDerivAt (fun t ↦ Real.exp (v * t ^ 2 / 2)) (v * t * Real.exp (v * t ^ 2 / 2)) t := by
    intro t
    have h1 : HasDerivAt (fun t : ℝ => v * t ^ 2 / 2) (v * t) t := by
      have := ((hasDerivAt_pow 2 t).const_mul (v : ℝ)).div_const 2
      refine this.congr_deriv ?_
      simp; ring
    refine h1.exp.congr_deriv ?_
    ring
  have e1 : deriv (fun t ↦ Real.exp (v * t ^ 2 / 2)) = fun t ↦ v * t * Real.exp (v * t ^ 2 / 2) := funext fun t => (hd t).deriv
  have e2 : deriv (fun t ↦ (v : ℝ) * t * Real.exp (v * t ^ 2 / 2)) =
      fun t ↦ (v + v ^ 2 * t ^ 2) * Real.exp (v * t ^ 2 / 2) := funext fun t => by
    refine (HasDerivAt.deriv (((hasDerivAt_id t).const_mul (v : ℝ)).mul (hd t))).trans ?_
    simp only [id]; ring
  have e3 : deriv (fun t ↦ ((v : ℝ) + v ^ 2 * t ^ 2) * Real.exp (v * t ^ 2 / 2)) =
      fun t ↦ (3 * v ^ 2 * t + v ^ 3 * t ^ 3) * Real.exp (v * t ^ 2 / 2) := funext fun t => by
    refine (HasDerivAt.deriv ((((hasDerivAt_pow 2 t).const_mul ((v : ℝ) ^ 2)).const_add (v : ℝ)).mul (hd t))).trans ?_
    simp; ring
  have e4 : deriv (fun t ↦ (3 * (v : ℝ) ^ 2 * t + v ^ 3 * t ^ 3) * Real.exp (v * t ^ 2 / 2)) 0 = 3 * (v : ℝ) ^ 2 := by
    refine (HasDerivAt.deriv ((((hasDerivAt_id (0 : ℝ)).const_mul (3 * (v : ℝ) ^ 2)).add
      ((hasDerivAt_pow 3 (0 : ℝ)).const_mul ((v : ℝ) ^ 3))).mul (hd 0))).trans ?_
    simp
  rw [e1, e2, e3, e4]

/-- More than 7/1000 of a normal distribution lies beyond 2.2 standard deviations. -/
theorem normal_tail {s : ℝ} (hs : 0 < s) :
    7 / 1000 ≤ (gaussianReal 0 (s ^ 2).toNNReal).real {x | (11 / 5 * s) ^ 2 < x ^ 2} := by
  set v : ℝ≥0 := (s ^ 2).toNNReal with hv
  have hvv : (v : ℝ) = s ^ 2 := Real.coe_toNNReal _ (sq_nonneg s)
  have hv0 : v ≠ 0 := (Real.toNNReal_pos.2 (pow_pos hs 2)).ne'
  have hpdf : ∀ x : ℝ, x ^ 2 ≤ (3 * s) ^ 2 → (Real.sqrt (2 * Real.pi) * s)⁻¹ * Real.exp (-(9 / 2)) ≤ gaussianPDFReal 0 v x := by
    intro x hx
    unfold gaussianPDFReal
    have e1 : Real.sqrt (2 * Real.pi * v) = Real.sqrt (2 * Real.pi) * s := by
      rw [Real.sqrt_mul (by positivity)]
      rw [hvv, Real.sqrt_sq hs.le]
    rw [e1]
    refine mul_le_mul_of_nonneg_left (Real.exp_le_exp.2 ?_) (by positivity)
    rw [hvv, sub_zero, neg_div, neg_le_neg_iff, div_le_iff₀ (by positivity)]
    nlinarith
  have hc : 7 / 1000 / (8 / 5 * s) ≤ (Real.sqrt (2 * Real.pi) * s)⁻¹ * Real.exp (-(9 / 2)) := by
    have h1 : Real.exp (9 / 2) ≤ 451 / 5 := by
      have h2 : Real.exp (9 / 2) ^ 2 = Real.exp 1 ^ 9 := by
        rw [← Real.exp_nat_mul, ← Real.exp_nat_mul]; norm_num
      have h3 : Real.exp 1 ^ 9 ≤ (27183 / 10000 : ℝ) ^ 9 :=
        pow_le_pow_left₀ (Real.exp_pos 1).le (Real.exp_one_lt_d9.le.trans (by norm_num)) 9
      have h4 : (27183 / 10000 : ℝ) ^ 9 ≤ (451 / 5 : ℝ) ^ 2 := by norm_num
      exact (pow_le_pow_iff_left₀ (Real.exp_pos _).le (by norm_num) two_ne_zero).1 (h2.le.trans (h3.trans h4))
    have h5 : Real.sqrt (2 * Real.pi) ≤ 2507 / 1000 := by
      rw [Real.sqrt_le_left (by norm_num)]
      have := Real.pi_lt_d4
      nlinarith
    rw [Real.exp_neg, ← mul_inv, div_div, ← one_div, div_le_div_iff₀ (by positivity) (by positivity)]
    have h6 : Real.sqrt (2 * Real.pi) * Real.exp (9 / 2) ≤ 2507 / 1000 * (451 / 5) :=
      mul_le_mul h5 h1 (Real.exp_pos _).le (by norm_num)
    nlinarith
  have hI : ∀ a b : ℝ, b - a = 4 / 5 * s → (∀ x ∈ Set.Ioo a b, x ^ 2 ≤ (3 * s) ^ 2) →
      7 / 2000 ≤ (gaussianReal 0 v).real (Set.Ioo a b) := by
    intro a b hab hx
    rw [measureReal_def, gaussianReal_apply_eq_integral _ hv0]
    rw [ENNReal.toReal_ofReal (setIntegral_nonneg measurableSet_Ioo fun x _ => gaussianPDFReal_nonneg _ _ _)]
    have h1 : ∫ x in Set.Ioo a b, (7 / 1000 / (8 / 5 * s)) ≤ ∫ x in Set.Ioo a b, gaussianPDFReal 0 v x := by
      refine setIntegral_mono_on ?_ (integrable_gaussianPDFReal 0 v).integrableOn measurableSet_Ioo fun x hx' => ?_
      · exact integrableOn_const (by simp)
      · exact hc.trans (hpdf x (hx x hx'))
    refine le_trans (le_of_eq ?_) h1
    rw [setIntegral_const, measureReal_def, Real.volume_Ioo, ENNReal.toReal_ofReal (by rw [hab]; positivity), hab, smul_eq_mul]
    field_simp
    norm_num
  have h1 := hI (11 / 5 * s) (3 * s) (by ring) (fun x hx => by
    have := hx.1; have := hx.2
    nlinarith)
  have h2 := hI (-(3 * s)) (-(11 / 5 * s)) (by ring) (fun x hx => by
    have := hx.1; have := hx.2
    nlinarith)
  have hdis : Disjoint (Set.Ioo (11 / 5 * s) (3 * s)) (Set.Ioo (-(3 * s)) (-(11 / 5 * s))) := by
    rw [Set.disjoint_left]
    intro x hx hx'
    have := hx.1
    have := hx'.2
    linarith
  have h3 := measureReal_union (μ := gaussianReal 0 v) hdis measurableSet_Ioo
  have h4 : Set.Ioo (11 / 5 * s) (3 * s) ∪ Set.Ioo (-(3 * s)) (-(11 / 5 * s)) ⊆ {x | (11 / 5 * s) ^ 2 < x ^ 2} := by
    rintro x (hx | hx)
    · have := hx.1
      simp only [Set.mem_setOf_eq]
      nlinarith
    · have := hx.2
      simp only [Set.mem_setOf_eq]
      nlinarith
  have h5 := measureReal_mono (μ := gaussianReal 0 v) h4
  linarith

section
variable {Ω : Type} [MeasurableSpace Ω] {P : Measure Ω} {e : ℕ → Ω → ℝ} {σ : ℝ}

theorem Spec.NormalNoise.moment (h : NormalNoise P e σ) (r : ℕ) (k : ℕ) : Integrable (fun ω => e r ω ^ k) P := by
  have h1 : Integrable (fun x : ℝ => x ^ k) (gaussianReal 0 (σ ^ 2).toNNReal) := by
    rcases Nat.eq_zero_or_pos k with rfl | hk
    · simpa using integrable_const (1 : ℝ)
    · have h2 := (memLp_id_gaussianReal (μ := 0) (v := (σ ^ 2).toNNReal) (k : ℝ≥0)).integrable_norm_pow (by omega)
      refine h2.mono' (by fun_prop) (Filter.Eventually.of_forall fun x => ?_)
      simp
  rw [← (h.law r).map_eq] at h1
  exact h1.comp_aemeasurable (h.law r).aemeasurable

theorem Spec.NormalNoise.expect (h : NormalNoise P e σ) (r : ℕ) (k : ℕ) :
    ∫ ω, e r ω ^ k ∂P = ∫ x, x ^ k ∂gaussianReal 0 (σ ^ 2).toNNReal := by
  rw [← (h.law r).map_eq, integral_map (h.law r).aemeasurable (by fun_prop)]

theorem normal_second (v : ℝ≥0) : ∫ x, x ^ 2 ∂gaussianReal 0 v = v := by
  have h := variance_fun_id_gaussianReal (μ := 0) (v := v)
  rw [variance_eq_integral measurable_id'.aemeasurable] at h
  simpa using h

/-- Normal noise is noise as in C131. -/
theorem Spec.NormalNoise.independent (h : NormalNoise P e σ) : IndependentNoise P e σ (Real.sqrt 2 * σ ^ 2) := by
  have hP : IsProbabilityMeasure P := (h.law 0).hasGaussianLaw.isProbabilityMeasure
  have m1 : ∀ r, Integrable (e r) P := fun r => by simpa using h.moment r 1
  have m2 : ∀ r, Integrable (fun ω => e r ω * e r ω) P := fun r => by simpa [sq] using h.moment r 2
  have v2 : ∀ r, ∫ ω, e r ω ^ 2 ∂P = σ ^ 2 := fun r => by
    rw [h.expect r 2, normal_second, Real.coe_toNNReal _ (sq_nonneg σ)]
  have hexp : ∀ r ω, (e r ω * e r ω - σ ^ 2) * (e r ω * e r ω - σ ^ 2) = (e r ω ^ 4 - 2 * σ ^ 2 * e r ω ^ 2) + σ ^ 4 :=
    fun r ω => by ring
  refine ⟨m1, m2, fun r => ?_, fun r => ?_, fun r => ?_, fun r => ?_, fun r s hrs => h.indep.indepFun hrs⟩
  · simp only [hexp]
    exact ((h.moment r 4).sub ((h.moment r 2).const_mul _)).add (integrable_const _)
  · have := h.expect r 1
    simpa using this
  · simpa [sq] using v2 r
  · simp only [hexp]
    have hi : Integrable (fun ω => e r ω ^ 4 - 2 * σ ^ 2 * e r ω ^ 2) P := (h.moment r 4).sub ((h.moment r 2).const_mul _)
    rw [integral_add hi (integrable_const _), integral_sub (h.moment r 4) ((h.moment r 2).const_mul _), integral_const_mul, v2 r, h.expect r 4, normal_fourth,
      integral_const, mul_pow, Real.sq_sqrt (by norm_num)]
    rw [Real.coe_toNNReal _ (sq_nonneg σ)]
    simp
    ring

/-- A linear combination of the noise is large with a probability that does not depend on it. -/
theorem Spec.NormalNoise.combination (h : NormalNoise P e σ) (hσ : σ ≠ 0) (n : ℕ) (z : ℕ → ℝ) (hz : 0 < ∑ i ∈ range n, z i ^ 2) :
    7 / 1000 ≤ P.real {ω | (11 / 5) ^ 2 * σ ^ 2 * ∑ i ∈ range n, z i ^ 2 < (∑ i ∈ range n, z i * e i ω) ^ 2} := by
  have hP : IsProbabilityMeasure P := (h.law 0).hasGaussianLaw.isProbabilityMeasure
  have hind : iIndepFun (fun (i : Fin n) ω => z i * e i ω) P :=
    (h.indep.precomp (g := fun i : Fin n => (i : ℕ)) Fin.val_injective).comp (fun i x => z i * x) (fun i => by fun_prop)
  have hg : HasGaussianLaw (fun ω => ∑ i : Fin n, z i * e i ω) P :=
    iIndepFun.hasGaussianLaw_fun_sum (fun i => (h.law i).hasGaussianLaw.fun_smul (z i)) hind
  have hsum : ∀ ω, ∑ i : Fin n, z i * e i ω = ∑ i ∈ range n, z i * e i ω := fun ω =>
    Fin.sum_univ_eq_sum_range (fun i => z i * e i ω) n
  simp only [hsum] at hg
  have hw := h.independent.white n
  obtain ⟨_, hm⟩ := noise_linear hw z
  obtain ⟨_, hq⟩ := noise_square hw z
  have hlaw := hg.map_eq_gaussianReal
  rw [hm, variance_of_integral_eq_zero hg.aemeasurable hm, hq] at hlaw
  set s := Real.sqrt ((∑ i ∈ range n, z i ^ 2) * σ ^ 2) with hs
  have hpos : 0 < (∑ i ∈ range n, z i ^ 2) * σ ^ 2 := by positivity
  have hs0 : 0 < s := Real.sqrt_pos.2 hpos
  have hs2 : s ^ 2 = (∑ i ∈ range n, z i ^ 2) * σ ^ 2 := Real.sq_sqrt hpos.le
  rw [← hs2] at hlaw
  have ht := normal_tail hs0
  rw [← hlaw, map_measureReal_apply_of_aemeasurable hg.aemeasurable (measurableSet_lt (by fun_prop) (by fun_prop))] at ht
  refine ht.trans (le_of_eq ?_)
  congr 1
  ext ω
  simp only [Set.mem_preimage, Set.mem_setOf_eq, mul_pow, hs2]
  constructor <;> intro h <;> linarith

/-- The sum of squares of the noise is rarely twice its mean. -/
theorem Spec.NormalNoise.quiet (h : NormalNoise P e σ) (hσ : σ ≠ 0) {n : ℕ} (hn : 0 < n) :
    P.real {ω | 2 * (n * σ ^ 2) < noiseSq n (fun i => e i ω)} ≤ 2 / n := by
  have hP : IsProbabilityMeasure P := (h.law 0).hasGaussianLaw.isProbabilityMeasure
  obtain ⟨h1, h2⟩ := noise_square (h.independent.squares n) (fun _ => 1)
  have hn' : (0 : ℝ) < n := by exact_mod_cast hn
  have h3 : {ω | 2 * (n * σ ^ 2) < noiseSq n (fun i => e i ω)} ⊆
      {ω | (n * σ ^ 2) ^ 2 ≤ (∑ r ∈ range n, 1 * (e r ω * e r ω - σ ^ 2)) ^ 2} := by
    intro ω hω
    have h4 : 2 * (n * σ ^ 2) < noiseSq n (fun i => e i ω) := hω
    have h5 : ∑ r ∈ range n, 1 * (e r ω * e r ω - σ ^ 2) = noiseSq n (fun i => e i ω) - n * σ ^ 2 := by
      simp [noiseSq, sum_sub_distrib]
    have h6 : 0 ≤ n * σ ^ 2 := by positivity
    simp only [Set.mem_setOf_eq]
    rw [h5]
    nlinarith
  refine (measureReal_mono h3 (measure_ne_top _ _)).trans ((markov h1 (fun ω => sq_nonneg _) (by positivity)).trans (le_of_eq ?_))
  rw [h2, mul_pow, Real.sq_sqrt (by norm_num)]
  simp
  field_simp

end

end GoSelect
