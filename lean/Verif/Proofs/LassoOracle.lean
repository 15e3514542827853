import Verif.Proofs.LassoStability
import Verif.Props.C108
import Verif.Proofs.GaussianNoise
import Mathlib.Probability.Moments.SubGaussian
import Mathlib.Algebra.Order.Chebyshev

/-!
# How far the predictions of the lasso are from the truth
-/

namespace GoSelect

open Finset Spec

namespace Spec

variable {K : Type} [Field K] [LinearOrder K]

/-- No column has an inner product with `e` beyond `ε`. -/
def NoiseAtMost (X : Mat K) (e : Nat → K) (ε : K) : Prop :=
  ∀ j, j < X.nc → |∑ r ∈ range X.nr, X.get r j * e r| ≤ ε

/-- The compatibility condition: combinations of columns whose coefficients are mostly on `S` are not too short. -/
structure CompatibleOn (X : Mat K) (S : Finset Nat) (φ : K) : Prop where
  lt : ∀ i ∈ S, i < X.nc
  pos : 0 < φ
  bound : ∀ w : Nat → K, ∑ j ∈ range X.nc \ S, |w j| ≤ 3 * ∑ j ∈ S, |w j| →
    φ * (∑ j ∈ S, |w j|) ^ 2 ≤ S.card * ∑ r ∈ range X.nr, lin X w r ^ 2

end Spec

variable {K : Type} [Field K] [LinearOrder K] [IsStrictOrderedRing K]

theorem sum_mul_lin (X : Mat K) (e w : Nat → K) :
    ∑ r ∈ range X.nr, e r * lin X w r = ∑ j ∈ range X.nc, (∑ r ∈ range X.nr, X.get r j * e r) * w j := by
  simp only [lin, Finset.sum_mul, Finset.mul_sum]
  rw [Finset.sum_comm]
  exact Finset.sum_congr rfl (fun r _ => Finset.sum_congr rfl (fun j _ => by ring))

theorem Spec.NoiseAtMost.inner {X : Mat K} {e : Nat → K} {ε : K} (h : NoiseAtMost X e ε) (w : Nat → K) :
    ∑ r ∈ range X.nr, e r * lin X w r ≤ ε * absSum X.nc w := by
  rw [sum_mul_lin, absSum, Finset.mul_sum]
  refine Finset.sum_le_sum (fun j hj => ?_)
  calc _ ≤ |(∑ r ∈ range X.nr, X.get r j * e r) * w j| := le_abs_self _
    _ = |∑ r ∈ range X.nr, X.get r j * e r| * |w j| := abs_mul _ _
    _ ≤ ε * |w j| := mul_le_mul_of_nonneg_right (h j (mem_range.1 hj)) (abs_nonneg _)

theorem absSum_sub_le (n : Nat) (b b' : Nat → K) : absSum n (fun j => b j - b' j) ≤ absSum n b + absSum n b' := by
  simp only [absSum, ← Finset.sum_add_distrib]
  exact Finset.sum_le_sum (fun j _ => abs_sub _ _)

theorem absSum_nonneg (n : Nat) (b : Nat → K) : 0 ≤ absSum n b := Finset.sum_nonneg (fun _ _ => abs_nonneg _)

/-- The basic inequality. -/
theorem basic_inequality {X : Mat K} {y f : Nat → K} {lamb γ : K} {β b : Nat → K}
    (h : lassoRisk X y lamb β ≤ lassoRisk X y lamb b + γ) :
    sse X β f ≤ sse X b f + 2 * ∑ r ∈ range X.nr, (y r - f r) * lin X (fun j => β j - b j) r +
      2 * lamb * (absSum X.nc b - absSum X.nc β) + 2 * γ := by
  have e : ∀ b : Nat → K, ∑ r ∈ range X.nr, residual X y b r ^ 2 =
      sse X b f - 2 * ∑ r ∈ range X.nr, (y r - f r) * (lin X b r - f r) + ∑ r ∈ range X.nr, (y r - f r) ^ 2 := by
    intro b
    rw [sse, Finset.mul_sum, ← Finset.sum_sub_distrib, ← Finset.sum_add_distrib]
    refine Finset.sum_congr rfl (fun r _ => ?_)
    rw [residual_lin]
    ring
  have e2 : ∑ r ∈ range X.nr, (y r - f r) * lin X (fun j => β j - b j) r =
      ∑ r ∈ range X.nr, (y r - f r) * (lin X β r - f r) - ∑ r ∈ range X.nr, (y r - f r) * (lin X b r - f r) := by
    rw [← Finset.sum_sub_distrib]
    refine Finset.sum_congr rfl (fun r _ => ?_)
    rw [lin_sub]
    ring
  unfold lassoRisk at h
  rw [e, e] at h
  change _ + lamb * absSum X.nc β ≤ _ + lamb * absSum X.nc b + γ at h
  rw [e2]
  linarith

theorem slow_rate {X : Mat K} {y f : Nat → K} {lamb ε γ : K} {β b : Nat → K} (hn : NoiseAtMost X (fun r => y r - f r) ε)
    (hl : ε ≤ lamb) (h : lassoRisk X y lamb β ≤ lassoRisk X y lamb b + γ) (hε : 0 ≤ ε) :
    sse X β f ≤ sse X b f + 2 * (lamb + ε) * absSum X.nc b + 2 * γ := by
  have h1 := basic_inequality (f := f) h
  have h2 := hn.inner (fun j => β j - b j)
  have h3 := mul_le_mul_of_nonneg_left (absSum_sub_le X.nc β b) hε
  have h4 := mul_le_mul_of_nonneg_right hl (absSum_nonneg X.nc β)
  linarith

/-- The cone in which the error of the coefficients is. -/
theorem cone_inequality {X : Mat K} {y : Nat → K} {lamb ε : K} {β b : Nat → K} {S : Finset Nat}
    (hS : ∀ i ∈ S, i < X.nc) (hb : ∀ i, i ∉ S → b i = 0)
    (hn : NoiseAtMost X (fun r => y r - lin X b r) ε) (hl : 2 * ε ≤ lamb) (hl0 : 0 ≤ lamb)
    (h : lassoRisk X y lamb β ≤ lassoRisk X y lamb b) :
    ∑ r ∈ range X.nr, lin X (fun j => β j - b j) r ^ 2 + lamb * ∑ j ∈ range X.nc \ S, |β j - b j| ≤
      3 * lamb * ∑ j ∈ S, |β j - b j| := by
  have h1 := basic_inequality (f := lin X b) (γ := 0) (by simpa using h)
  have h2 := hn.inner (fun j => β j - b j)
  have e1 : sse X β (lin X b) = ∑ r ∈ range X.nr, lin X (fun j => β j - b j) r ^ 2 :=
    Finset.sum_congr rfl (fun r _ => by rw [lin_sub])
  have e2 : sse X b (lin X b) = 0 := Finset.sum_eq_zero (fun r _ => by ring)
  have hsub : S ⊆ range X.nc := fun i hi => mem_range.2 (hS i hi)
  have split : ∀ v : Nat → K, absSum X.nc v = ∑ j ∈ range X.nc \ S, |v j| + ∑ j ∈ S, |v j| :=
    fun v => (Finset.sum_sdiff hsub).symm
  have e3 : ∑ j ∈ range X.nc \ S, |b j| = 0 :=
    Finset.sum_eq_zero (fun j hj => by rw [hb j (mem_sdiff.1 hj).2, abs_zero])
  have e4 : ∑ j ∈ range X.nc \ S, |β j| = ∑ j ∈ range X.nc \ S, |β j - b j| :=
    Finset.sum_congr rfl (fun j hj => by rw [hb j (mem_sdiff.1 hj).2, sub_zero])
  have h3 : ∑ j ∈ S, |b j| - ∑ j ∈ S, |β j| ≤ ∑ j ∈ S, |β j - b j| := by
    rw [← Finset.sum_sub_distrib]
    exact Finset.sum_le_sum (fun j _ => by rw [abs_sub_comm]; exact abs_sub_abs_le_abs_sub _ _)
  rw [e1, e2] at h1
  have hw := split (fun j => β j - b j)
  have hw0 := absSum_nonneg X.nc (fun j => β j - b j)
  rw [split b, split β, e3, e4] at h1
  have h4 := mul_le_mul_of_nonneg_right hl hw0
  rw [hw] at h2 h4
  have h5 := mul_le_mul_of_nonneg_left h3 hl0
  linarith

theorem fast_rate {X : Mat K} {y : Nat → K} {lamb ε φ : K} {β b : Nat → K} {S : Finset Nat} (hc : CompatibleOn X S φ)
    (hb : ∀ i, i ∉ S → b i = 0) (hn : NoiseAtMost X (fun r => y r - lin X b r) ε) (hl : 2 * ε ≤ lamb) (hl0 : 0 < lamb)
    (h : lassoRisk X y lamb β ≤ lassoRisk X y lamb b) :
    sse X β (lin X b) ≤ 9 * lamb ^ 2 * S.card / φ ∧ absSum X.nc (fun j => β j - b j) ≤ 4 * lamb * S.card / φ := by
  have h1 := cone_inequality hc.lt hb hn hl hl0.le h
  have hd0 : 0 ≤ ∑ r ∈ range X.nr, lin X (fun j => β j - b j) r ^ 2 := Finset.sum_nonneg (fun _ _ => sq_nonneg _)
  have e1 : sse X β (lin X b) = ∑ r ∈ range X.nr, lin X (fun j => β j - b j) r ^ 2 :=
    Finset.sum_congr rfl (fun r _ => by rw [lin_sub])
  have ha0 : 0 ≤ ∑ j ∈ S, |β j - b j| := Finset.sum_nonneg (fun _ _ => abs_nonneg _)
  have hcone : ∑ j ∈ range X.nc \ S, |β j - b j| ≤ 3 * ∑ j ∈ S, |β j - b j| := by
    have : lamb * ∑ j ∈ range X.nc \ S, |β j - b j| ≤ lamb * (3 * ∑ j ∈ S, |β j - b j|) := by linarith
    exact le_of_mul_le_mul_left this hl0
  have h2 := hc.bound (fun j => β j - b j) hcone
  have hsub : S ⊆ range X.nc := fun i hi => mem_range.2 (hc.lt i hi)
  have hw : absSum X.nc (fun j => β j - b j) = ∑ j ∈ range X.nc \ S, |β j - b j| + ∑ j ∈ S, |β j - b j| :=
    (Finset.sum_sdiff hsub).symm
  have hφ := hc.pos
  have hs0 : (0 : K) ≤ S.card := Nat.cast_nonneg _
  have hc0 : 0 ≤ ∑ j ∈ range X.nc \ S, |β j - b j| := Finset.sum_nonneg (fun _ _ => abs_nonneg _)
  rw [e1, hw]
  generalize (∑ r ∈ range X.nr, lin X (fun j => β j - b j) r ^ 2) = d at *
  generalize (∑ j ∈ range X.nc \ S, |β j - b j|) = c at *
  generalize (∑ j ∈ S, |β j - b j|) = a at *
  generalize (S.card : K) = s at *
  clear hcone hw e1
  constructor
  · rw [le_div_iff₀ hφ]
    rcases hd0.eq_or_lt with h0 | h0
    · rw [← h0, zero_mul]
      positivity
    · have h3 : d ≤ 3 * lamb * a := by nlinarith
      have h4 : d * d ≤ (3 * lamb * a) * (3 * lamb * a) := mul_self_le_mul_self hd0 h3
      have h5 : (d * φ) * d ≤ (9 * lamb ^ 2 * s) * d := by
        have := mul_le_mul_of_nonneg_left h4 hφ.le
        have := mul_le_mul_of_nonneg_left h2 (by positivity : (0 : K) ≤ 9 * lamb ^ 2)
        nlinarith
      exact le_of_mul_le_mul_right h5 h0
  · rw [le_div_iff₀ hφ]
    rcases hs0.eq_or_lt with h0 | h0
    · have ha : a = 0 := by
        rw [← h0, zero_mul] at h2
        have : a ^ 2 ≤ 0 := nonpos_of_mul_nonpos_right h2 hφ
        exact pow_eq_zero_iff (two_ne_zero) |>.1 (le_antisymm this (sq_nonneg a))
      rw [ha, mul_zero] at h1
      have hc1 : lamb * c ≤ 0 := by linarith
      have hc2 : c ≤ 0 := nonpos_of_mul_nonpos_right hc1 hl0
      have hc3 : c = 0 := le_antisymm hc2 hc0
      rw [ha, hc3, ← h0]
      simp
    · have h3 : lamb * (c + a) ≤ 4 * lamb * a - d := by linarith
      have h4 := mul_le_mul_of_nonneg_left h3 (mul_nonneg hs0 hφ.le)
      have h5 := mul_le_mul_of_nonneg_left h2 hφ.le
      have h6 : (s * lamb) * ((c + a) * φ) ≤ (s * lamb) * (4 * lamb * s) := by nlinarith [sq_nonneg (φ * a - 2 * lamb * s)]
      exact le_of_mul_le_mul_left h6 (mul_pos h0 hl0)

/-- Columns of the same length that are nearly orthogonal are compatible. -/
theorem compatible_of_coherence {X : Mat K} {S : Finset Nat} {q μ : K} (hS : ∀ i ∈ S, i < X.nc) (hq : 0 < q) (hμ : 0 ≤ μ)
    (hlen : ∀ j, j < X.nc → colProd X j j = q) (hcoh : ∀ i j, i < X.nc → j < X.nc → i ≠ j → |colProd X i j| ≤ μ * q)
    (hsmall : 16 * S.card * μ < 1) : CompatibleOn X S (q * (1 - 16 * S.card * μ)) := by
  refine ⟨hS, mul_pos hq (by linarith), fun w hw => ?_⟩
  have e : ∑ r ∈ range X.nr, lin X w r ^ 2 = ∑ i ∈ range X.nc, ∑ j ∈ range X.nc, colProd X i j * (w i * w j) := by
    have hr : ∀ r, lin X w r ^ 2 = ∑ i ∈ range X.nc, ∑ j ∈ range X.nc, X.get r i * X.get r j * (w i * w j) := by
      intro r
      rw [lin, sq, Finset.sum_mul_sum]
      exact Finset.sum_congr rfl (fun i _ => Finset.sum_congr rfl (fun j _ => by ring))
    simp only [hr, colProd, Finset.sum_mul]
    rw [Finset.sum_comm]
    exact Finset.sum_congr rfl (fun i _ => Finset.sum_comm)
  have h1 : ∀ i ∈ range X.nc, ∀ j ∈ range X.nc,
      (if i = j then q * w j ^ 2 else 0) - μ * q * (|w i| * |w j|) ≤ colProd X i j * (w i * w j) := by
    intro i hi j hj
    have hab : 0 ≤ |w i| * |w j| := by positivity
    by_cases hij : i = j
    · subst hij
      rw [if_pos rfl, hlen i (mem_range.1 hi)]
      have := mul_nonneg (mul_nonneg hμ hq.le) hab
      nlinarith
    · rw [if_neg hij]
      have h2 : |colProd X i j * (w i * w j)| ≤ μ * q * (|w i| * |w j|) := by
        rw [abs_mul, abs_mul (w i)]
        exact mul_le_mul_of_nonneg_right (hcoh i j (mem_range.1 hi) (mem_range.1 hj) hij) hab
      linarith [neg_abs_le (colProd X i j * (w i * w j))]
  have h2 : q * ∑ j ∈ range X.nc, w j ^ 2 - μ * q * absSum X.nc w ^ 2 ≤ ∑ r ∈ range X.nr, lin X w r ^ 2 := by
    rw [e]
    refine le_trans (le_of_eq ?_) (Finset.sum_le_sum (fun i hi => Finset.sum_le_sum (h1 i hi)))
    simp only [Finset.sum_sub_distrib]
    congr 1
    · rw [Finset.mul_sum]
      refine Finset.sum_congr rfl (fun i hi => ?_)
      rw [Finset.sum_ite_eq, if_pos hi]
    · rw [absSum, sq, Finset.sum_mul_sum, Finset.mul_sum]
      exact Finset.sum_congr rfl (fun i _ => by rw [Finset.mul_sum])
  have hsub : S ⊆ range X.nc := fun i hi => mem_range.2 (hS i hi)
  have h3 : ∑ j ∈ S, w j ^ 2 ≤ ∑ j ∈ range X.nc, w j ^ 2 :=
    Finset.sum_le_sum_of_subset_of_nonneg hsub (fun _ _ _ => sq_nonneg _)
  have h4 : (∑ j ∈ S, |w j|) ^ 2 ≤ S.card * ∑ j ∈ S, w j ^ 2 := by
    have := sq_sum_le_card_mul_sum_sq (s := S) (f := fun j => |w j|)
    simpa only [sq_abs] using this
  have h5 : absSum X.nc w ≤ 4 * ∑ j ∈ S, |w j| := by
    have : absSum X.nc w = ∑ j ∈ range X.nc \ S, |w j| + ∑ j ∈ S, |w j| := (Finset.sum_sdiff hsub).symm
    linarith
  have h6 : absSum X.nc w ^ 2 ≤ (4 * ∑ j ∈ S, |w j|) ^ 2 := pow_le_pow_left₀ (absSum_nonneg _ _) h5 2
  have hs0 : (0 : K) ≤ S.card := Nat.cast_nonneg _
  have h7 := mul_le_mul_of_nonneg_left h2 hs0
  have h8 := mul_le_mul_of_nonneg_left h6 (mul_nonneg hs0 (mul_nonneg hμ hq.le))
  have h9 := mul_le_mul_of_nonneg_left h4 hq.le
  have h10 := mul_le_mul_of_nonneg_left h3 (mul_nonneg hs0 hq.le)
  nlinarith

/-! ### Random noise -/

section Random

open MeasureTheory ProbabilityTheory
open scoped NNReal

/-- Independent noise whose tails are at most those of the normal distribution with mean 0 and variance `σ²`. -/
structure Spec.SubgaussianNoise {Ω : Type} [MeasurableSpace Ω] (P : Measure Ω) (e : ℕ → Ω → ℝ) (σ : ℝ) : Prop where
  tails : ∀ r, HasSubgaussianMGF (e r) (σ ^ 2).toNNReal P
  indep : iIndepFun e P

theorem Spec.NormalNoise.subgaussian {Ω : Type} [MeasurableSpace Ω] {P : Measure Ω} {e : ℕ → Ω → ℝ} {σ : ℝ}
    (h : NormalNoise P e σ) : SubgaussianNoise P e σ := by
  refine ⟨fun r => ⟨fun t => ?_, fun t => ?_⟩, h.indep⟩
  · have h1 := (h.law r)
    have h2 : Integrable (fun x => Real.exp (t * x)) (gaussianReal 0 (σ ^ 2).toNNReal) := integrable_exp_mul_gaussianReal t
    rw [← h1.map_eq, integrable_map_measure (by fun_prop) h1.aemeasurable] at h2
    exact h2
  · rw [mgf_gaussianReal (h.law r).map_eq]
    simp

/-- Bounded noise with mean 0. -/
theorem subgaussian_of_bounded {Ω : Type} [MeasurableSpace Ω] {P : Measure Ω} {e : ℕ → Ω → ℝ} {σ : ℝ} (hσ : 0 ≤ σ)
    (hm : ∀ r, AEMeasurable (e r) P) (hb : ∀ r, ∀ᵐ ω ∂P, |e r ω| ≤ σ) (h0 : ∀ r, ∫ ω, e r ω ∂P = 0)
    (hi : iIndepFun e P) : SubgaussianNoise P e σ := by
  have := hi.isProbabilityMeasure
  refine ⟨fun r => ?_, hi⟩
  have h1 := hasSubgaussianMGF_of_mem_Icc_of_integral_eq_zero (a := -σ) (b := σ) (hm r)
    ((hb r).mono (fun ω h => abs_le.1 h)) (h0 r)
  have e1 : (‖σ - -σ‖₊ / 2) ^ 2 = (σ ^ 2).toNNReal := by
    rw [← NNReal.coe_inj, Real.coe_toNNReal _ (sq_nonneg σ)]
    push_cast
    rw [Real.norm_eq_abs, abs_of_nonneg (by linarith)]
    ring
  rwa [e1] at h1

/-- A column has an inner product with the noise beyond `ε` only with small probability. -/
theorem column_tail {Ω : Type} [MeasurableSpace Ω] {P : Measure Ω} {e : ℕ → Ω → ℝ} {σ : ℝ}
    (h : SubgaussianNoise P e σ) (X : Mat ℝ) (j : Nat) {q ε : ℝ} (hq : colProd X j j ≤ q) (hε : 0 ≤ ε) :
    P.real {ω | ε < |∑ r ∈ range X.nr, X.get r j * e r ω|} ≤ 2 * Real.exp (-ε ^ 2 / (2 * (σ ^ 2 * q))) := by
  have := h.indep.isProbabilityMeasure
  have hi : iIndepFun (fun r ω => X.get r j * e r ω) P :=
    h.indep.comp (fun r x => X.get r j * x) (fun r => by fun_prop)
  have hr : ∀ r, HasSubgaussianMGF (fun ω => X.get r j * e r ω) ((X.get r j ^ 2).toNNReal * (σ ^ 2).toNNReal) P := by
    refine fun r => ⟨fun t => ?_, fun t => ?_⟩
    · have := (h.tails r).integrable_exp_mul (t * X.get r j)
      simpa only [mul_assoc] using this
    · rw [mgf_const_mul]
      refine ((h.tails r).mgf_le _).trans (le_of_eq ?_)
      push_cast
      rw [Real.coe_toNNReal _ (sq_nonneg σ), Real.coe_toNNReal _ (sq_nonneg (X.get r j))]
      congr 1
      ring
  have h1 := HasSubgaussianMGF.sum_of_iIndepFun hi (s := range X.nr) (fun r _ => hr r)
  set c : ℝ≥0 := ∑ r ∈ range X.nr, (X.get r j ^ 2).toNNReal * (σ ^ 2).toNNReal with hc
  have hcv : (c : ℝ) = colProd X j j * σ ^ 2 := by
    rw [hc, colProd, Finset.sum_mul]
    push_cast
    refine Finset.sum_congr rfl (fun r _ => ?_)
    rw [Real.coe_toNNReal _ (sq_nonneg σ), Real.coe_toNNReal _ (sq_nonneg (X.get r j))]
    ring
  have hq0 : 0 ≤ q := (Finset.sum_nonneg (fun _ _ => mul_self_nonneg _)).trans hq
  have hcq : c ≤ (σ ^ 2 * q).toNNReal := by
    rw [← NNReal.coe_le_coe, Real.coe_toNNReal _ (by positivity), hcv, mul_comm]
    exact mul_le_mul_of_nonneg_left hq (sq_nonneg σ)
  have h2 : HasSubgaussianMGF (fun ω => ∑ r ∈ range X.nr, X.get r j * e r ω) (σ ^ 2 * q).toNNReal P := by
    refine ⟨h1.integrable_exp_mul, fun t => (h1.mgf_le t).trans (Real.exp_le_exp.2 ?_)⟩
    have : (c : ℝ) ≤ ((σ ^ 2 * q).toNNReal : ℝ) := NNReal.coe_le_coe.2 hcq
    have := mul_le_mul_of_nonneg_right this (sq_nonneg t)
    linarith
  have h3 := h2.measure_ge_le hε
  have h4 := h2.neg.measure_ge_le hε
  rw [Real.coe_toNNReal _ (by positivity)] at h3 h4
  have hsub : {ω | ε < |∑ r ∈ range X.nr, X.get r j * e r ω|} ⊆
      {ω | ε ≤ ∑ r ∈ range X.nr, X.get r j * e r ω} ∪ {ω | ε ≤ (-fun ω => ∑ r ∈ range X.nr, X.get r j * e r ω) ω} := by
    intro ω hω
    rcases lt_abs.1 (Set.mem_setOf_eq ▸ hω) with h | h
    · exact .inl h.le
    · exact .inr h.le
  refine (measureReal_mono hsub (measure_ne_top _ _)).trans ((measureReal_union_le _ _).trans ?_)
  linarith

theorem noise_tail {Ω : Type} [MeasurableSpace Ω] {P : Measure Ω} {e : ℕ → Ω → ℝ} {σ : ℝ}
    (h : SubgaussianNoise P e σ) (X : Mat ℝ) {q ε : ℝ} (hq : ∀ j, j < X.nc → colProd X j j ≤ q) (hε : 0 ≤ ε) :
    P.real {ω | ¬ NoiseAtMost X (fun r => e r ω) ε} ≤ 2 * X.nc * Real.exp (-ε ^ 2 / (2 * (σ ^ 2 * q))) := by
  have := h.indep.isProbabilityMeasure
  have hsub : {ω | ¬ NoiseAtMost X (fun r => e r ω) ε} ⊆
      ⋃ j ∈ range X.nc, {ω | ε < |∑ r ∈ range X.nr, X.get r j * e r ω|} := by
    intro ω hω
    simp only [Set.mem_setOf_eq, NoiseAtMost, not_forall, not_le] at hω
    obtain ⟨j, hj, hlt⟩ := hω
    exact Set.mem_biUnion (x := j) (by simpa using hj) hlt
  refine (measureReal_mono hsub (measure_ne_top _ _)).trans ((measureReal_biUnion_finset_le _ _).trans ?_)
  refine (Finset.sum_le_sum (fun j hj => column_tail h X j (hq j (mem_range.1 hj)) hε)).trans (le_of_eq ?_)
  rw [Finset.sum_const, Finset.card_range, nsmul_eq_mul]
  ring

/-- The bound of the noise that holds except with probability `δ`. -/
noncomputable def Spec.noiseBound (σ q : ℝ) (p : Nat) (δ : ℝ) : ℝ := σ * Real.sqrt (2 * q * Real.log (2 * p / δ))

theorem noiseBound_tail {Ω : Type} [MeasurableSpace Ω] {P : Measure Ω} {e : ℕ → Ω → ℝ} {σ : ℝ}
    (h : SubgaussianNoise P e σ) (X : Mat ℝ) {q δ : ℝ} (hσ : 0 < σ) (hq0 : 0 < q)
    (hq : ∀ j, j < X.nc → colProd X j j ≤ q) (hδ : 0 < δ) :
    P.real {ω | ¬ NoiseAtMost X (fun r => e r ω) (noiseBound σ q X.nc δ)} ≤ δ := by
  have := h.indep.isProbabilityMeasure
  rcases le_or_gt 1 δ with h1 | h1
  · exact measureReal_le_one.trans h1
  rcases Nat.eq_zero_or_pos X.nc with hnc | hnc
  · have : {ω | ¬ NoiseAtMost X (fun r => e r ω) (noiseBound σ q X.nc δ)} = ∅ := by
      ext ω
      simp only [Set.mem_setOf_eq, Set.mem_empty_iff_false, iff_false, not_not]
      intro j hj
      omega
    rw [this]
    simpa using hδ.le
  have hnc1 : (1 : ℝ) ≤ X.nc := by exact_mod_cast hnc
  have hratio : 1 ≤ 2 * X.nc / δ := by
    rw [le_div_iff₀ hδ]
    linarith
  have hlog : 0 ≤ Real.log (2 * X.nc / δ) := Real.log_nonneg hratio
  have hnn : 0 ≤ noiseBound σ q X.nc δ := mul_nonneg hσ.le (Real.sqrt_nonneg _)
  refine (noise_tail h X hq hnn).trans (le_of_eq ?_)
  have e1 : -noiseBound σ q X.nc δ ^ 2 / (2 * (σ ^ 2 * q)) = -Real.log (2 * X.nc / δ) := by
    unfold noiseBound
    rw [mul_pow, Real.sq_sqrt (by positivity)]
    field_simp
  rw [e1, Real.exp_neg, Real.exp_log (by positivity)]
  field_simp

end Random

end GoSelect
