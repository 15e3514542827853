import Verif.Proofs.Shuffle
import Mathlib.Probability.Moments.SubGaussian
import Mathlib.Probability.ProbabilityMassFunction.Integrals
import Mathlib.Probability.Distributions.Uniform
import Mathlib.Tactic.Positivity

/-!
# Hoeffding's inequality for the mean of a function of independent, equally likely values
-/

namespace GoSelect

open Finset MeasureTheory ProbabilityTheory

variable {P : Type} [Fintype P] [Nonempty P]

/-- Hoeffding's lemma for equally likely values. -/
theorem exp_mean_le (g : P → ℝ) (hg : ∀ a, |g a| ≤ 1) (s : ℝ) :
    ∑ a, Real.exp (s * (g a - (∑ b, g b) / Fintype.card P)) ≤ Fintype.card P * Real.exp (s ^ 2 / 2) := by
  letI : MeasurableSpace P := ⊤
  have hM : (0 : ℝ) < Fintype.card P := Nat.cast_pos.2 Fintype.card_pos
  have hint : ∀ f : P → ℝ, ∫ a, f a ∂(PMF.uniformOfFintype P).toMeasure = (∑ a, f a) / Fintype.card P := by
    intro f
    rw [PMF.integral_eq_sum, div_eq_mul_inv, Finset.sum_mul]
    refine Finset.sum_congr rfl (fun a _ => ?_)
    rw [PMF.uniformOfFintype_apply, ENNReal.toReal_inv, ENNReal.toReal_natCast, smul_eq_mul, mul_comm]
  have h := (hasSubgaussianMGF_of_mem_Icc (X := g) (μ := (PMF.uniformOfFintype P).toMeasure) (a := -1) (b := 1)
    (measurable_of_finite g).aemeasurable (Filter.Eventually.of_forall fun a => abs_le.1 (hg a))).mgf_le s
  rw [mgf, hint, hint, div_le_iff₀ hM] at h
  have e1 : (((‖(1 : ℝ) - -1‖₊ / 2) ^ 2 : NNReal) : ℝ) = 1 := by
    push_cast
    norm_num
  rw [e1, one_mul, mul_comm] at h
  exact h

/-- One side of Hoeffding's inequality. -/
theorem hoeffding_one {N : Nat} (hN : 0 < N) (g : P → ℝ) (hg : ∀ a, |g a| ≤ 1) {t : ℝ} (ht : 0 < t) :
    ((univ.filter (fun p : Fin N → P => t ≤ (∑ k, g (p k)) / N - (∑ a, g a) / Fintype.card P)).card : ℝ) ≤
      (Fintype.card P : ℝ) ^ N * Real.exp (-(N * t ^ 2) / 2) := by
  have hM : (0 : ℝ) < Fintype.card P := Nat.cast_pos.2 Fintype.card_pos
  have hN' : (0 : ℝ) < N := Nat.cast_pos.2 hN
  set m := (∑ a, g a) / Fintype.card P with hm
  have h1 : ((univ.filter (fun p : Fin N → P => t ≤ (∑ k, g (p k)) / N - m)).card : ℝ) * Real.exp (N * t ^ 2) ≤
      ∑ p : Fin N → P, ∏ k, Real.exp (t * (g (p k) - m)) := by
    rw [← nsmul_eq_mul, ← Finset.sum_const]
    refine (Finset.sum_le_sum (fun p hp => ?_)).trans (Finset.sum_le_sum_of_subset_of_nonneg (Finset.filter_subset _ _)
      (fun p _ _ => Finset.prod_nonneg fun k _ => (Real.exp_pos _).le))
    have hp := (Finset.mem_filter.1 hp).2
    rw [← Real.exp_sum, Real.exp_le_exp, ← Finset.mul_sum, Finset.sum_sub_distrib, Finset.sum_const, Finset.card_univ,
      Fintype.card_fin, nsmul_eq_mul, sq, ← mul_assoc, mul_comm ((N : ℝ) * t) t]
    refine mul_le_mul_of_nonneg_left ?_ ht.le
    have : (∑ k, g (p k)) / N * N = ∑ k, g (p k) := div_mul_cancel₀ _ hN'.ne'
    nlinarith
  have h2 : ∑ p : Fin N → P, ∏ k, Real.exp (t * (g (p k) - m)) = (∑ a, Real.exp (t * (g a - m))) ^ N := by
    have := Finset.prod_univ_sum (fun _ : Fin N => (univ : Finset P)) (fun _ a => Real.exp (t * (g a - m)))
    rw [Finset.prod_const, Finset.card_univ, Fintype.card_fin, Fintype.piFinset_univ] at this
    exact this.symm
  have h3 : (∑ a, Real.exp (t * (g a - m))) ^ N ≤ (Fintype.card P * Real.exp (t ^ 2 / 2)) ^ N :=
    pow_le_pow_left₀ (Finset.sum_nonneg fun a _ => (Real.exp_pos _).le) (exp_mean_le g hg t) N
  rw [mul_pow, ← Real.exp_nat_mul] at h3
  rw [h2] at h1
  have h4 := h1.trans h3
  have e : Real.exp (-(N * t ^ 2) / 2) = Real.exp (N * (t ^ 2 / 2)) / Real.exp (N * t ^ 2) := by
    rw [← Real.exp_sub]
    congr 1
    ring
  rw [e, ← mul_div_assoc, le_div_iff₀ (Real.exp_pos _)]
  exact h4

/-- Hoeffding's inequality: the mean of `N` values is `t` or more away from the mean of all of them for at most the fraction
`2 exp(-N t² / 2)` of the choices. -/
theorem hoeffding {N : Nat} (hN : 0 < N) (g : P → ℝ) (hg : ∀ a, |g a| ≤ 1) {t : ℝ} (ht : 0 < t) :
    ((univ.filter (fun p : Fin N → P => t ≤ |(∑ k, g (p k)) / N - (∑ a, g a) / Fintype.card P|)).card : ℝ) ≤
      2 * (Fintype.card P : ℝ) ^ N * Real.exp (-(N * t ^ 2) / 2) := by
  classical
  have h1 := hoeffding_one hN g hg ht
  have h2 := hoeffding_one hN (fun a => - g a) (fun a => by rw [abs_neg]; exact hg a) ht
  have h3 : (univ.filter (fun p : Fin N → P => t ≤ |(∑ k, g (p k)) / N - (∑ a, g a) / Fintype.card P|)) ⊆
      (univ.filter (fun p : Fin N → P => t ≤ (∑ k, g (p k)) / N - (∑ a, g a) / Fintype.card P)) ∪
      (univ.filter (fun p : Fin N → P => t ≤ (∑ k, - g (p k)) / N - (∑ a, - g a) / Fintype.card P)) := by
    intro p hp
    simp only [Finset.mem_union, Finset.mem_filter, Finset.mem_univ, true_and] at hp ⊢
    rcases le_abs.1 hp with h | h
    · exact Or.inl h
    · refine Or.inr (h.trans (le_of_eq ?_))
      rw [Finset.sum_neg_distrib, Finset.sum_neg_distrib]
      ring
  have h4 := (Finset.card_le_card h3).trans (Finset.card_union_le _ _)
  have h5 := Nat.cast_le (α := ℝ).2 h4
  push_cast at h5
  linarith

end GoSelect
