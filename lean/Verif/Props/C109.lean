import Verif.Props.C83
import Verif.Props.C106

/-!
C109: `UnsatisfiedKKTConditions`, with the vectors that `LassoCrdDesc` passes: `Xᵀ y` and the covariance matrix times the
coefficients.
-/

namespace GoSelect

open Finset Spec

section
variable {K : Type} [Field K] [LinearOrder K] [IsStrictOrderedRing K]

/-- What `UnsatisfiedKKTConditions` returns for the coefficients `b` of the lasso problem with a correction. -/
def kktList {S : Type} (X : Mat K) (y : Nat → K) (lamb : K) (corr : LassoCorrection K S) (s : S) (b : Nat → K) : List Nat :=
  unsatisfiedKKT X.nc (xTy X y) (mulSlice (empiricalCov X) b) b lamb corr s

/-- **C109, the rule.** The list is ascending and has the features other than the first, with a coefficient, whose
correlation with the response minus `features / rows` times the fit, less the correction, is below `lamb`. -/
theorem C109_rule {S : Type} (X : Mat K) (y : Nat → K) (lamb : K) (corr : LassoCorrection K S) (s : S) (b : Nat → K) :
    (kktList X y lamb corr s b).Pairwise (· < ·) ∧
    ∀ j, j ∈ kktList X y lamb corr s b ↔ 1 ≤ j ∧ j < X.nc ∧ 1 / 10 ^ 16 < |b j| ∧
      |∑ r ∈ range X.nr, X.get r j * (y r - X.nc / X.nr * lin X b r) - corr.deriv s b j| < lamb := by
  refine ⟨(List.pairwise_lt_range).filter _, fun j => ?_⟩
  have e : xTy X y j - mulSlice (empiricalCov X) b j * X.nc =
      ∑ r ∈ range X.nr, X.get r j * (y r - X.nc / X.nr * lin X b r) := by
    have e1 : mulSlice (empiricalCov X) b j = 1 / X.nr * ∑ r ∈ range X.nr, X.get r j * lin X b r := by
      unfold mulSlice empiricalCov lin
      simp only [mul_sum, sum_mul]
      rw [sum_comm]
      exact sum_congr rfl fun _ _ => sum_congr rfl fun _ _ => by ring
    rw [e1]
    unfold xTy
    simp only [mul_sub, sum_sub_distrib]
    congr 1
    simp only [mul_sum, sum_mul]
    exact sum_congr rfl fun _ _ => by ring
  simp only [kktList, unsatisfiedKKT, List.mem_filter, List.mem_range, Bool.and_eq_true, decide_eq_true_eq, e,
    lassoCrdDescZero, gt_iff_lt]
  tauto

/-- **C109 (partial).** With as many features as rows every feature of the list violates its condition, for the lasso and
the elastic net.  Missing: other shapes, and that all violations are listed, see `C109_refuted`. -/
theorem C109_sound_partial {S : Type} (X : Mat K) (y : Nat → K) (lamb L : K) (corr : LassoCorrection K S) (s : S)
    (hcorr : ∀ s b j, corr.deriv s b j = L * b j) (hL : 0 ≤ L) (hl : 0 < lamb) (hnr : 0 < X.nr) (hsq : X.nc = X.nr)
    (b : Nat → K) (j : Nat) (hj : j ∈ kktList X y lamb corr s b) : ¬ ElasticKKT X y lamb L b j := by
  obtain ⟨-, -, h1, h2⟩ := (C109_rule X y lamb corr s b).2 j |>.1 hj
  have hn1 : (1 : K) ≤ X.nr := by exact_mod_cast hnr
  have hn0 : (0 : K) < X.nr := by linarith
  rintro ⟨-, h4⟩
  have hg : gradient X y b j * X.nr = ∑ r ∈ range X.nr, X.get r j * (y r - X.nc / X.nr * lin X b r) := by
    rw [hsq, div_self hn0.ne']
    unfold gradient Spec.residual lin
    simp only [one_mul]
    field_simp
  have hb : 0 < |b j| := lt_trans (by positivity) h1
  rw [← hg, hcorr] at h2
  have h5 : (gradient X y b j * X.nr - L * b j) * b j = X.nr * (lamb * |b j|) + (X.nr - 1) * (L * b j ^ 2) := by
    rw [← h4]; ring
  have h6 : lamb * |b j| ≤ (gradient X y b j * X.nr - L * b j) * b j := by
    have e1 : 0 ≤ ((X.nr : K) - 1) * (lamb * |b j|) := mul_nonneg (by linarith) (by positivity)
    have e2 : 0 ≤ ((X.nr : K) - 1) * (L * b j ^ 2) := mul_nonneg (by linarith) (by positivity)
    rw [h5]
    linarith
  have h7 := h6.trans ((le_abs_self _).trans_eq (abs_mul _ _))
  exact absurd (le_of_mul_le_mul_right h7 hb) (not_le.2 h2)

end

/-- Five rows and a number of equal columns with mean 0 and variance 1. -/
def equalX (nc : Nat) : Mat ℚ := ⟨5, nc, fun r _ => u2 r⟩

/-- The hypotheses of `C109_sound_partial`: five features, the coefficient of the second is too large. -/
example : kktList (equalX 5) u2 (2 / 15) pureLasso () (fun j => if j = 1 then 1 else 0) = [1] := by decide +kernel

/-- **C109 is false.** On normalised data with six features and five rows the function lists a feature although all
conditions hold; it does not list a feature without a coefficient that ought to have one; and it does not list a feature
whose coefficient is too small. -/
theorem C109_refuted :
    (∃ (X : Mat ℚ) (y : Nat → ℚ) (lamb : ℚ) (b : Nat → ℚ) (j : Nat), Spec.IsNormalized X y ∧ 0 < lamb ∧
      (∀ i < X.nc, KKT X y lamb b i) ∧ j ∈ kktList X y lamb pureLasso () b) ∧
    (∃ (X : Mat ℚ) (y : Nat → ℚ) (lamb : ℚ) (b : Nat → ℚ), Spec.IsNormalized X y ∧ 0 < lamb ∧
      (∀ i < X.nc, ¬ KKT X y lamb b i) ∧ b 1 = 0 ∧ kktList X y lamb pureLasso () b = []) ∧
    ∃ (X : Mat ℚ) (y : Nat → ℚ) (lamb : ℚ) (b : Nat → ℚ), Spec.IsNormalized X y ∧ 0 < lamb ∧
      (∀ i < X.nc, ¬ KKT X y lamb b i) ∧ b 1 ≠ 0 ∧ kktList X y lamb pureLasso () b = [] := by
  refine ⟨⟨equalX 6, u2, 2 / 15, fun j => if j = 1 then 5 / 6 else 0, 1, ?_, by norm_num, ?_, by decide +kernel⟩,
    ⟨equalX 6, u2, 2 / 15, fun _ => 0, ?_, by norm_num, ?_, rfl, by decide +kernel⟩,
    ⟨equalX 6, u2, 2 / 15, fun j => if j = 1 then 1 / 2 else 0, ?_, by norm_num, ?_, by norm_num, by decide +kernel⟩⟩
  all_goals first
    | (unfold Spec.IsNormalized; decide +kernel)
    | (unfold KKT; decide +kernel)

end GoSelect
