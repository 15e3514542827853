import Verif.Props.C53_C54
import Mathlib.Analysis.Calculus.Deriv.Pow
import Mathlib.Analysis.Calculus.Deriv.Add
import Mathlib.Analysis.Calculus.Deriv.Mul

/-!
# C69: the corrections of the lasso
-/

namespace GoSelect

open Finset Spec

variable {K : Type} [Field K] [LinearOrder K]

/-- C69: `PureLasso` is `ElasticNet` with `Lamb = 0`, in every call and hence in every result. -/
theorem C69_pure : (pureLasso : LassoCorrection K Unit) = elasticNet 0 ∧
    ∀ (X : Mat K) (y : Nat → K) (lamb tol : K) (n : Nat),
      lassoResult X y lamb tol pureLasso () n = lassoResult X y lamb tol (elasticNet 0) () n := by
  have h : (pureLasso : LassoCorrection K Unit) = elasticNet 0 := by
    unfold pureLasso elasticNet
    congr 1
    funext _ b j
    rw [zero_mul]
  exact ⟨h, fun X y lamb tol n => by rw [h]⟩

/-- C69: `ElasticNet.Deriv` is the partial derivative of `Lamb/2 * Σ_k beta_k²`. -/
theorem C69_elastic (L : ℝ) (n : Nat) (b : Nat → ℝ) (j : Nat) (hj : j < n) :
    HasDerivAt (fun t => L / 2 * ∑ k ∈ range n, Function.update b j t k ^ 2) ((elasticNet L).deriv () b j) (b j) := by
  have h : (fun t => L / 2 * ∑ k ∈ range n, Function.update b j t k ^ 2) =
      fun t => L / 2 * t ^ 2 + L / 2 * (∑ k ∈ range n, b k ^ 2 - b j ^ 2) := by
    funext t
    rw [sum_update_fun n j hj (fun z => z ^ 2)]
    ring
  rw [h]
  have h1 : HasDerivAt (fun t : ℝ => L / 2 * t ^ 2 + L / 2 * (∑ k ∈ range n, b k ^ 2 - b j ^ 2))
      (L / 2 * (2 * b j)) (b j) := by
    have h2 := ((hasDerivAt_pow 2 (b j)).const_mul (L / 2)).add_const
      (L / 2 * (∑ k ∈ range n, b k ^ 2 - b j ^ 2))
    have e : L / 2 * (2 * b j) = L / 2 * (((2 : ℕ) : ℝ) * b j ^ (2 - 1)) := by norm_num
    rw [e]
    exact h2
  have h3 : L / 2 * (2 * b j) = (elasticNet L).deriv () b j := by
    simp only [elasticNet]; ring
  rw [← h3]
  exact h1

/-- `P` is the orthogonal projection of `b` on the line through `c` (first `n` coordinates). -/
def Spec.IsProjection (n : Nat) (c b P : Nat → K) : Prop :=
  (∃ t, ∀ i < n, P i = t * c i) ∧ ∑ i ∈ range n, c i * (b i - P i) = 0

variable [IsStrictOrderedRing K]

/-- C69: `CLasso.Deriv` is `eta` times a projection of `beta` on the coefficients of the last `Update`,
unless those are (nearly) zero. -/
theorem C69_cLasso (n : Nat) (eta : K) (cl b : Nat → K) (h : 1 / 10 ^ 10 ≤ ∑ i ∈ range n, cl i * cl i) :
    ∃ P, IsProjection n cl b P ∧ ∀ j, (cLasso n eta).deriv cl b j = eta * P j := by
  have hpos : (0 : K) < ∑ i ∈ range n, cl i * cl i := lt_of_lt_of_le (by positivity) h
  refine ⟨fun j => (∑ i ∈ range n, cl i * b i) / (∑ i ∈ range n, cl i * cl i) * cl j, ⟨⟨_, fun i _ => rfl⟩, ?_⟩, ?_⟩
  · simp only [mul_sub, Finset.sum_sub_distrib]
    have : ∑ i ∈ range n, cl i * ((∑ i ∈ range n, cl i * b i) / (∑ i ∈ range n, cl i * cl i) * cl i) =
        (∑ i ∈ range n, cl i * b i) / (∑ i ∈ range n, cl i * cl i) * ∑ i ∈ range n, cl i * cl i := by
      rw [Finset.mul_sum]
      exact Finset.sum_congr rfl (fun i _ => by ring)
    rw [this, div_mul_cancel₀ _ hpos.ne', sub_self]
  · intro j
    simp only [cLasso]
    rw [abs_of_pos hpos, if_neg (not_lt.2 h)]
    ring

/-- The projection is unique, so that `C69_cLasso` determines `Deriv`. -/
theorem C69_projection_unique (n : Nat) (c b P Q : Nat → K) (hc : 0 < ∑ i ∈ range n, c i * c i)
    (hP : IsProjection n c b P) (hQ : IsProjection n c b Q) : ∀ i < n, P i = Q i := by
  obtain ⟨⟨t, ht⟩, hp⟩ := hP
  obtain ⟨⟨u, hu⟩, hq⟩ := hQ
  have h1 : ∀ (R : Nat → K) (v : K), (∀ i < n, R i = v * c i) → ∑ i ∈ range n, c i * (b i - R i) =
      ∑ i ∈ range n, c i * b i - v * ∑ i ∈ range n, c i * c i := by
    intro R v hR
    rw [Finset.mul_sum, ← Finset.sum_sub_distrib]
    refine Finset.sum_congr rfl (fun i hi => ?_)
    rw [hR i (mem_range.1 hi)]; ring
  rw [h1 P t ht] at hp
  rw [h1 Q u hu] at hq
  have : t = u := by
    have h2 : t * ∑ i ∈ range n, c i * c i = u * ∑ i ∈ range n, c i * c i := by linear_combination hq - hp
    exact mul_right_cancel₀ hc.ne' h2
  intro i hi
  rw [ht i hi, hu i hi, this]

/-- C69: before the first `Update`, and after an `Update` with nearly zero coefficients, the correction
vanishes. -/
theorem C69_cLasso_zero (n : Nat) (eta : K) (b : Nat → K) (j : Nat) :
    (cLasso n eta).deriv newCLassoBeta b j = 0 ∧
    ∀ cl : Nat → K, ∑ i ∈ range n, cl i * cl i < 1 / 10 ^ 10 → (cLasso n eta).deriv cl b j = 0 := by
  have h : ∀ cl : Nat → K, ∑ i ∈ range n, cl i * cl i < 1 / 10 ^ 10 → (cLasso n eta).deriv cl b j = 0 := by
    intro cl h
    simp only [cLasso]
    rw [abs_of_nonneg (Finset.sum_nonneg (fun i _ => mul_self_nonneg _)), if_pos h]
  refine ⟨h _ ?_, h⟩
  simp only [newCLassoBeta, mul_zero, Finset.sum_const_zero]
  positivity

omit [IsStrictOrderedRing K] in
/-- C69: `CLasso.Deriv` is linear, in particular homogeneous, in `beta`. -/
theorem C69_cLasso_linear (n : Nat) (eta : K) (cl b b' : Nat → K) (t : K) (j : Nat) :
    (cLasso n eta).deriv cl (fun i => t * b i + b' i) j =
      t * (cLasso n eta).deriv cl b j + (cLasso n eta).deriv cl b' j := by
  simp only [cLasso]
  split
  · ring
  · have : ∑ i ∈ range n, cl i * (t * b i + b' i) =
        t * ∑ i ∈ range n, cl i * b i + ∑ i ∈ range n, cl i * b' i := by
      rw [Finset.mul_sum, ← Finset.sum_add_distrib]
      exact Finset.sum_congr rfl (fun i _ => by ring)
    rw [this]; ring

/-- C69: after `Update(beta)` the correction at the same `beta` is that of an elastic net with weight
`eta`. -/
theorem C69_cLasso_update (n : Nat) (eta : K) (cl b : Nat → K) (j : Nat)
    (h : 1 / 10 ^ 10 ≤ ∑ i ∈ range n, b i * b i) :
    (cLasso n eta).deriv ((cLasso n eta).update cl b) b j = (elasticNet eta).deriv () b j := by
  have hpos : (0 : K) < ∑ i ∈ range n, b i * b i := lt_of_lt_of_le (by positivity) h
  simp only [cLasso, elasticNet]
  rw [abs_of_pos hpos, if_neg (not_lt.2 h), mul_div_assoc, div_self hpos.ne', mul_one]

/-- Coefficients `(0, 3, 4)` after the last update, asked at `(0, 1, 1)`: `eta * 7/25 * (0, 3, 4)`. -/
example : (1 / 10 ^ 10 ≤ ∑ i ∈ range 3, ((fun i => [0, 3, 4].getD i 0 : Nat → ℚ) i) * (fun i => [0, 3, 4].getD i 0 : Nat → ℚ) i) ∧
    (cLasso 3 (1 / 2 : ℚ)).deriv (fun i => [0, 3, 4].getD i 0) (fun i => [0, 1, 1].getD i 0) 2 = 1 / 2 * (7 / 25 * 4) := by
  decide +kernel

end GoSelect
