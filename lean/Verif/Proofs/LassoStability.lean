import Verif.Proofs.LassoSupport
import Verif.Proofs.FitModel

/-!
# How lasso solutions change with the response and the regularisation
-/

namespace GoSelect

open Finset Spec

namespace Spec

variable {K : Type} [Field K] [LinearOrder K]

/-- `b` is the point with the regularisation `lamb` of the broken line through the nodes of a path. -/
def OnPath (path : List (LassoLarsNode K)) (lamb : K) (b : Nat → K) : Prop :=
  ∃ k n n' u, path[k]? = some n ∧ (n' = n ∨ path[k + 1]? = some n') ∧ 0 ≤ u ∧ u ≤ 1 ∧
    lamb = (1 - u) * n.lamb + u * n'.lamb ∧
    b = fun i => (1 - u) * spread n.selection n.coeff i + u * spread n'.selection n'.coeff i

/-- Sum of absolute values. -/
def absSum (n : Nat) (b : Nat → K) : K := ∑ j ∈ range n, |b j|

end Spec

variable {K : Type} [Field K] [LinearOrder K] [IsStrictOrderedRing K]

theorem corr_mul_sum (X : Mat K) (y b w : Nat → K) :
    ∑ j ∈ range X.nc, correlation X y b j * w j = ∑ r ∈ range X.nr, (y r - lin X b r) * lin X w r := by
  unfold correlation
  simp only [Finset.sum_mul]
  rw [Finset.sum_comm]
  refine Finset.sum_congr rfl (fun r _ => ?_)
  rw [residual_lin, lin, lin, Finset.mul_sum]
  exact Finset.sum_congr rfl (fun j _ => by ring)

theorem corr_mul_le {X : Mat K} {y b w : Nat → K} {lamb : K} (h : ∀ j < X.nc, |correlation X y b j| ≤ lamb) :
    ∑ j ∈ range X.nc, correlation X y b j * w j ≤ lamb * absSum X.nc w := by
  rw [absSum, Finset.mul_sum]
  refine Finset.sum_le_sum (fun j hj => ?_)
  calc correlation X y b j * w j ≤ |correlation X y b j * w j| := le_abs_self _
    _ = |correlation X y b j| * |w j| := abs_mul _ _
    _ ≤ lamb * |w j| := mul_le_mul_of_nonneg_right (h j (mem_range.1 hj)) (abs_nonneg _)

/-- Solutions for different responses and regularisations. -/
theorem lasso_change {X : Mat K} {y y' : Nat → K} {lamb lamb' : K} {b b' : Nat → K} (hl : 0 ≤ lamb) (hl' : 0 ≤ lamb')
    (hb : IsLassoMin X y lamb b) (hb' : IsLassoMin X y' lamb' b') :
    ∑ r ∈ range X.nr, (lin X b r - lin X b' r) ^ 2 ≤
      ∑ r ∈ range X.nr, (y r - y' r) * (lin X b r - lin X b' r) + (lamb' - lamb) * (absSum X.nc b - absSum X.nc b') := by
  have h1 : ∑ j ∈ range X.nc, correlation X y b j * b j = lamb * absSum X.nc b := by
    rw [absSum, Finset.mul_sum]
    exact Finset.sum_congr rfl (fun j hj => (kkt_of_lasso_min hl hb j (mem_range.1 hj)).2)
  have h1' : ∑ j ∈ range X.nc, correlation X y' b' j * b' j = lamb' * absSum X.nc b' := by
    rw [absSum, Finset.mul_sum]
    exact Finset.sum_congr rfl (fun j hj => (kkt_of_lasso_min hl' hb' j (mem_range.1 hj)).2)
  have h2 := corr_mul_le (w := b') (fun j hj => (kkt_of_lasso_min hl hb j hj).1)
  have h2' := corr_mul_le (w := b) (fun j hj => (kkt_of_lasso_min hl' hb' j hj).1)
  rw [corr_mul_sum] at h1 h1' h2 h2'
  have e : ∑ r ∈ range X.nr, (y r - y' r) * (lin X b r - lin X b' r) - ∑ r ∈ range X.nr, (lin X b r - lin X b' r) ^ 2 =
      ∑ r ∈ range X.nr, (y r - lin X b r) * lin X b r - ∑ r ∈ range X.nr, (y r - lin X b r) * lin X b' r -
      (∑ r ∈ range X.nr, (y' r - lin X b' r) * lin X b r - ∑ r ∈ range X.nr, (y' r - lin X b' r) * lin X b' r) := by
    simp only [← Finset.sum_sub_distrib]
    exact Finset.sum_congr rfl (fun r _ => by ring)
  rw [h1, h1'] at e
  nlinarith

/-- Predictions change by at most as much as the response. -/
theorem sq_le_of_inner {n : Nat} {d e : Nat → K} (h : ∑ r ∈ range n, d r ^ 2 ≤ ∑ r ∈ range n, e r * d r) :
    ∑ r ∈ range n, d r ^ 2 ≤ ∑ r ∈ range n, e r ^ 2 := by
  have h1 : ∑ r ∈ range n, 2 * (e r * d r) ≤ ∑ r ∈ range n, (e r ^ 2 + d r ^ 2) :=
    Finset.sum_le_sum (fun r _ => by nlinarith [sq_nonneg (e r - d r)])
  rw [← Finset.mul_sum, Finset.sum_add_distrib] at h1
  linarith

/-! ### Orthonormal columns -/

theorem ortho_sq {n p : Nat} {u : Nat → Nat → K}
    (hu : ∀ k l, k < p → l < p → ∑ i ∈ range n, u i k * u i l = if k = l then 1 else 0) (w : Nat → K) :
    ∑ i ∈ range n, (∑ k ∈ range p, u i k * w k) ^ 2 = ∑ k ∈ range p, w k ^ 2 := by
  have h : ∀ i, (∑ k ∈ range p, u i k * w k) ^ 2 = ∑ k ∈ range p, ∑ l ∈ range p, w k * w l * (u i k * u i l) := by
    intro i
    rw [sq, Finset.sum_mul_sum]
    exact Finset.sum_congr rfl (fun k _ => Finset.sum_congr rfl (fun l _ => by ring))
  simp only [h]
  rw [Finset.sum_comm]
  refine Finset.sum_congr rfl (fun k hk => ?_)
  rw [Finset.sum_comm, Finset.sum_eq_single k]
  · rw [← Finset.mul_sum, hu k k (mem_range.1 hk) (mem_range.1 hk), if_pos rfl]
    ring
  · intro l hl hlk
    rw [← Finset.mul_sum, hu k l (mem_range.1 hk) (mem_range.1 hl), if_neg (Ne.symm hlk), mul_zero]
  · exact fun h => absurd hk h

theorem bessel {n p : Nat} {u : Nat → Nat → K}
    (hu : ∀ k l, k < p → l < p → ∑ i ∈ range n, u i k * u i l = if k = l then 1 else 0) (z : Nat → K) :
    ∑ k ∈ range p, (∑ i ∈ range n, u i k * z i) ^ 2 ≤ ∑ i ∈ range n, z i ^ 2 := by
  set a : Nat → K := fun k => ∑ i ∈ range n, u i k * z i with ha
  have h0 : 0 ≤ ∑ i ∈ range n, (z i - ∑ k ∈ range p, u i k * a k) ^ 2 := Finset.sum_nonneg (fun i _ => sq_nonneg _)
  have h1 : ∑ i ∈ range n, (z i - ∑ k ∈ range p, u i k * a k) ^ 2 = ∑ i ∈ range n, z i ^ 2 -
      2 * ∑ i ∈ range n, z i * ∑ k ∈ range p, u i k * a k + ∑ i ∈ range n, (∑ k ∈ range p, u i k * a k) ^ 2 := by
    rw [Finset.mul_sum, ← Finset.sum_sub_distrib, ← Finset.sum_add_distrib]
    exact Finset.sum_congr rfl (fun i _ => by ring)
  have h2 : ∑ i ∈ range n, z i * ∑ k ∈ range p, u i k * a k = ∑ k ∈ range p, a k ^ 2 := by
    simp only [Finset.mul_sum]
    rw [Finset.sum_comm]
    refine Finset.sum_congr rfl (fun k _ => ?_)
    rw [sq]
    conv_rhs => rw [ha, Finset.sum_mul]
    exact Finset.sum_congr rfl (fun i _ => by simp only [ha]; ring)
  rw [h1, h2, ortho_sq hu] at h0
  linarith

end GoSelect
