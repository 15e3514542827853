import Verif.Props.C154
import Mathlib.Algebra.BigOperators.Field

/-!
# C165: how accurate converged elastic nets are
-/

namespace GoSelect

open Finset Spec

section
variable {K : Type} [Field K] [LinearOrder K] [IsStrictOrderedRing K]

namespace Spec

/-- How far the derivative for feature `j` may be from zero, `tol * m * (Σ_k |C_jk| + L)`. -/
def slack (X : Mat K) (tol m L : K) (j : Nat) : K :=
  tol * m * (∑ k ∈ range X.nc, |(1 / (X.nr : K)) * ∑ r ∈ range X.nr, X.get r j * X.get r k| + L)

/-- `b'` has the coefficients of `b` for the first feature and for those that are not selected. -/
def SameUnselected (X : Mat K) (b b' : Nat → K) : Prop :=
  ∀ j < X.nc, j = 0 ∨ |b j| ≤ 1 / 10 ^ 16 → b' j = b j

end Spec

/-- Nearly satisfied conditions of the elastic net: nearly optimal. -/
theorem elastic_near (X : Mat K) (y : Nat → K) (lamb L : K) (hL : 0 < L) (hn : 0 < X.nr) (b b' e : Nat → K)
    (hk : ∀ j < X.nc, b' j ≠ b j → ∃ s, |s| ≤ lamb ∧ s * b j = lamb * |b j| ∧ |gradient X y b j - L * b j - s| ≤ e j) :
    elasticObjective X y lamb L b + L / 2 * ∑ j ∈ range X.nc, (b' j - b j) ^ 2 ≤
      elasticObjective X y lamb L b' + ∑ j ∈ range X.nc, |e j| * |b' j - b j| := by
  have h := objective_convex X y lamb b b' hn
  have hsum : ∑ j ∈ range X.nc, gradient X y b j * (b' j - b j) ≤
      lamb * (∑ j ∈ range X.nc, |b' j| - ∑ j ∈ range X.nc, |b j|) +
      L / 2 * (∑ j ∈ range X.nc, b' j ^ 2 - ∑ j ∈ range X.nc, b j ^ 2) -
      L / 2 * ∑ j ∈ range X.nc, (b' j - b j) ^ 2 + ∑ j ∈ range X.nc, |e j| * |b' j - b j| := by
    rw [← Finset.sum_sub_distrib, ← Finset.sum_sub_distrib, Finset.mul_sum, Finset.mul_sum, Finset.mul_sum,
      ← Finset.sum_add_distrib, ← Finset.sum_sub_distrib, ← Finset.sum_add_distrib]
    apply Finset.sum_le_sum
    intro j hj
    by_cases hne : b' j = b j
    · rw [hne]; simp
    · obtain ⟨s, h1, h2, h3⟩ := hk j (mem_range.1 hj) hne
      have h4 := subgradient_le h1 h2 (b' j)
      have h5 : (gradient X y b j - L * b j - s) * (b' j - b j) ≤ |e j| * |b' j - b j| :=
        calc _ ≤ |(gradient X y b j - L * b j - s) * (b' j - b j)| := le_abs_self _
          _ = |gradient X y b j - L * b j - s| * |b' j - b j| := abs_mul _ _
          _ ≤ _ := mul_le_mul_of_nonneg_right (h3.trans (le_abs_self _)) (abs_nonneg _)
      have e : gradient X y b j * (b' j - b j) = (gradient X y b j - L * b j - s) * (b' j - b j) + s * (b' j - b j) +
        L / 2 * (b' j ^ 2 - b j ^ 2) - L / 2 * (b' j - b j) ^ 2 := by ring
      rw [e]
      linarith
  unfold elasticObjective
  linarith

/-- From this: the excess of the objective and the distance. -/
theorem near_bounds {n : Nat} {f f' L : K} (hL : 0 < L) (d e : Nat → K)
    (h : f + L / 2 * ∑ j ∈ range n, d j ^ 2 ≤ f' + ∑ j ∈ range n, |e j| * |d j|) :
    f ≤ f' + (∑ j ∈ range n, e j ^ 2) / (2 * L) ∧
    (f' ≤ f → L ^ 2 * ∑ j ∈ range n, d j ^ 2 ≤ 4 * ∑ j ∈ range n, e j ^ 2) := by
  constructor
  · have hs : ∑ j ∈ range n, |e j| * |d j| ≤ (∑ j ∈ range n, e j ^ 2) / (2 * L) + L / 2 * ∑ j ∈ range n, d j ^ 2 := by
      rw [Finset.sum_div, Finset.mul_sum, ← Finset.sum_add_distrib]
      refine Finset.sum_le_sum (fun j _ => ?_)
      have h1 := sq_nonneg (|e j| - L * |d j|)
      rw [← sq_abs (e j), ← sq_abs (d j)]
      rw [← sub_nonneg]
      have : |e j| ^ 2 / (2 * L) + L / 2 * |d j| ^ 2 - |e j| * |d j| = (|e j| - L * |d j|) ^ 2 / (2 * L) := by
        field_simp
        ring
      rw [this]
      positivity
    linarith
  · intro hle
    have hs : L * ∑ j ∈ range n, |e j| * |d j| ≤ (∑ j ∈ range n, e j ^ 2) + L ^ 2 / 4 * ∑ j ∈ range n, d j ^ 2 := by
      rw [Finset.mul_sum, Finset.mul_sum, ← Finset.sum_add_distrib]
      refine Finset.sum_le_sum (fun j _ => ?_)
      have h1 := sq_nonneg (|e j| - L / 2 * |d j|)
      rw [← sq_abs (e j), ← sq_abs (d j)]
      nlinarith
    have h2 : L / 2 * ∑ j ∈ range n, d j ^ 2 ≤ ∑ j ∈ range n, |e j| * |d j| := by linarith
    have h3 := mul_le_mul_of_nonneg_left h2 hL.le
    nlinarith

/-- **C165.** When `LassoCrdDesc` with an elastic net of weight `L > 0` reports convergence, no vector with the same coefficients of
the unselected features has a smaller objective by more than the sum of the squared slacks over `2 L`, and those with a smaller
objective are close: `L |b' - b|` is at most twice the length of the slacks.  `m` is the size of some coefficient. -/
theorem C165_elastic (X : Mat K) (y : Nat → K) (lamb tol L : K) (hl : 0 ≤ lamb) (hL : 0 < L) (hnr : 0 < X.nr)
    (hdiag : ∀ j, 1 ≤ j → j < X.nc → 0 < (empiricalCov X).get j j) (n : Nat)
    (hconv : reportsConvergence X y lamb tol (elasticNet L) () n) :
    let b := lassoResult X y lamb tol (elasticNet L) () n
    ∃ m, (∃ k, |b k| = m) ∧ ∀ b', SameUnselected X b b' →
      elasticObjective X y lamb L b ≤ elasticObjective X y lamb L b' +
        (∑ j ∈ range X.nc, slack X tol m L j ^ 2) / (2 * L) ∧
      (elasticObjective X y lamb L b' ≤ elasticObjective X y lamb L b →
        L ^ 2 * ∑ j ∈ range X.nc, (b' j - b j) ^ 2 ≤ 4 * ∑ j ∈ range X.nc, slack X tol m L j ^ 2) := by
  intro b
  obtain ⟨m, hm, h⟩ := elastic_selected X y lamb tol L hl hdiag n hconv
  refine ⟨m, hm, fun b' hb' => near_bounds hL (fun j => b' j - b j) (slack X tol m L) ?_⟩
  refine elastic_near X y lamb L hL hnr b b' (slack X tol m L) (fun j hj hne => ?_)
  have hj0 : 1 ≤ j := by
    by_contra h0
    exact hne (hb' j hj (.inl (by omega)))
  have hsel : |b j| > lassoCrdDescZero := by
    by_contra h0
    exact hne (hb' j hj (.inr (not_lt.1 h0)))
  obtain ⟨s, h1, h2, h3⟩ := h j hj0 hj hsel
  refine ⟨s, h1, h2, h3.trans (le_of_eq ?_)⟩
  unfold slack
  rw [abs_of_pos hL]
  rfl

/-- **C165.** The same for the covariance lasso, in whatever state an earlier call left it, if no iteration has tiny coefficients. -/
theorem C165_cLasso (X : Mat K) (y : Nat → K) (lamb tol eta : K) (hl : 0 ≤ lamb) (heta : 0 < eta) (hnr : 0 < X.nr)
    (hdiag : ∀ j, 1 ≤ j → j < X.nc → 0 < (empiricalCov X).get j j) (s : Nat → K) (n : Nat)
    (hn : ∀ k ≤ n, NotTiny X.nc (lassoResult X y lamb tol (elasticNet eta) () k))
    (hconv : reportsConvergence X y lamb tol (cLasso X.nc eta) s n) :
    let b := lassoResult X y lamb tol (cLasso X.nc eta) s n
    ∃ m, (∃ k, |b k| = m) ∧ ∀ b', SameUnselected X b b' →
      elasticObjective X y lamb eta b ≤ elasticObjective X y lamb eta b' +
        (∑ j ∈ range X.nc, slack X tol m eta j ^ 2) / (2 * eta) ∧
      (elasticObjective X y lamb eta b' ≤ elasticObjective X y lamb eta b →
        eta ^ 2 * ∑ j ∈ range X.nc, (b' j - b j) ^ 2 ≤ 4 * ∑ j ∈ range X.nc, slack X tol m eta j ^ 2) := by
  obtain ⟨h1, h2⟩ := sameCL_loop (p := lassoProblem X y lamb tol (elasticNet eta)) (eta := eta) rfl s n hn
  rw [withCLasso_lasso] at h1 h2
  have hb : lassoResult X y lamb tol (cLasso X.nc eta) s n = lassoResult X y lamb tol (elasticNet eta) () n := h1.beta
  have hc : reportsConvergence X y lamb tol (elasticNet eta) () n := by
    unfold reportsConvergence at hconv ⊢
    rw [← h2]
    exact hconv
  rw [hb]
  exact C165_elastic X y lamb tol eta hl heta hnr hdiag n hc

/-- **C165.** The elastic net has at most one best vector: two vectors with the same coefficients of the first and of some other
features that are both best among such vectors are equal. -/
theorem C165_unique (X : Mat K) (y : Nat → K) (lamb L : K) (hl : 0 ≤ lamb) (hL : 0 < L) (F : Nat → Prop) (b b' : Nat → K)
    (hF : ∀ j, F j → b' j = b j)
    (h : ∀ c : Nat → K, (∀ j, F j → c j = b j) → elasticObjective X y lamb L b ≤ elasticObjective X y lamb L c)
    (h' : elasticObjective X y lamb L b' ≤ elasticObjective X y lamb L b) : ∀ j < X.nc, b' j = b j := by
  intro j hj
  by_contra hne
  have hmid := h (fun j => (b j + b' j) / 2) (fun j hFj => by rw [hF j hFj]; ring)
  have hconv : elasticObjective X y lamb L (fun j => (b j + b' j) / 2) + L / 8 * ∑ j ∈ range X.nc, (b' j - b j) ^ 2 ≤
      (elasticObjective X y lamb L b + elasticObjective X y lamb L b') / 2 := by
    have hq : ∑ r ∈ range X.nr, residual X y (fun j => (b j + b' j) / 2) r ^ 2 ≤
        (∑ r ∈ range X.nr, residual X y b r ^ 2 + ∑ r ∈ range X.nr, residual X y b' r ^ 2) / 2 := by
      rw [← Finset.sum_add_distrib, Finset.sum_div]
      refine Finset.sum_le_sum (fun r _ => ?_)
      have e : residual X y (fun j => (b j + b' j) / 2) r = (residual X y b r + residual X y b' r) / 2 := by
        unfold Spec.residual
        have : ∑ j ∈ range X.nc, X.get r j * ((b j + b' j) / 2) =
            (∑ j ∈ range X.nc, X.get r j * b j + ∑ j ∈ range X.nc, X.get r j * b' j) / 2 := by
          rw [← Finset.sum_add_distrib, Finset.sum_div]
          exact Finset.sum_congr rfl (fun j _ => by ring)
        rw [this]
        ring
      rw [e]
      nlinarith [sq_nonneg (residual X y b r - residual X y b' r)]
    have ha : ∑ j ∈ range X.nc, |(b j + b' j) / 2| ≤ (∑ j ∈ range X.nc, |b j| + ∑ j ∈ range X.nc, |b' j|) / 2 := by
      rw [← Finset.sum_add_distrib, Finset.sum_div]
      refine Finset.sum_le_sum (fun j _ => ?_)
      rw [abs_div, abs_of_pos (by norm_num : (0 : K) < 2)]
      exact div_le_div_of_nonneg_right (abs_add_le _ _) (by norm_num)
    have hs : ∑ j ∈ range X.nc, ((b j + b' j) / 2) ^ 2 = (∑ j ∈ range X.nc, b j ^ 2 + ∑ j ∈ range X.nc, b' j ^ 2) / 2 -
        (∑ j ∈ range X.nc, (b' j - b j) ^ 2) / 4 := by
      rw [← Finset.sum_add_distrib, Finset.sum_div, Finset.sum_div, ← Finset.sum_sub_distrib]
      exact Finset.sum_congr rfl (fun j _ => by ring)
    unfold elasticObjective lassoObjective
    rw [hs]
    have h1 := mul_le_mul_of_nonneg_left ha hl
    have h2 := mul_le_mul_of_nonneg_left hq (by positivity : 0 ≤ 1 / (2 * (X.nr : K)))
    nlinarith
  have hpos : 0 < ∑ j ∈ range X.nc, (b' j - b j) ^ 2 :=
    Finset.sum_pos' (fun _ _ => sq_nonneg _) ⟨j, mem_range.2 hj, by
      have : b' j - b j ≠ 0 := sub_ne_zero.2 hne
      positivity⟩
  have := mul_pos (by positivity : 0 < L / 8) hpos
  linarith

end

/-- The data of C154 with two selected features: the hypotheses hold, the exact solution (4 / 3, 2 / 3) has a smaller objective and
is close. -/
example :
    let b := lassoResult groupX groupY 1 (1 / 10) (elasticNet (1 / 2)) () 8
    let b' : Nat → ℚ := fun j => if j = 1 then 4 / 3 else if j = 2 then 2 / 3 else 0
    SameUnselected groupX b b' ∧ b' 1 ≠ b 1 ∧
    elasticObjective groupX groupY 1 (1 / 2) b' ≤ elasticObjective groupX groupY 1 (1 / 2) b ∧
    ∃ m, (∃ k, |b k| = m) ∧ (1 / 2) ^ 2 * ∑ j ∈ range 3, (b' j - b j) ^ 2 ≤ 4 * ∑ j ∈ range 3, slack groupX (1 / 10) m (1 / 2) j ^ 2 := by
  intro b b'
  have hs : SameUnselected groupX b b' := by
    unfold SameUnselected
    decide +kernel
  have hle : elasticObjective groupX groupY 1 (1 / 2) b' ≤ elasticObjective groupX groupY 1 (1 / 2) b := by decide +kernel
  obtain ⟨m, hm, h⟩ := C165_elastic groupX groupY 1 (1 / 10) (1 / 2) (by norm_num) (by norm_num) (by decide) (fun j h1 h2 => by
    have : j = 1 ∨ j = 2 := by simp only [groupX] at h2; omega
    rcases this with rfl | rfl <;> decide +kernel) 8 (by unfold reportsConvergence; decide +kernel)
  exact ⟨hs, by decide +kernel, hle, m, hm, (h b' hs).2 hle⟩

/-- The minimiser of C154 for two equal features is the only one. -/
example (b' : Nat → ℚ) (h0 : b' 0 = 0)
    (h : elasticObjective copyX copyY 1 (1 / 2) b' ≤
      elasticObjective copyX copyY 1 (1 / 2) (fun k => if k = 0 then 0 else 4 / 5)) : b' 1 = 4 / 5 ∧ b' 2 = 4 / 5 := by
  have key := C165_unique copyX copyY 1 (1 / 2) (by norm_num) (by norm_num) (fun j => j = 0) (fun k => if k = 0 then 0 else 4 / 5)
    b' (by rintro j rfl; simpa using h0) (fun c _ => by
      have e : elasticObjective copyX copyY 1 (1 / 2) (fun k => if k = 0 then 0 else 4 / 5) = 29 / 10 := by decide +kernel
      rw [e]
      simp only [elasticObjective, lassoObjective, Spec.residual, copyX, copyY, Finset.sum_range_succ, Finset.sum_range_zero]
      norm_num
      have h1 := le_abs_self (c 1)
      have h2 := le_abs_self (c 2)
      have h3 := abs_nonneg (c 0)
      nlinarith [sq_nonneg (c 0), sq_nonneg (c 1 - 4 / 5), sq_nonneg (c 2 - 4 / 5), sq_nonneg (c 1 + c 2 - 8 / 5)]) h
  exact ⟨key 1 (by decide), key 2 (by decide)⟩

end GoSelect
