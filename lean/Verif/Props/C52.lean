import Verif.Model.CrdDesc
import Mathlib.Tactic.Linarith
import Mathlib.Tactic.Ring
import Mathlib.Tactic.NormNum
import Mathlib.Tactic.Positivity
import Mathlib.Algebra.Order.Ring.Abs
import Mathlib.Algebra.Order.Field.Rat

/-! C52: `SoftThreshold` solves the one-dimensional lasso problem. -/

namespace GoSelect

variable {K : Type} [Field K] [LinearOrder K] [IsStrictOrderedRing K]

/-- The difference to the argument is a subgradient of `t * |·|` at the result. -/
theorem softThreshold_subgradient {x t : K} (ht : 0 ≤ t) :
    |x - softThreshold x t| ≤ t ∧ (x - softThreshold x t) * softThreshold x t = t * |softThreshold x t| := by
  unfold softThreshold
  split
  · rename_i h
    have : x + t < 0 := by linarith
    refine ⟨?_, ?_⟩
    · rw [show x - (x + t) = -t by ring, abs_neg, abs_of_nonneg ht]
    · rw [abs_of_neg this]; ring
  · split
    · rename_i h1 h2
      have : 0 < x - t := by linarith
      refine ⟨?_, ?_⟩
      · rw [show x - (x - t) = t by ring, abs_of_nonneg ht]
      · rw [abs_of_pos this]; ring
    · rename_i h1 h2
      refine ⟨?_, by simp⟩
      rw [sub_zero, abs_le]
      exact ⟨not_lt.1 h1, not_lt.1 h2⟩

/-- Subgradient inequality. -/
theorem subgradient_le {s t v : K} (h1 : |s| ≤ t) (h2 : s * v = t * |v|) (b : K) :
    s * (b - v) ≤ t * |b| - t * |v| := by
  have h3 : s * b ≤ t * |b| :=
    calc s * b ≤ |s * b| := le_abs_self _
      _ = |s| * |b| := abs_mul s b
      _ ≤ t * |b| := mul_le_mul_of_nonneg_right h1 (abs_nonneg b)
  have : s * (b - v) = s * b - s * v := by ring
  rw [this, h2]
  linarith

/-- The objective grows quadratically away from the result. -/
theorem C52_growth (x t : K) (ht : 0 ≤ t) (b : K) :
    (softThreshold x t - x) ^ 2 / 2 + t * |softThreshold x t| + (b - softThreshold x t) ^ 2 / 2 ≤
      (b - x) ^ 2 / 2 + t * |b| := by
  obtain ⟨h1, h2⟩ := softThreshold_subgradient (x := x) ht
  have h3 := subgradient_le h1 h2 b
  nlinarith [h3]

/-- **C52.** `SoftThreshold(x, t)` is the unique minimiser of `(b - x)²/2 + t |b|`. -/
theorem C52_minimiser (x t : K) (ht : 0 ≤ t) (b : K) :
    (softThreshold x t - x) ^ 2 / 2 + t * |softThreshold x t| ≤ (b - x) ^ 2 / 2 + t * |b| ∧
    ((softThreshold x t - x) ^ 2 / 2 + t * |softThreshold x t| = (b - x) ^ 2 / 2 + t * |b| →
      b = softThreshold x t) := by
  have h := C52_growth x t ht b
  have h0 : 0 ≤ (b - softThreshold x t) ^ 2 / 2 := by positivity
  refine ⟨by linarith, ?_⟩
  intro he
  have : (b - softThreshold x t) ^ 2 = 0 := le_antisymm (by linarith) (by positivity)
  have := pow_eq_zero_iff (n := 2) (by norm_num) |>.1 this
  linarith

/-- **C52 (odd).** -/
theorem C52_odd (x t : K) (ht : 0 ≤ t) : softThreshold (-x) t = -softThreshold x t := by
  unfold softThreshold
  split_ifs <;> linarith

/-- **C52 (zero).** The result is 0 exactly for `|x| ≤ t`. -/
theorem C52_zero (x t : K) (ht : 0 ≤ t) : softThreshold x t = 0 ↔ |x| ≤ t := by
  unfold softThreshold
  rw [abs_le]
  constructor
  · intro h
    split_ifs at h <;> constructor <;> linarith
  · rintro ⟨h1, h2⟩
    rw [if_neg (not_lt.2 h1), if_neg (not_lt.2 h2)]

/-- **C52 (non-expansive).** -/
theorem C52_nonexpansive (x y t : K) (ht : 0 ≤ t) :
    |softThreshold x t - softThreshold y t| ≤ |x - y| := by
  obtain ⟨h1, h2⟩ := softThreshold_subgradient (x := x) ht
  obtain ⟨g1, g2⟩ := softThreshold_subgradient (x := y) ht
  have m1 := subgradient_le h1 h2 (softThreshold y t)
  have m2 := subgradient_le g1 g2 (softThreshold x t)
  apply abs_le_of_sq_le_sq _ (abs_nonneg _)
  rw [sq_abs]
  set a := softThreshold x t
  set b := softThreshold y t
  have h : (a - b) ^ 2 ≤ (x - y) * (a - b) := by nlinarith
  nlinarith [sq_nonneg (x - y - (a - b))]

example : softThreshold (3 : ℚ) 1 = 2 ∧ softThreshold (-3 : ℚ) 1 = -2 ∧ softThreshold (1 / 2 : ℚ) 1 = 0 := by
  refine ⟨?_, ?_, ?_⟩ <;> norm_num [softThreshold]

end GoSelect
