import Verif.Model.Criteria

/-! C02: monotonicity of the information criteria. -/

namespace GoSelect

/-- Denominator of the AICc correction. -/
theorem aicc_eq (k n : Nat) (r : ℝ) : aicc k n r =
    aic k n r + ((2 * k * k + 2 * k : Nat) : ℝ) / ((if n ≤ k + 1 then 1 else n - k - 1 : Nat) : ℝ) := by
  unfold aicc
  by_cases h : n ≤ k + 1
  · have h' : (k : Int) ≥ (n : Int) - 1 := by omega
    simp [h, h']
  · have h' : ¬ (k : Int) ≥ (n : Int) - 1 := by omega
    have e : ((n : Int) - k - 1 : Int) = ((n - k - 1 : Nat) : Int) := by omega
    simp only [h, h', if_false, e, Int.cast_natCast]

theorem C02_aic_mono (k k' n : Nat) (r r' : ℝ) (hk : k ≤ k') (hr : 0 < r) (hrr : r ≤ r') :
    aic k n r ≤ aic k' n r' := by
  have h1 : Real.log r ≤ Real.log r' := Real.log_le_log hr hrr
  have h2 : (n : ℝ) * Real.log r ≤ n * Real.log r' := mul_le_mul_of_nonneg_left h1 (Nat.cast_nonneg n)
  have h3 : (k : ℝ) ≤ k' := Nat.cast_le.2 hk
  unfold aic
  linarith

theorem C02_aicc_mono (k k' n : Nat) (r r' : ℝ) (hk : k ≤ k') (hr : 0 < r) (hrr : r ≤ r') :
    aicc k n r ≤ aicc k' n r' := by
  rw [aicc_eq, aicc_eq]
  refine add_le_add (C02_aic_mono k k' n r r' hk hr hrr) ?_
  have hd : 0 < (if n ≤ k' + 1 then 1 else n - k' - 1 : Nat) := by split <;> omega
  have hdd : (if n ≤ k' + 1 then 1 else n - k' - 1 : Nat) ≤ (if n ≤ k + 1 then 1 else n - k - 1 : Nat) := by
    split <;> split <;> omega
  have hn : 2 * k * k + 2 * k ≤ 2 * k' * k' + 2 * k' := by
    have := Nat.mul_le_mul hk hk
    rw [Nat.mul_assoc, Nat.mul_assoc]; omega
  exact div_le_div₀ (Nat.cast_nonneg _) (Nat.cast_le.2 hn) (Nat.cast_pos.2 hd) (Nat.cast_le.2 hdd)

theorem C02_bic_mono (k k' n : Nat) (hn : 1 ≤ n) (r r' : ℝ) (hk : k ≤ k') (hr : 0 < r)
    (hrr : r ≤ r') : bic k n r ≤ bic k' n r' := by
  have h1 : Real.log r ≤ Real.log r' := Real.log_le_log hr hrr
  have h2 : (n : ℝ) * Real.log r ≤ n * Real.log r' := mul_le_mul_of_nonneg_left h1 (Nat.cast_nonneg n)
  have h3 : (k : ℝ) ≤ k' := Nat.cast_le.2 hk
  have h4 : 0 ≤ Real.log n := Real.log_natCast_nonneg n
  have := mul_le_mul_of_nonneg_right h3 h4
  unfold bic
  linarith

/-- AICc is never below AIC. -/
theorem C02_aic_le_aicc (k n : Nat) (r : ℝ) : aic k n r ≤ aicc k n r := by
  rw [aicc_eq]
  have : (0 : ℝ) ≤ ((2 * k * k + 2 * k : Nat) : ℝ) /
      ((if n ≤ k + 1 then 1 else n - k - 1 : Nat) : ℝ) := by positivity
  linarith

/-- Away from the switch, AICc is the textbook formula. -/
theorem C02_aicc_formula (k n : Nat) (r : ℝ) (h : k + 1 < n) :
    aicc k n r = 2 * k + n * Real.log r + (2 * (k : ℝ) ^ 2 + 2 * k) / ((n : ℝ) - k - 1) := by
  rw [aicc_eq, if_neg (by omega), aic]
  have : ((n - k - 1 : Nat) : ℝ) = (n : ℝ) - k - 1 := by
    rw [Nat.cast_sub (by omega), Nat.cast_sub (by omega)]; simp
  rw [this]
  push_cast
  ring

/-- The price of one more feature: 2 for AIC, `log n` for BIC. -/
theorem C02_penalty (k n : Nat) (r : ℝ) :
    aic (k + 1) n r - aic k n r = 2 ∧ bic (k + 1) n r - bic k n r = Real.log n := by
  unfold aic bic
  push_cast
  constructor <;> ring

/-- Across the switch: 3 features (correction 24/1) against 2 features (12/2) of 5 data points. -/
example : aicc 2 5 1 = 10 ∧ aicc 3 5 1 = 30 ∧ aicc 4 5 1 = 48 := by
  simp only [aicc_eq, aic, Real.log_one]
  norm_num

example : aicc 2 5 1 ≤ aicc 4 5 3 := C02_aicc_mono 2 4 5 1 3 (by omega) (by norm_num) (by norm_num)
example : bic 2 5 1 ≤ bic 4 5 3 := C02_bic_mono 2 4 5 (by omega) 1 3 (by omega) (by norm_num) (by norm_num)

end GoSelect
