import Verif.Props.C58
import Mathlib.Analysis.SpecialFunctions.Log.Deriv
import Mathlib.Analysis.Complex.ExponentialBounds
import Mathlib.Tactic.NormNum
import Mathlib.Tactic.FieldSimp
import Mathlib.Tactic.Positivity

/-! C81, C82: which thresholds `L2ConsistentCovTO` can return, and for which numbers of rows it works. -/

namespace GoSelect

open Finset

/-- The documented grid: multiples of `sqrt (log p / n)` for a matrix with `n` rows and `p` columns. -/
def Spec.OnDocumentedGrid (X : Mat ℝ) (op : ℝ) : Prop := ∃ j : Nat, op = (j : ℝ) * Real.sqrt (Real.log X.nc / X.nr)

theorem goInt_nonneg {x : ℝ} (h : 0 ≤ x) : goInt x = ⌊x⌋ := by simp [goInt, h]

theorem covGrid_pos {step : ℝ} (h0 : 0 < step) (h9 : step ≤ 9) : 0 < (covGrid step).toNat := by
  have : (1 : ℤ) ≤ covGrid step := by
    rw [covGrid, goInt_nonneg (by positivity), Int.le_floor]
    rw [le_div_iff₀ h0]
    simpa using h9
  omega

theorem log_four_gt : (4 : ℝ) / 3 < Real.log 4 := by
  have h : Real.log 4 = 2 * Real.log 2 := by
    rw [show (4 : ℝ) = 2 ^ 2 by norm_num, Real.log_pow]
    norm_num
  have := Real.log_two_gt_d9
  rw [h]
  linarith

/-- With four or more rows both parts have rows. -/
theorem covRows_range {nr : Nat} (h : 4 ≤ nr) : 0 < covRows nr ∧ covRows nr < nr := by
  have h4 : (4 : ℝ) ≤ nr := by exact_mod_cast h
  have hl : (4 : ℝ) / 3 < Real.log nr := lt_of_lt_of_le log_four_gt (Real.log_le_log (by norm_num) h4)
  have hp : 0 < Real.log nr := by linarith
  have h1 : (1 : ℝ) / Real.log nr < 3 / 4 := by
    rw [div_lt_div_iff₀ hp (by norm_num)]
    linarith
  have h0 : (1 : ℝ) ≤ (nr : ℝ) * (1 - 1 / Real.log nr) := by nlinarith
  constructor
  · have : (1 : ℤ) ≤ covRows nr := by
      rw [covRows, goInt_nonneg (by linarith), Int.le_floor]
      simpa using h0
    omega
  · rw [covRows, goInt_nonneg (by linarith), Int.floor_lt]
    have h2 : 0 < 1 / Real.log nr := by positivity
    push_cast
    nlinarith

/-- With two or three rows the first part has none. -/
theorem covRows_zero {nr : Nat} (h : nr = 2 ∨ nr = 3) : covRows nr = 0 := by
  rcases h with rfl | rfl
  · have h1 := Real.log_two_lt_d9
    have h2 := Real.log_two_gt_d9
    have hp : 0 < Real.log 2 := by linarith
    have h3 : (1 : ℝ) / Real.log 2 < 3 / 2 := by
      rw [div_lt_div_iff₀ hp (by norm_num)]
      linarith
    have h4 : 1 < (1 : ℝ) / Real.log 2 := by
      rw [lt_div_iff₀ hp]
      linarith
    rw [covRows]
    push_cast
    rw [goInt, if_neg (by linarith), Int.ceil_eq_zero_iff]
    constructor <;> linarith
  · have h2 := Real.log_two_gt_d9
    have hp : 0 < Real.log 3 := Real.log_pos (by norm_num)
    have h32 : Real.log 3 < 3 / 2 := by
      rw [Real.log_lt_iff_lt_exp (by norm_num)]
      have := Real.exp_one_gt_d9
      have h5 : Real.exp 1 ≤ Real.exp (3 / 2) := Real.exp_le_exp.2 (by norm_num)
      have h6 : (1 : ℝ) / 2 + 1 ≤ Real.exp (1 / 2) := Real.add_one_le_exp _
      have h7 : Real.exp (3 / 2) = Real.exp 1 * Real.exp (1 / 2) := by rw [← Real.exp_add]; norm_num
      rw [h7]
      nlinarith
    have h31 : 1 < Real.log 3 := by
      rw [Real.lt_log_iff_exp_lt (by norm_num)]
      have := Real.exp_one_lt_d9
      linarith
    have h3 : (1 : ℝ) / Real.log 3 < 1 := by
      rw [div_lt_one hp]
      exact h31
    have h4 : 2 / 3 < (1 : ℝ) / Real.log 3 := by
      rw [div_lt_div_iff₀ (by norm_num) hp]
      linarith
    rw [covRows]
    push_cast
    rw [goInt_nonneg (by linarith), Int.floor_eq_zero_iff]
    constructor <;> linarith

/-- **C82, for four or more rows.** The call returns a threshold for every shuffle, every number of samples and
every step of at most 9. -/
theorem C82_enough_rows_partial (X : Mat ℝ) (S : Nat) (maxT step : ℝ) (shuffle : Nat → List Nat)
    (h4 : 4 ≤ X.nr) (hc : 0 < X.nc) (h0 : 0 < step) (h9 : step ≤ 9) : ∃ op, CovSearch X S maxT step shuffle op := by
  obtain ⟨r1, r2⟩ := covRows_range h4
  have hN := covGrid_pos h0 h9
  have hsplit : ∀ k, ∃ p, randomRowSplit X (covRows X.nr) (shuffle k) = some p := by
    intro k
    unfold randomRowSplit
    simp only
    rw [if_neg (by omega)]
    exact ⟨_, rfl⟩
  choose parts hparts using hsplit
  obtain ⟨s, h1, h2⟩ := C58_returns (S := S) (diff := fun k g => fNormDiff (parts k) g step) hN
  have hm := cov_mean_length h1
  have hne : argmin s.main.meanNormDiff ≠ none := by
    rw [Ne, (C36_argmin _).1]
    intro he
    rw [he] at hm
    simp at hm
    omega
  obtain ⟨idx, hidx⟩ := Option.ne_none_iff_exists'.1 hne
  exact ⟨_, parts, s, idx, by omega, hparts, h1, h2, hidx, rfl⟩

/-- A search with four rows and two columns. -/
example : ∃ op, CovSearch ⟨4, 2, fun i j => i + j⟩ 3 1 (1 / 2) (fun _ => [2, 0, 3, 1]) op :=
  C82_enough_rows_partial _ 3 1 (1 / 2) _ (by norm_num) (by norm_num) (by norm_num) (by norm_num)

/-- **C82 is false**: with two or three rows no threshold is returned (the split panics). -/
theorem C82_few_rows (X : Mat ℝ) (S : Nat) (maxT step : ℝ) (shuffle : Nat → List Nat)
    (h : X.nr = 2 ∨ X.nr = 3) : ¬ ∃ op, CovSearch X S maxT step shuffle op := by
  rintro ⟨op, parts, s, idx, -, hp, -⟩
  have := hp 0
  rw [covRows_zero h] at this
  simp [randomRowSplit] at this

theorem C82_refuted : ¬ ∀ (X : Mat ℝ) (S : Nat) (maxT step : ℝ) (shuffle : Nat → List Nat), 2 ≤ X.nr → 0 < X.nc →
    0 < step → step ≤ 9 → ∃ op, CovSearch X S maxT step shuffle op := by
  intro h
  exact C82_few_rows ⟨3, 1, fun i _ => i⟩ 1 1 1 (fun _ => [0, 1, 2]) (.inr rfl)
    (h _ _ _ _ _ (by norm_num) (by norm_num) (by norm_num) (by norm_num))

/-- C82: a step above 9 leaves no grid point and no threshold. -/
theorem C82_large_step (X : Mat ℝ) (S : Nat) (maxT step : ℝ) (shuffle : Nat → List Nat) (h : 9 < step) :
    ¬ ∃ op, CovSearch X S maxT step shuffle op := by
  rintro ⟨op, parts, s, idx, -, -, h1, -, h2, -⟩
  have hz : (covGrid step).toNat = 0 := by
    have h0 : 0 < step := by linarith
    have : covGrid step = 0 := by
      rw [covGrid, goInt_nonneg (by positivity), Int.floor_eq_zero_iff]
      refine ⟨by positivity, ?_⟩
      rw [div_lt_one h0]
      exact h
    rw [this]
    rfl
  have hm := cov_mean_length h1
  rw [hz] at hm
  rw [List.eq_nil_of_length_eq_zero hm] at h2
  simp [argmin] at h2

/-- **C81, what holds.** The threshold is `exp (-10 + j * step)` for a grid point `j`, hence at least `exp (-10)` and
below `exp (-1)`. -/
theorem C81_range_partial (X : Mat ℝ) (S : Nat) (maxT step op : ℝ) (shuffle : Nat → List Nat) (hs : 0 < step)
    (h : CovSearch X S maxT step shuffle op) :
    (∃ j : Nat, (j : ℝ) * step < 9 ∧ op = Real.exp (-10 + (j : ℝ) * step)) ∧
      Real.exp (-10) ≤ op ∧ op < Real.exp (-1) := by
  obtain ⟨parts, s, idx, -, -, h1, -, h3, h2⟩ := h
  have hidx : idx < (covGrid step).toNat := by
    obtain ⟨v, hv, -⟩ := (C36_argmin _).2 idx h3
    have := (List.getElem?_eq_some_iff.1 hv).1
    rwa [cov_mean_length h1] at this
  replace h2 : op = Real.exp (-10 + (idx : ℝ) * step) := h2
  have hlt : (idx : ℝ) * step < 9 := by
    have hg : covGrid step = ⌊9 / step⌋ := by rw [covGrid, goInt_nonneg (by positivity)]
    have h4 : ((idx : ℤ) + 1) ≤ ⌊9 / step⌋ := by omega
    have h5 := Int.le_floor.1 h4
    push_cast at h5
    rw [le_div_iff₀ hs] at h5
    linarith
  have hnn : 0 ≤ (idx : ℝ) * step := by positivity
  refine ⟨⟨idx, hlt, h2⟩, ?_, ?_⟩
  · rw [h2]
    exact Real.exp_le_exp.2 (by linarith)
  · rw [h2]
    exact Real.exp_lt_exp.2 (by linarith)

/-- **C81 is false, both parts**: `maxThreshold` is not used, and with one column the documented grid is `{0}`
while the threshold is positive. -/
theorem C81_refuted :
    (¬ ∀ (X : Mat ℝ) (S : Nat) (maxT step op : ℝ) (shuffle : Nat → List Nat), 0 < maxT → 0 < step →
      CovSearch X S maxT step shuffle op → op ≤ maxT) ∧
    (¬ ∀ (X : Mat ℝ) (S : Nat) (maxT step op : ℝ) (shuffle : Nat → List Nat), 0 < step →
      CovSearch X S maxT step shuffle op → Spec.OnDocumentedGrid X op) := by
  have hpos := Real.exp_pos (-10)
  constructor
  · intro h
    obtain ⟨op, hop⟩ := C82_enough_rows_partial ⟨4, 1, fun i _ => i⟩ 1 (Real.exp (-10) / 2) 1 (fun _ => [0, 1, 2, 3])
      (by norm_num) (by norm_num) (by norm_num) (by norm_num)
    have h1 := h _ _ _ _ _ _ (by positivity) (by norm_num) hop
    have h2 := (C81_range_partial _ _ _ _ _ _ (by norm_num) hop).2.1
    linarith
  · intro h
    obtain ⟨op, hop⟩ := C82_enough_rows_partial ⟨4, 1, fun i _ => i⟩ 1 1 1 (fun _ => [0, 1, 2, 3])
      (by norm_num) (by norm_num) (by norm_num) (by norm_num)
    obtain ⟨j, hj⟩ := h _ _ _ _ _ _ (by norm_num) hop
    have h2 := (C81_range_partial _ _ _ _ _ _ (by norm_num) hop).2.1
    simp at hj
    rw [hj] at h2
    linarith

end GoSelect
