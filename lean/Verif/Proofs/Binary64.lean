import Verif.Model.Binary64
import Mathlib.Tactic.Linarith
import Mathlib.Tactic.Ring
import Mathlib.Tactic.NormNum
import Mathlib.Tactic.Positivity
import Mathlib.Tactic.FieldSimp

/-!
Properties of rounding to binary64.
-/

namespace GoSelect

theorem roundEven_cases (x : ℝ) : (roundEven x = ⌊x⌋ ∧ x - ⌊x⌋ ≤ 1 / 2) ∨ (roundEven x = ⌊x⌋ + 1 ∧ 1 / 2 ≤ x - ⌊x⌋) := by
  unfold roundEven
  split
  · left; exact ⟨rfl, by linarith⟩
  · split
    · right; exact ⟨rfl, by linarith⟩
    · split
      · left; exact ⟨rfl, by linarith⟩
      · right; exact ⟨rfl, by linarith⟩

theorem roundEven_abs (x : ℝ) : |(roundEven x : ℝ) - x| ≤ 1 / 2 := by
  have h1 := Int.floor_le x
  have h2 := Int.lt_floor_add_one x
  rw [abs_le]
  rcases roundEven_cases x with ⟨h, h'⟩ | ⟨h, h'⟩ <;> rw [h] <;> push_cast <;> constructor <;> linarith

theorem roundEven_eq {x : ℝ} {m : Int} (h : |x - m| < 1 / 2) : roundEven x = m := by
  have h1 := roundEven_abs x
  have h2 : |((roundEven x - m : Int) : ℝ)| < 1 := by
    push_cast
    calc |(roundEven x : ℝ) - m| = |((roundEven x : ℝ) - x) + (x - m)| := by ring_nf
      _ ≤ |(roundEven x : ℝ) - x| + |x - m| := abs_add_le _ _
      _ < 1 := by linarith
  have h3 : |roundEven x - m| < 1 := by exact_mod_cast h2
  have := Int.abs_lt_one_iff.1 h3
  omega

theorem roundEven_int (m : Int) : roundEven (m : ℝ) = m := roundEven_eq (by simp)

theorem roundEven_tie {m : Int} (hm : m % 2 = 0) : roundEven ((m : ℝ) + 1 / 2) = m := by
  have hf : ⌊(m : ℝ) + 1 / 2⌋ = m := by
    rw [Int.floor_eq_iff]
    constructor <;> linarith
  unfold roundEven
  rw [hf, if_neg (by norm_num), if_neg (by norm_num), if_pos hm]

theorem roundEven_mono {x y : ℝ} (h : x ≤ y) : roundEven x ≤ roundEven y := by
  have hf := Int.floor_mono h
  rcases lt_or_eq_of_le hf with hlt | heq
  · rcases roundEven_cases x with ⟨h1, _⟩ | ⟨h1, _⟩ <;> rcases roundEven_cases y with ⟨h2, _⟩ | ⟨h2, _⟩ <;> omega
  · have h1 := Int.floor_le x
    unfold roundEven
    rw [← heq]
    by_cases a1 : x - ⌊x⌋ < 1 / 2
    · rw [if_pos a1]
      split
      · exact le_refl _
      · split
        · omega
        · split <;> omega
    · have a2 : ¬ y - ⌊x⌋ < 1 / 2 := by intro h'; apply a1; linarith
      rw [if_neg a1, if_neg a2]
      by_cases b1 : 1 / 2 < x - ⌊x⌋
      · rw [if_pos b1, if_pos (by linarith)]
      · rw [if_neg b1]
        split <;> split <;> omega

theorem roundEven_neg (x : ℝ) : roundEven (-x) = -roundEven x := by
  have h1 := Int.floor_le x
  have h2 := Int.lt_floor_add_one x
  by_cases hi : x = ⌊x⌋
  · rw [hi, ← Int.cast_neg, roundEven_int, roundEven_int]
  have h3 : (⌊x⌋ : ℝ) < x := lt_of_le_of_ne h1 (fun h => hi h.symm)
  have hfl : ⌊-x⌋ = -⌊x⌋ - 1 := by
    rw [Int.floor_eq_iff]
    push_cast
    constructor <;> linarith
  unfold roundEven
  rw [hfl]
  push_cast
  by_cases ha : x - ⌊x⌋ < 1 / 2
  · rw [if_pos ha, if_neg (by linarith), if_pos (by linarith)]
    ring
  · by_cases hb : 1 / 2 < x - ⌊x⌋
    · rw [if_neg ha, if_pos hb, if_pos (by linarith)]
      ring
    · rw [if_neg ha, if_neg hb, if_neg (by linarith), if_neg (by linarith)]
      split <;> split <;> omega

theorem two_zpow_pos (q : Int) : (0 : ℝ) < 2 ^ q := zpow_pos (by norm_num) q

theorem lastPlace_neg (x : ℝ) : lastPlace (-x) = lastPlace x := by unfold lastPlace; rw [abs_neg]

theorem rnd64_neg (x : ℝ) : rnd64 (-x) = -rnd64 x := by
  unfold rnd64
  rw [lastPlace_neg, neg_div, roundEven_neg]
  push_cast
  ring

theorem rnd64_zero : rnd64 0 = 0 := by
  unfold rnd64
  rw [zero_div]
  have : roundEven (0 : ℝ) = 0 := by exact_mod_cast roundEven_int 0
  rw [this]
  simp

theorem rnd64_err (x : ℝ) : |rnd64 x - x| ≤ 2 ^ lastPlace x / 2 := by
  have hp := two_zpow_pos (lastPlace x)
  have h := roundEven_abs (x / 2 ^ lastPlace x)
  have : rnd64 x - x = ((roundEven (x / 2 ^ lastPlace x) : ℝ) - x / 2 ^ lastPlace x) * 2 ^ lastPlace x := by
    unfold rnd64
    field_simp
  rw [this, abs_mul, abs_of_pos hp]
  nlinarith

theorem lastPlace_bound {x : ℝ} (hx : x ≠ 0) : (2 : ℝ) ^ lastPlace x ≤ max (|x| / 2 ^ 52) (2 ^ (-1074 : Int)) := by
  have hl : (2 : ℝ) ^ Int.log 2 |x| ≤ |x| := by
    have := Int.zpow_log_le_self (b := 2) (r := |x|) (by norm_num) (abs_pos.2 hx)
    exact_mod_cast this
  unfold lastPlace
  rcases le_total (Int.log 2 |x| - 52) (-1074) with h | h
  · rw [max_eq_right h]
    exact le_max_right _ _
  · rw [max_eq_left h]
    refine le_trans ?_ (le_max_left _ _)
    rw [zpow_sub₀ (by norm_num)]
    have : ((2 : ℝ) ^ (52 : Int)) = 2 ^ 52 := by norm_cast
    rw [this]
    exact div_le_div_of_nonneg_right hl (by positivity)

/-- Every result is off by at most the relative error `2 ^ (-53)`, or half the smallest number. -/
theorem rnd64_rel (x : ℝ) : |rnd64 x - x| ≤ |x| / 2 ^ 53 + 2 ^ (-1075 : Int) := by
  rcases eq_or_ne x 0 with rfl | hx
  · rw [rnd64_zero]
    have := two_zpow_pos (-1075)
    simp only [sub_self, abs_zero, zero_div, zero_add]
    exact this.le
  have h1 := rnd64_err x
  have h2 := lastPlace_bound hx
  have h3 : (2 : ℝ) ^ (-1074 : Int) = 2 * 2 ^ (-1075 : Int) := by
    rw [show (-1074 : Int) = 1 + -1075 by norm_num, zpow_add₀ (by norm_num)]
    norm_num
  have hp := two_zpow_pos (-1075)
  have ha := abs_nonneg x
  have h4 : max (|x| / 2 ^ 52) ((2 : ℝ) ^ (-1074 : Int)) ≤ |x| / 2 ^ 52 + 2 ^ (-1074 : Int) :=
    max_le (by linarith [two_zpow_pos (-1074)]) (by linarith [div_nonneg ha (by positivity : (0 : ℝ) ≤ 2 ^ 52)])
  have h5 : |x| / 2 ^ 53 = |x| / 2 ^ 52 / 2 := by ring
  rw [h5]
  linarith

/-- The standard model of floating point arithmetic, outside the subnormal range. -/
theorem rnd64_std {x : ℝ} (hx : 2 ^ (-1022 : Int) ≤ |x|) : |rnd64 x - x| ≤ |x| / 2 ^ 53 := by
  have hne : x ≠ 0 := by
    rintro rfl
    have := two_zpow_pos (-1022)
    rw [abs_zero] at hx
    linarith
  have h1 := rnd64_err x
  have h2 := lastPlace_bound hne
  have h3 : (2 : ℝ) ^ (-1074 : Int) = 2 ^ (-1022 : Int) / 2 ^ 52 := by
    rw [show (-1074 : Int) = -1022 - 52 by norm_num, zpow_sub₀ (by norm_num)]
    norm_cast
  rw [h3] at h2
  rw [max_eq_left (div_le_div_of_nonneg_right hx (by positivity))] at h2
  have h5 : |x| / 2 ^ 53 = |x| / 2 ^ 52 / 2 := by ring
  rw [h5]
  linarith

theorem lastPlace_le {x : ℝ} {q : Int} (hx : x ≠ 0) (hq : -1074 ≤ q) (h : |x| < 2 ^ (q + 53)) : lastPlace x ≤ q := by
  unfold lastPlace
  refine max_le ?_ hq
  have h1 : Int.log 2 |x| < q + 53 := by
    rw [← Int.lt_zpow_iff_log_lt (by norm_num) (abs_pos.2 hx)]
    exact_mod_cast h
  omega

theorem lastPlace_ge {x : ℝ} {q : Int} (h : 2 ^ (q + 52) ≤ |x|) : q ≤ lastPlace x := by
  have hx : 0 < |x| := lt_of_lt_of_le (two_zpow_pos _) h
  unfold lastPlace
  refine le_max_of_le_left ?_
  have h1 : q + 52 ≤ Int.log 2 |x| := by
    rw [← Int.zpow_le_iff_le_log (by norm_num) hx]
    exact_mod_cast h
  omega

/-- Numbers of the format stay as they are. -/
theorem rnd64_rep' {m q : Int} (hm : |m| < 2 ^ 53) (hq : -1074 ≤ q) : rnd64 (m * 2 ^ q) = m * 2 ^ q := by
  rcases eq_or_ne m 0 with rfl | hm0
  · simp [rnd64_zero]
  have hp := two_zpow_pos q
  have hx : (m : ℝ) * 2 ^ q ≠ 0 := mul_ne_zero (by exact_mod_cast hm0) hp.ne'
  have hlp : lastPlace ((m : ℝ) * 2 ^ q) ≤ q := by
    refine lastPlace_le hx hq ?_
    rw [abs_mul, abs_of_pos hp, zpow_add₀ (by norm_num), mul_comm]
    refine mul_lt_mul_of_pos_left ?_ hp
    have : ((|m| : Int) : ℝ) < ((2 ^ 53 : Int) : ℝ) := Int.cast_lt.2 hm
    rw [Int.cast_abs] at this
    refine this.trans_eq ?_
    norm_num
  obtain ⟨k, hk⟩ := Int.eq_ofNat_of_zero_le (sub_nonneg.2 hlp)
  have hpl := two_zpow_pos (lastPlace ((m : ℝ) * 2 ^ q))
  have hd : (m : ℝ) * 2 ^ q / 2 ^ lastPlace ((m : ℝ) * 2 ^ q) = ((m * 2 ^ k : Int) : ℝ) := by
    rw [mul_div_assoc, ← zpow_sub₀ (by norm_num), hk]
    push_cast
    simp
  unfold rnd64
  rw [hd, roundEven_int, ← hd]
  field_simp

theorem rnd64_two_zpow {q : Int} (hq : -1074 ≤ q) : rnd64 (2 ^ q) = 2 ^ q := by
  have := rnd64_rep' (m := 1) (q := q) (by norm_num) hq
  simpa using this

theorem rnd64_rep {m q : Int} (hm : |m| ≤ 2 ^ 53) (hq : -1074 ≤ q) : rnd64 (m * 2 ^ q) = m * 2 ^ q := by
  rcases lt_or_eq_of_le hm with h | h
  · exact rnd64_rep' h hq
  · have h2 := rnd64_two_zpow (q := q + 53) (by omega)
    have hz : (2 : ℝ) ^ (q + 53) = 2 ^ 53 * 2 ^ q := by
      rw [add_comm, zpow_add₀ (by norm_num)]
      norm_num
    rw [hz] at h2
    norm_num at h2
    rcases abs_choice m with hc | hc
    · have hm' : m = 2 ^ 53 := by omega
      rw [hm']
      norm_num
      exact h2
    · have hm' : m = -2 ^ 53 := by omega
      rw [hm']
      norm_num
      rw [rnd64_neg, h2]

theorem rnd64_int {m : Int} (hm : |m| ≤ 2 ^ 53) : rnd64 m = m := by
  have := rnd64_rep (q := 0) hm (by norm_num)
  simpa using this

theorem rnd64_nat {n : Nat} (hn : n ≤ 2 ^ 53) : rnd64 n = n := by
  have := rnd64_int (m := (n : Int)) (by rw [abs_of_nonneg (by omega)]; exact_mod_cast hn)
  simpa using this

theorem rnd64_one : rnd64 1 = 1 := by
  have := rnd64_nat (n := 1) (by norm_num)
  simpa using this

/-- How to round a number with a given exponent. -/
theorem rnd64_of {x : ℝ} {m q : Int} (hq : -1074 ≤ q) (h1 : 2 ^ (q + 52) ≤ |x|) (h2 : |x| < 2 ^ (q + 53))
    (hm : |x / 2 ^ q - m| < 1 / 2) : rnd64 x = m * 2 ^ q := by
  have hx : x ≠ 0 := by
    rintro rfl
    have := two_zpow_pos (q + 52)
    rw [abs_zero] at h1
    linarith
  have : lastPlace x = q := le_antisymm (lastPlace_le hx hq h2) (lastPlace_ge h1)
  unfold rnd64
  rw [this, roundEven_eq hm]

/-- A number in the middle of two numbers of the format. -/
theorem rnd64_tie {x : ℝ} {m q : Int} (hq : -1074 ≤ q) (h1 : 2 ^ (q + 52) ≤ |x|) (h2 : |x| < 2 ^ (q + 53))
    (hm : x / 2 ^ q = m + 1 / 2) (he : m % 2 = 0) : rnd64 x = m * 2 ^ q := by
  have hx : x ≠ 0 := by
    rintro rfl
    have := two_zpow_pos (q + 52)
    rw [abs_zero] at h1
    linarith
  have : lastPlace x = q := le_antisymm (lastPlace_le hx hq h2) (lastPlace_ge h1)
  unfold rnd64
  rw [this, hm, roundEven_tie he]

theorem rnd64_nonneg {x : ℝ} (hx : 0 ≤ x) : 0 ≤ rnd64 x := by
  unfold rnd64
  refine mul_nonneg ?_ (two_zpow_pos _).le
  have h0 : roundEven (0 : ℝ) = 0 := by exact_mod_cast roundEven_int 0
  have := roundEven_mono (div_nonneg hx (two_zpow_pos (lastPlace x)).le)
  rw [h0] at this
  exact_mod_cast this

theorem rnd64_mono_nonneg {x y : ℝ} (hx : 0 ≤ x) (h : x ≤ y) : rnd64 x ≤ rnd64 y := by
  rcases eq_or_lt_of_le hx with rfl | hx
  · rw [rnd64_zero]; exact rnd64_nonneg h
  have hy : 0 < y := hx.trans_le h
  have hlog : lastPlace x ≤ lastPlace y := by
    unfold lastPlace
    refine max_le_max (sub_le_sub_right (Int.log_mono_right ?_ ?_) _) (le_refl _)
    · exact abs_pos.2 hx.ne'
    · rw [abs_of_pos hx, abs_of_pos hy]; exact h
  rcases eq_or_lt_of_le hlog with he | hlt
  · unfold rnd64
    rw [he]
    refine mul_le_mul_of_nonneg_right ?_ (two_zpow_pos _).le
    exact_mod_cast roundEven_mono (div_le_div_of_nonneg_right h (two_zpow_pos _).le)
  · -- a number of the format lies between
    set q := lastPlace y with hq
    have hq1 : -1074 ≤ lastPlace x := le_max_right _ _
    have hq2 : q = Int.log 2 |y| - 52 := by
      rw [hq]
      unfold lastPlace at hlt hq ⊢
      rcases le_total (Int.log 2 |y| - 52) (-1074) with h' | h'
      · exfalso
        have h1 : q = -1074 := by rw [hq, max_eq_right h']
        have : -1074 ≤ max (Int.log 2 |x| - 52) (-1074) := le_max_right _ _
        omega
      · rw [max_eq_left h']
    have hy1 : (2 : ℝ) ^ (q + 52) ≤ y := by
      have := Int.zpow_log_le_self (b := 2) (r := |y|) (by norm_num) (abs_pos.2 hy.ne')
      rw [abs_of_pos hy] at this hq2
      rw [hq2, sub_add_cancel]
      exact_mod_cast this
    have hx1 : x ≤ (2 : ℝ) ^ (q + 52) := by
      have h1 : Int.log 2 |x| - 52 ≤ lastPlace x := le_max_left _ _
      have h2 : x < (2 : ℝ) ^ (Int.log 2 |x| + 1) := by
        have := Int.lt_zpow_succ_log_self (b := 2) (by norm_num) |x|
        rw [abs_of_pos hx] at this ⊢
        exact_mod_cast this
      refine h2.le.trans (zpow_le_zpow_right₀ (by norm_num) ?_)
      omega
    have key : ∀ {z : ℝ}, lastPlace z ≤ q → ∃ k : Nat, (2 : ℝ) ^ (q + 52) / 2 ^ lastPlace z = ((2 ^ k : Int) : ℝ) := by
      intro z hz
      obtain ⟨k, hk⟩ := Int.eq_ofNat_of_zero_le (show 0 ≤ q + 52 - lastPlace z by omega)
      refine ⟨k, ?_⟩
      rw [← zpow_sub₀ (by norm_num), hk]
      push_cast
      simp
    have hxr : rnd64 x ≤ 2 ^ (q + 52) := by
      obtain ⟨k, hk⟩ := key (z := x) hlog
      have hp := two_zpow_pos (lastPlace x)
      have h1 : roundEven (x / 2 ^ lastPlace x) ≤ 2 ^ k := by
        rw [← roundEven_int (2 ^ k), ← hk]
        exact roundEven_mono (div_le_div_of_nonneg_right hx1 hp.le)
      unfold rnd64
      rw [← le_div_iff₀ hp, hk]
      exact_mod_cast h1
    have hyr : 2 ^ (q + 52) ≤ rnd64 y := by
      obtain ⟨k, hk⟩ := key (z := y) (le_refl _)
      have hp := two_zpow_pos (lastPlace y)
      have h1 : 2 ^ k ≤ roundEven (y / 2 ^ lastPlace y) := by
        rw [← roundEven_int (2 ^ k), ← hk]
        exact roundEven_mono (div_le_div_of_nonneg_right hy1 hp.le)
      unfold rnd64
      rw [← div_le_iff₀ hp, hk]
      exact_mod_cast h1
    exact hxr.trans hyr

theorem rnd64_mono : Monotone rnd64 := by
  intro x y h
  rcases le_total 0 x with hx | hx
  · exact rnd64_mono_nonneg hx h
  · rcases le_total 0 y with hy | hy
    · have h1 := rnd64_nonneg (neg_nonneg.2 hx)
      rw [rnd64_neg] at h1
      linarith [rnd64_nonneg hy]
    · have := rnd64_mono_nonneg (neg_nonneg.2 hy) (neg_le_neg h)
      rw [rnd64_neg, rnd64_neg] at this
      linarith

/-- A rounded number is not changed by rounding. -/
theorem rnd64_idem (x : ℝ) : rnd64 (rnd64 x) = rnd64 x := by
  rcases eq_or_ne x 0 with rfl | hx
  · rw [rnd64_zero, rnd64_zero]
  have hq : -1074 ≤ lastPlace x := le_max_right _ _
  have hq2 : Int.log 2 |x| - 52 ≤ lastPlace x := le_max_left _ _
  have hp := two_zpow_pos (lastPlace x)
  have h1 : |x| < 2 ^ (Int.log 2 |x| + 1) := by
    have := Int.lt_zpow_succ_log_self (b := 2) (by norm_num) |x|
    exact_mod_cast this
  have h2 : |x| ≤ (2 : ℝ) ^ (53 : Nat) * 2 ^ lastPlace x := by
    rw [← zpow_natCast, ← zpow_add₀ (by norm_num)]
    exact h1.le.trans (zpow_le_zpow_right₀ (by norm_num) (by push_cast; omega))
  have h3 : |x / 2 ^ lastPlace x| ≤ (2 : ℝ) ^ (53 : Nat) := by
    rw [abs_div, abs_of_pos hp, div_le_iff₀ hp]
    exact h2
  have h4 := abs_le.1 h3
  have hi : roundEven ((2 : ℝ) ^ (53 : Nat)) = 2 ^ 53 := by
    have := roundEven_int (2 ^ 53)
    push_cast at this
    norm_num
    exact this
  have hj : roundEven (-(2 : ℝ) ^ (53 : Nat)) = -2 ^ 53 := by
    have := roundEven_int (-2 ^ 53)
    push_cast at this
    norm_num
    exact this
  have h5 : |roundEven (x / 2 ^ lastPlace x)| ≤ 2 ^ 53 := by
    rw [abs_le]
    exact ⟨hj ▸ roundEven_mono h4.1, hi ▸ roundEven_mono h4.2⟩
  exact rnd64_rep h5 hq

/-! ### Without underflow -/

/-- Outside the subnormal range the two roundings agree. -/
theorem rnd53_eq {x : ℝ} (h : x = 0 ∨ 2 ^ (-1022 : Int) ≤ |x|) : rnd53 x = rnd64 x := by
  rcases h with rfl | h
  · rw [rnd64_zero]
    unfold rnd53
    rw [zero_div]
    have : roundEven (0 : ℝ) = 0 := by exact_mod_cast roundEven_int 0
    rw [this]
    simp
  · have hl : -1022 ≤ Int.log 2 |x| := by
      rw [← Int.zpow_le_iff_le_log (by norm_num) (lt_of_lt_of_le (two_zpow_pos _) h)]
      exact_mod_cast h
    have : lastPlace x = Int.log 2 |x| - 52 := max_eq_left (by omega)
    unfold rnd64 rnd53
    rw [this]

theorem rnd53_rel (x : ℝ) : |rnd53 x - x| ≤ 1 / 2 ^ 53 * |x| := by
  rcases eq_or_ne x 0 with rfl | hx
  · rw [rnd53_eq (Or.inl rfl), rnd64_zero]
    simp
  set q := Int.log 2 |x| - 52 with hq
  have hp := two_zpow_pos q
  have h := roundEven_abs (x / 2 ^ q)
  have e : rnd53 x - x = ((roundEven (x / 2 ^ q) : ℝ) - x / 2 ^ q) * 2 ^ q := by
    unfold rnd53
    rw [← hq]
    field_simp
  have hl : (2 : ℝ) ^ Int.log 2 |x| ≤ |x| := by
    have := Int.zpow_log_le_self (b := 2) (r := |x|) (by norm_num) (abs_pos.2 hx)
    exact_mod_cast this
  have h2 : (2 : ℝ) ^ q = 2 ^ Int.log 2 |x| / 2 ^ 52 := by
    rw [hq, zpow_sub₀ (by norm_num)]
    norm_cast
  rw [e, abs_mul, abs_of_pos hp]
  calc |(roundEven (x / 2 ^ q) : ℝ) - x / 2 ^ q| * 2 ^ q ≤ 1 / 2 * 2 ^ q := mul_le_mul_of_nonneg_right h hp.le
    _ = 1 / 2 ^ 53 * 2 ^ Int.log 2 |x| := by rw [h2]; ring
    _ ≤ 1 / 2 ^ 53 * |x| := mul_le_mul_of_nonneg_left hl (by positivity)

theorem rnd53_nat {n : Nat} (hn : n ≤ 2 ^ 53) : rnd53 n = n := by
  rw [rnd53_eq, rnd64_nat hn]
  rcases Nat.eq_zero_or_pos n with rfl | h
  · left; simp
  · right
    rw [abs_of_nonneg (Nat.cast_nonneg _)]
    calc (2 : ℝ) ^ (-1022 : Int) ≤ 2 ^ (0 : Int) := zpow_le_zpow_right₀ (by norm_num) (by norm_num)
      _ = 1 := zpow_zero _
      _ ≤ n := by exact_mod_cast h

end GoSelect
