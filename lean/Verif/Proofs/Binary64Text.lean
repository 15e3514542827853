import Verif.Model.Binary64Text
import Verif.Proofs.FloatText
import Verif.Proofs.Binary64
import Mathlib.Tactic.NormNum

/-! Lemmas about the conversion of decimal numbers to binary64. -/

namespace GoSelect

theorem two_zpowQ_pos (q : Int) : (0 : ℚ) < 2 ^ q := zpow_pos (by norm_num) q

theorem roundHalfEven_near {x : ℚ} (hx : 0 ≤ x) : |x - roundHalfEven x| ≤ 1 / 2 := by
  rcases roundHalfEven_spec _ hx with h | h
  exacts [h.le, h.1.le]

/-- No integer is closer. -/
theorem roundHalfEven_closest {x : ℚ} (hx : 0 ≤ x) (n : Nat) : |x - roundHalfEven x| ≤ |x - n| := by
  by_contra hlt
  rw [not_le] at hlt
  have := roundHalfEven_eq hx (Or.inl (hlt.trans_le (roundHalfEven_near hx)))
  rw [this] at hlt
  exact lt_irrefl _ hlt

theorem round64Q_near {z : ℚ} (hz : 0 ≤ z) : |z - round64Q z| ≤ 2 ^ lastPlaceQ z / 2 := by
  have hp := two_zpowQ_pos (lastPlaceQ z)
  have h := roundHalfEven_near (div_nonneg hz hp.le)
  have e : z - round64Q z = (z / 2 ^ lastPlaceQ z - roundHalfEven (z / 2 ^ lastPlaceQ z)) * 2 ^ lastPlaceQ z := by
    unfold round64Q
    field_simp
  rw [e, abs_mul, abs_of_pos hp]
  nlinarith

theorem lastPlaceQ_lower {z : ℚ} (hz : 0 < z) (h : -1074 < lastPlaceQ z) : 2 ^ (lastPlaceQ z + 52) ≤ z := by
  have h1 : lastPlaceQ z = Int.log 2 z - 52 := by
    unfold lastPlaceQ at h ⊢
    omega
  rw [h1, sub_add_cancel]
  exact_mod_cast Int.zpow_log_le_self (b := 2) (by norm_num) hz

theorem lastPlaceQ_upper (z : ℚ) : z < 2 ^ (lastPlaceQ z + 53) := by
  have h1 : z < 2 ^ (Int.log 2 z + 1) := by
    exact_mod_cast Int.lt_zpow_succ_log_self (b := 2) (by norm_num) z
  refine h1.trans_le (zpow_le_zpow_right₀ (by norm_num) ?_)
  unfold lastPlaceQ
  omega

theorem lastPlaceQ_ge (z : ℚ) : -1074 ≤ lastPlaceQ z := le_max_right _ _

theorem lastPlaceQ_le {z : ℚ} {q : Int} (hz : 0 < z) (hq : -1074 ≤ q) (h : z < 2 ^ (q + 53)) : lastPlaceQ z ≤ q := by
  by_contra hc
  rw [not_le] at hc
  have h1 := lastPlaceQ_lower hz (by omega)
  have h2 : (2 : ℚ) ^ (q + 53) ≤ 2 ^ (lastPlaceQ z + 52) := zpow_le_zpow_right₀ (by norm_num) (by omega)
  linarith

theorem round64Q_zero : round64Q 0 = 0 := by
  unfold round64Q
  rw [zero_div, show roundHalfEven 0 = 0 from roundHalfEven_eq le_rfl (Or.inl (by norm_num))]
  simp

theorem zpow_split (a : Int) (n : Nat) : (2 : ℚ) ^ (a + n) = 2 ^ n * 2 ^ a := by
  rw [zpow_add₀ (by norm_num), zpow_natCast, mul_comm]

/-- No number of binary64, whatever its size, is closer. -/
theorem round64Q_closest {z : ℚ} (hz : 0 ≤ z) {m : Nat} {e : Int} (hm : m < 2 ^ 53) (he : -1074 ≤ e) :
    |z - round64Q z| ≤ |z - m * 2 ^ e| := by
  rcases hz.eq_or_lt with rfl | hz'
  · rw [round64Q_zero, sub_zero, abs_zero]
    exact abs_nonneg _
  set p := lastPlaceQ z with hp
  have hpp := two_zpowQ_pos p
  have grid : ∀ n : Nat, |z - round64Q z| ≤ |z - n * 2 ^ p| := by
    intro n
    have h := roundHalfEven_closest (div_nonneg hz hpp.le) n
    have e1 : ∀ k : Nat, |z - k * 2 ^ p| = |z / 2 ^ p - k| * 2 ^ p := by
      intro k
      rw [← abs_of_pos hpp, ← abs_mul, abs_of_pos hpp]
      congr 1
      field_simp
    unfold round64Q
    rw [← hp, e1, e1]
    exact mul_le_mul_of_nonneg_right h hpp.le
  rcases le_or_gt p e with hpe | hpe
  · obtain ⟨k, hk⟩ := Int.eq_ofNat_of_zero_le (sub_nonneg.2 hpe)
    have : (m : ℚ) * 2 ^ e = ((m * 2 ^ k : Nat) : ℚ) * 2 ^ p := by
      rw [show e = p + (k : Nat) by omega, zpow_split]
      push_cast
      ring
    rw [this]
    exact grid _
  · have h1 : 2 ^ (p + 52) ≤ z := lastPlaceQ_lower hz' (by omega)
    have h2 : (m : ℚ) * 2 ^ e ≤ 2 ^ (p + 52) := by
      have h3 : (m : ℚ) ≤ 2 ^ 53 := by exact_mod_cast hm.le
      have h4 : (2 : ℚ) ^ e ≤ 2 ^ (p - 1) := zpow_le_zpow_right₀ (by norm_num) (by omega)
      calc (m : ℚ) * 2 ^ e ≤ 2 ^ 53 * 2 ^ (p - 1) := mul_le_mul h3 h4 (two_zpowQ_pos _).le (by norm_num)
        _ = 2 ^ (p + 52) := by rw [← zpow_split]; congr 1; norm_num; ring
    have h5 := grid (2 ^ 52)
    have h6 : ((2 ^ 52 : Nat) : ℚ) * 2 ^ p = 2 ^ (p + 52) := by
      have := zpow_split p 52
      push_cast at this ⊢
      exact this.symm
    rw [h6, abs_of_nonneg (sub_nonneg.2 h1)] at h5
    rw [abs_of_nonneg (sub_nonneg.2 (h2.trans h1))]
    linarith

theorem roundHalfEven_le {x : ℚ} (hx : 0 ≤ x) {n : Nat} (h : x ≤ n) : roundHalfEven x ≤ n := by
  by_contra hc
  rw [not_le] at hc
  have h1 := roundHalfEven_near hx
  have h2 : (n : ℚ) + 1 ≤ roundHalfEven x := by exact_mod_cast hc
  rw [abs_le] at h1
  linarith [h1.1]

theorem le_roundHalfEven {x : ℚ} (hx : 0 ≤ x) {n : Nat} (h : n ≤ x) : n ≤ roundHalfEven x := by
  by_contra hc
  rw [not_le] at hc
  have h1 := roundHalfEven_near hx
  have h2 : (roundHalfEven x : ℚ) + 1 ≤ n := by exact_mod_cast hc
  rw [abs_le] at h1
  linarith [h1.2]

theorem big_powers : ∃ t : ℚ, 1 ≤ t ∧ (2 : ℚ) ^ 970 = t ∧ (2 : ℚ) ^ 971 = 2 * t ∧ (2 : ℚ) ^ 1024 = 2 ^ 54 * t ∧
    (2 : ℚ) ^ (971 : Int) = 2 * t ∧ (2 : ℚ) ^ (972 : Int) = 4 * t ∧ (2 : ℚ) ^ (1023 : Int) = 2 ^ 53 * t ∧
    (2 : ℚ) ^ (1024 : Int) = 2 ^ 54 * t := by
  have hz : ∀ n k : Nat, (2 : ℚ) ^ ((n + k : Nat) : Int) = 2 ^ k * 2 ^ n := fun n k => by
    rw [zpow_natCast, pow_add, mul_comm]
  have hn : ∀ n k : Nat, (2 : ℚ) ^ (n + k) = 2 ^ k * 2 ^ n := fun n k => by rw [pow_add, mul_comm]
  refine ⟨2 ^ 970, one_le_pow₀ (by norm_num), rfl, (hn 970 1).trans (by rw [pow_one]), hn 970 54,
    (hz 970 1).trans (by rw [pow_one]), (hz 970 2).trans ?_, hz 970 53, hz 970 54⟩
  norm_num

/-- What is rounded is a number of the format if it is not too large. -/
theorem round64Q_rep {z : ℚ} (hz : 0 ≤ z) : Rep64 (round64Q z) ↔ z < 2 ^ 1024 - 2 ^ 970 := by
  obtain ⟨t, ht, t970, t971, t1024, z971, z972, z1023, z1024⟩ := big_powers
  rw [t970, t1024]
  clear t970 t971 t1024
  constructor
  · rintro ⟨m, e, hm, -, he, hr⟩
    have h1 : (m : ℚ) * 2 ^ e ≤ 2 ^ 54 * t - 2 * t := by
      have h3 : (m : ℚ) ≤ 2 ^ 53 - 1 := by
        have : (m : ℚ) + 1 ≤ 2 ^ 53 := by exact_mod_cast hm
        linarith
      have h4 : (2 : ℚ) ^ e ≤ 2 ^ (971 : Int) := zpow_le_zpow_right₀ (by norm_num) he
      calc (m : ℚ) * 2 ^ e ≤ (2 ^ 53 - 1) * 2 ^ (971 : Int) :=
            mul_le_mul h3 h4 (two_zpowQ_pos _).le (by norm_num)
        _ = 2 ^ 54 * t - 2 * t := by rw [z971]; ring
    by_contra hc
    rw [not_lt] at hc
    have hz' : 0 < z := lt_of_lt_of_le (by linarith only [ht]) hc
    -- the exponent
    have hp : 971 ≤ lastPlaceQ z := by
      by_contra hlt
      have h5 := lastPlaceQ_upper z
      have h6 : (2 : ℚ) ^ (lastPlaceQ z + 53) ≤ 2 ^ (1023 : Int) := zpow_le_zpow_right₀ (by norm_num) (by omega)
      rw [z1023] at h6
      linarith only [h5, h6, hc, ht]
    rcases hp.eq_or_lt with hp | hp
    · -- the last place is 2 ^ 971
      have h5 : (2 : ℚ) ^ 53 - 1 / 2 ≤ z / 2 ^ lastPlaceQ z := by
        rw [← hp, le_div_iff₀ (two_zpowQ_pos _), z971]
        linarith only [hc]
      have h6 : 2 ^ 53 ≤ roundHalfEven (z / 2 ^ lastPlaceQ z) := by
        have h0 : 0 ≤ z / 2 ^ lastPlaceQ z := div_nonneg hz (two_zpowQ_pos _).le
        by_contra hlt
        rw [not_le] at hlt
        have h7 : (roundHalfEven (z / 2 ^ lastPlaceQ z) : ℚ) ≤ 2 ^ 53 - 1 := by
          have : (roundHalfEven (z / 2 ^ lastPlaceQ z) : ℚ) + 1 ≤ 2 ^ 53 := by exact_mod_cast hlt
          linarith
        rcases roundHalfEven_spec _ h0 with h | ⟨h, hev⟩
        · rw [abs_lt] at h
          linarith [h.2]
        · have h8 : (roundHalfEven (z / 2 ^ lastPlaceQ z) : ℚ) = 2 ^ 53 - 1 := by
            rw [abs_eq (by norm_num)] at h
            rcases h with h | h <;> linarith
          have h9 : roundHalfEven (z / 2 ^ lastPlaceQ z) = 2 ^ 53 - 1 := by
            have : (roundHalfEven (z / 2 ^ lastPlaceQ z) : ℚ) + 1 = 2 ^ 53 := by linarith
            have : roundHalfEven (z / 2 ^ lastPlaceQ z) + 1 = 2 ^ 53 := by exact_mod_cast this
            omega
          rw [h9] at hev
          norm_num at hev
      have h7 : (2 : ℚ) ^ 54 * t ≤ round64Q z := by
        unfold round64Q
        have h8 : (2 : ℚ) ^ 53 ≤ roundHalfEven (z / 2 ^ lastPlaceQ z) := by exact_mod_cast h6
        have h9 := mul_le_mul_of_nonneg_right h8 (two_zpowQ_pos (lastPlaceQ z)).le
        refine le_trans (le_of_eq ?_) h9
        rw [← hp, z971]
        ring
      rw [hr] at h7
      linarith only [h7, h1, ht]
    · have h5 : (2 : ℚ) ^ (lastPlaceQ z + 52) ≤ z := lastPlaceQ_lower hz' (by omega)
      have h6 : 2 ^ 52 ≤ roundHalfEven (z / 2 ^ lastPlaceQ z) := by
        apply le_roundHalfEven (div_nonneg hz (two_zpowQ_pos _).le)
        rw [le_div_iff₀ (two_zpowQ_pos _)]
        have := zpow_split (lastPlaceQ z) 52
        rw [Nat.cast_ofNat] at this
        rw [this] at h5
        exact_mod_cast h5
      have h7 : (2 : ℚ) ^ 54 * t ≤ round64Q z := by
        unfold round64Q
        have h8 : (2 : ℚ) ^ 52 ≤ roundHalfEven (z / 2 ^ lastPlaceQ z) := by exact_mod_cast h6
        have h9 : (2 : ℚ) ^ (972 : Int) ≤ 2 ^ lastPlaceQ z := zpow_le_zpow_right₀ (by norm_num) (by omega)
        have h10 := mul_le_mul h8 h9 (two_zpowQ_pos _).le (by positivity)
        refine le_trans (le_of_eq ?_) h10
        rw [z972]
        ring
      rw [hr] at h7
      linarith only [h7, h1, ht]
  · intro h
    rcases hz.eq_or_lt with rfl | hz'
    · rw [round64Q_zero]
      exact ⟨0, 0, by norm_num, by norm_num, by norm_num, by norm_num⟩
    have hx0 : 0 ≤ z / 2 ^ lastPlaceQ z := div_nonneg hz (two_zpowQ_pos _).le
    have hle : lastPlaceQ z ≤ 971 := by
      refine lastPlaceQ_le hz' (by norm_num) (h.trans ?_)
      rw [show (971 + 53 : Int) = 1024 by norm_num, z1024]
      linarith only [ht]
    have hn : roundHalfEven (z / 2 ^ lastPlaceQ z) ≤ 2 ^ 53 := by
      apply roundHalfEven_le hx0
      rw [div_le_iff₀ (two_zpowQ_pos _)]
      have := zpow_split (lastPlaceQ z) 53
      have h5 := (lastPlaceQ_upper z).le
      rw [Nat.cast_ofNat] at this
      rw [this] at h5
      exact_mod_cast h5
    rcases hn.lt_or_eq with hn | hn
    · exact ⟨_, _, hn, lastPlaceQ_ge z, hle, rfl⟩
    · refine ⟨2 ^ 52, lastPlaceQ z + 1, by norm_num, by have := lastPlaceQ_ge z; omega, ?_, ?_⟩
      · by_contra hc
        have hp : lastPlaceQ z = 971 := by omega
        have h1 := roundHalfEven_near hx0
        rw [hn, hp, abs_le] at h1
        have h2 : (2 : ℚ) ^ 53 - 1 / 2 ≤ z / 2 ^ (971 : Int) := by
          have := h1.1
          push_cast at this
          linarith
        rw [le_div_iff₀ (two_zpowQ_pos _)] at h2
        rw [z971] at h2
        linarith only [h2, h]
      · unfold round64Q
        rw [hn]
        have := zpow_split (lastPlaceQ z) 1
        rw [Nat.cast_one] at this
        rw [this]
        push_cast
        ring

theorem binary64_round {z : ℚ} (hz : 0 ≤ z) (h : z < 2 ^ 1024 - 2 ^ 970) :
    binary64.round z = some ⟨round64Q z, (round64Q_rep hz).2 h⟩ := dif_pos _

theorem binary64_round_none {z : ℚ} (hz : 0 ≤ z) (h : 2 ^ 1024 - 2 ^ 970 ≤ z) : binary64.round z = none :=
  dif_neg fun hc => absurd ((round64Q_rep hz).1 hc) (not_lt.2 h)

theorem rep64_le {q : ℚ} (h : Rep64 q) : q ≤ 2 ^ 1024 - 2 ^ 971 := by
  obtain ⟨t, ht, t970, t971, t1024, z971, z972, z1023, z1024⟩ := big_powers
  rw [t971, t1024]
  obtain ⟨m, e, hm, -, he, rfl⟩ := h
  have h3 : (m : ℚ) ≤ 2 ^ 53 - 1 := by
    have : (m : ℚ) + 1 ≤ 2 ^ 53 := by exact_mod_cast hm
    linarith
  have h4 : (2 : ℚ) ^ e ≤ 2 ^ (971 : Int) := zpow_le_zpow_right₀ (by norm_num) he
  calc (m : ℚ) * 2 ^ e ≤ (2 ^ 53 - 1) * 2 ^ (971 : Int) :=
        mul_le_mul h3 h4 (two_zpowQ_pos _).le (by norm_num)
    _ = 2 ^ 54 * t - 2 * t := by rw [z971]; ring

/-- A number of the format is not changed. -/
theorem round64Q_of_rep {q : ℚ} (h : Rep64 q) : round64Q q = q := by
  obtain ⟨m, e, hm, h1, -, rfl⟩ := h
  have := round64Q_closest (z := m * 2 ^ e) (by have := two_zpowQ_pos e; positivity) hm h1
  rw [sub_self, abs_zero] at this
  have := abs_nonpos_iff.1 this
  linarith

/-- The exponent of the real number. -/
theorem log_cast (z : ℚ) (hz : 0 < z) : Int.log 2 (z : ℝ) = Int.log 2 z := by
  have hz' : (0 : ℝ) < z := by exact_mod_cast hz
  have h1 : ∀ x : Int, x ≤ Int.log 2 (z : ℝ) ↔ x ≤ Int.log 2 z := by
    intro x
    rw [← Int.zpow_le_iff_le_log (by norm_num) hz', ← Int.zpow_le_iff_le_log (by norm_num) hz]
    constructor
    · intro h
      have : (((2 : Nat) : ℚ) ^ x : ℝ) ≤ z := by push_cast; exact_mod_cast h
      exact_mod_cast this
    · intro h
      have : (((2 : Nat) : ℚ) ^ x : ℚ) ≤ z := h
      have : ((((2 : Nat) : ℚ) ^ x : ℚ) : ℝ) ≤ z := Rat.cast_le.2 this
      push_cast at this ⊢
      exact this
  exact le_antisymm ((h1 _).1 le_rfl) ((h1 _).2 le_rfl)

/-- It is the rounding of the other theorems about floating point arithmetic. -/
theorem round64Q_eq {z : ℚ} (hz : 0 ≤ z) : ((round64Q z : ℚ) : ℝ) = rnd64 z := by
  rcases hz.eq_or_lt with rfl | hz'
  · rw [round64Q_zero, Rat.cast_zero, rnd64_zero]
  have hz'' : (0 : ℝ) < z := by exact_mod_cast hz'
  have hl : lastPlace (z : ℝ) = lastPlaceQ z := by
    unfold lastPlace lastPlaceQ
    rw [abs_of_pos hz'', log_cast z hz']
  unfold rnd64 round64Q
  rw [hl]
  push_cast
  congr 1
  have h0 : 0 ≤ z / 2 ^ lastPlaceQ z := div_nonneg hz (two_zpowQ_pos _).le
  have hx : (z : ℝ) / 2 ^ lastPlaceQ z = ((z / 2 ^ lastPlaceQ z : ℚ) : ℝ) := by push_cast; rfl
  rw [hx]
  generalize z / 2 ^ lastPlaceQ z = x at h0
  have hfl : ⌊(x : ℝ)⌋ = ((⌊x⌋₊ : Nat) : Int) := by
    rw [Rat.floor_cast, Int.natCast_floor_eq_floor h0]
  unfold roundHalfEven roundEven
  simp only [hfl]
  have e1 : ((x : ℝ) - (((⌊x⌋₊ : Nat) : Int) : ℝ) < 1 / 2) ↔ x - ⌊x⌋₊ < 1 / 2 := by
    rw [show ((x : ℝ) - (((⌊x⌋₊ : Nat) : Int) : ℝ)) = ((x - ⌊x⌋₊ : ℚ) : ℝ) by push_cast; rfl,
      show (1 / 2 : ℝ) = ((1 / 2 : ℚ) : ℝ) by norm_num, Rat.cast_lt]
  have e2 : (1 / 2 < (x : ℝ) - (((⌊x⌋₊ : Nat) : Int) : ℝ)) ↔ 1 / 2 < x - ⌊x⌋₊ := by
    rw [show ((x : ℝ) - (((⌊x⌋₊ : Nat) : Int) : ℝ)) = ((x - ⌊x⌋₊ : ℚ) : ℝ) by push_cast; rfl,
      show (1 / 2 : ℝ) = ((1 / 2 : ℚ) : ℝ) by norm_num, Rat.cast_lt]
  have e3 : (((⌊x⌋₊ : Nat) : Int) % 2 = 0) ↔ ⌊x⌋₊ % 2 = 0 := by omega
  simp only [e1, e2, e3]
  split_ifs <;> push_cast <;> rfl

end GoSelect
