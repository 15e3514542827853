import Verif.Props.C137
import Verif.Props.C45_text

/-!
C138: numbers in JSON files are exact and as short as possible.

`floatText D` is how `encoding/json` writes and reads a `float64`; `D` are the digits that `strconv` chooses.
-/

namespace GoSelect

open Spec

/-! ### Specification -/

/-- Documented for `strconv.AppendFloat(·, ·, -1, 64)`: the digits are read as the number; no decimal number with fewer
digits is; of those with no more digits none is closer. -/
structure Spec.Shortest {F : FloatFormat} (D : Digits F) : Prop where
  back : ReadsBack D
  least : ∀ x (d : Nat) (e : Int) (n : Nat), F.round (d * 10 ^ e) = some x → d < 10 ^ n → D.digits x < 10 ^ n
  closest : ∀ x (d : Nat) (e : Int), F.round (d * 10 ^ e) = some x → (∀ n, D.digits x < 10 ^ n → d < 10 ^ n) →
    |x.1 - D.digits x * 10 ^ D.exponent x| ≤ |x.1 - d * 10 ^ e|

/-- A number as it is written without superfluous characters: no plus sign, no superfluous zero in front of or behind the
digits, no exponent. -/
structure Spec.PlainNumeral (n : Numeral) : Prop where
  sign : n.sign ≠ some false
  whole : n.whole = [0] ∨ ∃ d l, n.whole = d :: l ∧ d ≠ 0
  frac : ∀ f, n.frac = some f → ∃ l d, f = l ++ [d] ∧ d ≠ 0
  exp : n.exp = none

/-- All digits but zeros behind the last one that is not zero are at most 15. -/
def Spec.FifteenDigits (n : Numeral) : Prop :=
  ∃ d t : Nat, d < 10 ^ 15 ∧ digitValue (n.whole ++ n.frac.getD []) = d * 10 ^ t

/-! ### Distances -/

/-- Different numbers of binary64 are apart by `2^-53` of each of them. -/
theorem rep64_apart {x r : ℚ} (hx : Rep64 x) (hr : Rep64 r) (h : |r - x| < x / 2 ^ 53) : r = x := by
  obtain ⟨m, e, hm, -, -, rfl⟩ := hx
  obtain ⟨m', e', hm', -, -, rfl⟩ := hr
  by_contra hne
  have hm1 : (m : ℚ) < 2 ^ 53 := by exact_mod_cast hm
  have hm2 : (m' : ℚ) + 1 ≤ 2 ^ 53 := by exact_mod_cast hm'
  -- both are multiples of the smaller place
  have key : ∀ (p : Int), p ≤ e → p ≤ e' → (2 : ℚ) ^ p ≤ |(m' : ℚ) * 2 ^ e' - m * 2 ^ e| := by
    intro p h1 h2
    obtain ⟨k, hk⟩ := Int.eq_ofNat_of_zero_le (sub_nonneg.2 h1)
    obtain ⟨k', hk'⟩ := Int.eq_ofNat_of_zero_le (sub_nonneg.2 h2)
    have e1 : (m : ℚ) * 2 ^ e = ((m * 2 ^ k : Int) : ℚ) * 2 ^ p := by
      rw [show e = p + (k : Nat) by omega, zpow_split]; push_cast; ring
    have e2 : (m' : ℚ) * 2 ^ e' = ((m' * 2 ^ k' : Int) : ℚ) * 2 ^ p := by
      rw [show e' = p + (k' : Nat) by omega, zpow_split]; push_cast; ring
    rw [e1, e2] at hne ⊢
    rw [← sub_mul, abs_mul, abs_of_pos (two_zpowQ_pos p), ← Int.cast_sub, ← Int.cast_abs]
    have : (1 : Int) ≤ |(m' * 2 ^ k' : Int) - m * 2 ^ k| := by
      apply Int.one_le_abs
      intro h0
      apply hne
      rw [sub_eq_zero.1 h0]
    have : (1 : ℚ) ≤ ((|(m' * 2 ^ k' : Int) - m * 2 ^ k| : Int) : ℚ) := by exact_mod_cast this
    have hp := two_zpowQ_pos p
    nlinarith
  rw [lt_div_iff₀ (by norm_num)] at h
  rcases le_or_gt e e' with he | he
  · have h1 := key e le_rfl he
    have hp := two_zpowQ_pos e
    nlinarith
  · have h1 := key e' he.le le_rfl
    have hp := two_zpowQ_pos e'
    rcases lt_or_ge ((m : ℚ) * 2 ^ e) (2 ^ 53 * 2 ^ e') with h2 | h2
    · linarith
    · have h3 : (m' : ℚ) * 2 ^ e' ≤ 2 ^ 53 * 2 ^ e' - 2 ^ e' := by nlinarith
      rw [abs_sub_comm] at h
      have h4 := le_abs_self ((m : ℚ) * 2 ^ e - m' * 2 ^ e')
      linarith

/-- What is closer than `2^-54` of a number is rounded to it. -/
theorem round64Q_close {x z : ℚ} (hx : Rep64 x) (hz : 0 ≤ z) (h : |z - x| < x / 2 ^ 54) : binary64.round z = some ⟨x, hx⟩ := by
  have hxz : z < 2 ^ 1024 - 2 ^ 970 := by
    have h1 := rep64_le hx
    obtain ⟨t, ht, t970, t971, t1024, -⟩ := big_powers
    rw [t971, t1024] at h1
    rw [t970, t1024]
    clear t970 t971 t1024
    rw [lt_div_iff₀ (by norm_num)] at h
    have h2 := le_abs_self (z - x)
    linarith only [h1, h, h2, ht]
  rw [binary64_round hz hxz]
  congr 1
  apply Subtype.ext
  show round64Q z = x
  apply rep64_apart hx ((round64Q_rep hz).2 hxz)
  obtain ⟨m, e, hm, he, -, hme⟩ := hx
  have h1 := round64Q_closest hz hm he
  rw [← hme, abs_sub_comm] at h1
  have h2 := abs_sub_le (round64Q z) z x
  have h3 : x / 2 ^ 53 = x / 2 ^ 54 + x / 2 ^ 54 := by ring
  linarith

/-- Every number has a decimal number with 17 digits that is read as it. -/
theorem seventeen_digits (x : { q : ℚ // Rep64 q }) : ∃ (d : Nat) (e : Int), d < 10 ^ 17 ∧
    binary64.round (d * 10 ^ e) = some x := by
  have hx0 : 0 ≤ x.1 := C137_contract.1 _ x.2
  rcases hx0.eq_or_lt with hx0 | hx0
  · refine ⟨0, 0, by norm_num, ?_⟩
    rw [Nat.cast_zero, zero_mul, hx0, binary64_round hx0.le (small_range (by rw [← hx0]; norm_num))]
    congr 1
    exact Subtype.ext (round64Q_of_rep x.2)
  set k : Int := Int.log 10 x.1 - 16 with hk
  have hp : (0 : ℚ) < 10 ^ k := zpow_pos (by norm_num) _
  have h1 : (10 : ℚ) ^ 16 * 10 ^ k ≤ x.1 := by
    have := Int.zpow_log_le_self (b := 10) (by norm_num) hx0
    have e1 : ((10 : Nat) : ℚ) ^ Int.log 10 x.1 = 10 ^ 16 * 10 ^ k := by
      rw [show Int.log 10 x.1 = 16 + k by omega, zpow_add₀ (by norm_num)]
      norm_cast
    rwa [e1] at this
  have h2 : x.1 < 10 ^ 17 * 10 ^ k := by
    have := Int.lt_zpow_succ_log_self (b := 10) (by norm_num) x.1
    have e1 : ((10 : Nat) : ℚ) ^ (Int.log 10 x.1 + 1) = 10 ^ 17 * 10 ^ k := by
      rw [show Int.log 10 x.1 + 1 = 17 + k by omega, zpow_add₀ (by norm_num)]
      norm_cast
    rwa [e1] at this
  have h0 : 0 ≤ x.1 / 10 ^ k := by positivity
  have hn := roundHalfEven_near h0
  have hle : roundHalfEven (x.1 / 10 ^ k) ≤ 10 ^ 17 := by
    apply roundHalfEven_le h0
    rw [div_le_iff₀ hp]
    exact_mod_cast h2.le
  set d := roundHalfEven (x.1 / 10 ^ k) with hd
  have hr : binary64.round (d * 10 ^ k) = some x := by
    apply round64Q_close x.2 (by positivity)
    have e1 : (d : ℚ) * 10 ^ k - x.1 = -((x.1 / 10 ^ k - d) * 10 ^ k) := by field_simp; ring
    rw [e1, abs_neg, abs_mul, abs_of_pos hp, lt_div_iff₀ (by norm_num)]
    nlinarith
  rcases hle.lt_or_eq with hlt | heq
  · exact ⟨d, k, hlt, hr⟩
  · refine ⟨1, k + 17, by norm_num, ?_⟩
    rw [← hr, heq, zpow_add₀ (by norm_num)]
    congr 1
    push_cast
    ring

/-! ### Existence -/

theorem reads_bounds {x : { q : ℚ // Rep64 q }} (hx : 0 < x.1) {z : ℚ} (hz : 0 ≤ z) (h : binary64.round z = some x) :
    x.1 ≤ 2 * z ∧ z < 2 ^ 1024 := by
  have hlt : z < 2 ^ 1024 - 2 ^ 970 := by
    by_contra hc
    rw [binary64_round_none hz (not_lt.1 hc)] at h
    cases h
  refine ⟨?_, hlt.trans ?_⟩
  · rw [binary64_round hz hlt] at h
    have h1 : round64Q z = x.1 := congrArg Subtype.val (Option.some.inj h)
    have h2 := round64Q_closest (m := 0) (e := 0) hz (by norm_num) (by norm_num)
    rw [h1, Nat.cast_zero, zero_mul, sub_zero, abs_of_nonneg hz, abs_sub_comm] at h2
    have := le_abs_self (x.1 - z)
    linarith
  · obtain ⟨t, ht, t970, -⟩ := big_powers
    rw [t970]
    clear t970
    linarith only [ht]

/-- Digits as documented exist for `float64`. -/
theorem C138_exists : ∃ D : Digits binary64, Shortest D := by
  classical
  have key : ∀ x : { q : ℚ // binary64.rep q }, ∃ p : Nat × Int, binary64.round (p.1 * 10 ^ p.2) = some x ∧
      (p.1 = 0 → p.2 = 0 ∧ x.1 = 0) ∧
      (∀ (d : Nat) (e : Int) (n : Nat), binary64.round (d * 10 ^ e) = some x → d < 10 ^ n → p.1 < 10 ^ n) ∧
      ∀ (d : Nat) (e : Int), binary64.round (d * 10 ^ e) = some x → (∀ n, p.1 < 10 ^ n → d < 10 ^ n) →
        |x.1 - p.1 * 10 ^ p.2| ≤ |x.1 - d * 10 ^ e| := by
    intro x
    have hx0 : 0 ≤ x.1 := C137_contract.1 _ x.2
    rcases hx0.eq_or_lt with hx0 | hx0
    · refine ⟨(0, 0), ?_, fun _ => ⟨rfl, hx0.symm⟩, fun d e n _ _ => Nat.pow_pos (by norm_num), fun d e _ _ => ?_⟩
      · simp only [Nat.cast_zero, zero_mul]
        rw [hx0, binary64_round hx0.le (small_range (by rw [← hx0]; norm_num))]
        congr 1
        exact Subtype.ext (round64Q_of_rep x.2)
      · rw [← hx0]
        simp only [Nat.cast_zero, zero_mul, sub_zero, abs_zero]
        exact abs_nonneg _
    · -- the least number of digits
      have hex : ∃ n : Nat, ∃ (d : Nat) (e : Int), d < 10 ^ n ∧ binary64.round (d * 10 ^ e) = some x :=
        ⟨17, seventeen_digits x⟩
      set N := Nat.find hex with hN
      obtain ⟨d₀, e₀, hd₀, hr₀⟩ := Nat.find_spec hex
      have hpos : ∀ (d : Nat) (e : Int), binary64.round (d * 10 ^ e) = some x → d ≠ 0 := by
        rintro d e h rfl
        have := (reads_bounds hx0 (by simp) h).1
        simp at this
        linarith
      -- the exponents are bounded
      have hrange : ∀ (d : Nat) (e : Int), d < 10 ^ N → binary64.round (d * 10 ^ e) = some x →
          (d, e) ∈ Finset.range (10 ^ N) ×ˢ Finset.Icc (Int.log 10 x.1 - 1 - N) 1024 := by
        intro d e hd h
        have hp : (0 : ℚ) < 10 ^ e := zpow_pos (by norm_num) _
        obtain ⟨h1, h2⟩ := reads_bounds hx0 (by positivity) h
        have hd1 : (1 : ℚ) ≤ d := by exact_mod_cast Nat.one_le_iff_ne_zero.2 (hpos d e h)
        have hd2 : (d : ℚ) < 10 ^ N := by exact_mod_cast hd
        rw [Finset.mem_product, Finset.mem_range, Finset.mem_Icc]
        refine ⟨hd, ?_, ?_⟩
        · by_contra hc
          rw [not_le] at hc
          have h3 : (10 : ℚ) ^ (N : Int) * 10 ^ e * 10 ≤ 10 ^ Int.log 10 x.1 := by
            rw [← zpow_add₀ (by norm_num), ← zpow_add_one₀ (by norm_num)]
            exact zpow_le_zpow_right₀ (by norm_num) (by omega)
          have h4 : (10 : ℚ) ^ Int.log 10 x.1 ≤ x.1 := by
            exact_mod_cast Int.zpow_log_le_self (b := 10) (by norm_num) hx0
          rw [zpow_natCast] at h3
          nlinarith
        · by_contra hc
          rw [not_le] at hc
          have h3 : (10 : ℚ) ^ (1024 : Int) ≤ 10 ^ e := zpow_le_zpow_right₀ (by norm_num) hc.le
          have h4 : (2 : ℚ) ^ 1024 ≤ 10 ^ 1024 := pow_le_pow_left₀ (by norm_num) (by norm_num) _
          have h5 : (10 : ℚ) ^ (1024 : Int) = 10 ^ 1024 := zpow_natCast 10 1024
          rw [h5] at h3
          have h6 : (10 : ℚ) ^ e ≤ d * 10 ^ e := le_mul_of_one_le_left hp.le hd1
          exact absurd h2 (not_lt.2 (h4.trans (h3.trans h6)))
      obtain ⟨p, hp, hmin⟩ := Finset.exists_min_image
        ((Finset.range (10 ^ N) ×ˢ Finset.Icc (Int.log 10 x.1 - 1 - N) 1024).filter
          (fun p : Nat × Int => binary64.round (p.1 * 10 ^ p.2) = some x))
        (fun p => |x.1 - p.1 * 10 ^ p.2|)
        ⟨(d₀, e₀), Finset.mem_filter.2 ⟨hrange _ _ hd₀ hr₀, hr₀⟩⟩
      obtain ⟨hp1, hp2⟩ := Finset.mem_filter.1 hp
      have hpN : p.1 < 10 ^ N := Finset.mem_range.1 (Finset.mem_product.1 hp1).1
      refine ⟨p, hp2, fun h => absurd h (hpos _ _ hp2), ?_, ?_⟩
      · intro d e n h hd
        have : N ≤ n := Nat.find_min' hex ⟨d, e, hd, h⟩
        exact hpN.trans_le (Nat.pow_le_pow_right (by norm_num) this)
      · intro d e h hd
        exact hmin (d, e) (Finset.mem_filter.2 ⟨hrange _ _ (hd _ hpN) h, h⟩)
  choose f h1 h2 h3 h4 using key
  exact ⟨⟨fun x => (f x).1, fun x => (f x).2⟩, ⟨h1, h2⟩, h3, h4⟩

/-! ### Lengths -/

/-- At most 17 digits are written. -/
theorem C138_seventeen (D : Digits binary64) (hD : Shortest D) (x : { q : ℚ // binary64.rep q }) : D.digits x < 10 ^ 17 := by
  obtain ⟨d, e, hd, h⟩ := seventeen_digits x
  exact hD.least x d e 17 h hd

/-- The last digit that is written is not zero. -/
theorem shortest_last {F : FloatFormat} {D : Digits F} (hD : Shortest D) (x : { q : ℚ // F.rep q })
    (h : D.digits x ≠ 0) : ¬ 10 ∣ D.digits x := by
  rintro ⟨d, hd⟩
  have h1 := hD.back.exact x
  have h2 : ((D.digits x : ℚ) * 10 ^ D.exponent x) = d * 10 ^ (D.exponent x + 1) := by
    rw [hd, zpow_add_one₀ (by norm_num)]
    push_cast
    ring
  rw [h2] at h1
  have h3 := Nat.pow_log_le_self 10 h
  have h4 := Nat.lt_pow_succ_log_self (b := 10) (by norm_num) (D.digits x)
  have h5 := hD.least x d _ (Nat.log 10 (D.digits x)) h1 (by rw [pow_succ] at h4; omega)
  omega

theorem reads_error {x : { q : ℚ // Rep64 q }} (hx : (2 : ℚ) ^ (-1022 : Int) ≤ x.1) {z : ℚ} (hz : 0 ≤ z)
    (h : binary64.round z = some x) : |z - x.1| ≤ x.1 / 2 ^ 52 := by
  have hx0 : 0 < x.1 := (two_zpowQ_pos _).trans_le hx
  have hlt : z < 2 ^ 1024 - 2 ^ 970 := by
    by_contra hc
    rw [binary64_round_none hz (not_lt.1 hc)] at h
    cases h
  have h2 := (reads_bounds hx0 hz h).1
  rw [binary64_round hz hlt] at h
  have h1 : round64Q z = x.1 := congrArg Subtype.val (Option.some.inj h)
  have hn := round64Q_near hz
  rw [h1] at hn
  clear h hlt
  have hz0 : 0 < z := by linarith
  rcases (lastPlaceQ_ge z).eq_or_lt with hl | hl
  · rw [← hl] at hn
    have e1 : (2 : ℚ) ^ (-1022 : Int) = 2 ^ 52 * 2 ^ (-1074 : Int) := by
      rw [← zpow_split]; norm_num
    rw [e1] at hx
    have := two_zpowQ_pos (-1074)
    generalize (2 : ℚ) ^ (-1074 : Int) = t at *
    rw [le_div_iff₀ (by norm_num)]
    linarith
  · have h3 := lastPlaceQ_lower hz0 hl
    have e1 : (2 : ℚ) ^ (lastPlaceQ z + 52) = 2 ^ 52 * 2 ^ lastPlaceQ z := by
      have := zpow_split (lastPlaceQ z) 52
      rwa [Nat.cast_ofNat] at this
    rw [e1] at h3
    generalize (2 : ℚ) ^ lastPlaceQ z = t at *
    rw [le_div_iff₀ (by norm_num)]
    have h4 := neg_abs_le (z - x.1)
    have h5 := le_abs_self (z - x.1)
    linarith

/-- Two decimal numbers with at most 15 digits are not read as the same number. -/
theorem fifteen_unique {x : { q : ℚ // Rep64 q }} (hx : (2 : ℚ) ^ (-1022 : Int) ≤ x.1) {d d' : Nat} {e e' : Int}
    (hd : d < 10 ^ 15) (hd' : d' < 10 ^ 15) (h : binary64.round (d * 10 ^ e) = some x)
    (h' : binary64.round (d' * 10 ^ e') = some x) : (d : ℚ) * 10 ^ e = d' * 10 ^ e' := by
  wlog hee : e ≤ e' generalizing d d' e e'
  · exact (this hd' hd h' h (le_of_not_ge hee)).symm
  have hx0 : 0 < x.1 := (two_zpowQ_pos _).trans_le hx
  have hp : (0 : ℚ) < 10 ^ e := zpow_pos (by norm_num) _
  have hp' : (0 : ℚ) < 10 ^ e' := zpow_pos (by norm_num) _
  have h1 := reads_error hx (by positivity) h
  have h2 := reads_error hx (by positivity) h'
  by_contra hne
  obtain ⟨k, hk⟩ := Int.eq_ofNat_of_zero_le (sub_nonneg.2 hee)
  have e1 : (d' : ℚ) * 10 ^ e' = ((d' * 10 ^ k : Int) : ℚ) * 10 ^ e := by
    rw [show e' = e + (k : Nat) by omega, zpow_add₀ (by norm_num), zpow_natCast]; push_cast; ring
  have h3 : (10 : ℚ) ^ e ≤ |(d : ℚ) * 10 ^ e - d' * 10 ^ e'| := by
    rw [e1] at hne ⊢
    rw [← sub_mul, abs_mul, abs_of_pos hp]
    have : (1 : Int) ≤ |(d : Int) - d' * 10 ^ k| := by
      apply Int.one_le_abs
      intro h0
      apply hne
      rw [← sub_eq_zero.1 h0]
      push_cast
      rfl
    have : (1 : ℚ) ≤ |(d : ℚ) - ((d' * 10 ^ k : Int) : ℚ)| := by exact_mod_cast this
    nlinarith
  have h4 := abs_sub_le ((d : ℚ) * 10 ^ e) x.1 (d' * 10 ^ e')
  rw [abs_sub_comm x.1] at h4
  have h5 := neg_abs_le ((d : ℚ) * 10 ^ e - x.1)
  have h6 : (d : ℚ) < 10 ^ 15 := by exact_mod_cast hd
  have h7 : (d : ℚ) * 10 ^ e < 10 ^ 15 * 10 ^ e := mul_lt_mul_of_pos_right h6 hp
  rw [le_div_iff₀ (by norm_num)] at h1 h2
  linarith

theorem decimal_unique {d d' : Nat} {e e' : Int} (h : (d : ℚ) * 10 ^ e = d' * 10 ^ e') (hd : ¬ 10 ∣ d) (hd' : ¬ 10 ∣ d') :
    d = d' ∧ e = e' := by
  wlog hee : e ≤ e' generalizing d d' e e'
  · obtain ⟨h1, h2⟩ := this h.symm hd' hd (le_of_not_ge hee)
    exact ⟨h1.symm, h2.symm⟩
  have hp : (10 : ℚ) ^ e ≠ 0 := (zpow_pos (by norm_num) _).ne'
  obtain ⟨k, hk⟩ := Int.eq_ofNat_of_zero_le (sub_nonneg.2 hee)
  rw [show e' = e + (k : Nat) by omega, zpow_add₀ (by norm_num), zpow_natCast, mul_comm ((10 : ℚ) ^ e), ← mul_assoc] at h
  have h1 := mul_right_cancel₀ hp h
  have h2 : d = d' * 10 ^ k := by exact_mod_cast h1
  rcases Nat.eq_zero_or_pos k with rfl | hk0
  · exact ⟨by simpa using h2, by omega⟩
  · exact absurd (h2 ▸ Dvd.dvd.mul_left (dvd_pow_self 10 hk0.ne') d') hd

/-- A decimal number with at most 15 digits that is read as a number not smaller than `2^-1022` is written with these
digits. -/
theorem C138_fifteen (D : Digits binary64) (hD : Shortest D) (x : { q : ℚ // binary64.rep q })
    (hx : (2 : ℚ) ^ (-1022 : Int) ≤ x.1) (d : Nat) (e : Int) (hd : d < 10 ^ 15) (h10 : ¬ 10 ∣ d)
    (h : binary64.round (d * 10 ^ e) = some x) : D.digits x = d ∧ D.exponent x = e := by
  have hx0 : 0 < x.1 := (two_zpowQ_pos _).trans_le hx
  have h1 := hD.least x d e 15 h hd
  have h2 : D.digits x ≠ 0 := fun h0 => hx0.ne' (hD.back.zero x h0).2
  exact decimal_unique (fifteen_unique hx h1 hd (hD.back.exact x) h) (shortest_last hD x h2) h10

/-! ### Texts -/

theorem round64Q_mono {a b : ℚ} (ha : 0 ≤ a) (hab : a ≤ b) (hb : b < 2 ^ 1024 - 2 ^ 970) : round64Q a ≤ round64Q b := by
  by_contra hc
  rw [not_le] at hc
  obtain ⟨m, e, hm, he, -, h1⟩ := (round64Q_rep ha).2 (hab.trans_lt hb)
  obtain ⟨m', e', hm', he', -, h2⟩ := (round64Q_rep (ha.trans hab)).2 hb
  have h3 := round64Q_closest ha hm' he'
  have h4 := round64Q_closest (ha.trans hab) hm he
  rw [← h1] at h4
  rw [← h2] at h3
  clear h1 h2 hb
  have h5 : round64Q a + round64Q b ≤ 2 * a := by
    rcases abs_cases (a - round64Q a) with ⟨h, g⟩ | ⟨h, g⟩ <;>
      rcases abs_cases (a - round64Q b) with ⟨h', g'⟩ | ⟨h', g'⟩ <;> rw [h, h'] at h3 <;> linarith
  have h6 : 2 * b ≤ round64Q a + round64Q b := by
    rcases abs_cases (b - round64Q b) with ⟨h, g⟩ | ⟨h, g⟩ <;>
      rcases abs_cases (b - round64Q a) with ⟨h', g'⟩ | ⟨h', g'⟩ <;> rw [h, h'] at h4 <;> linarith
  have : a = b := by linarith
  subst this
  exact lt_irrefl _ hc

theorem toDigits_shift {d : Nat} (hd : 0 < d) (t : Nat) :
    Nat.toDigits 10 (d * 10 ^ t) = Nat.toDigits 10 d ++ List.replicate t '0' := by
  induction t with
  | zero => simp
  | succ t ih =>
    have hp : 0 < d * 10 ^ t := by positivity
    have := Nat.toDigits_append_toDigits (b := 10) (by norm_num) hp (d := 0) (by norm_num)
    rw [show d * 10 ^ (t + 1) = 10 * (d * 10 ^ t) + 0 by rw [pow_succ]; ring, ← this, ih, List.replicate_succ',
      List.append_assoc]
    rfl

theorem digitValue_append (a b : List (Fin 10)) : digitValue (a ++ b) = 10 ^ b.length * digitValue a + digitValue b := by
  rw [digitValue, List.foldl_append, foldl_digits]
  rfl

/-- The characters of a number without superfluous ones. -/
theorem plain_chars {n : Numeral} (hn : PlainNumeral n) {d t : Nat} (hd : ¬ 10 ∣ d)
    (hv : digitValue (n.whole ++ n.frac.getD []) = d * 10 ^ t) :
    plainNotation d (t - (n.frac.getD []).length) = digitText n.whole ++ fracText n.frac := by
  have hd0 : 0 < d := Nat.pos_of_ne_zero (by rintro rfl; exact hd (dvd_zero _))
  cases hf : n.frac with
  | none =>
    rw [hf] at hv
    simp only [Option.getD_none, List.append_nil] at hv
    simp only [Option.getD_none, List.length_nil, Nat.cast_zero, sub_zero, fracText, List.append_nil]
    unfold plainNotation
    simp only
    rw [if_pos (by omega), Int.toNat_natCast, ← toDigits_shift hd0, ← hv, toDigits_digitValue _ hn.whole]
  | some f =>
    rw [hf] at hv
    simp only [Option.getD_some] at hv
    obtain ⟨l, c, hl, hc⟩ := hn.frac f hf
    have ht : t = 0 := by
      by_contra h0
      have h1 : 10 ∣ digitValue (n.whole ++ f) := by
        rw [hv]
        exact Dvd.dvd.mul_left (dvd_pow_self 10 h0) d
      rw [hl, ← List.append_assoc, digitValue_snoc] at h1
      have h2 : c.val ≠ 0 := fun h => hc (Fin.ext h)
      have h3 := c.2
      omega
    subst ht
    rw [pow_zero, mul_one] at hv
    have hf0 : 0 < f.length := by rw [hl]; simp
    simp only [Option.getD_some, Nat.cast_zero, zero_sub, fracText]
    unfold plainNotation
    simp only
    rw [if_neg (by omega)]
    rcases hn.whole with hw | ⟨w, ws, hw, hw0⟩
    · have h1 : d = digitValue f := by
        rw [← hv, hw, List.singleton_append, digitValue_cons]
        simp
      have hle : (Nat.toDigits 10 d).length ≤ f.length :=
        (Nat.length_toDigits_le_iff (b := 10) (by decide) hf0).2 (h1 ▸ digitValue_lt f)
      have h2 := padDigits_digitValue f (List.ne_nil_of_length_pos hf0)
      simp only [padDigits] at h2
      rw [← h1] at h2
      rw [if_neg (by omega), hw, ← h2]
      congr 4
      omega
    · have h1 := toDigits_digitValue (n.whole ++ f) (Or.inr ⟨w, ws ++ f, by rw [hw]; rfl, hw0⟩)
      rw [hv] at h1
      have h2 : (digitText (n.whole ++ f)) = digitText n.whole ++ digitText f := by simp [digitText]
      have h3 : ∀ l, (digitText l).length = l.length := fun l => by simp [digitText]
      have h4 : 0 < n.whole.length := by rw [hw]; simp
      rw [h1, h2]
      have h5 : (((digitText n.whole ++ digitText f).length : Int) + -(f.length : Int)).toNat =
          (digitText n.whole).length := by
        rw [List.length_append, h3, h3]; omega
      rw [h5, List.take_left, List.drop_left, if_pos]
      rw [List.length_append, h3, h3]
      omega

theorem rep64_1e21 : Rep64 (10 ^ 21) := ⟨5 ^ 21, 21, by norm_num, by norm_num, by norm_num, by norm_num⟩

theorem range_1e21 : (10 : ℚ) ^ 21 < 2 ^ 1024 - 2 ^ 970 := by
  have h1 := rep64_le rep64_1e21
  obtain ⟨t, ht, t970, t971, t1024, -⟩ := big_powers
  rw [t971, t1024] at h1
  rw [t970, t1024]
  clear t970 t971 t1024
  linarith only [ht, h1]

theorem shortest_zero {D : Digits binary64} (hD : Shortest D) (x : { q : ℚ // binary64.rep q }) (hx : x.1 = 0) :
    D.digits x = 0 ∧ D.exponent x = 0 := by
  have h0 : binary64.round (((0 : Nat) : ℚ) * 10 ^ (0 : Int)) = some x := by
    rw [Nat.cast_zero, zero_mul, binary64_round le_rfl (small_range (by norm_num))]
    congr 1
    exact Subtype.ext (round64Q_zero.trans hx.symm)
  have h1 := hD.closest x 0 0 h0 (fun n _ => by positivity)
  rw [hx, Nat.cast_zero, zero_mul, sub_zero, abs_zero, zero_sub, abs_neg] at h1
  have h2 : D.digits x = 0 := by
    rcases mul_eq_zero.1 (abs_nonpos_iff.1 h1) with h | h
    · exact_mod_cast h
    · exact absurd h (zpow_pos (by norm_num) _).ne'
  exact ⟨h2, (hD.back.zero x h2).1⟩

/-- A number without superfluous characters that has at most 15 digits and is zero or between `0.000001` and `1e21` is
read and written without change of a character. -/
theorem C138_text (D : Digits binary64) (hD : Shortest D) (n : Numeral) (hn : PlainNumeral n) (h15 : FifteenDigits n)
    (hlo : n.mag = 0 ∨ 1 / 10 ^ 6 ≤ n.mag) (hhi : n.mag < 10 ^ 21) :
    ∃ x, (floatText D).read n.chars = some x ∧ (floatText D).write x = some n.chars := by
  have hz := n.mag_nonneg
  have hne : n.whole ≠ [] := by
    rcases hn.whole with h | ⟨d, l, h, -⟩ <;> simp [h]
  have hv : n.Valid := ⟨Or.inl hne, by simp [hn.exp]⟩
  have h21 := hhi.trans range_1e21
  have hround := binary64_round hz h21
  refine ⟨⟨n.sign == some true, ⟨round64Q n.mag, (round64Q_rep hz).2 h21⟩⟩, ?_, ?_⟩
  · show parseFloat binary64 n.text = _
    rw [C112_numeral binary64 n hv, hround]
    rfl
  set x : { q : ℚ // binary64.rep q } := ⟨round64Q n.mag, (round64Q_rep hz).2 h21⟩ with hx
  have hxv : x.1 = round64Q n.mag := rfl
  have hsign : signText n.sign = if n.sign == some true then ['-'] else [] := by
    cases hb : n.sign with
    | none => rfl
    | some b =>
      cases b with
      | true => rfl
      | false => exact absurd hb hn.sign
  have hval : n.mag = (digitValue (n.whole ++ n.frac.getD []) : ℚ) / 10 ^ (n.frac.getD []).length := by
    unfold Numeral.mag Numeral.exponent
    rw [hn.exp, digitValue_append]
    push_cast
    field_simp
  suffices hs : plainNotation (D.digits x) (D.exponent x) = digitText n.whole ++ fracText n.frac ∧
      ¬ (x.1 ≠ 0 ∧ (x.1 < smallestPlain binary64 ∨ 10 ^ 21 ≤ x.1)) by
    show some (floatLiteral D ⟨n.sign == some true, x⟩) = _
    unfold floatLiteral Numeral.chars
    simp only
    rw [if_neg hs.2, hs.1, hsign, hn.exp]
    simp [expText]
  by_cases h0 : n.mag = 0
  · have hx0 : x.1 = 0 := by rw [hxv, h0, round64Q_zero]
    obtain ⟨h1, h2⟩ := shortest_zero hD x hx0
    refine ⟨?_, fun h => h.1 hx0⟩
    rw [h1, h2]
    have h3 : digitValue (n.whole ++ n.frac.getD []) = 0 := by
      rw [h0] at hval
      have := hval.symm
      rw [div_eq_zero_iff] at this
      rcases this with h | h
      · exact_mod_cast h
      · exact absurd h (by positivity)
    cases hf : n.frac with
    | some f =>
      obtain ⟨l, c, hl, hc⟩ := hn.frac f hf
      rw [hf, Option.getD_some, hl, ← List.append_assoc, digitValue_snoc] at h3
      exact absurd (Fin.ext (by simpa using (by omega : c.val = 0))) hc
    | none =>
      rcases hn.whole with hw | ⟨w, ws, hw, hw0⟩
      · rw [hw]
        decide
      · rw [hf, Option.getD_none, List.append_nil, hw, digitValue_cons] at h3
        have : 0 < w.val := Nat.pos_of_ne_zero fun h => hw0 (Fin.ext h)
        have : 0 < 10 ^ ws.length * w.val := by positivity
        omega
  · have hlo := hlo.resolve_left h0
    -- the digits
    obtain ⟨d₀, t₀, hd₀, hv₀⟩ := h15
    have hd₀0 : d₀ ≠ 0 := by
      rintro rfl
      rw [hv₀] at hval
      simp at hval
      exact h0 hval
    obtain ⟨s, d, hd10, hds⟩ := Nat.exists_eq_pow_mul_and_not_dvd hd₀0 10 (by norm_num)
    have hdlt : d < 10 ^ 15 := by
      refine lt_of_le_of_lt ?_ hd₀
      rw [hds]
      exact Nat.le_mul_of_pos_left _ (by positivity)
    have hvd : digitValue (n.whole ++ n.frac.getD []) = d * 10 ^ (s + t₀) := by
      rw [hv₀, hds, pow_add]; ring
    have hdec : n.mag = d * 10 ^ (((s + t₀ : Nat) : Int) - ((n.frac.getD []).length : Int)) := by
      rw [hval, hvd, zpow_sub₀ (by norm_num), zpow_natCast, zpow_natCast]
      push_cast
      ring
    have hrd := hround
    rw [hdec] at hrd
    have hrd' : binary64.round (d * 10 ^ (((s + t₀ : Nat) : Int) - ((n.frac.getD []).length : Int))) = some x := by
      rw [← hdec, hround]
    -- the size
    have hsmall : smallestPlain binary64 ≤ x.1 := by
      have h6 : binary64.round (1 / 10 ^ 6) = some _ := binary64_round (by norm_num) (hlo.trans_lt h21)
      unfold smallestPlain
      rw [h6, Option.map_some, Option.getD_some]
      exact round64Q_mono (by norm_num) hlo h21
    have hnorm : (2 : ℚ) ^ (-1022 : Int) ≤ x.1 := by
      have h7 : Rep64 (2 ^ (-20 : Int)) := ⟨1, -20, by norm_num, by norm_num, by norm_num, by norm_num⟩
      have h8 : (2 : ℚ) ^ (-20 : Int) ≤ n.mag := le_trans (by norm_num) hlo
      have h9 := round64Q_mono (two_zpowQ_pos _).le h8 h21
      rw [round64Q_of_rep h7] at h9
      exact le_trans (zpow_le_zpow_right₀ (by norm_num) (by norm_num)) h9
    obtain ⟨h1, h2⟩ := C138_fifteen D hD x hnorm d _ hdlt hd10 hrd'
    refine ⟨?_, ?_⟩
    · rw [h1, h2]
      exact plain_chars hn hd10 hvd
    · rintro ⟨-, h | h⟩
      · exact absurd h (not_lt.2 hsmall)
      · have hle : x.1 ≤ 10 ^ 21 := by
          have := round64Q_mono hz hhi.le range_1e21
          rwa [round64Q_of_rep rep64_1e21] at this
        have heq : x.1 = 10 ^ 21 := le_antisymm hle h
        have h3 : binary64.round (((1 : Nat) : ℚ) * 10 ^ (21 : Int)) = some x := by
          apply round64Q_close x.2 (by norm_num)
          rw [heq]
          norm_num
        have h4 := fifteen_unique hnorm hdlt (by norm_num) hrd' h3
        rw [← hdec] at h4
        rw [h4] at hhi
        norm_num at hhi

/-- 16 digits are not enough: the sum of 0.1 and 0.2 is written with 17. -/
theorem C138_sum (D : Digits binary64) (hD : Shortest D) (x : { q : ℚ // binary64.rep q })
    (hx : x.1 = round64Q (round64Q (1 / 10) + round64Q (2 / 10))) :
    10 ^ 16 ≤ D.digits x ∧ binary64.round (30000000000000004 * 10 ^ (-17 : Int)) = some x := by
  have place : ∀ (z : ℚ) (p : Int), -1074 ≤ p → 2 ^ (p + 52) ≤ z → z < 2 ^ (p + 53) → lastPlaceQ z = p := by
    intro z p hp h1 h2
    have hz : 0 < z := (two_zpowQ_pos _).trans_le h1
    have h3 := lastPlaceQ_le hz hp h2
    by_contra hc
    have h4 := lastPlaceQ_upper z
    have h5 : (2 : ℚ) ^ (lastPlaceQ z + 53) ≤ 2 ^ (p + 52) := zpow_le_zpow_right₀ (by norm_num) (by omega)
    exact absurd (h4.trans_le (h5.trans h1)) (lt_irrefl _)
  have h1 : round64Q (1 / 10) = 7205759403792794 / 2 ^ 56 := by
    unfold round64Q
    rw [place _ (-56) (by norm_num) (by norm_num) (by norm_num)]
    rw [roundHalfEven_eq (n := 7205759403792794) (by norm_num) (Or.inl (by norm_num [abs_lt]))]
    norm_num
  have h2 : round64Q (2 / 10) = 7205759403792794 / 2 ^ 55 := by
    unfold round64Q
    rw [place _ (-55) (by norm_num) (by norm_num) (by norm_num)]
    rw [roundHalfEven_eq (n := 7205759403792794) (by norm_num) (Or.inl (by norm_num [abs_lt]))]
    norm_num
  have h3 : round64Q (round64Q (1 / 10) + round64Q (2 / 10)) = 5404319552844596 / 2 ^ 54 := by
    rw [h1, h2]
    unfold round64Q
    rw [place _ (-54) (by norm_num) (by norm_num) (by norm_num)]
    rw [roundHalfEven_eq (n := 5404319552844596) (by norm_num) (Or.inr (by norm_num [abs_div]))]
    norm_num
  rw [h3] at hx
  clear h1 h2 h3
  have hx0 : 0 < x.1 := by rw [hx]; norm_num
  refine ⟨?_, round64Q_close x.2 (by norm_num) (by rw [hx]; norm_num [abs_lt])⟩
  by_contra hc
  rw [not_le] at hc
  have hr := hD.back.exact x
  set d := D.digits x
  set e := D.exponent x
  have hp : (0 : ℚ) < 10 ^ e := zpow_pos (by norm_num) _
  have hz : (0 : ℚ) ≤ d * 10 ^ e := by positivity
  have hb := (reads_bounds hx0 hz hr).1
  have hdl : (d : ℚ) < 10 ^ 16 := by exact_mod_cast hc
  -- the last place of the decimal number
  have hlow : -16 ≤ e := by
    by_contra hlt
    have h4 : (10 : ℚ) ^ e ≤ 10 ^ (-17 : Int) := zpow_le_zpow_right₀ (by norm_num) (by omega)
    have h5 : (d : ℚ) * 10 ^ e ≤ 10 ^ 16 * 10 ^ (-17 : Int) := mul_le_mul hdl.le h4 hp.le (by norm_num)
    rw [hx] at hb
    norm_num at h5 hb
    linarith
  obtain ⟨k, hk⟩ := Int.eq_ofNat_of_zero_le (by omega : 0 ≤ e + 16)
  have he : (d : ℚ) * 10 ^ e = ((d * 10 ^ k : Nat) : ℚ) / 10 ^ 16 := by
    rw [show e = (k : Int) - 16 by omega, zpow_sub₀ (by norm_num), zpow_natCast]
    push_cast
    norm_num
    ring
  rw [he] at hr hz
  generalize d * 10 ^ k = N at hr hz
  have hlt : (N : ℚ) / 10 ^ 16 < 2 ^ 1024 - 2 ^ 970 := by
    by_contra hc
    rw [binary64_round_none hz (not_lt.1 hc)] at hr
    cases hr
  rw [binary64_round hz hlt] at hr
  have h6 : round64Q ((N : ℚ) / 10 ^ 16) = 5404319552844596 / 2 ^ 54 := (congrArg Subtype.val (Option.some.inj hr)).trans hx
  clear hr hlt
  -- no multiple of the place is close enough
  rcases Nat.lt_or_ge N 3000000000000001 with hN | hN
  · have h7 := round64Q_closest (m := 5404319552844595) (e := -54) hz (by norm_num) (by norm_num)
    rw [h6] at h7
    have h8 : (N : ℚ) ≤ 3000000000000000 := by exact_mod_cast (by omega : N ≤ 3000000000000000)
    rw [abs_sub_comm, abs_of_nonneg (by
      rw [sub_nonneg, div_le_iff₀ (by norm_num)]; norm_num; linarith)] at h7
    rcases abs_cases ((N : ℚ) / 10 ^ 16 - ((5404319552844595 : Nat) : ℚ) * 2 ^ (-54 : Int)) with ⟨h, -⟩ | ⟨h, -⟩ <;>
      rw [h] at h7 <;> norm_num at h7 <;> linarith
  · have h7 := round64Q_closest (m := 5404319552844597) (e := -54) hz (by norm_num) (by norm_num)
    rw [h6] at h7
    have h8 : (3000000000000001 : ℚ) ≤ N := by exact_mod_cast hN
    rw [abs_of_nonneg (by
      rw [sub_nonneg, le_div_iff₀ (by norm_num)]; norm_num; linarith)] at h7
    rcases abs_cases ((N : ℚ) / 10 ^ 16 - ((5404319552844597 : Nat) : ℚ) * 2 ^ (-54 : Int)) with ⟨h, -⟩ | ⟨h, -⟩ <;>
      rw [h] at h7 <;> norm_num at h7 <;> linarith

/-! ### Files -/

theorem sameData_json {K : Type} [Zero K] {a b : Dataset K} (h : SameData a b) : toJSONDataset a = toJSONDataset b := by
  have fill : ∀ X : Mat K, (jsonFill X).length = X.nr * X.nc ∧
      ∀ r c, r < X.nr → c < X.nc → (jsonFill X)[r * X.nc + c]? = some (X.get r c) :=
    fun X => jsonOuter X X.nr (le_refl _)
  obtain ⟨h1, h2⟩ := fill a.X
  obtain ⟨g1, g2⟩ := fill b.X
  rw [h.nr, h.nc] at h1
  rw [h.nr, h.nc] at h2
  have hX : jsonFill a.X = jsonFill b.X := by
    apply List.ext_getElem?
    intro k
    by_cases hk : k < b.X.nr * b.X.nc
    · have hnc : 0 < b.X.nc := by
        rcases Nat.eq_zero_or_pos b.X.nc with h | h
        · rw [h, Nat.mul_zero] at hk; omega
        · exact h
      have hr : k / b.X.nc < b.X.nr := (Nat.div_lt_iff_lt_mul hnc).2 hk
      have hc : k % b.X.nc < b.X.nc := Nat.mod_lt _ hnc
      have p := h2 _ _ hr hc
      have q := g2 _ _ hr hc
      rw [h.get _ _ hr hc, Nat.div_add_mod'] at p
      rw [Nat.div_add_mod'] at q
      exact p.trans q.symm
    · rw [List.getElem?_eq_none (h1.le.trans (not_lt.1 hk)), List.getElem?_eq_none (g1.le.trans (not_lt.1 hk))]
  unfold toJSONDataset
  rw [hX, h.Y, h.targetCol, h.names, h.nr, h.nc]

/-- Data sets of finite `float64`: the file restores every number exactly, and saving what was loaded gives the same
file. -/
theorem C138_dataset (D : Digits binary64) (hD : Shortest D) (d : Dataset (FinFloat binary64)) (hnr : 0 < d.X.nr)
    (hnc : 0 < d.X.nc) : ∃ text, marshalText (datasetJson (floatText D) (toJSONDataset d)) = some text ∧
      ∃ e, (unmarshalText (datasetOfJson (floatText D)) text).bind ofJSONDataset = some e ∧ SameData e d ∧
        marshalText (datasetJson (floatText D) (toJSONDataset e)) = some text := by
  obtain ⟨text, ht, e, he, hs⟩ := C45_text_round_trip D hD.back d hnr hnc
  exact ⟨text, ht, e, he, hs, by rw [sameData_json hs, ht]⟩

/-- Nodes: every score, bound and coefficient is restored exactly. -/
theorem C138_node (D : Digits binary64) (hD : Shortest D) (n r : Node (FinFloat binary64)) :
    ∃ text, (nodeToJson n).bind (fun j => marshalText (nodeJson (floatText D) j)) = some text ∧
      ∃ m, (unmarshalText (nodeOfText (floatText D)) text).bind (nodeOfJson r) = some m ∧ m.model = n.model ∧
        m.coeff = n.coeff ∧ m.level = n.level ∧ m.lower = n.lower ∧ m.upper = n.upper ∧ m.score = n.score := by
  obtain ⟨text, ht, m, hm, h1, h2, h3, h4, h5, h6, -⟩ := C46_text_node D hD.back n r
  exact ⟨text, ht, m, hm, h1, h2, h3, h4, h5, h6⟩

/-- `-0.1` meets the hypotheses of `C138_text`. -/
example : (⟨some true, [0], some [1], none⟩ : Numeral).text = "-0.1" ∧ PlainNumeral ⟨some true, [0], some [1], none⟩ ∧
    FifteenDigits ⟨some true, [0], some [1], none⟩ ∧
    1 / 10 ^ 6 ≤ (⟨some true, [0], some [1], none⟩ : Numeral).mag ∧
    (⟨some true, [0], some [1], none⟩ : Numeral).mag < 10 ^ 21 :=
  ⟨by decide, ⟨by decide, Or.inl rfl, fun f h => ⟨[], 1, by cases h; rfl, by decide⟩, rfl⟩, ⟨1, 0, by norm_num, by decide⟩,
    by norm_num [Numeral.mag, Numeral.exponent, digitValue], by norm_num [Numeral.mag, Numeral.exponent, digitValue]⟩

/-- So does `120000000000000000000`. -/
example : PlainNumeral ⟨none, 1 :: 2 :: List.replicate 19 0, none, none⟩ ∧
    FifteenDigits ⟨none, 1 :: 2 :: List.replicate 19 0, none, none⟩ ∧
    (⟨none, 1 :: 2 :: List.replicate 19 0, none, none⟩ : Numeral).mag = 12 * 10 ^ 19 :=
  ⟨⟨by decide, Or.inr ⟨1, _, rfl, by decide⟩, by simp, rfl⟩, ⟨12, 19, by norm_num, by decide⟩,
    by norm_num [Numeral.mag, Numeral.exponent, digitValue, List.replicate]⟩

/-- The sum in `C138_sum` is a number of the format. -/
example : ∃ x : { q : ℚ // binary64.rep q }, x.1 = round64Q (round64Q (1 / 10) + round64Q (2 / 10)) := by
  have h1 : Rep64 1 := ⟨1, 0, by norm_num, by norm_num, by norm_num, by norm_num⟩
  have h0 : Rep64 0 := ⟨0, 0, by norm_num, by norm_num, by norm_num, by norm_num⟩
  have hle : ∀ z : ℚ, 0 ≤ z → z ≤ 1 → 0 ≤ round64Q z ∧ round64Q z ≤ 1 := fun z hz hz1 => by
    have a := round64Q_mono le_rfl hz (small_range (by linarith))
    have b := round64Q_mono hz hz1 (small_range (by norm_num))
    rw [round64Q_zero] at a
    rw [round64Q_of_rep h1] at b
    exact ⟨a, b⟩
  obtain ⟨a, b⟩ := hle (1 / 10) (by norm_num) (by norm_num)
  obtain ⟨c, d⟩ := hle (2 / 10) (by norm_num) (by norm_num)
  exact ⟨⟨_, (round64Q_rep (by linarith)).2 (small_range (by linarith))⟩, rfl⟩

/-- A number that meets the hypotheses of `C138_fifteen`. -/
example : ∃ x : { q : ℚ // binary64.rep q }, (2 : ℚ) ^ (-1022 : Int) ≤ x.1 ∧ binary64.round ((25 : Nat) * 10 ^ (-2 : Int)) = some x := by
  have h : Rep64 (1 / 4) := ⟨1, -2, by norm_num, by norm_num, by norm_num, by norm_num⟩
  refine ⟨⟨1 / 4, h⟩, ?_, ?_⟩
  · exact le_trans (zpow_le_zpow_right₀ (by norm_num) (by norm_num : (-1022 : Int) ≤ -2)) (by norm_num)
  · exact round64Q_close h (by norm_num) (by norm_num)

end GoSelect
