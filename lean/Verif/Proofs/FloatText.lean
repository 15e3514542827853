import Verif.Model.FloatText
import Mathlib.Tactic.Linarith
import Mathlib.Tactic.Ring
import Mathlib.Tactic.NormNum
import Mathlib.Tactic.Positivity
import Mathlib.Tactic.FieldSimp

/-! `%f` and `ParseFloat`. -/

namespace GoSelect

theorem toDigits_digit {n : Nat} : ∀ c ∈ Nat.toDigits 10 n, c.isDigit = true :=
  fun _ h => Nat.isDigit_of_mem_toDigits (by decide) (by decide) h

theorem padDigits_digit {k n : Nat} : ∀ c ∈ padDigits k n, c.isDigit = true := by
  intro c hc
  rcases List.mem_append.1 hc with h | h
  · rw [(List.mem_replicate.1 h).2]; decide
  · exact toDigits_digit c h

theorem padDigits_length {k n : Nat} (hk : 0 < k) (h : n < 10 ^ k) : (padDigits k n).length = k := by
  have := (Nat.length_toDigits_le_iff (b := 10) (by decide) hk).2 h
  simp only [padDigits, List.length_append, List.length_replicate]
  omega

theorem padDigits_value (k n m : Nat) (hk : 0 < k) (h : n < 10 ^ k) :
    Nat.ofDigitChars 10 (padDigits k n) m = 10 ^ k * m + n := by
  rw [Nat.ofDigitChars_eq_ofDigitChars_zero, padDigits_length hk h]
  congr 1
  simp only [padDigits]
  rw [Nat.ofDigitChars_append, Nat.ofDigitChars_replicate_zero, Nat.mul_zero, Nat.ofDigitChars_ten_toDigits]

theorem takeWhile_digits {l t : List Char} {c : Char} (h : ∀ c ∈ l, c.isDigit = true) (hc : c.isDigit = false) :
    (l ++ c :: t).takeWhile Char.isDigit = l ∧ (l ++ c :: t).dropWhile Char.isDigit = c :: t := by
  induction l with
  | nil => simp [hc]
  | cons a l ih =>
    obtain ⟨h1, h2⟩ := ih fun c hc => h c (by simp [hc])
    simp [h a (by simp), h1, h2]

theorem takeWhile_all_digits {l : List Char} (h : ∀ c ∈ l, c.isDigit = true) :
    l.takeWhile Char.isDigit = l ∧ l.dropWhile Char.isDigit = [] := by
  induction l with
  | nil => simp
  | cons a l ih =>
    obtain ⟨h1, h2⟩ := ih fun c hc => h c (by simp [hc])
    simp [h a (by simp), h1, h2]

/-- Digits, a point and digits. -/
theorem parseDecimal_point {a b : List Char} (ha : ∀ c ∈ a, c.isDigit = true) (hb : ∀ c ∈ b, c.isDigit = true)
    (hne : a ≠ []) : parseDecimal (a ++ '.' :: b) =
    some (((Nat.ofDigitChars 10 (a ++ b) 0 : Nat) : ℚ) / 10 ^ b.length) := by
  obtain ⟨h1, h2⟩ := takeWhile_digits (t := b) ha (by decide : ('.' : Char).isDigit = false)
  obtain ⟨h3, h4⟩ := takeWhile_all_digits hb
  simp only [parseDecimal, h1, h2, h3, h4]
  rw [if_neg (by simp [hne])]

theorem parseDecimal_format (n : Nat) :
    parseDecimal (Nat.toDigits 10 (n / 10 ^ 6) ++ '.' :: padDigits 6 (n % 10 ^ 6)) = some ((n : ℚ) / 10 ^ 6) := by
  have hlt : n % 10 ^ 6 < 10 ^ 6 := Nat.mod_lt _ (by norm_num)
  rw [parseDecimal_point toDigits_digit padDigits_digit Nat.toDigits_ne_nil, padDigits_length (by norm_num) hlt,
    Nat.ofDigitChars_append, Nat.ofDigitChars_ten_toDigits, padDigits_value _ _ _ (by norm_num) hlt, Nat.div_add_mod]

/-- What `ParseFloat` makes of a text of `%f`. -/
theorem parseFloat_formatF {F : FloatFormat} (x : FinFloat F) :
    parseFloat F (formatF x) =
      (F.round ((roundHalfEven (x.mag.1 * 10 ^ 6) : ℚ) / 10 ^ 6)).map (FinFloat.mk x.neg) := by
  unfold formatF parseFloat
  simp only [String.toList_ofList]
  cases hx : x.neg with
  | true =>
    simp only [if_true, List.cons_append, List.nil_append]
    rw [parseDecimal_format]
    rfl
  | false =>
    simp only [Bool.false_eq_true, if_false, List.nil_append]
    obtain ⟨c, t, hct⟩ := List.exists_cons_of_ne_nil (Nat.toDigits_ne_nil (n := roundHalfEven (x.mag.1 * 10 ^ 6) / 10 ^ 6) (b := 10))
    have hc := toDigits_digit c (by rw [hct]; simp)
    have key := parseDecimal_format (roundHalfEven (x.mag.1 * 10 ^ 6))
    rw [hct] at key ⊢
    rw [List.cons_append] at key ⊢
    split
    · rename_i h
      simp only [List.cons.injEq] at h
      rw [h.1] at hc
      exact absurd hc (by decide)
    · rename_i h
      simp only [List.cons.injEq] at h
      rw [h.1] at hc
      exact absurd hc (by decide)
    · rw [key]
      rfl

theorem roundHalfEven_spec (q : ℚ) (hq : 0 ≤ q) :
    |q - roundHalfEven q| < 1 / 2 ∨ |q - roundHalfEven q| = 1 / 2 ∧ roundHalfEven q % 2 = 0 := by
  have h1 := Nat.floor_le hq
  have h2 := Nat.lt_floor_add_one q
  unfold roundHalfEven
  simp only
  split
  · rename_i h
    left
    rw [abs_of_nonneg (by linarith)]
    exact h
  · rename_i h
    split
    · rename_i h'
      left
      push_cast
      rw [abs_of_neg (by linarith)]
      linarith
    · rename_i h'
      have e : q - ⌊q⌋₊ = 1 / 2 := le_antisymm (not_lt.1 h') (not_lt.1 h)
      right
      split
      · rename_i hm
        exact ⟨by rw [e]; norm_num, hm⟩
      · rename_i hm
        refine ⟨?_, by omega⟩
        push_cast
        rw [show q - (⌊q⌋₊ + 1) = -(1 / 2) by linarith]
        norm_num

/-- An integer that is close enough, or a tie and even, is the rounded number. -/
theorem roundHalfEven_eq {q : ℚ} {n : Nat} (hq : 0 ≤ q) (h : |q - n| < 1 / 2 ∨ |q - n| = 1 / 2 ∧ n % 2 = 0) :
    roundHalfEven q = n := by
  have hs := roundHalfEven_spec q hq
  set m := roundHalfEven q
  have hm : |q - m| ≤ 1 / 2 := by rcases hs with h | h; exacts [h.le, h.1.le]
  have hn : |q - n| ≤ 1 / 2 := by rcases h with h | h; exacts [h.le, h.1.le]
  rw [abs_le] at hm hn
  have hd : (m : ℚ) ≤ n + 1 := by linarith
  have hd' : (n : ℚ) ≤ m + 1 := by linarith
  have hd1 : m ≤ n + 1 := by exact_mod_cast hd
  have hd2 : n ≤ m + 1 := by exact_mod_cast hd'
  by_contra hne
  -- the two differ by one, so both are ties and both are even
  have key : |q - m| = 1 / 2 ∧ |q - n| = 1 / 2 := by
    rcases Nat.lt_or_gt_of_ne hne with hlt | hlt
    · have : n = m + 1 := by omega
      have : (n : ℚ) = m + 1 := by exact_mod_cast this
      constructor
      · rw [show q - m = 1 / 2 by linarith]; norm_num
      · rw [show q - n = -(1 / 2) by linarith]; norm_num
    · have : m = n + 1 := by omega
      have : (m : ℚ) = n + 1 := by exact_mod_cast this
      constructor
      · rw [show q - m = -(1 / 2) by linarith]; norm_num
      · rw [show q - n = 1 / 2 by linarith]; norm_num
  have h1 : m % 2 = 0 := by
    rcases hs with h | h
    · exact absurd key.1 h.ne
    · exact h.2
  have h2 : n % 2 = 0 := by
    rcases h with h | h
    · exact absurd key.2 h.ne
    · exact h.2
  omega

end GoSelect
