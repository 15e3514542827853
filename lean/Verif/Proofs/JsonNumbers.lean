import Verif.Model.JsonFiles
import Verif.Proofs.JsonText
import Verif.Proofs.FloatText

/-! Numbers in JSON texts. -/

namespace GoSelect

theorem toDigits_succ_digit (n : Nat) (h : 10 ≤ n) :
    Nat.toDigits 10 n = Nat.toDigits 10 (n / 10) ++ [Nat.digitChar (n % 10)] :=
  Nat.toDigits_of_base_le (by decide) h

/-- A positive number does not start with a zero. -/
theorem toDigits_head {n : Nat} (h : 0 < n) : ∃ c t, Nat.toDigits 10 n = c :: t ∧ c ≠ '0' ∧ c.isDigit = true := by
  induction n using Nat.strongRecOn with
  | _ n ih =>
    by_cases hn : n < 10
    · rw [Nat.toDigits_of_lt_base hn]
      refine ⟨_, [], rfl, ?_⟩
      have : n = 1 ∨ n = 2 ∨ n = 3 ∨ n = 4 ∨ n = 5 ∨ n = 6 ∨ n = 7 ∨ n = 8 ∨ n = 9 := by omega
      rcases this with rfl | rfl | rfl | rfl | rfl | rfl | rfl | rfl | rfl <;> decide
    · obtain ⟨c, t, h1, h2⟩ := ih (n / 10) (by omega) (by omega)
      rw [toDigits_succ_digit n (by omega), h1]
      exact ⟨c, t ++ [Nat.digitChar (n % 10)], rfl, h2⟩

theorem all_digits {l : List Char} (h : ∀ c ∈ l, c.isDigit = true) : l.all Char.isDigit = true :=
  List.all_eq_true.2 h

/-! ## Integers -/

theorem intLiteral_valid (n : Int) : validNumber (intLiteral n) = true := by
  have key : ∀ m : Nat, validUnsigned (Nat.toDigits 10 m) = true := by
    intro m
    rcases Nat.eq_zero_or_pos m with rfl | hm
    · decide
    · obtain ⟨c, t, h1, h2, h3⟩ := toDigits_head hm
      have ht : ∀ x ∈ t, x.isDigit = true := fun x hx => toDigits_digit (n := m) x (by rw [h1]; simp [hx])
      rw [h1]
      unfold validUnsigned
      split
      · rename_i h; cases h; exact absurd rfl h2
      · rename_i h
        cases h
        rw [h3, (takeWhile_all_digits ht).2]
        rfl
      · rename_i h; cases h
  unfold intLiteral
  by_cases hn : n < 0
  · rw [if_pos hn]
    exact key _
  · rw [if_neg hn, List.nil_append]
    have hd := toDigits_digit (n := n.natAbs)
    have := key n.natAbs
    unfold validNumber
    split
    · rename_i t ht
      have := hd '-' (by rw [ht]; simp)
      exact absurd this (by decide)
    · exact this

theorem parseInt_literal (n : Int) : parseInt (intLiteral n) = some n := by
  have hd := toDigits_digit (n := n.natAbs)
  have hv : (if Nat.toDigits 10 n.natAbs ≠ [] ∧ (Nat.toDigits 10 n.natAbs).all Char.isDigit then
      some (Nat.ofDigitChars 10 (Nat.toDigits 10 n.natAbs) 0) else none) = some n.natAbs := by
    rw [if_pos ⟨Nat.toDigits_ne_nil, all_digits hd⟩, Nat.ofDigitChars_ten_toDigits]
  unfold intLiteral parseInt
  simp only
  by_cases hn : n < 0
  · rw [if_pos hn]
    simp only [List.cons_append, List.nil_append, hv, Option.map_some, Option.some.injEq]
    omega
  · rw [if_neg hn, List.nil_append]
    split
    · rename_i t ht
      have := hd '-' (by rw [ht]; simp)
      exact absurd this (by decide)
    · rw [hv]
      simp only [Option.map_some, Option.some.injEq]
      omega

/-! ## Numbers of a format -/

/-- Digits that are read as the number they were made for. -/
structure Spec.ReadsBack {F : FloatFormat} (D : Digits F) : Prop where
  exact : ∀ x, F.round ((D.digits x : ℚ) * 10 ^ D.exponent x) = some x
  zero : ∀ x, D.digits x = 0 → D.exponent x = 0 ∧ x.1 = 0

theorem parseDecimal_whole {a : List Char} (ha : ∀ c ∈ a, c.isDigit = true) (hne : a ≠ []) :
    parseDecimal a = some ((Nat.ofDigitChars 10 a 0 : Nat) : ℚ) := by
  obtain ⟨h1, h2⟩ := takeWhile_all_digits ha
  simp only [parseDecimal, h1, h2]
  rw [if_neg (by simp [hne])]
  simp

theorem parseDecimal_exp {a b : List Char} (ha : ∀ c ∈ a, c.isDigit = true) (hb : ∀ c ∈ b, c.isDigit = true)
    (hne : a ≠ []) (x : Int) :
    parseDecimal (a ++ (if b = [] then [] else '.' :: b) ++
        'e' :: (if x < 0 then '-' else '+') :: Nat.toDigits 10 x.natAbs) =
      some (((Nat.ofDigitChars 10 (a ++ b) 0 : Nat) : ℚ) / 10 ^ b.length * 10 ^ x) := by
  have hexp : parseExponent ((if x < 0 then '-' else '+') :: Nat.toDigits 10 x.natAbs) = some x := by
    have hv : (if Nat.toDigits 10 x.natAbs ≠ [] ∧ (Nat.toDigits 10 x.natAbs).all Char.isDigit then
        some (Nat.ofDigitChars 10 (Nat.toDigits 10 x.natAbs) 0) else none) = some x.natAbs := by
      rw [if_pos ⟨Nat.toDigits_ne_nil, all_digits toDigits_digit⟩, Nat.ofDigitChars_ten_toDigits]
    unfold parseExponent
    by_cases hx : x < 0
    · simp only [if_pos hx, hv, Option.map_some, Option.some.injEq]
      omega
    · simp only [if_neg hx, hv, Option.map_some, Option.some.injEq]
      omega
  by_cases hb0 : b = []
  · subst hb0
    obtain ⟨h1, h2⟩ := takeWhile_digits (t := (if x < 0 then '-' else '+') :: Nat.toDigits 10 x.natAbs) ha
      (by decide : ('e' : Char).isDigit = false)
    rw [if_pos rfl, List.append_nil]
    simp only [parseDecimal, h1, h2]
    rw [if_neg (by simp [hne])]
    change (if ('e' : Char) = 'e' ∨ ('e' : Char) = 'E' then Option.map
      (fun e => ((Nat.ofDigitChars 10 (a ++ []) 0 : Nat) : ℚ) / 10 ^ ([] : List Char).length * 10 ^ e)
      (parseExponent ((if x < 0 then '-' else '+') :: Nat.toDigits 10 x.natAbs)) else none) = _
    rw [if_pos (.inl rfl), hexp, List.append_nil]
    rfl
  · rw [if_neg hb0, List.append_assoc, List.cons_append]
    obtain ⟨h1, h2⟩ := takeWhile_digits
      (t := b ++ 'e' :: (if x < 0 then '-' else '+') :: Nat.toDigits 10 x.natAbs) ha
      (by decide : ('.' : Char).isDigit = false)
    obtain ⟨h3, h4⟩ := takeWhile_digits (t := (if x < 0 then '-' else '+') :: Nat.toDigits 10 x.natAbs) hb
      (by decide : ('e' : Char).isDigit = false)
    simp only [parseDecimal, h1, h2, h3, h4]
    rw [if_neg (by simp [hne])]
    simp only [hexp, true_or, if_true, Option.map_some]

theorem ofDigitChars_zeros (l : List Char) (k : Nat) :
    Nat.ofDigitChars 10 (l ++ List.replicate k '0') 0 = Nat.ofDigitChars 10 l 0 * 10 ^ k := by
  rw [Nat.ofDigitChars_append, Nat.ofDigitChars_replicate_zero, Nat.mul_comm]

theorem zpow_toNat {e : Int} (h : 0 ≤ e) : (10 : ℚ) ^ e = 10 ^ e.toNat := by
  rw [← zpow_natCast, Int.toNat_of_nonneg h]

theorem plainNotation_value (d : Nat) (e : Int) : parseDecimal (plainNotation d e) = some ((d : ℚ) * 10 ^ e) := by
  have hd := toDigits_digit (n := d)
  have hz : ∀ k, ∀ c ∈ List.replicate k '0', c.isDigit = true := fun k c hc => by
    rw [(List.mem_replicate.1 hc).2]; decide
  unfold plainNotation
  simp only
  split
  · rename_i he
    rw [parseDecimal_whole (fun c hc => by
      rcases List.mem_append.1 hc with h | h
      · exact hd c h
      · exact hz _ c h) (by simp [Nat.toDigits_ne_nil]), ofDigitChars_zeros, Nat.ofDigitChars_ten_toDigits, zpow_toNat he]
    push_cast
    rfl
  · rename_i he
    have hlen : (0 : Int) < (Nat.toDigits 10 d).length := by
      have := List.length_pos_iff.2 (Nat.toDigits_ne_nil (n := d) (b := 10))
      omega
    split
    · rename_i hp
      rw [parseDecimal_point (fun c hc => hd c (List.mem_of_mem_take hc)) (fun c hc => hd c (List.mem_of_mem_drop hc))
        (by
          intro h
          have := congrArg List.length h
          rw [List.length_take, List.length_nil] at this
          omega), List.take_append_drop, Nat.ofDigitChars_ten_toDigits, List.length_drop]
      rw [div_eq_mul_inv, ← zpow_natCast, ← zpow_neg]
      congr 3
      omega
    · rename_i hp
      rw [show ('0' :: '.' :: (List.replicate (-(((Nat.toDigits 10 d).length : Int) + e)).toNat '0' ++ Nat.toDigits 10 d)) =
          ['0'] ++ '.' :: (List.replicate (-(((Nat.toDigits 10 d).length : Int) + e)).toNat '0' ++ Nat.toDigits 10 d) from rfl,
        parseDecimal_point (by simp) (fun c hc => by
          rcases List.mem_append.1 hc with h | h
          · exact hz _ c h
          · exact hd c h) (by simp)]
      rw [show ['0'] ++ (List.replicate (-(((Nat.toDigits 10 d).length : Int) + e)).toNat '0' ++ Nat.toDigits 10 d) =
          List.replicate ((-(((Nat.toDigits 10 d).length : Int) + e)).toNat + 1) '0' ++ Nat.toDigits 10 d from by
            rw [List.replicate_succ]; rfl,
        Nat.ofDigitChars_append, Nat.ofDigitChars_replicate_zero, Nat.mul_zero, Nat.ofDigitChars_ten_toDigits,
        List.length_append, List.length_replicate]
      rw [div_eq_mul_inv, ← zpow_natCast, ← zpow_neg]
      congr 3
      omega

theorem expNotation_value (d : Nat) (e : Int) : parseDecimal (expNotation d e) = some ((d : ℚ) * 10 ^ e) := by
  have hd := toDigits_digit (n := d)
  have hlen := List.length_pos_iff.2 (Nat.toDigits_ne_nil (n := d) (b := 10))
  unfold expNotation
  simp only
  have hif : (if (Nat.toDigits 10 d).length = 1 then [] else '.' :: (Nat.toDigits 10 d).drop 1) =
      (if (Nat.toDigits 10 d).drop 1 = [] then [] else '.' :: (Nat.toDigits 10 d).drop 1) := by
    have : (Nat.toDigits 10 d).length = 1 ↔ (Nat.toDigits 10 d).drop 1 = [] := by
      rw [List.drop_eq_nil_iff]; omega
    simp only [this]
  rw [hif, parseDecimal_exp (fun c hc => hd c (List.mem_of_mem_take hc)) (fun c hc => hd c (List.mem_of_mem_drop hc))
    (by
      intro h
      have := congrArg List.length h
      rw [List.length_take, List.length_nil] at this
      omega), List.take_append_drop, Nat.ofDigitChars_ten_toDigits, List.length_drop, div_eq_mul_inv, ← zpow_natCast,
    ← zpow_neg, mul_assoc, ← zpow_add₀ (by norm_num)]
  congr 3
  omega

theorem validUnsigned_of_head {l : List Char} {c : Char} {t : List Char} (h : l = c :: t) (hc : c ≠ '0')
    (hd : c.isDigit = true) (hv : validDecimals (t.dropWhile Char.isDigit) = true) : validUnsigned l = true := by
  subst h
  unfold validUnsigned
  split
  · rename_i h; cases h; exact absurd rfl hc
  · rename_i h; cases h; rw [hd, hv]; rfl
  · rename_i h; cases h

theorem validDecimals_point {f u : List Char} (hf : ∀ c ∈ f, c.isDigit = true) (hne : f ≠ []) (hu : validExponent u = true)
    (hu' : ∀ c t, u = c :: t → c.isDigit = false) : validDecimals ('.' :: (f ++ u)) = true := by
  have h : (f ++ u).takeWhile Char.isDigit = f ∧ (f ++ u).dropWhile Char.isDigit = u := by
    cases u with
    | nil => rw [List.append_nil]; exact takeWhile_all_digits hf
    | cons c t => exact takeWhile_digits hf (hu' c t rfl)
  unfold validDecimals
  simp only [h.1, h.2, hu]
  cases f with
  | nil => exact absurd rfl hne
  | cons => rfl

theorem plainNotation_valid {d : Nat} {e : Int} (h : d = 0 → e = 0) : validUnsigned (plainNotation d e) = true := by
  have hd := toDigits_digit (n := d)
  have hz : ∀ k, ∀ c ∈ List.replicate k '0', c.isDigit = true := fun k c hc => by
    rw [(List.mem_replicate.1 hc).2]; decide
  rcases Nat.eq_zero_or_pos d with rfl | hpos
  · rw [h rfl]; decide
  obtain ⟨c, t, h1, h2, h3⟩ := toDigits_head hpos
  rw [h1] at hd
  unfold plainNotation
  simp only [h1]
  split
  · refine validUnsigned_of_head (List.cons_append ..) h2 h3 ?_
    rw [(takeWhile_all_digits (fun x hx => by
      rcases List.mem_append.1 hx with h | h
      · exact hd x (by simp [h])
      · exact hz _ x h)).2]
    rfl
  · rename_i he
    split
    · rename_i hp
      obtain ⟨k, hk⟩ : ∃ k, (((c :: t).length : Int) + e).toNat = k + 1 := ⟨(((c :: t).length : Int) + e).toNat - 1, by omega⟩
      rw [hk, List.take_succ_cons, List.drop_succ_cons]
      refine validUnsigned_of_head (List.cons_append ..) h2 h3 ?_
      rw [(takeWhile_digits (fun x hx => hd x (by simp [List.mem_of_mem_take hx])) (by decide)).2]
      have := validDecimals_point (f := t.drop k) (u := []) (fun x hx => hd x (by simp [List.mem_of_mem_drop hx])) (by
        intro h0
        have := congrArg List.length h0
        rw [List.length_drop, List.length_nil] at this
        simp at hk he hp
        omega) rfl (fun _ _ h => by cases h)
      rwa [List.append_nil] at this
    · have := validDecimals_point (f := List.replicate (-(((c :: t).length : Int) + e)).toNat '0' ++ c :: t) (u := [])
        (fun x hx => by
          rcases List.mem_append.1 hx with h | h
          · exact hz _ x h
          · exact hd x h) (by simp) rfl (fun _ _ h => by cases h)
      rw [List.append_nil] at this
      unfold validUnsigned
      simp only [this]

theorem expNotation_valid {d : Nat} (hpos : 0 < d) (e : Int) : validUnsigned (expNotation d e) = true := by
  have hd := toDigits_digit (n := d)
  obtain ⟨c, t, h1, h2, h3⟩ := toDigits_head hpos
  rw [h1] at hd
  have hexp : ∀ x : Int, validExponent ('e' :: (if x < 0 then '-' else '+') :: Nat.toDigits 10 x.natAbs) = true := by
    intro x
    have ha : (Nat.toDigits 10 x.natAbs).all Char.isDigit = true := all_digits toDigits_digit
    have hn : (Nat.toDigits 10 x.natAbs).isEmpty = false := by
      cases hc : Nat.toDigits 10 x.natAbs with
      | nil => exact absurd hc Nat.toDigits_ne_nil
      | cons => rfl
    unfold validExponent
    by_cases hx : x < 0
    · simp only [if_pos hx, ha, hn]; decide
    · simp only [if_neg hx, ha, hn]; decide
  unfold expNotation
  simp only [h1]
  generalize (((c :: t).length : Int) + e - 1) = x
  rw [List.take_succ_cons, List.take_zero, List.drop_succ_cons, List.drop_zero]
  refine validUnsigned_of_head (by rw [List.cons_append, List.cons_append, List.nil_append]) h2 h3 ?_
  cases t with
  | nil =>
    simp only [List.length_cons, List.length_nil, if_true, List.nil_append]
    rw [List.dropWhile_cons_of_neg (by decide)]
    unfold validDecimals
    exact hexp x
  | cons a t =>
    rw [if_neg (by simp), List.cons_append, List.dropWhile_cons_of_neg (by decide)]
    exact validDecimals_point (fun x hx => hd x (by simp [hx])) (by simp) (hexp x) (fun y u h => by cases h; decide)

/-- Number literals are written, and `rd x` is read where `x` was written. -/
def Spec.ReadsAs {α : Type} (N : NumberText α) (rd : α → α) : Prop :=
  ∀ x t, N.write x = some t → validNumber t = true ∧ N.read t = some (rd x)

/-- Numbers are read as they were written. -/
def Spec.RoundTrips {α : Type} (N : NumberText α) : Prop := Spec.ReadsAs N id

theorem floatText_roundTrips {F : FloatFormat} {D : Digits F} (h : Spec.ReadsBack D) : Spec.RoundTrips (floatText D) := by
  intro x t ht
  cases ht
  have hx := h.exact x.mag
  obtain ⟨body, hbody, hv, hu⟩ : ∃ body, floatLiteral D x = (if x.neg then ['-'] else []) ++ body ∧
      parseDecimal body = some ((D.digits x.mag : ℚ) * 10 ^ D.exponent x.mag) ∧ validUnsigned body = true := by
    unfold floatLiteral
    by_cases hc : x.mag.1 ≠ 0 ∧ (x.mag.1 < smallestPlain F ∨ 10 ^ 21 ≤ x.mag.1)
    · rw [if_pos hc]
      refine ⟨_, rfl, expNotation_value _ _, expNotation_valid (Nat.pos_of_ne_zero fun h0 => hc.1 (h.zero _ h0).2) _⟩
    · rw [if_neg hc]
      exact ⟨_, rfl, plainNotation_value _ _, plainNotation_valid fun h0 => (h.zero _ h0).1⟩
  obtain ⟨-, c, u, hcu, hcd⟩ := validUnsigned_chars hu
  rw [hbody]
  cases hneg : x.neg with
  | true =>
    refine ⟨hu, ?_⟩
    simp only [floatText, parseFloat, String.toList_ofList, if_true, List.cons_append, List.nil_append, hv,
      Option.bind_some, hx, Option.map_some, ← hneg]
    rfl
  | false =>
    simp only [Bool.false_eq_true, if_false, List.nil_append]
    constructor
    · unfold validNumber
      split
      · cases hcu
        exact absurd hcd (by decide)
      · exact hu
    · simp only [floatText, parseFloat, String.toList_ofList]
      split
      · cases hcu
        exact absurd hcd (by decide)
      · cases hcu
        exact absurd hcd (by decide)
      · rw [hv, Option.bind_some, hx, Option.map_some, ← hneg]
        rfl

theorem via_readsAs {α β : Type} {N : NumberText β} (hN : Spec.RoundTrips N) {conv : α → Option β} {back : β → α}
    {rd : α → α} (h : ∀ x y, conv x = some y → back y = rd x) : Spec.ReadsAs (N.via conv back) rd := by
  intro x t ht
  obtain ⟨y, hy, ht⟩ := Option.bind_eq_some_iff.1 ht
  obtain ⟨h1, h2⟩ := hN y t ht
  refine ⟨h1, ?_⟩
  show (N.read t).map back = some (rd x)
  rw [h2, Option.map_some, id_eq, h x y hy]

theorem valueText_roundTrips {F : FloatFormat} (hF : ∀ q, F.rep q → 0 ≤ q) {D : Digits F} (h : Spec.ReadsBack D) :
    Spec.RoundTrips (valueText hF D) := by
  refine via_readsAs (floatText_roundTrips h) fun x y hy => ?_
  cases hy
  apply Subtype.ext
  show FinFloat.val _ = x.1
  unfold FinFloat.val
  simp only [decide_eq_true_eq]
  split
  · rename_i hx; rw [abs_of_neg hx, neg_neg]
  · rename_i hx; exact abs_of_nonneg (not_lt.1 hx)

theorem realText_readsAs {F : FloatFormat} {D : Digits F} (h : Spec.ReadsBack D) (near : ℝ → FinFloat F) :
    Spec.ReadsAs (realText near D) (fun x => ((near x).val : ℝ)) :=
  via_readsAs (floatText_roundTrips h) fun x y hy => by cases hy; rfl

/-- Digits exist for every format whose magnitudes are decimal fractions that are converted without error. -/
theorem exists_readsBack {F : FloatFormat} (hround : ∀ x, F.round x.1 = some x)
    (hdec : ∀ q, F.rep q → ∃ (d : Nat) (e : Int), q = d * 10 ^ e) : ∃ D : Digits F, Spec.ReadsBack D := by
  classical
  have hdec' : ∀ x : { q : ℚ // F.rep q }, ∃ (p : Nat × Int), x.1 = p.1 * 10 ^ p.2 ∧ (p.1 = 0 → p.2 = 0 ∧ x.1 = 0) := by
    intro x
    obtain ⟨d, e, h⟩ := hdec x.1 x.2
    by_cases hd : d = 0
    · subst hd
      exact ⟨(0, 0), by rw [h]; simp, fun _ => ⟨rfl, by rw [h]; simp⟩⟩
    · exact ⟨(d, e), h, fun h0 => absurd h0 hd⟩
  choose f h1 h2 using hdec'
  refine ⟨⟨fun x => (f x).1, fun x => (f x).2⟩, ⟨fun x => ?_, h2⟩⟩
  show F.round (((f x).1 : ℚ) * 10 ^ (f x).2) = some x
  rw [← h1, hround]

end GoSelect
