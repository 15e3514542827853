import Verif.Proofs.CsvTable
import Verif.Proofs.FloatText
import Verif.Props.C44_text

/-! C112: CSV files are read as the tables they show. -/

namespace GoSelect

open Spec

/-! ### Specification -/

/-- A number in decimal notation: sign, digits, point and digits, exponent (capital letter?, sign, digits). -/
structure Spec.Numeral where
  sign : Option Bool
  whole : List (Fin 10)
  frac : Option (List (Fin 10))
  exp : Option (Bool × Option Bool × List (Fin 10))

namespace Spec

/-- A sign: none, `+`, `-`. -/
def signText : Option Bool → List Char
  | none => []
  | some false => ['+']
  | some true => ['-']

def digitText (l : List (Fin 10)) : List Char := l.map (fun d : Fin 10 => Nat.digitChar d.val)

/-- The number of digits `l`. -/
def digitValue (l : List (Fin 10)) : Nat := l.foldl (fun a (d : Fin 10) => 10 * a + d.val) 0

/-- Point and digits. -/
def fracText : Option (List (Fin 10)) → List Char
  | none => []
  | some f => '.' :: digitText f

/-- The exponent. -/
def expText : Option (Bool × Option Bool × List (Fin 10)) → List Char
  | none => []
  | some (capital, s, e) => (if capital then 'E' else 'e') :: (signText s ++ digitText e)

def Numeral.chars (n : Numeral) : List Char :=
  signText n.sign ++ (digitText n.whole ++ (fracText n.frac ++ expText n.exp))

def Numeral.text (n : Numeral) : String := String.ofList n.chars

/-- At least one digit, and at least one in the exponent. -/
def Numeral.Valid (n : Numeral) : Prop :=
  (n.whole ≠ [] ∨ n.frac.getD [] ≠ []) ∧ ∀ x ∈ n.exp, x.2.2 ≠ []

def Numeral.exponent (n : Numeral) : Int :=
  match n.exp with
  | none => 0
  | some (_, s, e) => if s = some true then -(digitValue e : Int) else digitValue e

/-- The absolute value. -/
def Numeral.mag (n : Numeral) : ℚ :=
  ((digitValue n.whole : ℚ) + (digitValue (n.frac.getD []) : ℚ) / 10 ^ (n.frac.getD []).length) * 10 ^ n.exponent

def Numeral.value (n : Numeral) : ℚ := if n.sign = some true then -n.mag else n.mag

/-- No comma, quote or line break in the text. -/
def PlainField (f : String) : Prop := ∀ c ∈ f.toList, c ≠ ',' ∧ c ≠ '"' ∧ c ≠ '\n' ∧ c ≠ '\r'

/-- The text of a table: commas between the fields, line breaks `\n` or `\r\n` between the lines and, if `final`,
behind the last one. -/
def tableText (crlf final : Bool) (rows : List (List String)) : String :=
  let eol := if crlf then ['\r', '\n'] else ['\n']
  String.ofList (List.intercalate eol (rows.map (fun r => List.intercalate [','] (r.map String.toList))) ++
    if final then eol else [])

/-- The example of a valid file in README.md. -/
def readmeText : String :=
  "# Age, Height, Weight\n   20,    184,     80\n   40,    192,     92\n   60,    188,     88\n"

end Spec

/-! ### Numbers -/

theorem digitChar_isDigit (d : Fin 10) : (Nat.digitChar d.val).isDigit = true := by
  revert d; decide

theorem digitText_digit {l : List (Fin 10)} : ∀ c ∈ digitText l, c.isDigit = true := by
  intro c hc
  obtain ⟨d, -, rfl⟩ := List.mem_map.1 hc
  exact digitChar_isDigit d

theorem digitText_value (l : List (Fin 10)) (a : Nat) :
    Nat.ofDigitChars 10 (digitText l) a = l.foldl (fun a (d : Fin 10) => 10 * a + d.val) a := by
  induction l generalizing a with
  | nil => simp [digitText]
  | cons d l ih =>
    rw [digitText, List.map_cons, Nat.ofDigitChars_cons_digitChar_of_lt_ten d.2, List.foldl_cons]
    exact ih _

theorem digitText_nil {l : List (Fin 10)} : digitText l = [] ↔ l = [] := by simp [digitText]

theorem parseExponent_text (s : Option Bool) {e : List (Fin 10)} (he : e ≠ []) :
    parseExponent (signText s ++ digitText e) = some (if s = some true then -(digitValue e : Int) else digitValue e) := by
  have hall : (digitText e).all Char.isDigit = true := List.all_eq_true.2 digitText_digit
  have hv : Nat.ofDigitChars 10 (digitText e) 0 = digitValue e := digitText_value e 0
  have hne : digitText e ≠ [] := fun h => he (digitText_nil.1 h)
  match s with
  | some true => simp [signText, parseExponent, hall, hv, hne]
  | some false => simp [signText, parseExponent, hall, hv, hne]
  | none =>
    obtain ⟨c, t, hct⟩ := List.exists_cons_of_ne_nil hne
    have hc : c.isDigit = true := digitText_digit c (by rw [hct]; simp)
    simp only [signText, List.nil_append]
    unfold parseExponent
    simp only
    split
    · rename_i h
      rw [hct, List.cons.injEq] at h
      rw [h.1] at hc
      exact absurd hc (by decide)
    · rename_i h
      rw [hct, List.cons.injEq] at h
      rw [h.1] at hc
      exact absurd hc (by decide)
    · simp [hall, hv, hne]

theorem no_point {rest : List Char} (h : ∀ t, rest ≠ '.' :: t) :
    (match (generalizing := false) rest with | '.' :: t => t.takeWhile Char.isDigit | _ => []) = ([] : List Char) ∧
      (match (generalizing := false) rest with | '.' :: t => t.dropWhile Char.isDigit | r => r) = rest := by
  constructor
  · split
    · exact absurd rfl (h _)
    · rfl
  · split
    · exact absurd rfl (h _)
    · rfl

/-- What follows the mantissa. -/
theorem parseDecimal_mantissa {a : List (Fin 10)} {f : Option (List (Fin 10))} {rest : List Char}
    (hne : a ≠ [] ∨ f.getD [] ≠ []) (hr : ∀ c ∈ rest.head?, c.isDigit = false ∧ c ≠ '.') :
    parseDecimal (digitText a ++ (fracText f ++ rest)) =
      (match (generalizing := false) rest with
        | [] => some ((digitValue a : ℚ) + (digitValue (f.getD []) : ℚ) / 10 ^ (f.getD []).length)
        | c :: t => if c = 'e' ∨ c = 'E' then (parseExponent t).map (fun e =>
            ((digitValue a : ℚ) + (digitValue (f.getD []) : ℚ) / 10 ^ (f.getD []).length) * 10 ^ e) else none) := by
  have hm : ((Nat.ofDigitChars 10 (digitText a ++ digitText (f.getD [])) 0 : Nat) : ℚ) / 10 ^ (f.getD []).length =
      (digitValue a : ℚ) + (digitValue (f.getD []) : ℚ) / 10 ^ (f.getD []).length := by
    rw [Nat.ofDigitChars_append, Nat.ofDigitChars_eq_ofDigitChars_zero, digitText_value, digitText_value]
    rw [show (digitText (f.getD [])).length = (f.getD []).length by simp [digitText]]
    show ((10 ^ (f.getD []).length * digitValue a + digitValue (f.getD []) : Nat) : ℚ) / _ = _
    push_cast
    field_simp
  have whole : ∀ {u : List Char}, (∀ c ∈ u.head?, c.isDigit = false) →
      (digitText a ++ u).takeWhile Char.isDigit = digitText a ∧ (digitText a ++ u).dropWhile Char.isDigit = u := by
    intro u hu
    cases u with
    | nil => simpa using takeWhile_all_digits (digitText_digit (l := a))
    | cons c u => exact takeWhile_digits digitText_digit (hu c rfl)
  match f with
  | none =>
    simp only [fracText, List.nil_append, Option.getD_none, List.length_nil] at hm hne ⊢
    obtain ⟨h1, h2⟩ := whole (u := rest) fun c hc => (hr c hc).1
    unfold parseDecimal
    rw [h1, h2]
    have hdot : ∀ t, rest ≠ '.' :: t := fun t h => (hr '.' (by rw [h]; rfl)).2 rfl
    obtain ⟨hf, hd⟩ := no_point hdot
    simp only [hf, hd]
    rw [if_neg (by simpa [digitText_nil] using hne)]
    simp only [List.length_nil]
    rw [show digitText [] = [] from rfl] at hm
    rw [hm]
    cases rest <;> rfl
  | some f =>
    simp only [fracText, Option.getD_some, List.cons_append] at hm hne ⊢
    obtain ⟨h1, h2⟩ := whole (u := '.' :: (digitText f ++ rest)) (by simp)
    have h3 : (digitText f ++ rest).takeWhile Char.isDigit = digitText f ∧
        (digitText f ++ rest).dropWhile Char.isDigit = rest := by
      cases rest with
      | nil => simpa using takeWhile_all_digits (digitText_digit (l := f))
      | cons c u => exact takeWhile_digits digitText_digit (hr c rfl).1
    unfold parseDecimal
    rw [h1, h2]
    simp only [h3.1, h3.2]
    rw [if_neg (by rw [digitText_nil, digitText_nil]; tauto)]
    rw [show (digitText f).length = f.length by simp [digitText], hm]
    cases rest <;> rfl

theorem parseDecimal_numeral {n : Numeral} (h : n.Valid) :
    parseDecimal (digitText n.whole ++ (fracText n.frac ++ expText n.exp)) = some n.mag := by
  obtain ⟨h1, h2⟩ := h
  unfold Numeral.mag Numeral.exponent
  match he : n.exp with
  | none =>
    rw [parseDecimal_mantissa h1 (by simp [expText])]
    simp [expText]
  | some (capital, s, e) =>
    rw [parseDecimal_mantissa h1 (by cases capital <;> simp [expText])]
    have := h2 (capital, s, e) (by rw [he]; rfl)
    simp only [expText]
    rw [if_pos (by cases capital <;> simp), parseExponent_text s this]
    rfl

/-- **C112.** A number in decimal notation - sign, digits, point, exponent - is read as the number the format has for its
value. -/
theorem C112_numeral (F : FloatFormat) (n : Numeral) (h : n.Valid) :
    parseFloat F n.text = (F.round n.mag).map (FinFloat.mk (n.sign == some true)) := by
  have key := parseDecimal_numeral h
  unfold parseFloat Numeral.text
  rw [String.toList_ofList]
  unfold Numeral.chars
  match n.sign with
  | some true => simp [signText, key]
  | some false => simp [signText, key]
  | none =>
    simp only [signText, List.nil_append]
    split
    · rename_i t ht
      exfalso
      match hw : n.whole with
      | d :: w =>
        rw [hw] at ht
        simp only [digitText, List.map_cons, List.cons_append, List.cons.injEq] at ht
        have := digitChar_isDigit d
        rw [ht.1] at this
        exact absurd this (by decide)
      | [] =>
        rw [hw] at ht
        match hf : n.frac with
        | some f => rw [hf] at ht; simp [digitText, fracText] at ht
        | none =>
          have := h.1
          rw [hf, hw] at this
          simp at this
    · rename_i t ht
      exfalso
      match hw : n.whole with
      | d :: w =>
        rw [hw] at ht
        simp only [digitText, List.map_cons, List.cons_append, List.cons.injEq] at ht
        have := digitChar_isDigit d
        rw [ht.1] at this
        exact absurd this (by decide)
      | [] =>
        rw [hw] at ht
        match hf : n.frac with
        | some f => rw [hf] at ht; simp [digitText, fracText] at ht
        | none =>
          have := h.1
          rw [hf, hw] at this
          simp at this
    · rw [key]
      rfl

/-- **C112.** A value that the format has is read exactly. -/
theorem C112_exact (F : FloatFormat) (hF : ConvertsToNearest F) (n : Numeral) (h : n.Valid) (hr : F.rep n.mag) :
    ∃ x, parseFloat F n.text = some x ∧ x.val = n.value := by
  obtain ⟨e, h1, h2⟩ := hF.near n.mag n.mag (hF.nonneg _ hr) hr (by rw [sub_self, abs_zero]; positivity)
  have h3 := h2 _ hr
  rw [sub_self, abs_zero] at h3
  have h4 : e.1 = n.mag := by
    have := abs_nonpos_iff.1 h3
    linarith
  refine ⟨⟨n.sign == some true, e⟩, by rw [C112_numeral F n h, h1]; rfl, ?_⟩
  unfold FinFloat.val Numeral.value
  simp only [beq_iff_eq, h4]

/-! ### Fields that are no numbers -/

/-- The characters of numbers. -/
def numberChar (c : Char) : Bool := c.isDigit || c == '.' || c == 'e' || c == 'E' || c == '+' || c == '-'

theorem parseExponent_chars {s : List Char} {e : Int} (h : parseExponent s = some e) : ∀ c ∈ s, numberChar c = true := by
  have value : ∀ {t : List Char} {f : Nat → Int}, ((if t ≠ [] ∧ t.all Char.isDigit then
      some (Nat.ofDigitChars 10 t 0) else none).map f = some e) → ∀ c ∈ t, numberChar c = true := by
    intro t f ht c hc
    split at ht
    · rename_i h
      have := List.all_eq_true.1 h.2 c hc
      simp [numberChar, this]
    · simp at ht
  unfold parseExponent at h
  simp only at h
  split at h
  · intro c hc
    rcases List.mem_cons.1 hc with rfl | hc
    · decide
    · exact value h c hc
  · intro c hc
    rcases List.mem_cons.1 hc with rfl | hc
    · decide
    · exact value h c hc
  · exact value h

theorem mem_takeDrop {s : List Char} {c : Char} (h : c ∈ s) :
    c ∈ s.takeWhile Char.isDigit ∨ c ∈ s.dropWhile Char.isDigit := by
  rw [← List.mem_append, List.takeWhile_append_dropWhile]
  exact h

theorem numberChar_takeWhile {s : List Char} {c : Char} (h : c ∈ s.takeWhile Char.isDigit) : numberChar c = true := by
  have := List.all_eq_true.1 List.all_takeWhile c h
  simp [numberChar, this]

theorem parseDecimal_chars {s : List Char} {q : ℚ} (h : parseDecimal s = some q) : ∀ c ∈ s, numberChar c = true := by
  have tail : ∀ {rest : List Char} {m : ℚ}, (match rest with
      | [] => some m
      | c :: t => if c = 'e' ∨ c = 'E' then (parseExponent t).map (fun e => m * 10 ^ e) else none) = some q →
      ∀ c ∈ rest, numberChar c = true := by
    intro rest m hr
    cases rest with
    | nil => simp
    | cons a t =>
      simp only at hr
      split at hr
      · rename_i ha
        obtain ⟨e, he, -⟩ := Option.map_eq_some_iff.1 hr
        intro c hc
        rcases List.mem_cons.1 hc with rfl | hc
        · rcases ha with rfl | rfl <;> decide
        · exact parseExponent_chars he c hc
      · simp at hr
  unfold parseDecimal at h
  simp only at h
  split at h
  · rename_i t hd
    split at h
    · simp at h
    · have ht := tail h
      intro c hc
      rcases mem_takeDrop hc with hc | hc
      · exact numberChar_takeWhile hc
      · rw [hd] at hc
        rcases List.mem_cons.1 hc with rfl | hc
        · decide
        · rcases mem_takeDrop hc with hc | hc
          · exact numberChar_takeWhile hc
          · exact ht c hc
  · split at h
    · simp at h
    · have ht := tail h
      intro c hc
      rcases mem_takeDrop hc with hc | hc
      · exact numberChar_takeWhile hc
      · exact ht c hc

/-- **C112.** A field with any character that is not a letter, a digit, a point, a sign or an underscore - a blank, say -
is no number. -/
theorem C112_no_number (F : FloatFormat) (f : String) (h : ∃ c ∈ f.toList, c.isAlphanum = false ∧ c ∉ ['.', '+', '-', '_']) :
    parseFloat F f = none := by
  obtain ⟨c, hc, ha, hp⟩ := h
  have hn : numberChar c = false := by
    unfold numberChar
    by_contra hcon
    simp only [Bool.not_eq_false, Bool.or_eq_true, beq_iff_eq] at hcon
    rcases hcon with ((((h | rfl) | rfl) | rfl) | rfl) | rfl
    · simp [Char.isAlphanum, h] at ha
    · simp at hp
    · exact absurd ha (by decide)
    · exact absurd ha (by decide)
    · simp at hp
    · simp at hp
  have key : ∀ t : List Char, c ∈ t → parseDecimal t = none := by
    intro t ht
    by_contra hcon
    obtain ⟨q, hq⟩ := Option.ne_none_iff_exists'.1 hcon
    rw [parseDecimal_chars hq c ht] at hn
    exact absurd hn (by decide)
  unfold parseFloat
  split
  · rename_i t hf
    rw [hf] at hc
    rcases List.mem_cons.1 hc with rfl | hc
    · simp at hp
    · rw [key t hc]; rfl
  · rename_i t hf
    rw [hf] at hc
    rcases List.mem_cons.1 hc with rfl | hc
    · simp at hp
    · rw [key t hc]; rfl
  · rw [key _ hc]; rfl

/-! ### Tables -/

theorem Spec.PlainField.special {f : String} (h : PlainField f) : ∀ c ∈ f.toList, special c = false := by
  intro c hc
  obtain ⟨h1, h2, h3, h4⟩ := h c hc
  simp [GoSelect.special, h1, h2, h3, h4]

theorem rawFields_eq (r : List String) : List.intercalate [','] (r.map String.toList) = rawFields r := by
  match r with
  | [] => rfl
  | [f] => simp [rawFields, List.intercalate]
  | f :: g :: t =>
    rw [rawFields, ← rawFields_eq (g :: t)]
    simp [List.intercalate]

/-- The text, seen by the reader, and with a line break behind the last line. -/
theorem tableText_normal (crlf final : Bool) {rows : List (List String)} (hne : rows ≠ [])
    (h : ∀ r ∈ rows, ∀ f ∈ r, PlainField f) :
    normalizeNewlines (tableText crlf final rows).toList ++ (if final then [] else ['\n']) =
      rows.flatMap (fun r => rawFields r ++ ['\n']) := by
  unfold tableText
  simp only [String.toList_ofList, rawFields_eq]
  have heol : ∀ t, normalizeNewlines ((if crlf then ['\r', '\n'] else ['\n']) ++ t) = '\n' :: normalizeNewlines t := by
    intro t
    cases crlf
    · rw [if_neg (by simp)]
      exact normalizeNewlines_cons (Or.inl (by decide))
    · simp [normalizeNewlines]
  induction rows with
  | nil => exact absurd rfl hne
  | cons r rows ih =>
    have hr : ∀ c ∈ rawFields r, c ≠ '\r' := fun c hc =>
      (rawFields_special (fun f hf => Spec.PlainField.special (h r (by simp) f hf)) c hc).1
    cases rows with
    | nil =>
      simp only [List.map_cons, List.map_nil, List.flatMap_cons, List.flatMap_nil, List.append_nil]
      rw [show List.intercalate (if crlf then ['\r', '\n'] else ['\n']) [rawFields r] = rawFields r by
        simp [List.intercalate]]
      rw [normalizeNewlines_clean hr]
      cases final
      · simp [normalizeNewlines]
      · have := heol []
        rw [List.append_nil] at this
        simp only [if_true, List.append_nil]
        rw [this]
        rfl
    | cons r' rows =>
      have := ih (by simp) fun r hr => h r (by simp [hr])
      rw [List.flatMap_cons, ← this]
      simp only [List.map_cons]
      rw [show ∀ (e a b : List Char) (l : List (List Char)), List.intercalate e (a :: b :: l) =
        a ++ (e ++ List.intercalate e (b :: l)) by simp [List.intercalate]]
      simp only [List.append_assoc]
      rw [normalizeNewlines_clean hr, heol]
      simp

theorem csvRead_table (crlf final : Bool) {rows : List (List String)} (hne : rows ≠ []) (h2 : ∀ r ∈ rows, 2 ≤ r.length)
    (h : ∀ r ∈ rows, ∀ f ∈ r, PlainField f) :
    csvRecords .line [] [] (normalizeNewlines (tableText crlf final rows).toList) = some rows := by
  have hn := tableText_normal crlf final hne h
  have ht := csvRecords_table h2 fun r hr f hf => Spec.PlainField.special (h r hr f hf)
  rw [← hn] at ht
  cases final
  · rw [← ht]
    exact (csvRecords_final _ _ _ _).symm
  · simpa using ht

/-- **C112.** A file with a header and lines of equally many fields, two at least, is read as its table: column `t` (or
`t - n`, counted from the end) is the target, the other columns are the features in their order, and every field is the
number `ParseFloat` makes of it, or 0. -/
theorem C112_table {K : Type} [Zero K] (parse : String → Option K) (crlf final : Bool) (names : List String)
    (lines : List (List String)) (n t : Nat) (hn : 2 ≤ n) (ht : t < n) (hnames : names.length = n) (hl : lines ≠ [])
    (hw : ∀ l ∈ lines, l.length = n) (hp : ∀ l ∈ names :: lines, ∀ f ∈ l, PlainField f) (tc : Int)
    (htc : tc = t ∨ tc = (t : Int) - n) :
    ∃ e, parseCSV parse csvRead (tableText crlf final (names :: lines)) tc = some e ∧ e.names = names ∧
      e.targetCol = t ∧ e.X.nr = lines.length ∧ e.X.nc = n - 1 ∧
      (∀ r c, r < lines.length → c < n - 1 →
        e.X.get r c = (parse ((lines.getD r []).getD (if c < t then c else c + 1) "")).getD 0) ∧
      e.Y = lines.map (fun l => (parse (l.getD t "")).getD 0) := by
  have hr : csvRead (tableText crlf final (names :: lines)) = some (names :: lines) := by
    unfold csvRead
    rw [csvRead_table crlf final (by simp) (by
      intro r hr
      rcases List.mem_cons.1 hr with rfl | hr
      · omega
      · rw [hw r hr]; exact hn) hp]
    simp only
    rw [if_pos]
    simp only [List.all_eq_true, beq_iff_eq]
    exact fun r hr => by rw [hw r hr, hnames]
  unfold parseCSV
  rw [hr]
  exact parseRecords_table parse names lines n t hn ht hnames hl hw tc htc

/-- **C112.** A file with a line that has not as many fields as the header makes `ParseCSV` panic. -/
theorem C112_ragged {K : Type} [Zero K] (parse : String → Option K) (crlf final : Bool) (names : List String)
    (lines : List (List String)) (h2 : ∀ l ∈ names :: lines, 2 ≤ l.length)
    (hp : ∀ l ∈ names :: lines, ∀ f ∈ l, PlainField f) (hw : ∃ l ∈ lines, l.length ≠ names.length) (tc : Int) :
    parseCSV parse csvRead (tableText crlf final (names :: lines)) tc = none := by
  unfold parseCSV csvRead
  rw [csvRead_table crlf final (by simp) h2 hp]
  simp only
  rw [if_neg]
  simp only [List.all_eq_true, beq_iff_eq]
  intro h
  obtain ⟨l, hl, hne⟩ := hw
  exact hne (h l hl)

/-- **C112, without blanks.** A file of numbers in decimal notation without blanks is read as the numbers it shows, if the
number format has them.

Full claim: the same for files with blanks around the numbers, as in the README.  `C112_refuted` shows that it fails. -/
theorem C112_numbers_partial (F : FloatFormat) (hF : ConvertsToNearest F) (crlf final : Bool) (names : List String)
    (rows : List (List Numeral)) (n t : Nat) (hn : 2 ≤ n) (ht : t < n) (hnames : names.length = n)
    (hplain : ∀ f ∈ names, PlainField f) (hl : rows ≠ []) (hw : ∀ l ∈ rows, l.length = n)
    (hv : ∀ l ∈ rows, ∀ x ∈ l, x.Valid ∧ F.rep x.mag) (tc : Int) (htc : tc = t ∨ tc = (t : Int) - n) :
    ∃ e, parseCSV (parseFloat F) csvRead (tableText crlf final (names :: rows.map (·.map Numeral.text))) tc = some e ∧
      e.names = names ∧ e.targetCol = t ∧ e.X.nr = rows.length ∧ e.X.nc = n - 1 ∧
      (∀ (r c : Nat) (l : List Numeral) (x : Numeral), rows[r]? = some l → c ≠ t → l[c]? = some x →
        (e.X.get r (if c < t then c else c - 1)).val = x.value) ∧
      ∀ (r : Nat) (l : List Numeral) (x : Numeral), rows[r]? = some l → l[t]? = some x →
        ∃ y, e.Y[r]? = some y ∧ y.val = x.value := by
  have hplain' : ∀ x : Numeral, x.Valid → PlainField x.text := by
    intro x hx c hc
    rw [Numeral.text, String.toList_ofList] at hc
    have hs : ∀ s : Option Bool, ∀ c ∈ signText s, c ≠ ',' ∧ c ≠ '"' ∧ c ≠ '\n' ∧ c ≠ '\r' := by
      rintro (_ | _ | _) <;> simp [signText]
    have hd : ∀ l : List (Fin 10), ∀ c ∈ digitText l, c ≠ ',' ∧ c ≠ '"' ∧ c ≠ '\n' ∧ c ≠ '\r' := by
      intro l c hc
      have := digitText_digit c hc
      refine ⟨?_, ?_, ?_, ?_⟩ <;> rintro rfl <;> exact absurd this (by decide)
    unfold Numeral.chars at hc
    simp only [List.mem_append] at hc
    rcases hc with hc | hc | hc | hc
    · exact hs _ c hc
    · exact hd _ c hc
    · match hf : x.frac with
      | none => rw [hf] at hc; simp [fracText] at hc
      | some f =>
        rw [hf] at hc
        rcases List.mem_cons.1 hc with rfl | hc
        · decide
        · exact hd _ c hc
    · match he : x.exp with
      | none => rw [he] at hc; simp [expText] at hc
      | some (b, s, e) =>
        rw [he] at hc
        simp only [expText, List.mem_cons, List.mem_append] at hc
        rcases hc with rfl | hc | hc
        · cases b <;> decide
        · exact hs _ c hc
        · exact hd _ c hc
  obtain ⟨e, h1, h2, h3, h4, h5, h6, h7⟩ := C112_table (parseFloat F) crlf final names (rows.map (·.map Numeral.text)) n t
    hn ht hnames (by simpa using hl) (by simpa using hw) (by
      intro l hl f hf
      rcases List.mem_cons.1 hl with rfl | hl
      · exact hplain f hf
      · obtain ⟨l', hl', rfl⟩ := List.mem_map.1 hl
        obtain ⟨x, hx, rfl⟩ := List.mem_map.1 hf
        exact hplain' x (hv l' hl' x hx).1) tc htc
  have hread : ∀ {r c : Nat} {l : List Numeral} {x : Numeral}, rows[r]? = some l → l[c]? = some x →
      ((parseFloat F (((rows.map (·.map Numeral.text)).getD r []).getD c "")).getD 0).val = x.value := by
    intro r c l x hrl hlx
    have hx := hv l (List.mem_of_getElem? hrl) x (List.mem_of_getElem? hlx)
    obtain ⟨y, hy1, hy2⟩ := C112_exact F hF x hx.1 hx.2
    rw [List.getD_eq_getElem?_getD, List.getD_eq_getElem?_getD, List.getElem?_map, hrl, Option.map_some, Option.getD_some,
      List.getElem?_map, hlx, Option.map_some, Option.getD_some, hy1]
    exact hy2
  refine ⟨e, h1, h2, h3, by simpa using h4, h5, ?_, ?_⟩
  · intro r c l x hrl hct hlx
    have hr : r < rows.length := (List.getElem?_eq_some_iff.1 hrl).1
    have hc : c < n := by
      have := (List.getElem?_eq_some_iff.1 hlx).1
      rwa [hw l (List.mem_of_getElem? hrl)] at this
    rw [h6 r _ (by simpa using hr) (by split <;> omega)]
    rw [show (if (if c < t then c else c - 1) < t then (if c < t then c else c - 1)
      else (if c < t then c else c - 1) + 1) = c by
        by_cases h : c < t
        · simp [h]
        · rw [if_neg h, if_neg (by omega)]; omega]
    exact hread hrl hlx
  · intro r l x hrl hlx
    refine ⟨_, ?_, hread hrl hlx⟩
    rw [h7, List.getElem?_map, List.getElem?_map, hrl]
    simp only [Option.map_some]
    rw [List.getD_eq_getElem?_getD (l := rows.map _), List.getElem?_map, hrl]
    rfl

/-- **C112.** Blanks around the numbers: the file is read without any message as a table of zeros. -/
theorem C112_blanks (F : FloatFormat) (crlf final : Bool) (names : List String) (lines : List (List String)) (n t : Nat)
    (hn : 2 ≤ n) (ht : t < n) (hnames : names.length = n) (hl : lines ≠ []) (hw : ∀ l ∈ lines, l.length = n)
    (hp : ∀ l ∈ names :: lines, ∀ f ∈ l, PlainField f)
    (hb : ∀ l ∈ lines, ∀ f ∈ l, ' ' ∈ f.toList ∨ '\t' ∈ f.toList) (tc : Int) (htc : tc = t ∨ tc = (t : Int) - n) :
    ∃ e, parseCSV (parseFloat F) csvRead (tableText crlf final (names :: lines)) tc = some e ∧ e.names = names ∧
      e.X.nr = lines.length ∧ e.X.nc = n - 1 ∧ (∀ r c, r < lines.length → c < n - 1 → (e.X.get r c).val = 0) ∧
      e.Y.map FinFloat.val = List.replicate lines.length 0 := by
  obtain ⟨e, h1, h2, -, h4, h5, h6, h7⟩ := C112_table (parseFloat F) crlf final names lines n t hn ht hnames hl hw hp tc htc
  have hz : ∀ f : String, (' ' ∈ f.toList ∨ '\t' ∈ f.toList) → ((parseFloat F f).getD 0).val = 0 := by
    intro f hf
    rw [C112_no_number F f]
    · rfl
    · rcases hf with hf | hf
      · exact ⟨_, hf, by decide, by decide⟩
      · exact ⟨_, hf, by decide, by decide⟩
  refine ⟨e, h1, h2, h4, h5, ?_, ?_⟩
  · intro r c hr hc
    rw [h6 r c hr hc]
    apply hz
    rw [List.getD_eq_getElem?_getD (l := lines), List.getElem?_eq_getElem hr, Option.getD_some]
    have hlen := hw _ (List.getElem_mem hr)
    apply hb _ (List.getElem_mem hr)
    rw [List.getD_eq_getElem?_getD, List.getElem?_eq_getElem (by split <;> omega), Option.getD_some]
    exact List.getElem_mem _
  · rw [h7, List.map_map, List.eq_replicate_iff]
    refine ⟨by simp, ?_⟩
    intro b hb'
    obtain ⟨l, hl', rfl⟩ := List.mem_map.1 hb'
    apply hz
    apply hb l hl'
    rw [List.getD_eq_getElem?_getD, List.getElem?_eq_getElem (by rw [hw l hl']; exact ht), Option.getD_some]
    exact List.getElem_mem _

/-- **C112.** The file that the README gives as the example of a valid file: all numbers are read as 0, and `#` and the
blanks belong to the names. -/
theorem C112_readme (F : FloatFormat) (tc : Int) (htc : -3 ≤ tc ∧ tc < 3) :
    ∃ e, parseCSV (parseFloat F) csvRead readmeText tc = some e ∧ e.names = ["# Age", " Height", " Weight"] ∧
      e.X.nr = 3 ∧ e.X.nc = 2 ∧ (∀ r c, r < 3 → c < 2 → (e.X.get r c).val = 0) ∧ e.Y.map FinFloat.val = [0, 0, 0] := by
  have htext : readmeText = tableText false true [["# Age", " Height", " Weight"], ["   20", "    184", "     80"],
      ["   40", "    192", "     92"], ["   60", "    188", "     88"]] := by decide +kernel
  rw [htext]
  exact C112_blanks F false true ["# Age", " Height", " Weight"] [["   20", "    184", "     80"],
    ["   40", "    192", "     92"], ["   60", "    188", "     88"]] 3 (if tc < 0 then tc + 3 else tc).toNat (by decide)
    (by split <;> omega) rfl (by simp) (by decide) (by unfold PlainField; decide) (by decide) tc (by split <;> omega)

/-- **C112 is false as stated**: the file of the README is not read as the table it shows, whatever column is the
target. -/
theorem C112_refuted (F : FloatFormat) (tc : Int) (htc : -3 ≤ tc ∧ tc < 3) :
    ¬ ∃ e, parseCSV (parseFloat F) csvRead readmeText tc = some e ∧
      (e.names = ["Age", "Height", "Weight"] ∨ (e.X.get 0 0).val ≠ 0 ∨ (∃ y ∈ e.Y, y.val ≠ 0)) := by
  obtain ⟨e, h1, h2, -, -, h5, h6⟩ := C112_readme F tc htc
  rintro ⟨e', h1', h⟩
  rw [h1, Option.some.injEq] at h1'
  subst h1'
  rcases h with h | h | ⟨y, hy, h⟩
  · rw [h2] at h
    exact absurd h (by decide)
  · exact h (h5 0 0 (by decide) (by decide))
  · have := List.mem_map_of_mem (f := FinFloat.val) hy
    rw [h6] at this
    simp at this
    exact h this

/-! ### Concrete cases -/

/-- `-12.5e-1`. -/
example : (⟨some true, [1, 2], some [5], some (false, some true, [1])⟩ : Numeral).text = "-12.5e-1" ∧
    (⟨some true, [1, 2], some [5], some (false, some true, [1])⟩ : Numeral).value = -5 / 4 ∧
    (⟨some true, [1, 2], some [5], some (false, some true, [1])⟩ : Numeral).Valid := by
  refine ⟨by decide +kernel, by decide +kernel, Or.inl (by decide), ?_⟩
  rintro x hx
  obtain rfl := Option.mem_some_iff.1 hx
  decide

/-- The table of the README without blanks, with Windows line ends. -/
example : tableText true false [["Age", "Weight"], ["20", "80"]] = "Age,Weight\r\n20,80" := by decide +kernel

/-- A file that meets the hypotheses of `C112_numbers_partial`, for the multiples of one eighth. -/
example : ∃ e, parseCSV (parseFloat eighths) csvRead "a,y\n1.5,+2\n-.25,1E1" (-1) = some e ∧ e.names = ["a", "y"] ∧
    (e.X.get 0 0).val = 3 / 2 ∧ (e.X.get 1 0).val = -1 / 4 := by
  have rep : ∀ (n : Nat) {q : ℚ}, q = n / 8 → eighths.rep q := fun n q h => ⟨n, h⟩
  obtain ⟨e, h1, h2, -, -, -, h6, -⟩ := C112_numbers_partial eighths eighths_nearest false false ["a", "y"]
    [[⟨none, [1], some [5], none⟩, ⟨some false, [2], none, none⟩],
      [⟨some true, [], some [2, 5], none⟩, ⟨none, [1], none, some (true, none, [1])⟩]] 2 1 (by decide) (by decide) rfl
    (by unfold PlainField; decide) (by simp) (by simp) (by
      simp only [List.mem_cons, List.not_mem_nil, or_false, forall_eq_or_imp, forall_eq]
      refine ⟨⟨⟨⟨by simp, by simp⟩, rep 12 (by decide +kernel)⟩, ⟨by simp, by simp⟩, rep 16 (by decide +kernel)⟩,
        ⟨⟨by simp, by simp⟩, rep 2 (by decide +kernel)⟩, ⟨by simp, by simp⟩, rep 80 (by decide +kernel)⟩) (-1) (by decide)
  refine ⟨e, ?_, h2, ?_, ?_⟩
  · rw [← h1]
    congr 1
  · have := h6 0 0 _ _ rfl (by decide) rfl
    rw [if_pos (by decide)] at this
    rw [this]
    decide +kernel
  · have := h6 1 0 _ _ rfl (by decide) rfl
    rw [if_pos (by decide)] at this
    rw [this]
    decide +kernel

end GoSelect
