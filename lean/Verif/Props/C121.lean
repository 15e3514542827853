import Verif.Model.Flags
import Verif.Proofs.FloatText
import Mathlib.Data.Nat.Init
import Mathlib.Tactic.Linarith

/-!
# C121: how the options of the commands are given

The help texts of `goselect bnb` and `goselect sasearch` show a command line whose options have one dash.  Such a
line is refused, whatever the values are (`C121_refuted`): with one dash every letter is an option of its own.  Options
with two dashes work, in any order and with plain words in between, as `--name value` or as `--name=value`; the last
value given counts, and an option that is not given has its default (`C121_two_dashes_partial`).
-/

namespace GoSelect

open scoped List

namespace Spec

/-- A piece of a command line. -/
inductive Piece
  /-- a word of its own -/
  | word (w : List Char)
  /-- `--name value` -/
  | apart (name value : List Char)
  /-- `--name=value` -/
  | joined (name value : List Char)

/-- The words of a piece. -/
def Piece.words : Piece → List (List Char)
  | .word w => [w]
  | .apart name value => ['-' :: '-' :: name, value]
  | .joined name value => ['-' :: '-' :: name ++ '=' :: value]

/-- The setting that a piece is meant to make. -/
def Piece.setting : Piece → Option (List Char × List Char)
  | .word _ => none
  | .apart name value => some (name, value)
  | .joined name value => some (name, value)

/-- The last value given for a name. -/
def lastGiven (name : List Char) (pieces : List Piece) : Option (List Char) :=
  (((pieces.filterMap Piece.setting).filter fun p => p.1 = name).getLast?).map (·.2)

/-- What may be given for an option: any text; a whole number of 64 bits in decimal digits; a text that is a number for
`strconv.ParseFloat` (see C112).  The option `help` is not set to a value. -/
def Fits (F : FloatFormat) (k : OptKind) (value : List Char) : Prop :=
  match k with
  | .text => True
  | .int => ∃ n : Int, -2 ^ 63 ≤ n ∧ n < 2 ^ 63 ∧ value = (toString n).toList
  | .float => ∃ x, parseFloatFl F (String.ofList value) = some x
  | .bool => False

/-- A piece that should be accepted by a command with these options: a word that does not begin with a dash, or a value
for one of the options. -/
def Piece.Fine (F : FloatFormat) (opts : List Opt) : Piece → Prop
  | .word w => w.head? ≠ some '-'
  | .apart name value => ∃ o ∈ opts, o.name = name ∧ Fits F o.kind value
  | .joined name value => ∃ o ∈ opts, o.name = name ∧ Fits F o.kind value

end Spec

open Spec

/-! ## Whole numbers -/

theorem digitValue_digit {c : Char} (h : c.isDigit = true) : digitValue c = some (c.toNat - '0'.toNat) := by
  unfold digitValue
  have : '0' ≤ c ∧ c ≤ '9' := by
    simp only [Char.isDigit, Bool.and_eq_true, decide_eq_true_eq] at h
    exact ⟨h.1, h.2⟩
  rw [if_pos this]

theorem digit_lt_ten {c : Char} (h : c.isDigit = true) : c.toNat - '0'.toNat < 10 := by
  simp only [Char.isDigit, Bool.and_eq_true, decide_eq_true_eq] at h
  have h2 : c.val.toNat ≤ 57 := by
    have := h.2
    exact this
  show c.val.toNat - 48 < 10
  omega

theorem parseDigits_append (base : Nat) (s t : List Char) (n : Nat) :
    parseDigits base n (s ++ t) = (parseDigits base n s).bind fun m => parseDigits base m t := by
  induction s generalizing n with
  | nil => rfl
  | cons c s ih =>
    show (match digitValue c with | none => none | some d => _) = _
    simp only [parseDigits]
    cases digitValue c with
    | none => rfl
    | some d =>
      dsimp only
      split
      · rfl
      · exact ih _

theorem parseDigits_toDigits (n : Nat) : parseDigits 10 0 (Nat.toDigits 10 n) = some n := by
  induction n using Nat.strong_induction_on with
  | _ n ih =>
    by_cases h : n < 10
    · rw [Nat.toDigits_of_lt_base h]
      have : ∀ k, k < 10 → parseDigits 10 0 [k.digitChar] = some k := by decide +kernel
      exact this n h
    · rw [Nat.toDigits_of_base_le (by decide) (by omega), parseDigits_append, ih (n / 10) (by omega)]
      have : ∀ k, k < 10 → digitValue k.digitChar = some k := by decide +kernel
      have h10 : n % 10 < 10 := Nat.mod_lt _ (by decide)
      simp only [Option.bind_some, parseDigits, this _ h10]
      rw [if_neg (by omega)]
      congr 1
      omega

theorem toDigits_head_ne {n : Nat} (h : 0 < n) : (Nat.toDigits 10 n).head? ≠ some '0' := by
  induction n using Nat.strong_induction_on with
  | _ n ih =>
    by_cases h1 : n < 10
    · rw [Nat.toDigits_of_lt_base h1]
      have : ∀ k, 0 < k → k < 10 → [k.digitChar].head? ≠ some '0' := by
        intro k h0 h1
        have : ∀ k, k < 10 → 0 < k → [k.digitChar].head? ≠ some '0' := by decide +kernel
        exact this k h1 h0
      exact this n h h1
    · rw [Nat.toDigits_of_base_le (by decide) (by omega)]
      have := ih (n / 10) (by omega) (by omega)
      rw [List.head?_append_of_ne_nil _ Nat.toDigits_ne_nil]
      exact this

theorem parseUnsigned_toDigits (n : Nat) : parseUnsigned (Nat.toDigits 10 n) = some n := by
  rcases Nat.eq_zero_or_pos n with rfl | h
  · decide
  · have h0 := toDigits_head_ne h
    have h1 := parseDigits_toDigits n
    generalize Nat.toDigits 10 n = s at h0 h1
    unfold parseUnsigned
    split
    · simp only [parseDigits, Option.some.injEq] at h1
      omega
    · exact absurd rfl h0
    · exact absurd rfl h0
    · exact h1

theorem toString_nonneg (n : Nat) : (toString (n : Int)).toList = Nat.toDigits 10 n := by
  show (Nat.repr n).toList = _
  exact Nat.toList_repr

theorem toString_neg (n : Nat) : (toString (-((n : Int) + 1))).toList = '-' :: Nat.toDigits 10 (n + 1) := by
  have : (-((n : Int) + 1)) = Int.negSucc n := by omega
  rw [this]
  show ("-" ++ Nat.repr (n + 1)).toList = _
  rw [String.toList_append, Nat.toList_repr]
  rfl

theorem toDigits_sign (n : Nat) : ∃ c s, Nat.toDigits 10 n = c :: s ∧ c ≠ '-' ∧ c ≠ '+' := by
  have hne : Nat.toDigits 10 n ≠ [] := Nat.toDigits_ne_nil
  have hd := @toDigits_digit n
  match h : Nat.toDigits 10 n, hne with
  | c :: s, _ =>
    refine ⟨c, s, rfl, ?_, ?_⟩
    · rintro rfl
      have := hd '-' (by rw [h]; exact List.mem_cons_self)
      exact absurd this (by decide)
    · rintro rfl
      have := hd '+' (by rw [h]; exact List.mem_cons_self)
      exact absurd this (by decide)

/-- A whole number written in decimal digits is read as that number if it has 64 bits, and is an error otherwise. -/
theorem C121_int (n : Int) :
    parseInt64 (toString n).toList = if -2 ^ 63 ≤ n ∧ n < 2 ^ 63 then some n else none := by
  rcases Int.lt_or_le n 0 with h | h
  · obtain ⟨m, rfl⟩ : ∃ m : Nat, n = -((m : Int) + 1) := ⟨(-n - 1).toNat, by omega⟩
    rw [toString_neg]
    show ((parseUnsigned _).bind _) = _
    rw [parseUnsigned_toDigits]
    show (if m + 1 ≤ 2 ^ 63 then some (-((m + 1 : Nat) : Int)) else none) = _
    by_cases hm : m + 1 ≤ 2 ^ 63
    · rw [if_pos hm, if_pos (by omega)]
      rfl
    · rw [if_neg hm, if_neg (by omega)]
  · obtain ⟨m, rfl⟩ : ∃ m : Nat, n = (m : Int) := ⟨n.toNat, by omega⟩
    rw [toString_nonneg]
    obtain ⟨c, s, hs, h1, h2⟩ := toDigits_sign m
    have hu := parseUnsigned_toDigits m
    rw [hs] at hu ⊢
    unfold parseInt64
    split
    · rename_i heq
      exact absurd (List.cons.inj heq).1 h2
    · rename_i heq
      exact absurd (List.cons.inj heq).1 h1
    · rw [hu]
      show (if m < 2 ^ 63 then some (m : Int) else none) = _
      by_cases hm : m < 2 ^ 63
      · rw [if_pos hm, if_pos (by omega)]
      · rw [if_neg hm, if_neg (by omega)]

theorem parseUnsigned_zero (s : List Char) (c : Char) (hc : c.toLower ≠ 'b' ∧ c.toLower ≠ 'o' ∧ c.toLower ≠ 'x') :
    parseUnsigned ('0' :: c :: s) = parseDigits 8 0 (c :: s) := by
  cases s with
  | nil => rfl
  | cons d t =>
    show (if _ then _ else _) = _
    rw [if_neg hc.1, if_neg hc.2.1, if_neg hc.2.2]

theorem parseDigits_octal (ds : List Nat) (hd : ∀ d ∈ ds, d < 10) (n : Nat) :
    parseDigits 8 n (ds.map Nat.digitChar) =
      if ∀ d ∈ ds, d < 8 then some (ds.foldl (fun a d => 8 * a + d) n) else none := by
  induction ds generalizing n with
  | nil => simp [parseDigits]
  | cons d ds ih =>
    have hv : ∀ k, k < 10 → digitValue k.digitChar = some k := by decide +kernel
    have h10 := hd d (by simp)
    rw [List.map_cons, parseDigits, hv d h10]
    simp only [List.mem_cons, forall_eq_or_imp, List.foldl_cons]
    by_cases h8 : d < 8
    · rw [if_neg (by omega), ih (fun e he => hd e (by simp [he])), mul_comm n 8]
      by_cases hr : ∀ e ∈ ds, e < 8
      · rw [if_pos hr, if_pos ⟨h8, hr⟩]
      · rw [if_neg hr, if_neg (fun h => hr h.2)]
    · rw [if_pos (by omega), if_neg (fun h => h8 h.1)]

/-- With a leading zero the digits are octal: column `010` is column 8, and `08` is an error. -/
theorem C121_octal (ds : List Nat) (hne : ds ≠ []) (hd : ∀ d ∈ ds, d < 10) :
    parseUnsigned ('0' :: ds.map Nat.digitChar) =
      if ∀ d ∈ ds, d < 8 then some (ds.foldl (fun a d => 8 * a + d) 0) else none := by
  rw [← parseDigits_octal ds hd 0]
  match ds, hne with
  | d :: ds, _ =>
    refine parseUnsigned_zero _ _ ?_
    have : ∀ k, k < 10 → k.digitChar.toLower ≠ 'b' ∧ k.digitChar.toLower ≠ 'o' ∧ k.digitChar.toLower ≠ 'x' := by
      decide +kernel
    exact this d (hd d (by simp))

example : parseInt64 "010".toList = some 8 ∧ parseInt64 "-08".toList = none ∧ parseInt64 "0x1F".toList = some 31 ∧
    parseInt64 "-1".toList = some (-1) ∧ parseInt64 "1.0".toList = none ∧
    parseInt64 "9223372036854775808".toList = none := by
  decide +kernel

/-! ## Parsing -/

theorem fits_accepts {F : FloatFormat} {k : OptKind} {v : List Char} (h : Fits F k v) : acceptsText F k v = true := by
  cases k with
  | text => rfl
  | int =>
    obtain ⟨n, h1, h2, rfl⟩ := h
    show (parseInt64 _).isSome = true
    rw [C121_int, if_pos ⟨h1, h2⟩]
    rfl
  | float =>
    obtain ⟨x, hx⟩ := h
    show (parseFloatFl F _).isSome = true
    rw [hx]
    rfl
  | bool => exact absurd h id

/-- The options have different names, which can be written after two dashes. -/
structure GoodNames (opts : List Opt) : Prop where
  nodup : (opts.map Opt.name).Nodup
  ne : ∀ o ∈ opts, o.name ≠ []
  head : ∀ o ∈ opts, o.name.head? ≠ some '-'
  eq : ∀ o ∈ opts, '=' ∉ o.name

theorem goodNames_bnb : GoodNames bnbOpts := ⟨by decide, by decide, by decide, by decide⟩
theorem goodNames_sa : GoodNames saOpts := ⟨by decide, by decide, by decide, by decide⟩
theorem goodNames_lasso : GoodNames lassoOpts := ⟨by decide, by decide, by decide, by decide⟩

theorem find_name {opts : List Opt} (h : (opts.map Opt.name).Nodup) {o : Opt} (ho : o ∈ opts) :
    (opts.find? fun p => p.name = o.name) = some o := by
  induction opts with
  | nil => exact absurd ho List.not_mem_nil
  | cons p opts ih =>
    rw [List.map_cons, List.nodup_cons] at h
    rw [List.find?_cons]
    rcases List.mem_cons.1 ho with rfl | ho'
    · simp
    · have hne : p.name ≠ o.name := fun e => h.1 (e ▸ List.mem_map_of_mem ho')
      simp only [hne, decide_false]
      exact ih h.2 ho'

theorem splitEq_none {s : List Char} (h : '=' ∉ s) : splitEq s = (s, none) := by
  induction s with
  | nil => rfl
  | cons c s ih =>
    rw [List.mem_cons, not_or] at h
    rw [splitEq, if_neg (fun e => h.1 e.symm), ih h.2]

theorem splitEq_append {s : List Char} (h : '=' ∉ s) (t : List Char) : splitEq (s ++ '=' :: t) = (s, some t) := by
  induction s with
  | nil => rfl
  | cons c s ih =>
    rw [List.mem_cons, not_or] at h
    rw [List.cons_append, splitEq, if_neg (fun e => h.1 e.symm), ih h.2]

/-- The state after a piece. -/
def afterPiece (p : Piece) (st : OptState) : OptState :=
  match p.setting with
  | none => st
  | some (name, value) => fun n => if n = name then value else st n

theorem parseArgs_long {F : FloatFormat} {opts : List Opt} {c : Char} {name : List Char} {ws : List (List Char)}
    {st : OptState} :
    parseArgs F opts none (('-' :: '-' :: c :: name) :: ws) st =
      match (generalizing := false) longWord F opts (c :: name) st with
      | .error => none
      | .needs o => parseArgs F opts (some o) ws st
      | .set st' => parseArgs F opts none ws st' := rfl

theorem parseArgs_piece {F : FloatFormat} {opts : List Opt} (hg : GoodNames opts) {p : Piece} (hp : p.Fine F opts)
    (ws : List (List Char)) (st : OptState) :
    parseArgs F opts none (p.words ++ ws) st = parseArgs F opts none ws (afterPiece p st) := by
  cases p with
  | word w =>
    have hw : w.head? ≠ some '-' := hp
    match w, hw with
    | [], _ => rfl
    | c :: s, hw =>
      have hc : c ≠ '-' := fun e => hw (by rw [e]; rfl)
      show parseArgs F opts none ((c :: s) :: ws) st = parseArgs F opts none ws st
      rw [parseArgs]
      all_goals
        intros
        rename_i heq
        exact hc (List.cons.inj heq).1
  | apart name value =>
    obtain ⟨o, ho, rfl, hf⟩ := hp
    have hne := hg.ne o ho
    have hh := hg.head o ho
    have he := hg.eq o ho
    have hfind := find_name hg.nodup ho
    have hb : o.kind ≠ .bool := fun e => by rw [e] at hf; exact hf
    have hl : longWord F opts o.name st = .needs o := by
      unfold longWord
      rw [if_neg, splitEq_none he]
      · dsimp only
        rw [hfind]
        dsimp only
        rw [if_neg hb]
      · rintro (h | h | h)
        · exact hne h
        · exact hh h
        · match hn : o.name, h with
          | c :: s, h =>
            rw [hn] at he
            exact he (by rw [Option.some.inj h]; exact List.mem_cons_self)
    match hn : o.name, hne with
    | c :: s, _ =>
      rw [hn] at hl
      show parseArgs F opts none (('-' :: '-' :: c :: s) :: value :: ws) st = _
      rw [parseArgs_long, hl]
      dsimp only
      rw [parseArgs, setOpt, if_pos (fits_accepts hf), Option.bind_some]
      rw [hn]
      rfl
  | joined name value =>
    obtain ⟨o, ho, rfl, hf⟩ := hp
    have hne := hg.ne o ho
    have hh := hg.head o ho
    have he := hg.eq o ho
    have hfind := find_name hg.nodup ho
    match hn : o.name, hne with
    | c :: s, _ =>
      have hl : longWord F opts (c :: s ++ '=' :: value) st = .set (afterPiece (.joined o.name value) st) := by
        unfold longWord
        rw [if_neg, ← hn, splitEq_append he]
        · dsimp only
          rw [hfind]
          dsimp only
          rw [setOpt, if_pos (fits_accepts hf)]
          rfl
        · rw [hn] at hh he
          rintro (h | h | h)
          · exact absurd h (by simp)
          · exact hh h
          · exact he (by rw [Option.some.inj h]; exact List.mem_cons_self)
      show parseArgs F opts none (('-' :: '-' :: c :: (s ++ '=' :: value)) :: ws) st = _
      rw [parseArgs_long]
      rw [List.cons_append] at hl
      rw [hl, hn]

theorem parseArgs_pieces {F : FloatFormat} {opts : List Opt} (hg : GoodNames opts) {pieces : List Piece}
    (hp : ∀ p ∈ pieces, p.Fine F opts) (ws : List (List Char)) (st : OptState) :
    parseArgs F opts none (pieces.flatMap Piece.words ++ ws) st =
      parseArgs F opts none ws (pieces.foldl (fun st p => afterPiece p st) st) := by
  induction pieces generalizing st with
  | nil => rfl
  | cons p pieces ih =>
    rw [List.flatMap_cons, List.append_assoc, parseArgs_piece hg (hp p List.mem_cons_self),
      ih fun q hq => hp q (List.mem_cons_of_mem _ hq)]
    rfl

theorem foldl_afterPiece (pieces : List Piece) (st : OptState) (name : List Char) :
    pieces.foldl (fun st p => afterPiece p st) st name = (lastGiven name pieces).getD (st name) := by
  induction pieces using List.reverseRecOn with
  | nil => rfl
  | append_singleton pieces p ih =>
    rw [List.foldl_append, List.foldl_cons, List.foldl_nil]
    unfold afterPiece lastGiven
    rw [List.filterMap_append, List.filter_append]
    cases hs : p.setting with
    | none =>
      simp only [List.filterMap_cons, hs, List.filterMap_nil, List.filter_nil, List.append_nil]
      exact ih
    | some q =>
      obtain ⟨n, v⟩ := q
      simp only [List.filterMap_cons, hs, List.filterMap_nil]
      by_cases hn : name = n
      · subst hn
        simp
      · have : ¬ n = name := fun e => hn e.symm
        simp only [List.filter_cons, this, decide_false, Bool.false_eq_true, if_false, List.filter_nil,
          List.append_nil, if_neg hn]
        exact ih

theorem help_not_given {F : FloatFormat} {opts : List Opt} (hn : (opts.map Opt.name).Nodup) {o : Opt} (ho : o ∈ opts)
    (hb : o.kind = .bool) {pieces : List Piece} (hp : ∀ p ∈ pieces, p.Fine F opts) :
    lastGiven o.name pieces = none := by
  unfold lastGiven
  rw [Option.map_eq_none_iff, List.getLast?_eq_none_iff, List.filter_eq_nil_iff]
  intro q hq
  obtain ⟨p, hpm, hs⟩ := List.mem_filterMap.1 hq
  have hfine := hp p hpm
  have key : ∀ name value, (∃ o' ∈ opts, o'.name = name ∧ Fits F o'.kind value) → name ≠ o.name := by
    rintro name value ⟨o', ho', rfl, hf⟩ e
    have h1 := find_name hn ho'
    have h2 := find_name hn ho
    rw [e, h2] at h1
    rw [← Option.some.inj h1, hb] at hf
    exact hf
  cases p with
  | word w => exact absurd hs (by simp [Piece.setting])
  | apart name value =>
    rw [← Option.some.inj hs]
    simpa using key name value hfine
  | joined name value =>
    rw [← Option.some.inj hs]
    simpa using key name value hfine

theorem two_dashes {F : FloatFormat} {opts : List Opt} (hg : GoodNames opts) {o : Opt} (ho : o ∈ opts)
    (hname : o.name = "help".toList) (hb : o.kind = .bool) (hd : o.dflt = "false".toList) {pieces : List Piece}
    (hp : ∀ p ∈ pieces, p.Fine F opts) :
    ∃ st, runCommand F opts (pieces.flatMap Piece.words) = .work st ∧
      ∀ q ∈ opts, st q.name = (lastGiven q.name pieces).getD q.dflt := by
  have h1 := parseArgs_pieces hg hp [] (optDefaults opts)
  rw [List.append_nil] at h1
  have hst : ∀ q ∈ opts, pieces.foldl (fun st p => afterPiece p st) (optDefaults opts) q.name =
      (lastGiven q.name pieces).getD q.dflt := by
    intro q hq
    rw [foldl_afterPiece]
    congr 1
    unfold optDefaults
    rw [find_name hg.nodup hq]
  refine ⟨_, ?_, hst⟩
  unfold runCommand
  rw [h1]
  show (if parseBool (_) = some true then CommandRun.help else _) = _
  rw [if_neg]
  rw [← hname, hst o ho, help_not_given hg.nodup ho hb hp, hd]
  decide

/-- **C121** (what holds).  Options with two dashes, in any order and with other words in between: the command does its
work, every option has the last value given for it, and its default if none is given. -/
theorem C121_two_dashes_partial (F : FloatFormat) (opts : List Opt) (ho : opts ∈ [bnbOpts, saOpts, lassoOpts])
    (pieces : List Piece) (hp : ∀ p ∈ pieces, p.Fine F opts) :
    ∃ st, runCommand F opts (pieces.flatMap Piece.words) = .work st ∧
      ∀ o ∈ opts, st o.name = (lastGiven o.name pieces).getD o.dflt := by
  have h3 : opts = bnbOpts ∨ opts = saOpts ∨ opts = lassoOpts := by simpa using ho
  rcases h3 with rfl | rfl | rfl
  · exact two_dashes goodNames_bnb (o := ⟨"help".toList, some 'h', .bool, "false".toList⟩) (by decide) rfl rfl rfl hp
  · exact two_dashes goodNames_sa (o := ⟨"help".toList, some 'h', .bool, "false".toList⟩) (by decide) rfl rfl rfl hp
  · exact two_dashes goodNames_lasso (o := ⟨"help".toList, some 'h', .bool, "false".toList⟩) (by decide) rfl rfl rfl hp

/-- `goselect bnb mydata --target -2 --csv=old.csv --csv=new=1.csv --maxqueue 500` -/
def someLine : List Piece :=
  [.word "mydata".toList, .apart "target".toList "-2".toList, .joined "csv".toList "old.csv".toList,
    .joined "csv".toList "new=1.csv".toList, .apart "maxqueue".toList "500".toList]

example (F : FloatFormat) : (∀ p ∈ someLine, p.Fine F bnbOpts) ∧
    someLine.flatMap Piece.words = ["mydata", "--target", "-2", "--csv=old.csv", "--csv=new=1.csv", "--maxqueue",
      "500"].map String.toList ∧
    lastGiven "csv".toList someLine = some "new=1.csv".toList ∧ lastGiven "target".toList someLine = some "-2".toList ∧
    lastGiven "out".toList someLine = none := by
  refine ⟨?_, by decide, by decide, by decide, by decide⟩
  intro p hp
  simp only [someLine, List.mem_cons, List.not_mem_nil, or_false] at hp
  rcases hp with rfl | rfl | rfl | rfl | rfl
  · show "mydata".toList.head? ≠ some '-'
    decide
  · exact ⟨⟨"target".toList, none, .int, "-1".toList⟩, by decide, rfl, -2, by decide, by decide, by decide⟩
  · exact ⟨⟨"csv".toList, none, .text, []⟩, by decide, rfl, trivial⟩
  · exact ⟨⟨"csv".toList, none, .text, []⟩, by decide, rfl, trivial⟩
  · exact ⟨⟨"maxqueue".toList, none, .int, "10000000".toList⟩, by decide, rfl, 500, by decide, by decide, by decide⟩

theorem parseArgs_short {F : FloatFormat} {opts : List Opt} {c : Char} (hc : c ≠ '-') {s : List Char}
    {ws : List (List Char)} {st : OptState} :
    parseArgs F opts none (('-' :: c :: s) :: ws) st =
      match (generalizing := false) shortWord F opts (c :: s) st with
      | .error => none
      | .needs o => parseArgs F opts (some o) ws st
      | .set st' => parseArgs F opts none ws st' := by
  rw [parseArgs]
  · cases shortWord F opts (c :: s) st <;> rfl
  all_goals
    intros
    simp_all

theorem goodNames_of_mem {opts : List Opt} (ho : opts ∈ [bnbOpts, saOpts, lassoOpts]) : GoodNames opts := by
  have h3 : opts = bnbOpts ∨ opts = saOpts ∨ opts = lassoOpts := by simpa using ho
  rcases h3 with rfl | rfl | rfl
  · exact goodNames_bnb
  · exact goodNames_sa
  · exact goodNames_lasso

theorem run_error {F : FloatFormat} {opts : List Opt} {words : List (List Char)}
    (h : parseArgs F opts none words (optDefaults opts) = none) : runCommand F opts words = .error := by
  unfold runCommand
  rw [h]

theorem short_only_h {opts : List Opt} (ho : opts ∈ [bnbOpts, saOpts, lassoOpts]) {c : Char} (hc : c ≠ 'h') :
    (opts.find? fun o => o.short = some c) = none := by
  have h3 : opts = bnbOpts ∨ opts = saOpts ∨ opts = lassoOpts := by simpa using ho
  have hc' : ¬ ('h' = c) := fun e => hc e.symm
  rcases h3 with rfl | rfl | rfl <;>
    simp [bnbOpts, saOpts, lassoOpts, commonOpts, hc']

/-- A word with one dash makes the command line an error, unless its first letter is `h` or it begins with `-test.`. -/
theorem C121_one_dash (F : FloatFormat) (opts : List Opt) (ho : opts ∈ [bnbOpts, saOpts, lassoOpts])
    (pieces : List Piece) (hp : ∀ p ∈ pieces, p.Fine F opts) (c : Char) (hd : c ≠ '-') (hc : c ≠ 'h') (s : List Char)
    (ht : ¬ "test.".toList <+: c :: s) (ws : List (List Char)) :
    runCommand F opts (pieces.flatMap Piece.words ++ ('-' :: c :: s) :: ws) = .error := by
  apply run_error
  rw [parseArgs_pieces (goodNames_of_mem ho) hp, parseArgs_short hd, shortWord, if_neg ht, short_only_h ho hc]

/-- **C121** (refuted).  The command lines of the help texts (cmd/bnb.go:38, cmd/sasearch.go:39) are errors, whatever
the files, the column and the number of sweeps are. -/
theorem C121_refuted (F : FloatFormat) (file column out sweeps : List Char) :
    runCommand F bnbOpts ["-csv".toList, file, "-target".toList, column, "-out".toList, out] = .error ∧
      runCommand F saOpts ["-csv".toList, file, "-target".toList, column, "-out".toList, out, "-sweeps".toList, sweeps]
        = .error :=
  ⟨C121_one_dash F bnbOpts (by simp) [] (by simp) 'c' (by decide) (by decide) "sv".toList (by decide) _,
    C121_one_dash F saOpts (by simp) [] (by simp) 'c' (by decide) (by decide) "sv".toList (by decide) _⟩

/-- The same lines with two dashes give the command the files, the column and the number of sweeps. -/
theorem C121_documented_partial (F : FloatFormat) (file out : List Char) (column sweeps : Int)
    (hc : -2 ^ 63 ≤ column ∧ column < 2 ^ 63) (hs : -2 ^ 63 ≤ sweeps ∧ sweeps < 2 ^ 63) :
    (∃ st, runCommand F bnbOpts
        ["--csv".toList, file, "--target".toList, (toString column).toList, "--out".toList, out] = .work st ∧
      ∀ zero, (bnbArgs (F := F) zero st).csv = file ∧ (bnbArgs zero st).target = column ∧ (bnbArgs zero st).out = out ∧
        (bnbArgs zero st).maxQueue = 10000000) ∧
    (∃ st, runCommand F saOpts
        ["--csv".toList, file, "--target".toList, (toString column).toList, "--out".toList, out, "--sweeps".toList,
          (toString sweeps).toList] = .work st ∧
      saArgs st = ⟨file, column, out, sweeps⟩) := by
  constructor
  · obtain ⟨st, h1, h2⟩ := C121_two_dashes_partial F bnbOpts (by simp)
      [.apart "csv".toList file, .apart "target".toList (toString column).toList, .apart "out".toList out] (by
        intro p hp
        simp only [List.mem_cons, List.not_mem_nil, or_false] at hp
        rcases hp with rfl | rfl | rfl
        · exact ⟨⟨"csv".toList, none, .text, []⟩, by decide, rfl, trivial⟩
        · exact ⟨⟨"target".toList, none, .int, "-1".toList⟩, by decide, rfl, column, hc.1, hc.2, rfl⟩
        · exact ⟨⟨"out".toList, none, .text, "bnbSearch.json".toList⟩, by decide, rfl, trivial⟩)
    refine ⟨st, h1, fun zero => ?_⟩
    have e1 : st "csv".toList = file := h2 ⟨"csv".toList, none, .text, []⟩ (by decide)
    have e2 : st "target".toList = (toString column).toList :=
      h2 ⟨"target".toList, none, .int, "-1".toList⟩ (by decide)
    have e3 : st "out".toList = out := h2 ⟨"out".toList, none, .text, "bnbSearch.json".toList⟩ (by decide)
    have e4 : st "maxqueue".toList = "10000000".toList :=
      h2 ⟨"maxqueue".toList, none, .int, "10000000".toList⟩ (by decide)
    refine ⟨e1, ?_, e3, ?_⟩
    · show (parseInt64 (st "target".toList)).getD 0 = column
      rw [e2, C121_int, if_pos hc]
      rfl
    · show (parseInt64 (st "maxqueue".toList)).getD 0 = 10000000
      rw [e4]
      decide +kernel
  · obtain ⟨st, h1, h2⟩ := C121_two_dashes_partial F saOpts (by simp)
      [.apart "csv".toList file, .apart "target".toList (toString column).toList, .apart "out".toList out,
        .apart "sweeps".toList (toString sweeps).toList] (by
        intro p hp
        simp only [List.mem_cons, List.not_mem_nil, or_false] at hp
        rcases hp with rfl | rfl | rfl | rfl
        · exact ⟨⟨"csv".toList, none, .text, []⟩, by decide, rfl, trivial⟩
        · exact ⟨⟨"target".toList, none, .int, "-1".toList⟩, by decide, rfl, column, hc.1, hc.2, rfl⟩
        · exact ⟨⟨"out".toList, none, .text, "saSearch.json".toList⟩, by decide, rfl, trivial⟩
        · exact ⟨⟨"sweeps".toList, none, .int, "100".toList⟩, by decide, rfl, sweeps, hs.1, hs.2, rfl⟩)
    refine ⟨st, h1, ?_⟩
    have e1 : st "csv".toList = file := h2 ⟨"csv".toList, none, .text, []⟩ (by decide)
    have e2 : st "target".toList = (toString column).toList :=
      h2 ⟨"target".toList, none, .int, "-1".toList⟩ (by decide)
    have e3 : st "out".toList = out := h2 ⟨"out".toList, none, .text, "saSearch.json".toList⟩ (by decide)
    have e4 : st "sweeps".toList = (toString sweeps).toList :=
      h2 ⟨"sweeps".toList, none, .int, "100".toList⟩ (by decide)
    show SaArgs.mk (st "csv".toList) ((parseInt64 (st "target".toList)).getD 0) (st "out".toList)
      ((parseInt64 (st "sweeps".toList)).getD 0) = _
    rw [e1, e2, e3, e4, C121_int, if_pos hc, C121_int, if_pos hs]
    rfl

/-- A name that is not an option is an error, with a value or without. -/
theorem C121_unknown (F : FloatFormat) (opts : List Opt) (ho : opts ∈ [bnbOpts, saOpts, lassoOpts])
    (pieces : List Piece) (hp : ∀ p ∈ pieces, p.Fine F opts) (name : List Char) (hn : ∀ o ∈ opts, o.name ≠ name)
    (hne : name ≠ []) (he : '=' ∉ name) (value : List Char) (ws : List (List Char)) :
    runCommand F opts (pieces.flatMap Piece.words ++ ('-' :: '-' :: name) :: ws) = .error ∧
      runCommand F opts (pieces.flatMap Piece.words ++ ('-' :: '-' :: name ++ '=' :: value) :: ws) = .error := by
  have hf : (opts.find? fun o => o.name = name) = none := by
    rw [List.find?_eq_none]
    intro o h
    simpa using hn o h
  obtain ⟨c, s, rfl⟩ := List.exists_cons_of_ne_nil hne
  constructor
  · apply run_error
    rw [parseArgs_pieces (goodNames_of_mem ho) hp, parseArgs_long]
    have : ∀ st, longWord F opts (c :: s) st = .error := by
      intro st
      unfold longWord
      split
      · rfl
      · rw [splitEq_none he]
        dsimp only
        rw [hf]
    rw [this]
  · apply run_error
    rw [parseArgs_pieces (goodNames_of_mem ho) hp]
    show parseArgs F opts none (('-' :: '-' :: c :: (s ++ '=' :: value)) :: ws) _ = _
    rw [parseArgs_long]
    have : ∀ st, longWord F opts (c :: s ++ '=' :: value) st = .error := by
      intro st
      unfold longWord
      split
      · rfl
      · rw [splitEq_append he]
        dsimp only
        rw [hf]
    rw [List.cons_append] at this
    rw [this]

/-- A value that is not a number of the kind of the option is an error, and so is a missing value. -/
theorem C121_invalid (F : FloatFormat) (opts : List Opt) (ho : opts ∈ [bnbOpts, saOpts, lassoOpts])
    (pieces : List Piece) (hp : ∀ p ∈ pieces, p.Fine F opts) (o : Opt) (hm : o ∈ opts) (hb : o.kind ≠ .bool)
    (ws : List (List Char)) :
    (∀ value, (o.kind = .int ∧ parseInt64 value = none ∨
        o.kind = .float ∧ parseFloatFl F (String.ofList value) = none) →
      runCommand F opts (pieces.flatMap Piece.words ++ ('-' :: '-' :: o.name) :: value :: ws) = .error ∧
        runCommand F opts (pieces.flatMap Piece.words ++ ('-' :: '-' :: o.name ++ '=' :: value) :: ws) = .error) ∧
      runCommand F opts (pieces.flatMap Piece.words ++ ['-' :: '-' :: o.name]) = .error := by
  have hg := goodNames_of_mem ho
  have hne := hg.ne o hm
  have hh := hg.head o hm
  have he := hg.eq o hm
  have hfind := find_name hg.nodup hm
  have hhe : o.name.head? ≠ some '=' := by
    intro h
    match hn : o.name, h with
    | c :: s, h =>
      rw [hn] at he
      exact he (by rw [Option.some.inj h]; exact List.mem_cons_self)
  have hl : ∀ st, longWord F opts o.name st = .needs o := by
    intro st
    unfold longWord
    rw [if_neg (by rintro (h | h | h); exacts [hne h, hh h, hhe h]), splitEq_none he]
    dsimp only
    rw [hfind]
    dsimp only
    rw [if_neg hb]
  refine ⟨fun value hv => ?_, ?_⟩
  · have hacc : acceptsText F o.kind value = false := by
      rcases hv with ⟨hk, hv⟩ | ⟨hk, hv⟩
      · rw [hk]
        show (parseInt64 value).isSome = false
        rw [hv]
        rfl
      · rw [hk]
        show (parseFloatFl F _).isSome = false
        rw [hv]
        rfl
    have hset : ∀ st, setOpt F o value st = none := by
      intro st
      rw [setOpt, hacc]
      rfl
    constructor
    · apply run_error
      rw [parseArgs_pieces hg hp]
      match hn : o.name, hne with
      | c :: s, _ =>
        rw [hn] at hl
        rw [parseArgs_long, hl]
        dsimp only
        rw [parseArgs, hset]
        rfl
    · apply run_error
      rw [parseArgs_pieces hg hp]
      have hl2 : ∀ st, longWord F opts (o.name ++ '=' :: value) st = .error := by
        intro st
        unfold longWord
        rw [splitEq_append he]
        split
        · rfl
        · dsimp only
          rw [hfind]
          dsimp only
          rw [hset]
          rfl
      match hn : o.name, hne with
      | c :: s, _ =>
        rw [hn, List.cons_append] at hl2
        show parseArgs F opts none (('-' :: '-' :: c :: (s ++ '=' :: value)) :: ws) _ = _
        rw [parseArgs_long, hl2]
  · apply run_error
    rw [parseArgs_pieces hg hp]
    match hn : o.name, hne with
    | c :: s, _ =>
      rw [hn] at hl
      rw [parseArgs_long, hl]
      rfl

example : parseInt64 "last".toList = none ∧ parseInt64 "-1.0".toList = none ∧ parseInt64 [] = none := by
  decide

/-- The words after `--` are not options. -/
theorem C121_end (F : FloatFormat) (opts : List Opt) (ho : opts ∈ [bnbOpts, saOpts, lassoOpts])
    (pieces : List Piece) (hp : ∀ p ∈ pieces, p.Fine F opts) (ws : List (List Char)) :
    runCommand F opts (pieces.flatMap Piece.words ++ "--".toList :: ws) =
      runCommand F opts (pieces.flatMap Piece.words) := by
  have h1 := parseArgs_pieces (goodNames_of_mem ho) hp [] (optDefaults opts)
  rw [List.append_nil] at h1
  unfold runCommand
  rw [parseArgs_pieces (goodNames_of_mem ho) hp, h1]
  rfl

/-- `--help` or `-h` among options with two dashes: the command prints its help text and does no work. -/
theorem C121_help (F : FloatFormat) (opts : List Opt) (ho : opts ∈ [bnbOpts, saOpts, lassoOpts])
    (before after : List Piece) (hb : ∀ p ∈ before, p.Fine F opts) (ha : ∀ p ∈ after, p.Fine F opts)
    (w : List Char) (hw : w = "--help".toList ∨ w = "-h".toList) :
    runCommand F opts (before.flatMap Piece.words ++ w :: after.flatMap Piece.words) = .help := by
  have hg := goodNames_of_mem ho
  have hm : (⟨"help".toList, some 'h', .bool, "false".toList⟩ : Opt) ∈ opts := by
    have h3 : opts = bnbOpts ∨ opts = saOpts ∨ opts = lassoOpts := by simpa using ho
    rcases h3 with rfl | rfl | rfl <;> decide
  have hshort : (opts.find? fun o => o.short = some 'h') =
      some ⟨"help".toList, some 'h', .bool, "false".toList⟩ := by
    have h3 : opts = bnbOpts ∨ opts = saOpts ∨ opts = lassoOpts := by simpa using ho
    rcases h3 with rfl | rfl | rfl <;> decide
  have hstep : ∀ st ws, parseArgs F opts none (w :: ws) st =
      parseArgs F opts none ws (fun n => if n = "help".toList then "true".toList else st n) := by
    intro st ws
    have hset : setOpt F ⟨"help".toList, some 'h', .bool, "false".toList⟩ "true".toList st =
        some (fun n => if n = "help".toList then "true".toList else st n) := by
      have : acceptsText F .bool "true".toList = true := by
        show (parseBool "true".toList).isSome = true
        decide
      rw [setOpt, if_pos this]
    rcases hw with rfl | rfl
    · show parseArgs F opts none (('-' :: '-' :: 'h' :: "elp".toList) :: ws) st = _
      rw [parseArgs_long]
      have hl : longWord F opts ('h' :: "elp".toList) st =
          .set (fun n => if n = "help".toList then "true".toList else st n) := by
        unfold longWord
        rw [if_neg (by decide)]
        have hs : splitEq ('h' :: "elp".toList) = ("help".toList, none) := by decide
        have hf := find_name hg.nodup hm
        rw [hs]
        dsimp only at hf ⊢
        rw [hf]
        dsimp only
        rw [if_pos rfl, hset]
        rfl
      rw [hl]
    · show parseArgs F opts none (('-' :: 'h' :: []) :: ws) st = _
      rw [parseArgs_short (by decide)]
      have hl : shortWord F opts ['h'] st =
          .set (fun n => if n = "help".toList then "true".toList else st n) := by
        rw [shortWord, if_neg (by decide), hshort]
        dsimp only
        rw [if_neg (by decide), if_pos rfl, hset]
        rfl
      rw [hl]
  unfold runCommand
  rw [parseArgs_pieces hg hb, hstep]
  have h1 := parseArgs_pieces hg ha [] (fun n => if n = "help".toList then "true".toList else
    before.foldl (fun st p => afterPiece p st) (optDefaults opts) n)
  rw [List.append_nil] at h1
  rw [h1]
  show (if parseBool (_) = some true then CommandRun.help else _) = _
  rw [if_pos]
  rw [foldl_afterPiece, help_not_given hg.nodup hm rfl ha, if_pos rfl]
  decide

end GoSelect
