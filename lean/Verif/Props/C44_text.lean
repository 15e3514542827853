import Verif.Proofs.CsvText
import Verif.Proofs.FloatText
import Verif.Props.C103

/-!
C44 and C103 without contracts on the text formats: `encoding/csv`, `%f` and `ParseFloat` as modelled in
`Model.CsvText` and `Model.FloatText`.
-/

namespace GoSelect

open Spec

/-! ### Specification -/

/-- Conversion of decimal numbers: magnitudes are not negative, and a decimal number that is within half a unit of the
sixth decimal of some number of the format is converted to a closest number of the format. -/
structure Spec.ConvertsToNearest (F : FloatFormat) : Prop where
  nonneg : ∀ q, F.rep q → 0 ≤ q
  near : ∀ z d, 0 ≤ z → F.rep d → |z - d| ≤ 1 / 2 / 10 ^ 6 →
    ∃ e, F.round z = some e ∧ ∀ d', F.rep d' → |z - e.1| ≤ |z - d'|

/-- The number read for a number that was written. -/
def round6 (F : FloatFormat) (x : FinFloat F) : FinFloat F :=
  match F.round ((roundHalfEven (x.mag.1 * 10 ^ 6) : ℚ) / 10 ^ 6) with
  | some e => ⟨x.neg, e⟩
  | none => x

/-- Records that are written and read without change: no empty record, no record with a single empty field, no `\r\n`
in a field, equal numbers of fields. -/
def CleanRecords (rs : List (List String)) : Prop :=
  (∀ r ∈ rs, r ≠ [] ∧ r ≠ [""] ∧ ∀ f ∈ r, hasCrLf f.toList = false) ∧ ∀ r ∈ rs, ∀ r' ∈ rs, r.length = r'.length

/-! ### The contracts -/

theorem csvContract : CsvContract csvWrite csvRead CleanRecords := by
  refine ⟨fun rs h => ?_⟩
  unfold csvRead csvWrite
  rw [String.toList_ofList, csvText_normal fun r hr => (h.1 r hr).2.2,
    csvRecords_text fun r hr => ⟨(h.1 r hr).1, (h.1 r hr).2.1⟩]
  cases rs with
  | nil => rfl
  | cons r rs =>
    simp only
    rw [if_pos]
    simp only [List.all_eq_true, beq_iff_eq]
    exact fun r' hr' => h.2 r' (by simp [hr']) r (by simp)

theorem decimals_near {F : FloatFormat} (hF : ConvertsToNearest F) {q : ℚ} (hq : F.rep q) :
    |(roundHalfEven (q * 10 ^ 6) : ℚ) / 10 ^ 6 - q| ≤ 1 / 2 / 10 ^ 6 := by
  have h0 : 0 ≤ q * 10 ^ 6 := mul_nonneg (hF.nonneg q hq) (by norm_num)
  have : |q * 10 ^ 6 - roundHalfEven (q * 10 ^ 6)| ≤ 1 / 2 := by
    rcases roundHalfEven_spec _ h0 with h | h; exacts [h.le, h.1.le]
  rw [show (roundHalfEven (q * 10 ^ 6) : ℚ) / 10 ^ 6 - q = -((q * 10 ^ 6 - roundHalfEven (q * 10 ^ 6)) / 10 ^ 6) by ring,
    abs_neg, abs_div, abs_of_pos (by norm_num : (0 : ℚ) < 10 ^ 6)]
  exact div_le_div_of_nonneg_right this (by norm_num)

theorem round6_spec {F : FloatFormat} (hF : ConvertsToNearest F) (x : FinFloat F) :
    ∃ e, F.round ((roundHalfEven (x.mag.1 * 10 ^ 6) : ℚ) / 10 ^ 6) = some e ∧ round6 F x = ⟨x.neg, e⟩ ∧
      |(roundHalfEven (x.mag.1 * 10 ^ 6) : ℚ) / 10 ^ 6 - e.1| ≤
        |(roundHalfEven (x.mag.1 * 10 ^ 6) : ℚ) / 10 ^ 6 - x.mag.1| := by
  obtain ⟨e, h1, h2⟩ := hF.near _ x.mag.1 (by positivity) x.mag.2 (decimals_near hF x.mag.2)
  exact ⟨e, h1, by unfold round6; rw [h1], h2 _ x.mag.2⟩

/-- `%f` and `ParseFloat`. -/
theorem fmtContract {F : FloatFormat} (hF : ConvertsToNearest F) :
    FmtContract (formatF (F := F)) (parseFloat F) (round6 F) := by
  constructor
  · intro x
    obtain ⟨e, h1, h2, -⟩ := round6_spec hF x
    rw [parseFloat_formatF, h1, h2]
    rfl
  · intro x
    obtain ⟨e, h1, h2, h3⟩ := round6_spec hF x
    rw [h2]
    have hx : 0 ≤ x.mag.1 * 10 ^ 6 := mul_nonneg (hF.nonneg _ x.mag.2) (by norm_num)
    have he : 0 ≤ e.1 * 10 ^ 6 := mul_nonneg (hF.nonneg _ e.2) (by norm_num)
    have key : roundHalfEven (e.1 * 10 ^ 6) = roundHalfEven (x.mag.1 * 10 ^ 6) := by
      apply roundHalfEven_eq he
      set n := roundHalfEven (x.mag.1 * 10 ^ 6)
      have h3' : |e.1 * 10 ^ 6 - n| ≤ |x.mag.1 * 10 ^ 6 - n| := by
        have e1 : ∀ q : ℚ, |q * 10 ^ 6 - n| = |(n : ℚ) / 10 ^ 6 - q| * 10 ^ 6 := fun q => by
          rw [show q * 10 ^ 6 - n = -((n : ℚ) / 10 ^ 6 - q) * 10 ^ 6 by ring, abs_mul, abs_neg,
            abs_of_pos (by norm_num : (0 : ℚ) < 10 ^ 6)]
        rw [e1, e1]
        exact mul_le_mul_of_nonneg_right h3 (by norm_num)
      rcases roundHalfEven_spec _ hx with h | ⟨h, hev⟩
      · exact Or.inl (h3'.trans_lt h)
      · rcases h3'.lt_or_eq with h' | h'
        · exact Or.inl (h'.trans_eq h)
        · exact Or.inr ⟨h'.trans h, hev⟩
    unfold formatF
    simp only [key]

theorem formatF_clean {F : FloatFormat} (x : FinFloat F) : ∀ c ∈ (formatF x).toList, c ≠ '\r' := by
  unfold formatF
  rw [String.toList_ofList]
  intro c hc
  simp only [List.mem_append, List.mem_cons] at hc
  rcases hc with (hc | hc) | hc | hc
  · split at hc
    · simp at hc; subst hc; decide
    · simp at hc
  · rintro rfl
    exact absurd (toDigits_digit _ hc) (by decide)
  · subst hc; decide
  · rintro rfl
    exact absurd (padDigits_digit _ hc) (by decide)

theorem hasCrLf_of_no_cr {f : List Char} (h : ∀ c ∈ f, c ≠ '\r') : hasCrLf f = false := by
  induction f with
  | nil => rfl
  | cons c t ih =>
    rw [hasCrLf_cons, ih fun c hc => h c (by simp [hc])]
    simp [h c (by simp)]

/-- The records of a data set are clean if its names are. -/
theorem saveRecords_clean {F : FloatFormat} {d : Dataset (FinFloat F)} (h : WellFormed d) (hnc : 0 < d.X.nc)
    (hnames : ∀ n ∈ d.names, hasCrLf n.toList = false) (rs : List (List String))
    (hrs : saveRecords formatF d = some rs) : CleanRecords rs := by
  rw [saveRecords_eq _ d h] at hrs
  obtain rfl := Option.some.inj hrs
  have hlen : ∀ r ∈ d.names :: (List.range d.X.nr).map (fun i =>
      (List.range (d.X.nc + 1)).map (fun j => formatF (cell d d.targetCol.toNat (d.Y.getD i 0) i j))),
      r.length = d.X.nc + 1 := by
    intro r hr
    rcases List.mem_cons.1 hr with rfl | hr
    · exact h.names
    · obtain ⟨i, -, rfl⟩ := List.mem_map.1 hr
      simp
  refine ⟨fun r hr => ⟨?_, ?_, fun f hf => ?_⟩, fun r hr r' hr' => by rw [hlen r hr, hlen r' hr']⟩
  · rintro rfl
    have := hlen [] hr
    simp at this
  · rintro rfl
    have := hlen [""] hr
    simp at this
    omega
  · rcases List.mem_cons.1 hr with rfl | hr
    · exact hnames f hf
    · obtain ⟨i, -, rfl⟩ := List.mem_map.1 hr
      obtain ⟨j, -, rfl⟩ := List.mem_map.1 hf
      exact hasCrLf_of_no_cr (formatF_clean _)

/-! ### The claims -/

/-- **C44.** A data set whose names do not contain the line break `\r\n` is read as it was written, every value rounded
to six decimals and converted to a closest number. -/
theorem C44_text_round_trip (F : FloatFormat) (hF : ConvertsToNearest F) (d : Dataset (FinFloat F)) (h : WellFormed d)
    (hnr : 0 < d.X.nr) (hnc : 0 < d.X.nc) (hnames : ∀ n ∈ d.names, hasCrLf n.toList = false) :
    ∃ text, saveHandle formatF csvWrite d = some text ∧
      (∀ tc, tc = d.targetCol ∨ tc = d.targetCol - d.names.length →
        ∃ e, parseCSV (parseFloat F) csvRead text tc = some e ∧ SameData e (roundData (round6 F) d)) ∧
      ∃ e, parseCSV (parseFloat F) csvRead text d.targetCol = some e ∧ saveHandle formatF csvWrite e = some text := by
  obtain ⟨text, h1, h2⟩ := C44_round_trip formatF (parseFloat F) (round6 F) (fmtContract hF) csvWrite csvRead CleanRecords
    csvContract d h hnr hnc (saveRecords_clean h hnc hnames)
  obtain ⟨text', e, h3, h4, h5⟩ := C44_write_again formatF (parseFloat F) (round6 F) (fmtContract hF) csvWrite csvRead
    CleanRecords csvContract d h hnr hnc (saveRecords_clean h hnc hnames)
  rw [h1, Option.some.injEq] at h3
  subst h3
  exact ⟨text, h1, h2, e, h4, h5⟩

/-- **C44.** The value read is within a unit of the sixth decimal of the value written, and has its sign. -/
theorem C44_text_values (F : FloatFormat) (hF : ConvertsToNearest F) (x : FinFloat F) :
    |(round6 F x).val - x.val| ≤ 1 / 10 ^ 6 ∧ (round6 F x).neg = x.neg := by
  obtain ⟨e, -, h2, h3⟩ := round6_spec hF x
  have h4 := decimals_near hF x.mag.2
  have h5 : |e.1 - x.mag.1| ≤ 1 / 10 ^ 6 := by
    have := abs_sub_le e.1 ((roundHalfEven (x.mag.1 * 10 ^ 6) : ℚ) / 10 ^ 6) x.mag.1
    rw [abs_sub_comm e.1 (_ / 10 ^ 6)] at this
    linarith
  rw [h2]
  refine ⟨?_, rfl⟩
  unfold FinFloat.val
  simp only
  split
  · rw [neg_sub_neg, abs_sub_comm]; exact h5
  · exact h5

/-- **C44.** The line break `\r\n` in a name is read as `\n`, so such a name does not come back. -/
theorem C44_text_crlf (F : FloatFormat) : ∃ d : Dataset (FinFloat F), WellFormed d ∧ 0 < d.X.nr ∧ 0 < d.X.nc ∧
    ∃ text e, saveHandle formatF csvWrite d = some text ∧ parseCSV (parseFloat F) csvRead text d.targetCol = some e ∧
      d.names = ["a\r\nb", "y"] ∧ e.names = ["a\nb", "y"] := by
  have h0 : formatF (0 : FinFloat F) = "0.000000" := by
    have : roundHalfEven ((0 : FinFloat F).mag.1 * 10 ^ 6) = 0 :=
      roundHalfEven_eq (by show (0 : ℚ) ≤ 0 * 10 ^ 6; norm_num)
        (Or.inl (by show |(0 : ℚ) * 10 ^ 6 - (0 : Nat)| < 1 / 2; norm_num))
    unfold formatF
    simp only [this]
    rfl
  refine ⟨⟨⟨1, 1, fun _ _ => 0⟩, [0], ["a\r\nb", "y"], 1⟩, ⟨rfl,
    by show List.Nodup ["a\r\nb", "y"]; decide, by show (0 : Int) ≤ 1; decide, by show (1 : Int) ≤ 1; decide, rfl⟩, Nat.one_pos, Nat.one_pos,
    "\"a\r\nb\",y\n0.000000,0.000000\n", ?_⟩
  have h1 : saveRecords formatF (⟨⟨1, 1, fun _ _ => 0⟩, [0], ["a\r\nb", "y"], 1⟩ : Dataset (FinFloat F)) =
      some [["a\r\nb", "y"], ["0.000000", "0.000000"]] := by
    rw [← h0]; rfl
  have h2 : csvWrite [["a\r\nb", "y"], ["0.000000", "0.000000"]] = "\"a\r\nb\",y\n0.000000,0.000000\n" := by
    decide +kernel
  have h3 : csvRead "\"a\r\nb\",y\n0.000000,0.000000\n" = some [["a\nb", "y"], ["0.000000", "0.000000"]] := by
    decide +kernel
  obtain ⟨e, he, hn⟩ : ∃ e, parseRecords (parseFloat F) [["a\nb", "y"], ["0.000000", "0.000000"]] 1 = some e ∧
      e.names = ["a\nb", "y"] := ⟨_, rfl, rfl⟩
  exact ⟨e, by rw [saveHandle, h1, Option.map_some, h2], by rw [parseCSV, h3]; exact he, rfl, hn⟩

/-- **C103.** `ReadCSV` reads what `Save` has written, with the text formats of the standard library. -/
theorem C103_text_round_trip_partial (F : FloatFormat) (hF : ConvertsToNearest F) (d : Dataset (FinFloat F))
    (h : WellFormed d) (hnr : 0 < d.X.nr) (hnc : 0 < d.X.nc) (hnames : ∀ n ∈ d.names, hasCrLf n.toList = false)
    (torn : String) (disk : Disk) (fname : String) (hcr : disk.creatable fname = true) :
    (d.save formatF csvWrite torn disk fname).1 = true ∧
      ∀ tc, tc = d.targetCol ∨ tc = d.targetCol - d.names.length →
        ∃ e, readCSV (parseFloat F) csvRead (d.save formatF csvWrite torn disk fname).2 fname tc = some (some e) ∧
          SameData e (roundData (round6 F) d) :=
  C103_round_trip_partial _ _ _ _ (round6 F) (fmtContract hF) CleanRecords csvContract d h hnr hnc
    (saveRecords_clean h hnc hnames) torn disk fname hcr

/-! ### Concrete cases -/

/-- Multiples of one eighth, every decimal number converted to a closest one. -/
def eighths : FloatFormat where
  rep q := ∃ n : Nat, q = n / 8
  zero := ⟨0, by norm_num⟩
  round z := some ⟨(roundHalfEven (z * 8) : ℚ) / 8, _, rfl⟩

theorem eighths_nearest : ConvertsToNearest eighths := by
  constructor
  · rintro q ⟨n, rfl⟩
    positivity
  · intro z d hz _ _
    refine ⟨_, rfl, ?_⟩
    rintro d' ⟨n, rfl⟩
    have h8 : 0 ≤ z * 8 := by positivity
    have key : |z * 8 - roundHalfEven (z * 8)| ≤ |z * 8 - n| := by
      have hs : |z * 8 - roundHalfEven (z * 8)| ≤ 1 / 2 := by
        rcases roundHalfEven_spec _ h8 with h | h; exacts [h.le, h.1.le]
      by_contra hlt
      rw [not_le] at hlt
      have := roundHalfEven_eq h8 (Or.inl (hlt.trans_le hs))
      rw [this] at hlt
      exact lt_irrefl _ hlt
    have e : ∀ m : Nat, |z - (m : ℚ) / 8| = |z * 8 - m| / 8 := fun m => by
      rw [show z - (m : ℚ) / 8 = (z * 8 - m) / 8 by ring, abs_div, abs_of_pos (by norm_num : (0 : ℚ) < 8)]
    show |z - (roundHalfEven (z * 8) : ℚ) / 8| ≤ _
    rw [e, e]
    exact div_le_div_of_nonneg_right key (by norm_num)

/-- A data set that meets the hypotheses: names with commas, blanks and quotes, and a negative zero. -/
example : let d : Dataset (FinFloat eighths) := ⟨⟨1, 2, fun _ j => ⟨true, ⟨(j : ℚ) / 8, j, rfl⟩⟩⟩, [0],
      [" a,\"b\"", "y", ""], 1⟩
    WellFormed d ∧ 0 < d.X.nr ∧ 0 < d.X.nc ∧ ∀ n ∈ d.names, hasCrLf n.toList = false :=
  ⟨⟨rfl, by decide, by decide, by decide, rfl⟩, by decide, by decide, by decide⟩

end GoSelect
