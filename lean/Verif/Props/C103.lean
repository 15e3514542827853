import Verif.Model.Files
import Verif.Props.C44_C45

/-! # C103: data sets in files -/

namespace GoSelect

open Spec

section
variable {K : Type} [Zero K] (fmt : K → String) (parse : String → Option K) (write : List (List String) → String)
  (read : String → Option (List (List String)))

/-- C103: if the file can be created, `ReadCSV` reads what `Save` has written, each value rounded to six decimals.  What
the file held before does not matter. -/
theorem C103_round_trip_partial (round6 : K → K) (hf : FmtContract fmt parse round6) (clean : List (List String) → Prop)
    (hc : CsvContract write read clean) (d : Dataset K) (h : WellFormed d) (hnr : 0 < d.X.nr) (hnc : 0 < d.X.nc)
    (hclean : ∀ rs, saveRecords fmt d = some rs → clean rs) (torn : String) (disk : Disk) (fname : String)
    (hcr : disk.creatable fname = true) :
    (d.save fmt write torn disk fname).1 = true ∧
      ∀ tc, tc = d.targetCol ∨ tc = d.targetCol - d.names.length →
        ∃ e, readCSV parse read (d.save fmt write torn disk fname).2 fname tc = some (some e) ∧
          SameData e (roundData round6 d) := by
  obtain ⟨text, h1, h2⟩ := C44_round_trip fmt parse round6 hf write read clean hc d h hnr hnc hclean
  unfold Dataset.save
  rw [if_pos hcr, h1]
  refine ⟨rfl, fun tc htc => ?_⟩
  obtain ⟨e, h3, h4⟩ := h2 tc htc
  refine ⟨e, ?_, h4⟩
  simp [readCSV, Disk.put, h3]

omit [Zero K] in
/-- C103: no other file changes. -/
theorem C103_other_files (d : Dataset K) (torn : String) (disk : Disk) (fname f : String) (hf : f ≠ fname) :
    (d.save fmt write torn disk fname).2.text f = disk.text f := by
  unfold Dataset.save
  split
  · split <;> simp [Disk.put, hf]
  · rfl

omit [Zero K] in
/-- C103: if the file cannot be created, `Save` returns as if it had succeeded and nothing is written. -/
theorem C103_silent (d : Dataset K) (torn : String) (disk : Disk) (fname : String) (hcr : disk.creatable fname = false) :
    d.save fmt write torn disk fname = (true, disk) := by
  unfold Dataset.save
  rw [if_neg (by simp [hcr])]

omit [Zero K] in
/-- The fields from column `a` on, before and after the target. -/
theorem saveRow_none (d : Dataset K) (i n : Nat) : ∀ a shift, a + n = d.X.nc + 1 →
    ((shift = 1 → 0 ≤ d.targetCol → d.targetCol < a → saveRow fmt d i (List.range' a n) shift ≠ none) ∧
    (shift = 0 → (0 ≤ d.targetCol → (a : Int) ≤ d.targetCol) → 0 < n →
      (saveRow fmt d i (List.range' a n) shift = none ↔
        d.targetCol < 0 ∨ (d.X.nc : Int) < d.targetCol ∨ d.Y.length ≤ i))) := by
  induction n with
  | zero =>
    intro a shift ha
    exact ⟨fun _ _ _ => by simp [saveRow], fun _ _ h => absurd h (by decide)⟩
  | succ n ih =>
    intro a shift ha
    rw [List.range'_succ, saveRow]
    constructor
    · intro hs h0 h1
      rw [if_neg (by omega), if_pos (by omega)]
      have := (ih (a + 1) shift (by omega)).1 hs h0 (by omega)
      cases h : saveRow fmt d i (List.range' (a + 1) n) shift with
      | none => exact absurd h this
      | some r => simp
    · intro hs h1 _
      by_cases hat : (a : Int) = d.targetCol
      · rw [if_pos hat]
        have := (ih (a + 1) 1 (by omega)).1 rfl (by omega) (by omega)
        cases h : saveRow fmt d i (List.range' (a + 1) n) 1 with
        | none => exact absurd h this
        | some r =>
          by_cases hi : i < d.Y.length
          · rw [List.getElem?_eq_getElem hi]
            simp only [reduceCtorEq, false_iff]
            omega
          · rw [List.getElem?_eq_none (by omega)]
            simp only [true_iff]
            omega
      · rw [if_neg hat, hs, Nat.sub_zero]
        by_cases hlt : a < d.X.nc
        · rw [if_pos hlt]
          have := (ih (a + 1) 0 (by omega)).2 rfl (by omega) (by omega)
          rw [← this]
          cases saveRow fmt d i (List.range' (a + 1) n) 0 <;> simp
        · rw [if_neg hlt]
          simp only [true_iff]
          omega

omit [Zero K] in
/-- C103: `Save` does not return exactly when the file can be created, there are rows, and the target column or the
number of targets does not fit the matrix; the old content of the file is lost then. -/
theorem C103_save_panics (d : Dataset K) (torn : String) (disk : Disk) (fname : String) :
    ((d.save fmt write torn disk fname).1 = false ↔ disk.creatable fname = true ∧
      0 < d.X.nr ∧ (d.targetCol < 0 ∨ (d.X.nc : Int) < d.targetCol ∨ d.Y.length < d.X.nr)) ∧
    ((d.save fmt write torn disk fname).1 = false → (d.save fmt write torn disk fname).2.text fname = some torn) := by
  have hnone : saveHandle fmt write d = none ↔
      0 < d.X.nr ∧ (d.targetCol < 0 ∨ (d.X.nc : Int) < d.targetCol ∨ d.Y.length < d.X.nr) := by
    have hrow : ∀ i, saveRow fmt d i (List.range (d.X.nc + 1)) 0 = none ↔
        d.targetCol < 0 ∨ (d.X.nc : Int) < d.targetCol ∨ d.Y.length ≤ i := by
      intro i
      rw [List.range_eq_range']
      exact (saveRow_none fmt d i (d.X.nc + 1) 0 0 (by omega)).2 rfl (by omega) (by omega)
    have h1 : saveHandle fmt write d = none ↔
        (List.range d.X.nr).mapM (fun i => saveRow fmt d i (List.range (d.X.nc + 1)) 0) = none := by
      unfold saveHandle saveRecords
      cases (List.range d.X.nr).mapM (fun i => saveRow fmt d i (List.range (d.X.nc + 1)) 0) <;> simp
    rw [h1]
    constructor
    · intro hn
      by_contra hc
      have hall : ∀ i ∈ List.range d.X.nr, ∃ b, saveRow fmt d i (List.range (d.X.nc + 1)) 0 = some b := by
        intro i hi
        rw [← Option.ne_none_iff_exists', ne_eq, hrow]
        have := List.mem_range.1 hi
        omega
      obtain ⟨out, ho⟩ := mapM_isSome hall
      rw [hn] at ho
      cases ho
    · rintro ⟨hpos, hbad⟩
      cases h : (List.range d.X.nr).mapM (fun i => saveRow fmt d i (List.range (d.X.nc + 1)) 0) with
      | none => rfl
      | some out =>
        have := mapM_getElem h (d.X.nr - 1) (by simp; omega)
        rw [List.getElem_range] at this
        rw [(hrow (d.X.nr - 1)).2 (by omega)] at this
        cases this
  rw [← hnone]
  unfold Dataset.save
  by_cases h : disk.creatable fname = true
  · rw [if_pos h]
    cases saveHandle fmt write d <;> simp [h, Disk.put]
  · rw [if_neg h]
    simp [h]

/-- C103: `ReadCSV` returns nil exactly for a file that cannot be opened, and every command panics then. -/
theorem C103_missing (disk : Disk) (fname : String) (tc : Int) :
    (readCSV (K := K) parse read disk fname tc = some none ↔ disk.text fname = none) ∧
    (disk.text fname = none → commandData (K := K) parse read disk fname tc = none) := by
  unfold commandData readCSV
  cases h : disk.text fname with
  | none => simp
  | some text => cases parseCSV parse read text tc <;> simp

/-- C103: for a file that can be opened the commands start with what `ParseCSV` makes of it. -/
theorem C103_command (disk : Disk) (fname text : String) (h : disk.text fname = some text) (tc : Int) :
    commandData parse read disk fname tc = parseCSV parse read text tc := by
  unfold commandData readCSV
  simp only [h]
  cases parseCSV parse read text tc <;> rfl

/-- The claim in full: when `Save` has returned, `ReadCSV` reads the data set from the file. -/
def Spec.SaveStores (torn : String) (d : Dataset K) : Prop :=
  ∀ (disk : Disk) (fname : String), (d.save fmt write torn disk fname).1 = true →
    ∃ e, readCSV (K := K) parse read (d.save fmt write torn disk fname).2 fname d.targetCol = some (some e)

/-- C103: this holds for no data set and no text format. -/
theorem C103_refuted (torn : String) (d : Dataset K) : ¬ SaveStores fmt parse write read torn d := by
  intro h
  have hs := C103_silent fmt write d torn ⟨fun _ => none, fun _ => false⟩ "data.csv" rfl
  obtain ⟨e, he⟩ := h ⟨fun _ => none, fun _ => false⟩ "data.csv" (by rw [hs])
  rw [hs] at he
  cases he

end

namespace FilesExample

/-- Unary numbers. -/
def fmt (n : Nat) : String := String.ofList (List.replicate n 'x')

def parse (s : String) : Option Nat := some s.length

def data : Dataset Nat := ⟨⟨2, 2, fun r c => r + c⟩, [5, 7], ["a", "y", "b"], 1⟩

def records : List (List String) := [["a", "y", "b"], ["", "xxxxx", "x"], ["x", "xxxxxxx", "xx"]]

/-- A format that can write these records only. -/
def write (r : List (List String)) : String := if r = records then "text" else ""

def read (s : String) : Option (List (List String)) := if s = "text" then some records else none

theorem saved : saveRecords fmt data = some records := by decide

/-- Hypotheses of the round trip; the file existed before and could not be parsed. -/
example : ∃ e, readCSV parse read (data.save fmt write "" ⟨fun _ => some "old", fun _ => true⟩ "f").2 "f" 1 = some (some e) ∧
    SameData e (roundData id data) :=
  (C103_round_trip_partial fmt parse write read id ⟨fun x => by simp [fmt, parse], fun _ => rfl⟩ (fun r => r = records)
    ⟨by rintro r rfl; simp [write, read]⟩ data ⟨rfl, by decide, by decide, by decide, rfl⟩ (by decide) (by decide)
    (fun rs h => by rw [saved] at h; exact (Option.some.inj h).symm) "" ⟨fun _ => some "old", fun _ => true⟩ "f" rfl).2 1
    (.inl rfl)

end FilesExample

end GoSelect
