import Verif.Proofs.CsvText
import Verif.Props.C44_C45

/-! Tables of fields without quotes, and what `ParseCSV` makes of them. -/

namespace GoSelect

/-- A line break at the end of the text makes no difference. -/
theorem csvRecords_final (st : CsvState) (field : List Char) (record : List String) (t : List Char) :
    csvRecords st field record (t ++ ['\n']) = csvRecords st field record t := by
  induction t generalizing st field record with
  | nil => cases st <;> simp [csvRecords]
  | cons c t ih => cases st <;> simp only [List.cons_append, csvRecords, ih]

/-- Reading a field without quotes, from its start. -/
theorem csvRecords_raw_comma {f : String} (h : ∀ c ∈ f.toList, special c = false) (record : List String) (t : List Char) :
    csvRecords .start [] record (f.toList ++ ',' :: t) = csvRecords .start [] (record ++ [f]) t := by
  cases hf : f.toList with
  | nil =>
    have : f = "" := by rw [← String.toList_inj, hf]; rfl
    subst this
    simp [csvRecords]
  | cons c u =>
    rw [hf] at h
    have hc := h c (by simp)
    simp [special] at hc
    rw [List.cons_append, csvRecords, if_neg (by simp [hc]), if_neg (by simp [hc]), if_neg (by simp [hc]),
      csvRecords_plain (fun c hc => h c (by simp [hc])), csvRecords, if_neg (by decide), if_neg (by decide), if_pos rfl]
    simp [← hf]

theorem csvRecords_raw_end {f : String} (h : ∀ c ∈ f.toList, special c = false) (record : List String) (t : List Char) :
    csvRecords .start [] record (f.toList ++ '\n' :: t) = (csvRecords .line [] [] t).map ((record ++ [f]) :: ·) := by
  cases hf : f.toList with
  | nil =>
    have : f = "" := by rw [← String.toList_inj, hf]; rfl
    subst this
    simp [csvRecords]
  | cons c u =>
    rw [hf] at h
    have hc := h c (by simp)
    simp [special] at hc
    rw [List.cons_append, csvRecords, if_neg (by simp [hc]), if_neg (by simp [hc]), if_neg (by simp [hc]),
      csvRecords_plain (fun c hc => h c (by simp [hc])), csvRecords, if_pos rfl]
    simp [← hf]

/-- The fields of a line with commas between. -/
def rawFields : List String → List Char
  | [] => []
  | [f] => f.toList
  | f :: g :: t => f.toList ++ ',' :: rawFields (g :: t)

theorem csvRecords_rawFields {r : List String} (hr : r ≠ []) (h : ∀ f ∈ r, ∀ c ∈ f.toList, special c = false)
    (record : List String) (t : List Char) :
    csvRecords .start [] record (rawFields r ++ '\n' :: t) = (csvRecords .line [] [] t).map ((record ++ r) :: ·) := by
  induction r generalizing record with
  | nil => exact absurd rfl hr
  | cons f r ih =>
    cases r with
    | nil => exact csvRecords_raw_end (h f (by simp)) record t
    | cons g r =>
      rw [rawFields, List.append_assoc, List.cons_append, csvRecords_raw_comma (h f (by simp)),
        ih (by simp) fun f hf => h f (by simp [hf])]
      simp

theorem rawFields_head {r : List String} (hr : 2 ≤ r.length) (h : ∀ f ∈ r, ∀ c ∈ f.toList, special c = false) :
    ∃ c t, rawFields r = c :: t ∧ c ≠ '\n' := by
  match r, hr with
  | f :: g :: r, _ =>
    rw [rawFields]
    cases hf : f.toList with
    | nil => exact ⟨',', _, rfl, by decide⟩
    | cons c t =>
      refine ⟨c, _, rfl, ?_⟩
      rintro rfl
      have := h f (by simp) '\n' (by simp [hf])
      simp [special] at this

/-- The lines of a table. -/
theorem csvRecords_table {rs : List (List String)} (h2 : ∀ r ∈ rs, 2 ≤ r.length)
    (h : ∀ r ∈ rs, ∀ f ∈ r, ∀ c ∈ f.toList, special c = false) :
    csvRecords .line [] [] (rs.flatMap (fun r => rawFields r ++ ['\n'])) = some rs := by
  induction rs with
  | nil => rfl
  | cons r rs ih =>
    obtain ⟨c, t, hc, hn⟩ := rawFields_head (h2 r (by simp)) (h r (by simp))
    have hr : r ≠ [] := by
      rintro rfl
      have := h2 [] (by simp)
      simp at this
    rw [List.flatMap_cons, List.append_assoc]
    have := csvRecords_rawFields hr (h r (by simp)) [] (rs.flatMap (fun r => rawFields r ++ ['\n']))
    rw [ih (fun r hr => h2 r (by simp [hr])) fun r hr => h r (by simp [hr])] at this
    simp only [List.cons_append, List.nil_append]
    rw [hc, List.cons_append] at this ⊢
    rw [csvRecords_line hn, this]
    rfl

theorem rawFields_special {r : List String} (h : ∀ f ∈ r, ∀ c ∈ f.toList, special c = false) :
    ∀ c ∈ rawFields r, c ≠ '\r' ∧ c ≠ '\n' := by
  have key : ∀ f ∈ r, ∀ c ∈ f.toList, c ≠ '\r' ∧ c ≠ '\n' := by
    intro f hf c hc
    have := h f hf c hc
    simp [special] at this
    exact ⟨this.2, this.1.2⟩
  clear h
  induction r with
  | nil => simp [rawFields]
  | cons f r ih =>
    cases r with
    | nil => exact key f (by simp)
    | cons g r =>
      intro c hc
      rw [rawFields, List.mem_append, List.mem_cons] at hc
      rcases hc with hc | hc | hc
      · exact key f (by simp) c hc
      · subst hc; decide
      · exact ih (fun f hf => key f (by simp [hf])) c hc

theorem normalizeNewlines_clean {w t : List Char} (h : ∀ c ∈ w, c ≠ '\r') :
    normalizeNewlines (w ++ t) = w ++ normalizeNewlines t := by
  induction w with
  | nil => rfl
  | cons c w ih =>
    rw [List.cons_append, normalizeNewlines_cons (Or.inl (h c (by simp))), ih fun c hc => h c (by simp [hc])]
    rfl

variable {K : Type} [Zero K]

/-- The data set that `ParseCSV` makes of a table: column `t` becomes the target, every field its number or 0. -/
theorem parseRecords_table (parse : String → Option K) (names : List String) (lines : List (List String)) (n t : Nat)
    (hn : 2 ≤ n) (ht : t < n) (hnames : names.length = n) (hl : lines ≠ []) (hw : ∀ l ∈ lines, l.length = n) (tc : Int)
    (htc : tc = t ∨ tc = (t : Int) - n) :
    ∃ e, parseRecords parse (names :: lines) tc = some e ∧ e.names = names ∧ e.targetCol = t ∧ e.X.nr = lines.length ∧
      e.X.nc = n - 1 ∧
      (∀ r c, r < lines.length → c < n - 1 →
        e.X.get r c = (parse ((lines.getD r []).getD (if c < t then c else c + 1) "")).getD 0) ∧
      e.Y = lines.map (fun l => (parse (l.getD t "")).getD 0) := by
  unfold parseRecords
  simp only
  have htarget : (if tc < 0 then tc + (names.length : Int) else tc) = (t : Int) := by
    rw [hnames]; split <;> omega
  rw [htarget]
  have hlen : ∀ row ∈ lines.map (parseFields parse), row.length = n := by
    intro row hr
    obtain ⟨l, hl, rfl⟩ := List.mem_map.1 hr
    simp [parseFields, hw l hl]
  have hall : (lines.map (parseFields parse)).mapM (fun row =>
      parseRow (t : Int) row 0 (List.replicate (n - 1) 0, 0, 0)) =
      some ((lines.map (parseFields parse)).map (fun row => (row.eraseIdx t, n - 1, (row[t]?).getD 0))) := by
    apply mapM_of_forall
    intro row hr
    have hr := hlen row hr
    have := parseRow_before t row 0 (by omega) (by omega) (List.replicate (n - 1) 0) 0 (by rw [hr]; simp; omega)
    simpa using this
  have hll : (lines.map (parseFields parse)).length = lines.length := by simp
  obtain ⟨row0, rest, hcons⟩ := List.exists_cons_of_ne_nil (l := lines.map (parseFields parse)) (by simpa using hl)
  have h0 : row0.length = n := hlen row0 (by rw [hcons]; simp)
  rw [hcons] at hall hll ⊢
  simp only [h0]
  rw [if_neg (by omega), hall]
  refine ⟨_, rfl, rfl, rfl, hll, rfl, ?_, ?_⟩
  · intro r c hr hc
    simp only
    rw [← hcons, List.map_map, List.map_map, List.getD_eq_getElem?_getD, List.getD_eq_getElem?_getD,
      List.getElem?_map, List.getElem?_eq_getElem hr]
    simp only [Option.map_some, Option.getD_some, Function.comp, parseFields]
    have hlr : (lines[r]).length = n := hw _ (List.getElem_mem _)
    rw [List.getElem?_eraseIdx]
    split
    · rw [List.getElem?_map, List.getD_eq_getElem?_getD (l := lines), List.getElem?_eq_getElem hr, Option.getD_some,
        List.getElem?_eq_getElem (by omega), List.getD_eq_getElem?_getD, List.getElem?_eq_getElem (by omega)]
      rfl
    · rw [List.getElem?_map, List.getD_eq_getElem?_getD (l := lines), List.getElem?_eq_getElem hr, Option.getD_some,
        List.getElem?_eq_getElem (by omega), List.getD_eq_getElem?_getD, List.getElem?_eq_getElem (by omega)]
      rfl
  · simp only
    rw [← hcons, List.map_map, List.map_map]
    apply List.map_congr_left
    intro l hl
    simp only [Function.comp, parseFields]
    rw [List.getElem?_map, List.getD_eq_getElem?_getD, List.getElem?_eq_getElem (by rw [hw l hl]; exact ht)]
    rfl

end GoSelect
