import Verif.Model.CsvText

/-! What `encoding/csv` writes it reads again. -/

namespace GoSelect

/-- Some line break is `\r\n`. -/
def hasCrLf : List Char → Bool
  | '\r' :: '\n' :: _ => true
  | _ :: t => hasCrLf t
  | [] => false

theorem hasCrLf_cons (c : Char) (t : List Char) :
    hasCrLf (c :: t) = ((c == '\r' && t.head? == some '\n') || hasCrLf t) := by
  by_cases hc : c = '\r'
  · subst hc
    cases t with
    | nil => simp [hasCrLf]
    | cons d t =>
      by_cases hd : d = '\n'
      · subst hd; simp [hasCrLf]
      · rw [hasCrLf]
        · simp [hd]
        · rintro _ _ h
          simp only [List.cons.injEq] at h
          exact hd h.1
  · rw [hasCrLf]
    · simp [hc]
    · rintro _ h
      exact absurd h hc

theorem normalizeNewlines_cons {c : Char} {t : List Char} (h : c ≠ '\r' ∨ ∃ d t', t = d :: t' ∧ d ≠ '\n') :
    normalizeNewlines (c :: t) = c :: normalizeNewlines t := by
  rw [normalizeNewlines]
  · rintro rfl rfl
    rcases h with h | ⟨d, t', h, -⟩
    · exact h rfl
    · cases h
  · rintro t' rfl rfl
    rcases h with h | ⟨d, t'', h, hd⟩
    · exact h rfl
    · simp only [List.cons.injEq] at h
      exact hd h.1.symm

/-- A piece without `\r\n` that does not end with `\r` is read as it is. -/
theorem normalizeNewlines_append {w t : List Char} (h : hasCrLf w = false) (hl : w.getLast? ≠ some '\r') :
    normalizeNewlines (w ++ t) = w ++ normalizeNewlines t := by
  induction w with
  | nil => rfl
  | cons c w ih =>
    rw [hasCrLf_cons, Bool.or_eq_false_iff] at h
    cases w with
    | nil =>
      simp only [List.getLast?_singleton, ne_eq, Option.some.injEq] at hl
      rw [List.cons_append, normalizeNewlines_cons (Or.inl hl)]
      rfl
    | cons d w =>
      rw [List.getLast?_cons_cons] at hl
      rw [List.cons_append, normalizeNewlines_cons, ih h.2 hl]
      · rfl
      · by_cases hc : c = '\r'
        · refine Or.inr ⟨d, w ++ t, rfl, ?_⟩
          rintro rfl
          have := h.1
          simp [hc] at this
        · exact Or.inl hc

theorem escapeQuotes_head (f : List Char) : (escapeQuotes f).head? = f.head? := by
  cases f with
  | nil => rfl
  | cons c t => rw [escapeQuotes]; split <;> simp [*]

theorem hasCrLf_escape {f : List Char} (h : hasCrLf f = false) : hasCrLf (escapeQuotes f ++ ['"']) = false := by
  induction f with
  | nil => rfl
  | cons c t ih =>
    rw [hasCrLf_cons, Bool.or_eq_false_iff] at h
    have hh : (escapeQuotes t ++ ['"']).head? = some '\n' → t.head? = some '\n' := by
      rw [← escapeQuotes_head t]
      cases escapeQuotes t with
      | nil => simp
      | cons a b => simp
    rw [escapeQuotes]
    split
    · rename_i hc
      simp only [List.cons_append, hasCrLf_cons, ih h.2]
      simp
    · rw [List.cons_append, hasCrLf_cons, ih h.2, Bool.or_false]
      by_contra hcon
      simp only [Bool.not_eq_false, Bool.and_eq_true, beq_iff_eq] at hcon
      have h1 := h.1
      rw [hcon.1, hh hcon.2] at h1
      simp at h1

/-- The characters that make the writer quote. -/
def special (c : Char) : Bool := c == ',' || c == '"' || c == '\n' || c == '\r'

theorem no_special_of_plain {f : List Char} (h : fieldNeedsQuotes f = false) : ∀ c ∈ f, special c = false := by
  cases f with
  | nil => simp
  | cons a t =>
    unfold fieldNeedsQuotes at h
    simp only [Bool.or_eq_false_iff, List.any_eq_false] at h
    intro c hc
    have := h.1.2 c hc
    unfold special
    simpa using this

theorem hasCrLf_plain {f : List Char} (h : ∀ c ∈ f, special c = false) : hasCrLf f = false := by
  induction f with
  | nil => rfl
  | cons c t ih =>
    rw [hasCrLf_cons, ih fun c hc => h c (by simp [hc]), Bool.or_false]
    have := h c (by simp)
    unfold special at this
    simp at this
    simp [this]

theorem csvField_normal {f : List Char} (h : hasCrLf f = false) (t : List Char) :
    normalizeNewlines (csvField f ++ t) = csvField f ++ normalizeNewlines t := by
  unfold csvField
  split
  · apply normalizeNewlines_append
    · rw [hasCrLf_cons, hasCrLf_escape h]; rfl
    · rw [List.getLast?_cons, List.getLast?_append]; simp
  · rename_i hq
    have hs := no_special_of_plain (Bool.not_eq_true _ ▸ hq)
    refine normalizeNewlines_append h fun hl => ?_
    have := hs _ (List.mem_of_getLast? hl)
    simp [special] at this

theorem csvFields_normal {r : List String} (h : ∀ f ∈ r, hasCrLf f.toList = false) (t : List Char) :
    normalizeNewlines (csvFields r ++ t) = csvFields r ++ normalizeNewlines t := by
  induction r with
  | nil => rfl
  | cons f r ih =>
    cases r with
    | nil => exact csvField_normal (h f (by simp)) t
    | cons g r =>
      rw [csvFields, List.append_assoc, csvField_normal (h f (by simp)), List.cons_append,
        normalizeNewlines_cons (Or.inl (by decide)), ih fun f hf => h f (by simp [hf])]
      simp

theorem csvText_normal {rs : List (List String)} (h : ∀ r ∈ rs, ∀ f ∈ r, hasCrLf f.toList = false) :
    normalizeNewlines (rs.flatMap (fun r => csvFields r ++ ['\n'])) = rs.flatMap (fun r => csvFields r ++ ['\n']) := by
  induction rs with
  | nil => rfl
  | cons r rs ih =>
    rw [List.flatMap_cons, List.append_assoc, csvFields_normal (h r (by simp)), List.cons_append, List.nil_append,
      normalizeNewlines_cons (Or.inl (by decide)), ih fun r hr => h r (by simp [hr])]

theorem csvRecords_quoted (f : List Char) (field : List Char) (record : List String) (t : List Char) :
    csvRecords .quoted field record (escapeQuotes f ++ '"' :: t) = csvRecords .seen (field ++ f) record t := by
  induction f generalizing field with
  | nil => simp [escapeQuotes, csvRecords]
  | cons c f ih =>
    rw [escapeQuotes]
    split
    · rename_i hc
      subst hc
      rw [List.cons_append, csvRecords, if_pos rfl, List.cons_append, csvRecords, if_neg (by decide), if_pos rfl, ih]
      simp
    · rename_i hc
      rw [List.cons_append, csvRecords, if_neg hc, ih]
      simp

theorem csvRecords_plain {f : List Char} (h : ∀ c ∈ f, special c = false) (field : List Char) (record : List String)
    (t : List Char) : csvRecords .plain field record (f ++ t) = csvRecords .plain (field ++ f) record t := by
  induction f generalizing field with
  | nil => simp
  | cons c f ih =>
    have hc := h c (by simp)
    simp [special] at hc
    rw [List.cons_append, csvRecords, if_neg (by simp [hc]), if_neg (by simp [hc]), if_neg (by simp [hc]),
      ih fun c hc => h c (by simp [hc])]
    simp

/-- Reading one field from its start, when a comma follows. -/
theorem csvRecords_field_comma (f : String) (record : List String) (t : List Char) :
    csvRecords .start [] record (csvField f.toList ++ ',' :: t) = csvRecords .start [] (record ++ [f]) t := by
  unfold csvField
  split
  · rw [List.cons_append, List.append_assoc, csvRecords, if_neg (by decide), if_pos rfl]
    simp only [List.cons_append, List.nil_append]
    rw [csvRecords_quoted, csvRecords, if_neg (by decide), if_neg (by decide), if_pos rfl]
    simp
  · rename_i hq
    have hs := no_special_of_plain (Bool.not_eq_true _ ▸ hq)
    cases hf : f.toList with
    | nil =>
      have : f = "" := by rw [← String.toList_inj, hf]; rfl
      subst this
      simp [csvRecords]
    | cons c u =>
      rw [hf] at hs
      have hc := hs c (by simp)
      simp [special] at hc
      rw [List.cons_append, csvRecords, if_neg (by simp [hc]), if_neg (by simp [hc]), if_neg (by simp [hc]),
        csvRecords_plain (fun c hc => hs c (by simp [hc])), csvRecords, if_neg (by decide), if_neg (by decide), if_pos rfl]
      simp [← hf]

/-- Reading the last field of a line. -/
theorem csvRecords_field_end (f : String) (record : List String) (t : List Char) :
    csvRecords .start [] record (csvField f.toList ++ '\n' :: t) =
      (csvRecords .line [] [] t).map ((record ++ [f]) :: ·) := by
  unfold csvField
  split
  · rw [List.cons_append, List.append_assoc, csvRecords, if_neg (by decide), if_pos rfl]
    simp only [List.cons_append, List.nil_append]
    rw [csvRecords_quoted, csvRecords, if_pos rfl]
    simp
  · rename_i hq
    have hs := no_special_of_plain (Bool.not_eq_true _ ▸ hq)
    cases hf : f.toList with
    | nil =>
      have : f = "" := by rw [← String.toList_inj, hf]; rfl
      subst this
      simp [csvRecords]
    | cons c u =>
      rw [hf] at hs
      have hc := hs c (by simp)
      simp [special] at hc
      rw [List.cons_append, csvRecords, if_neg (by simp [hc]), if_neg (by simp [hc]), if_neg (by simp [hc]),
        csvRecords_plain (fun c hc => hs c (by simp [hc])), csvRecords, if_pos rfl]
      simp [← hf]

theorem csvRecords_fields (r : List String) (hr : r ≠ []) (record : List String) (t : List Char) :
    csvRecords .start [] record (csvFields r ++ '\n' :: t) = (csvRecords .line [] [] t).map ((record ++ r) :: ·) := by
  induction r generalizing record with
  | nil => exact absurd rfl hr
  | cons f r ih =>
    cases r with
    | nil => exact csvRecords_field_end f record t
    | cons g r =>
      rw [csvFields, List.append_assoc, List.cons_append, csvRecords_field_comma, ih (by simp)]
      simp

/-- A line that does not start with a line break is read like a field. -/
theorem csvRecords_line {c : Char} {t : List Char} (h : c ≠ '\n') :
    csvRecords .line [] [] (c :: t) = csvRecords .start [] [] (c :: t) := by
  rw [csvRecords, csvRecords, if_neg h, if_neg h]
  rfl

theorem csvFields_head {r : List String} (h1 : r ≠ []) (h2 : r ≠ [""]) :
    ∃ c t, csvFields r = c :: t ∧ c ≠ '\n' := by
  have field : ∀ f : String, f ≠ "" → ∀ t, ∃ c u, csvField f.toList ++ t = c :: u ∧ c ≠ '\n' := by
    intro f hf t
    unfold csvField
    split
    · exact ⟨_, _, rfl, by decide⟩
    · rename_i hq
      have hs := no_special_of_plain (Bool.not_eq_true _ ▸ hq)
      cases hl : f.toList with
      | nil => exact absurd (by rw [← String.toList_inj, hl]; rfl) hf
      | cons c u =>
        refine ⟨c, u ++ t, rfl, ?_⟩
        rintro rfl
        have := hs '\n' (by simp [hl])
        simp [special] at this
  match r, h1, h2 with
  | [f], _, h2 =>
    have := field f (by rintro rfl; exact h2 rfl) []
    simpa [csvFields] using this
  | f :: g :: t, _, _ =>
    by_cases hf : f = ""
    · subst hf
      exact ⟨',', csvFields (g :: t), rfl, by decide⟩
    · exact field f hf _

/-- What was written is read. -/
theorem csvRecords_text {rs : List (List String)} (h1 : ∀ r ∈ rs, r ≠ [] ∧ r ≠ [""]) :
    csvRecords .line [] [] (rs.flatMap (fun r => csvFields r ++ ['\n'])) = some rs := by
  induction rs with
  | nil => rfl
  | cons r rs ih =>
    obtain ⟨a, b⟩ := h1 r (by simp)
    obtain ⟨c, t, hc, hn⟩ := csvFields_head a b
    rw [List.flatMap_cons, List.append_assoc]
    have := csvRecords_fields r a [] (rs.flatMap (fun r => csvFields r ++ ['\n']))
    rw [ih fun r hr => h1 r (by simp [hr])] at this
    simp only [List.cons_append, List.nil_append]
    rw [hc, List.cons_append] at this ⊢
    rw [csvRecords_line hn, this]
    rfl

end GoSelect
