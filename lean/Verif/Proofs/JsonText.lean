import Verif.Model.JsonText

/-! `json.Unmarshal` reads what `json.Marshal` writes. -/

namespace GoSelect

theorem hexValue_hexDigit : ∀ n < 16, hexValue (hexDigit n) = some n := by decide

theorem unicodeChar_escape {c : Char} (h : c.toNat < 0xd800) :
    unicodeChar (hexDigit (c.toNat / 4096 % 16)) (hexDigit (c.toNat / 256 % 16)) (hexDigit (c.toNat / 16 % 16))
      (hexDigit (c.toNat % 16)) = some c := by
  unfold unicodeChar
  rw [hexValue_hexDigit _ (Nat.mod_lt _ (by decide)), hexValue_hexDigit _ (Nat.mod_lt _ (by decide)),
    hexValue_hexDigit _ (Nat.mod_lt _ (by decide)), hexValue_hexDigit _ (Nat.mod_lt _ (by decide))]
  have e : c.toNat / 4096 % 16 * 4096 + c.toNat / 256 % 16 * 256 + c.toNat / 16 % 16 * 16 + c.toNat % 16 = c.toNat := by
    omega
  simp only [Option.bind_eq_bind, Option.bind_some, e]
  rw [if_neg (by omega), Char.ofNat_toNat]

theorem parseString_unicode (c : Char) (h : c.toNat < 0xd800) (t : List Char) :
    parseString (unicodeEscape c.toNat ++ t) = (parseString t).map (fun p => (c :: p.1, p.2)) := by
  unfold unicodeEscape
  simp only [List.cons_append, List.nil_append]
  rw [parseString, unicodeChar_escape h]

theorem parseString_plain {c : Char} (h1 : c ≠ '"') (h2 : c ≠ '\\') (h3 : ¬ c.toNat < 32) (t : List Char) :
    parseString (c :: t) = (parseString t).map (fun p => (c :: p.1, p.2)) := by
  rw [parseString.eq_def]
  split
  · cases ‹c :: t = []›
  · rename_i h; cases h; exact absurd rfl h1
  · rename_i h; cases h; exact absurd rfl h2
  · rename_i h; cases h; exact absurd rfl h2
  · rename_i h; cases h; rw [if_neg (by simp [h2, h3])]

theorem parseString_escape (c : Char) (t : List Char) :
    parseString (jsonEscape c ++ t) = (parseString t).map (fun p => (c :: p.1, p.2)) := by
  have hof : ∀ n, c.toNat = n → Char.ofNat n = c := fun n h => by rw [← h, Char.ofNat_toNat]
  unfold jsonEscape
  split
  · subst_vars; simp [parseString, shortEscape]
  split
  · subst_vars; simp [parseString, shortEscape]
  split
  · subst_vars; simp [parseString, shortEscape]
  split
  · subst_vars; simp [parseString, shortEscape]
  split
  · subst_vars; simp [parseString, shortEscape]
  split
  · rename_i h
    rw [← hof 8 h]
    simp [parseString, shortEscape]
  split
  · rename_i h
    rw [← hof 12 h]
    simp [parseString, shortEscape]
  split
  · rename_i h
    apply parseString_unicode
    rcases h with h | rfl | rfl | rfl | h | h
    · omega
    · decide
    · decide
    · decide
    · omega
    · omega
  · rename_i h1 h2 h3 h4 h5 h6 h7 h
    rw [not_or] at h
    exact parseString_plain h1 h2 h.1 t

theorem parseString_text (s t : List Char) : parseString (s.flatMap jsonEscape ++ '"' :: t) = some (s, t) := by
  induction s with
  | nil => simp [parseString]
  | cons c s ih =>
    rw [List.flatMap_cons, List.append_assoc, parseString_escape, ih]
    rfl

mutual
/-- All numbers are number literals. -/
def Json.Numbers : Json → Prop
  | .num lit => validNumber lit = true
  | .arr l => numbersList l
  | .obj l => numbersFields l
  | _ => True

def numbersList : List Json → Prop
  | [] => True
  | v :: t => v.Numbers ∧ numbersList t

def numbersFields : List (List Char × Json) → Prop
  | [] => True
  | (_, v) :: t => v.Numbers ∧ numbersFields t
end

theorem mem_takeWhile_prop {α : Type} {p : α → Bool} {l : List α} {c : α} (h : c ∈ l.takeWhile p) : p c = true :=
  List.all_eq_true.1 (List.all_takeWhile (p := p) (l := l)) c h

/-- Number literals consist of number characters only. -/
theorem validExponent_chars {l : List Char} (h : validExponent l = true) : ∀ c ∈ l, jsonNumberChar c = true := by
  have hd : ∀ u : List Char, u.all Char.isDigit = true → ∀ c ∈ u, jsonNumberChar c = true := by
    intro u hu c hc
    have := List.all_eq_true.1 hu c hc
    simp [jsonNumberChar, this]
  unfold validExponent at h
  split at h
  · simp
  · rename_i e t
    simp only [Bool.and_eq_true, Bool.or_eq_true, beq_iff_eq] at h
    obtain ⟨he, h⟩ := h
    have hee : jsonNumberChar e = true := by rcases he with rfl | rfl <;> decide
    intro c hc
    rcases List.mem_cons.1 hc with rfl | hc
    · exact hee
    · split at h
      · rcases List.mem_cons.1 hc with rfl | hc
        · decide
        · exact hd _ (by simp at h; simpa using h.2) c hc
      · rcases List.mem_cons.1 hc with rfl | hc
        · decide
        · exact hd _ (by simp at h; simpa using h.2) c hc
      · exact hd t (by simp at h; simpa using h.2) c hc

theorem validDecimals_chars {l : List Char} (h : validDecimals l = true) : ∀ c ∈ l, jsonNumberChar c = true := by
  unfold validDecimals at h
  split at h
  · rename_i t
    simp only [Bool.and_eq_true] at h
    intro c hc
    rcases List.mem_cons.1 hc with rfl | hc
    · decide
    · rw [← List.takeWhile_append_dropWhile (p := Char.isDigit) (l := t)] at hc
      rcases List.mem_append.1 hc with hc | hc
      · have := mem_takeWhile_prop hc
        simp [jsonNumberChar, this]
      · exact validExponent_chars h.2 c hc
  · exact validExponent_chars h

theorem validUnsigned_chars {l : List Char} (h : validUnsigned l = true) :
    (∀ c ∈ l, jsonNumberChar c = true) ∧ ∃ c t, l = c :: t ∧ c.isDigit = true := by
  unfold validUnsigned at h
  split at h
  · rename_i t
    refine ⟨fun c hc => ?_, '0', t, rfl, by decide⟩
    rcases List.mem_cons.1 hc with rfl | hc
    · decide
    · exact validDecimals_chars h c hc
  · rename_i d t _
    simp only [Bool.and_eq_true] at h
    refine ⟨fun c hc => ?_, d, t, rfl, h.1⟩
    rcases List.mem_cons.1 hc with rfl | hc
    · simp [jsonNumberChar, h.1]
    · rw [← List.takeWhile_append_dropWhile (p := Char.isDigit) (l := t)] at hc
      rcases List.mem_append.1 hc with hc | hc
      · have := mem_takeWhile_prop hc
        simp [jsonNumberChar, this]
      · exact validDecimals_chars h.2 c hc
  · cases h

theorem validNumber_chars {l : List Char} (h : validNumber l = true) :
    (∀ c ∈ l, jsonNumberChar c = true) ∧ ∃ c t, l = c :: t ∧ (c.isDigit = true ∨ c = '-') := by
  unfold validNumber at h
  split at h
  · rename_i t
    refine ⟨fun c hc => ?_, '-', t, rfl, Or.inr rfl⟩
    rcases List.mem_cons.1 hc with rfl | hc
    · decide
    · exact (validUnsigned_chars h).1 c hc
  · obtain ⟨h1, c, t, h2, h3⟩ := validUnsigned_chars h
    exact ⟨h1, c, t, h2, Or.inl h3⟩

/-- What may follow a value. -/
def Ends (r : List Char) : Prop := ∀ c t, r = c :: t → jsonNumberChar c = false

theorem number_split {l r : List Char} (h : validNumber l = true) (hr : Ends r) :
    (l ++ r).takeWhile jsonNumberChar = l ∧ (l ++ r).dropWhile jsonNumberChar = r := by
  have hl := (validNumber_chars h).1
  have h1 : (l ++ r).takeWhile jsonNumberChar = l := by
    rw [List.takeWhile_append_of_pos hl]
    cases r with
    | nil => simp
    | cons c t => simp [hr c t rfl]
  have h2 := List.takeWhile_append_dropWhile (p := jsonNumberChar) (l := l ++ r)
  rw [h1] at h2
  exact ⟨h1, List.append_cancel_left h2⟩

/-- Reading a number. -/
theorem parseValue_num (n : Nat) {l r : List Char} (h : validNumber l = true) (hr : Ends r) :
    parseValue (n + 1) (l ++ r) = some (.num l, r) := by
  obtain ⟨h1, h2⟩ := number_split h hr
  obtain ⟨-, c, t, hl, hc⟩ := validNumber_chars h
  have hs : jsonSpace c = false ∧ c ≠ '{' ∧ c ≠ '[' ∧ c ≠ '"' ∧ c ≠ 'n' ∧ c ≠ 't' ∧ c ≠ 'f' := by
    rcases hc with hc | rfl
    · refine ⟨?_, ?_, ?_, ?_, ?_, ?_, ?_⟩
      · cases hsp : jsonSpace c with
        | false => rfl
        | true =>
          simp [jsonSpace] at hsp
          rcases hsp with ((rfl | rfl) | rfl) | rfl <;> exact absurd hc (by decide)
      all_goals
        rintro rfl
        exact absurd hc (by decide)
    · decide
  have hdrop : (l ++ r).dropWhile jsonSpace = l ++ r := by rw [hl]; simp [hs.1]
  unfold parseValue
  rw [hdrop]
  rw [hl, List.cons_append]
  split
  · rename_i h; exact absurd (List.cons.inj h).1 hs.2.1
  · rename_i h; exact absurd (List.cons.inj h).1 hs.2.2.1
  · rename_i h; exact absurd (List.cons.inj h).1 hs.2.2.2.1
  · rename_i h; exact absurd (List.cons.inj h).1 hs.2.2.2.2.1
  · rename_i h; exact absurd (List.cons.inj h).1 hs.2.2.2.2.2.1
  · rename_i h; exact absurd (List.cons.inj h).1 hs.2.2.2.2.2.2
  · rw [← List.cons_append, ← hl, h1, h2, if_pos h]

/-- The first character of a value. -/
theorem jsonText_head {v : Json} (h : v.Numbers) :
    ∃ c t, jsonText v = c :: t ∧ jsonSpace c = false ∧ c ≠ ']' ∧ c ≠ '}' := by
  cases v with
  | null => exact ⟨_, _, rfl, by decide⟩
  | bool b => cases b <;> exact ⟨_, _, rfl, by decide⟩
  | num l =>
    obtain ⟨-, c, t, hl, hc⟩ := validNumber_chars h
    refine ⟨c, t, hl, ?_⟩
    rcases hc with hc | rfl
    · refine ⟨?_, ?_, ?_⟩
      · cases hsp : jsonSpace c with
        | false => rfl
        | true =>
          simp [jsonSpace] at hsp
          rcases hsp with ((rfl | rfl) | rfl) | rfl <;> exact absurd hc (by decide)
      all_goals
        rintro rfl
        exact absurd hc (by decide)
    · decide
  | str s => exact ⟨_, _, rfl, by decide⟩
  | arr l =>
    cases l with
    | nil => exact ⟨_, _, rfl, by decide⟩
    | cons v t => exact ⟨_, _, rfl, by decide⟩
  | obj l =>
    cases l with
    | nil => exact ⟨_, _, rfl, by decide⟩
    | cons v t => obtain ⟨k, v⟩ := v; exact ⟨_, _, rfl, by decide⟩

theorem ends_more (l : List Json) (r : List Char) : Ends (jsonMore l ++ r) := by
  cases l with
  | nil => intro c t h; simp [jsonMore] at h; rw [← h.1]; decide
  | cons v l => intro c t h; simp [jsonMore] at h; rw [← h.1]; decide

theorem ends_fields (l : List (List Char × Json)) (r : List Char) : Ends (jsonFields l ++ r) := by
  cases l with
  | nil => intro c t h; simp [jsonFields] at h; rw [← h.1]; decide
  | cons v l => obtain ⟨k, v⟩ := v; intro c t h; simp [jsonFields] at h; rw [← h.1]; decide

theorem jsonText_length {v : Json} (h : v.Numbers) : 0 < (jsonText v).length := by
  obtain ⟨c, t, h, -⟩ := jsonText_head h
  rw [h]; simp

theorem parse_more_step {n : Nat} {s r : List Char} {v : Json} {l : List Json} (h : parseValue n s = some (v, jsonMore l ++ r))
    (hl : ∀ w t, l = w :: t → parseElements n (jsonText w ++ (jsonMore t ++ r)) = some (l, r)) :
    parseElements (n + 1) s = some (v :: l, r) := by
  rw [parseElements, h]
  cases l with
  | nil => simp [jsonMore, jsonSpace]
  | cons w t =>
    simp only [jsonMore, List.cons_append, List.append_assoc]
    rw [show List.dropWhile jsonSpace (',' :: (jsonText w ++ (jsonMore t ++ r))) = ',' :: (jsonText w ++ (jsonMore t ++ r)) from by
      simp [jsonSpace]]
    simp only [hl w t rfl, Option.map_some]

/-- Reading what was written, with enough fuel. -/
theorem parse_text (n : Nat) :
    (∀ (v : Json) (r : List Char), v.Numbers → Ends r → (jsonText v).length < n →
      parseValue n (jsonText v ++ r) = some (v, r)) ∧
    (∀ (v : Json) (t : List Json) (r : List Char), v.Numbers → numbersList t →
      (jsonText v).length + (jsonMore t).length < n →
      parseElements n (jsonText v ++ (jsonMore t ++ r)) = some (v :: t, r)) ∧
    ∀ (k : List Char) (v : Json) (t : List (List Char × Json)) (r : List Char), v.Numbers → numbersFields t →
      (jsonText v).length + (jsonFields t).length < n →
      parseMembers n (jsonString k ++ ':' :: (jsonText v ++ (jsonFields t ++ r))) = some ((k, v) :: t, r) := by
  induction n with
  | zero => exact ⟨fun _ _ _ _ h => by omega, fun _ _ _ _ _ h => by omega, fun _ _ _ _ _ _ h => by omega⟩
  | succ n ih =>
    obtain ⟨ihv, ihe, ihm⟩ := ih
    refine ⟨fun v r hv hr hn => ?_, fun v t r hv ht hn => ?_, fun k v t r hv ht hn => ?_⟩
    · match v, hv with
      | .null, _ => simp [jsonText, parseValue, jsonSpace]
      | .bool true, _ => simp [jsonText, parseValue, jsonSpace]
      | .bool false, _ => simp [jsonText, parseValue, jsonSpace]
      | .num l, hv => exact parseValue_num n hv hr
      | .str s, _ =>
        rw [jsonText, jsonString, List.cons_append, List.append_assoc, parseValue]
        simp [jsonSpace, parseString_text]
      | .arr [], _ => simp [jsonText, parseValue, jsonSpace]
      | .arr (v :: t), hv =>
        obtain ⟨c, u, hc, hs, hb, -⟩ := jsonText_head hv.1
        rw [jsonText, List.length_cons, List.length_append] at hn
        have := ihe v t r hv.1 hv.2 (by omega)
        rw [jsonText, List.cons_append, List.append_assoc, parseValue]
        rw [show List.dropWhile jsonSpace ('[' :: (jsonText v ++ (jsonMore t ++ r))) = '[' :: (jsonText v ++ (jsonMore t ++ r)) from by
          simp [jsonSpace]]
        simp only
        rw [show List.dropWhile jsonSpace (jsonText v ++ (jsonMore t ++ r)) = jsonText v ++ (jsonMore t ++ r) from by
          rw [hc]; simp [hs]]
        rw [hc, List.cons_append] at this ⊢
        split
        · rename_i h; cases h; exact absurd rfl hb
        · rw [this]; rfl
      | .obj [], _ => simp [jsonText, parseValue, jsonSpace]
      | .obj ((k, v) :: t), hv =>
        rw [jsonText, List.length_cons, List.length_append, List.length_cons, List.length_append] at hn
        have := ihm k v t r hv.1 hv.2 (by omega)
        rw [jsonText, List.cons_append, List.append_assoc, List.cons_append, List.append_assoc, parseValue]
        simp only [jsonString, List.cons_append, List.append_assoc, List.nil_append] at this ⊢
        simp only [List.dropWhile_cons, show jsonSpace '{' = false from rfl, show jsonSpace '"' = false from rfl,
          Bool.false_eq_true, if_false]
        split
        · rename_i h; cases h
        · rw [this]; rfl
    · have hm : 0 < (jsonMore t).length := by cases t <;> simp [jsonMore]
      refine parse_more_step (ihv v _ hv (ends_more t r) (by omega)) ?_
      match t, ht with
      | [], _ => intro w t h; cases h
      | w :: t, ht =>
        intro w' t' h
        cases h
        rw [jsonMore, List.length_cons, List.length_append] at hn
        exact ihe w t r ht.1 ht.2 (by have := jsonText_length hv; omega)
    · have hm : 0 < (jsonFields t).length := by
        cases t with
        | nil => simp [jsonFields]
        | cons p t => obtain ⟨k, w⟩ := p; simp [jsonFields]
      have h1 := ihv v _ hv (ends_fields t r) (by omega)
      rw [jsonString, List.cons_append, List.append_assoc, parseMembers]
      simp only [List.dropWhile_cons, show jsonSpace '"' = false from rfl, Bool.false_eq_true, if_false, List.cons_append,
        List.nil_append, parseString_text, show jsonSpace ':' = false from rfl, h1]
      match t, ht with
      | [], _ => simp [jsonFields, jsonSpace]
      | (k', w) :: t, ht =>
        rw [jsonFields, List.length_cons, List.length_append, List.length_cons, List.length_append] at hn
        have := ihm k' w t r ht.1 ht.2 (by have := jsonText_length hv; omega)
        simp only [jsonFields, List.cons_append, List.append_assoc, List.dropWhile_cons,
          show jsonSpace ',' = false from rfl, Bool.false_eq_true, if_false, this, Option.map_some]

theorem jsonParse_text (v : Json) (hv : v.Numbers) : jsonParse (jsonText v) = some v := by
  have := (parse_text ((jsonText v).length + 1)).1 v [] hv (fun _ _ h => by cases h) (by omega)
  rw [List.append_nil] at this
  simp [jsonParse, this]

end GoSelect
