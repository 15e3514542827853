import Verif.Proofs.JsonText

/-! A text that was cut off is no JSON. -/

namespace GoSelect

theorem parseString_append {s x r : List Char} (h : parseString s = some (x, r)) (q : List Char) :
    parseString (s ++ q) = some (x, r ++ q) := by
  induction s using parseString.induct generalizing x r with
  | case1 => rw [parseString] at h; cases h
  | case2 t => rw [parseString] at h; cases h; rw [List.cons_append, parseString]
  | case3 a b c d t hu => rw [parseString, hu] at h; cases h
  | case4 a b c d t y hu ih =>
    rw [parseString, hu] at h
    cases hp : parseString t with
    | none => rw [hp] at h; cases h
    | some p =>
      rw [hp] at h
      cases h
      simp only [List.cons_append]
      rw [parseString, hu]
      simp only
      rw [ih hp]
      rfl
  | case5 e t hne he =>
    rw [parseString] at h
    · rw [he] at h; cases h
    · exact hne
  | case6 e t hne y he ih =>
    rw [parseString] at h
    · rw [he] at h
      cases hp : parseString t with
      | none => rw [hp] at h; cases h
      | some p =>
        rw [hp] at h
        cases h
        simp only [List.cons_append]
        have hu : e ≠ 'u' := fun h0 => by subst h0; cases he
        rw [parseString]
        · rw [he]
          simp only
          rw [ih hp]
          rfl
        · intro a b c d r' h0
          exact absurd h0 hu
    · exact hne
  | case7 c t h1 h2 h3 hc =>
    rw [parseString] at h
    · rw [if_pos hc] at h; cases h
    · exact h1
    · exact h2
    · exact h3
  | case8 c t h1 h2 h3 hc ih =>
    rw [parseString] at h
    · rw [if_neg hc] at h
      cases hp : parseString t with
      | none => rw [hp] at h; cases h
      | some p =>
        rw [hp] at h
        cases h
        rw [not_or] at hc
        rw [List.cons_append, parseString_plain (fun h0 => h1 h0) hc.2 hc.1, ih hp]
        rfl
    · exact h1
    · exact h2
    · exact h3

theorem dropWhile_append_cons {p : Char → Bool} {s t : List Char} {c : Char} (h : s.dropWhile p = c :: t) (q : List Char) :
    (s ++ q).dropWhile p = c :: (t ++ q) := by
  rw [List.dropWhile_append, h]
  rfl

theorem takeWhile_append_cons {p : Char → Bool} {s t : List Char} {c : Char} (h : s.dropWhile p = c :: t) (q : List Char) :
    (s ++ q).takeWhile p = s.takeWhile p := by
  have h1 : s.takeWhile p ++ c :: t = s := by rw [← h]; exact List.takeWhile_append_dropWhile
  have h2 : p c = false := by
    have := List.head?_dropWhile_not p s
    rw [h] at this
    simpa using this
  conv_lhs => rw [← h1]
  rw [List.append_assoc, List.takeWhile_append_of_pos (fun a ha => mem_takeWhile_prop ha), List.cons_append,
    List.takeWhile_cons_of_neg (by simp [h2]), List.append_nil]

/-- A value that ends before the end of the text is read the same way if the text goes on. -/
theorem parse_append (n : Nat) :
    (∀ (m : Nat) (s : List Char) (v : Json) (r q : List Char), n ≤ m → parseValue n s = some (v, r) →
      (r ≠ [] ∨ ∀ l, v ≠ .num l) → parseValue m (s ++ q) = some (v, r ++ q)) ∧
    (∀ (m : Nat) (s : List Char) (v : List Json) (r q : List Char), n ≤ m → parseElements n s = some (v, r) →
      parseElements m (s ++ q) = some (v, r ++ q)) ∧
    ∀ (m : Nat) (s : List Char) (v : List (List Char × Json)) (r q : List Char), n ≤ m →
      parseMembers n s = some (v, r) → parseMembers m (s ++ q) = some (v, r ++ q) := by
  induction n with
  | zero => exact ⟨fun _ _ _ _ _ _ h => by (rw [parseValue] at h; cases h), fun _ _ _ _ _ _ h => by (rw [parseElements] at h; cases h),
      fun _ _ _ _ _ _ h => by (rw [parseMembers] at h; cases h)⟩
  | succ n ih =>
    obtain ⟨ihv, ihe, ihm⟩ := ih
    refine ⟨fun m s v r q hm h hr => ?_, fun m s v r q hm h => ?_, fun m s v r q hm h => ?_⟩
    · obtain ⟨m, rfl⟩ : ∃ k, m = k + 1 := ⟨m - 1, by omega⟩
      rw [parseValue] at h
      split at h
      · rename_i t hs
        rw [parseValue, dropWhile_append_cons hs]
        simp only
        split at h
        · rename_i u ht
          cases h
          rw [dropWhile_append_cons ht]
          rfl
        · rename_i hne
          cases hp : parseMembers n (t.dropWhile jsonSpace) with
          | none => rw [hp] at h; cases h
          | some p =>
            rw [hp] at h
            cases h
            have := ihm m _ _ _ q (by omega) hp
            cases hd : t.dropWhile jsonSpace with
            | nil =>
              rw [hd] at hp
              cases n <;> cases hp
            | cons c u =>
              rw [hd] at this
              rw [dropWhile_append_cons hd]
              split
              · rename_i h0
                cases h0
                exact absurd hd (hne _)
              · rw [List.cons_append] at this
                rw [this]
                rfl
      · rename_i t hs
        rw [parseValue, dropWhile_append_cons hs]
        simp only
        split at h
        · rename_i u ht
          cases h
          rw [dropWhile_append_cons ht]
          rfl
        · rename_i hne
          cases hp : parseElements n (t.dropWhile jsonSpace) with
          | none => rw [hp] at h; cases h
          | some p =>
            rw [hp] at h
            cases h
            have := ihe m _ _ _ q (by omega) hp
            cases hd : t.dropWhile jsonSpace with
            | nil =>
              rw [hd] at hp
              cases n with
              | zero => cases hp
              | succ n => cases n <;> cases hp
            | cons c u =>
              rw [hd] at this
              rw [dropWhile_append_cons hd]
              split
              · rename_i h0
                cases h0
                exact absurd hd (hne _)
              · rw [List.cons_append] at this
                rw [this]
                rfl
      · rename_i t hs
        rw [parseValue, dropWhile_append_cons hs]
        simp only
        cases hp : parseString t with
        | none => rw [hp] at h; cases h
        | some p =>
          rw [hp] at h
          cases h
          rw [parseString_append hp]
          rfl
      · rename_i t hs
        cases h
        rw [parseValue, dropWhile_append_cons hs]
        rfl
      · rename_i t hs
        cases h
        rw [parseValue, dropWhile_append_cons hs]
        rfl
      · rename_i t hs
        cases h
        rw [parseValue, dropWhile_append_cons hs]
        rfl
      · split at h
        · rename_i hv
          cases h
          have hr' : (s.dropWhile jsonSpace).dropWhile jsonNumberChar ≠ [] := by
            rcases hr with h | h
            · exact h
            · exact absurd rfl (h _)
          obtain ⟨-, c, u, hc, hd⟩ := validNumber_chars hv
          cases hs : s.dropWhile jsonSpace with
          | nil => rw [hs] at hr'; exact absurd rfl hr'
          | cons a t =>
            have hac : a = c := by
              rw [hs, List.takeWhile_cons] at hc
              split at hc
              · cases hc; rfl
              · cases hc
            subst hac
            cases he : (s.dropWhile jsonSpace).dropWhile jsonNumberChar with
            | nil => exact absurd he hr'
            | cons e w =>
              have k1 := takeWhile_append_cons he q
              have k2 := dropWhile_append_cons he q
              rw [hs] at k1 k2 hv
              rw [List.cons_append] at k1 k2
              rw [parseValue, dropWhile_append_cons hs]
              split
              · rename_i h0; rw [(List.cons.inj h0).1] at hd; exact absurd hd (by decide)
              · rename_i h0; rw [(List.cons.inj h0).1] at hd; exact absurd hd (by decide)
              · rename_i h0; rw [(List.cons.inj h0).1] at hd; exact absurd hd (by decide)
              · rename_i h0; rw [(List.cons.inj h0).1] at hd; exact absurd hd (by decide)
              · rename_i h0; rw [(List.cons.inj h0).1] at hd; exact absurd hd (by decide)
              · rename_i h0; rw [(List.cons.inj h0).1] at hd; exact absurd hd (by decide)
              · rw [k1, k2, if_pos hv, ← hs, ← List.cons_append, he]
        · cases h
    · obtain ⟨m, rfl⟩ : ∃ k, m = k + 1 := ⟨m - 1, by omega⟩
      rw [parseElements] at h
      cases hv : parseValue n s with
      | none => rw [hv] at h; cases h
      | some p =>
        obtain ⟨x, u⟩ := p
        rw [hv] at h
        simp only at h
        have hne : u ≠ [] := by rintro rfl; cases h
        rw [parseElements, ihv m s x u q (by omega) hv (Or.inl hne)]
        simp only
        split at h
        · rename_i w hw
          rw [dropWhile_append_cons hw]
          cases hp : parseElements n w with
          | none => rw [hp] at h; cases h
          | some p =>
            rw [hp] at h
            cases h
            simp only
            rw [ihe m _ _ _ q (by omega) hp]
            rfl
        · rename_i w hw
          cases h
          rw [dropWhile_append_cons hw]
          rfl
        · cases h
    · obtain ⟨m, rfl⟩ : ∃ k, m = k + 1 := ⟨m - 1, by omega⟩
      rw [parseMembers] at h
      split at h
      · rename_i t hs
        rw [parseMembers, dropWhile_append_cons hs]
        simp only
        cases hk : parseString t with
        | none => rw [hk] at h; cases h
        | some p =>
          obtain ⟨k, u⟩ := p
          rw [hk] at h
          rw [parseString_append hk]
          simp only at h ⊢
          split at h
          · rename_i w hw
            rw [dropWhile_append_cons hw]
            simp only
            cases hv : parseValue n w with
            | none => rw [hv] at h; cases h
            | some p =>
              obtain ⟨x, y⟩ := p
              rw [hv] at h
              simp only at h
              have hne : y ≠ [] := by rintro rfl; cases h
              rw [ihv m w x y q (by omega) hv (Or.inl hne)]
              simp only
              split at h
              · rename_i z hz
                rw [dropWhile_append_cons hz]
                cases hp : parseMembers n z with
                | none => rw [hp] at h; cases h
                | some p =>
                  rw [hp] at h
                  cases h
                  simp only
                  rw [ihm m _ _ _ q (by omega) hp]
                  rfl
              · rename_i z hz
                cases h
                rw [dropWhile_append_cons hz]
                rfl
              · cases h
          · cases h
      · cases h

/-- No proper beginning of the text of an object is JSON. -/
theorem jsonParse_truncated {l : List (List Char × Json)} (hl : (Json.obj l).Numbers) {p q : List Char}
    (h : jsonText (.obj l) = p ++ q) (hq : q ≠ []) : jsonParse p = none := by
  have hfull := (parse_text ((jsonText (.obj l)).length + 1)).1 (.obj l) [] hl (fun _ _ h => by cases h) (by omega)
  rw [List.append_nil] at hfull
  have hhead : p = [] ∨ ∃ t, p = '{' :: t := by
    cases p with
    | nil => exact .inl rfl
    | cons c t =>
      refine .inr ⟨t, ?_⟩
      match l, h with
      | [], h => rw [jsonText, List.cons_append] at h; rw [← (List.cons.inj h).1]
      | (k, v) :: l, h => rw [jsonText, List.cons_append] at h; rw [← (List.cons.inj h).1]
  unfold jsonParse
  cases hp : parseValue (p.length + 1) p with
  | none => rfl
  | some x =>
    obtain ⟨v, r⟩ := x
    exfalso
    have hv : ∀ lit, v ≠ .num lit := by
      rintro lit rfl
      rcases hhead with rfl | ⟨t, rfl⟩
      · cases hp
      · rw [parseValue] at hp
        simp only [List.dropWhile_cons, show jsonSpace '{' = false from rfl, Bool.false_eq_true, if_false] at hp
        split at hp
        · cases hp
        · rw [Option.map_eq_some_iff] at hp
          obtain ⟨a, -, ha⟩ := hp
          cases ha
    have := (parse_append _).1 ((jsonText (.obj l)).length + 1) p v r q (by rw [h, List.length_append]; omega) hp (Or.inr hv)
    rw [← h, hfull] at this
    have := congrArg Prod.snd (Option.some.inj this)
    simp only at this
    exact hq (List.append_eq_nil_iff.1 this.symm).2

/-- Nothing but blanks may follow an object. -/
theorem jsonParse_trailing {l : List (List Char × Json)} (hl : (Json.obj l).Numbers) {q : List Char}
    (hq : q.dropWhile jsonSpace ≠ []) : jsonParse (jsonText (.obj l) ++ q) = none := by
  have hfull := (parse_text ((jsonText (.obj l)).length + 1)).1 (.obj l) [] hl (fun _ _ h => by cases h) (by omega)
  rw [List.append_nil] at hfull
  have := (parse_append _).1 ((jsonText (.obj l) ++ q).length + 1) _ _ _ q (by rw [List.length_append]; omega) hfull
    (Or.inr fun _ h => by cases h)
  unfold jsonParse
  rw [this]
  simp only [List.nil_append, if_neg hq]

end GoSelect
