import Verif.Props.C129

/-!
# C129: Numbers and entries of highscore files

What the values in the statements of C129 are, in terms of the JSON text: which values are read as an `int`, what an entry
must look like, and which capacity counts.
-/

namespace GoSelect

open Spec

namespace Spec

/-- A decimal number of at least one digit, perhaps with a minus sign. -/
def IntText (lit : List Char) (n : Int) : Prop :=
  ∃ ds, ds ≠ [] ∧ (∀ c ∈ ds, '0' ≤ c ∧ c ≤ '9') ∧
    ((lit = ds ∧ n = Nat.ofDigitChars 10 ds 0) ∨ (lit = '-' :: ds ∧ n = -(Nat.ofDigitChars 10 ds 0 : Nat)))

/-- A variable of type `int` with value `old` has value `n` after this JSON value was read into it. -/
def IntFrom (old : Int) (v : Json) (n : Int) : Prop :=
  (v = .null ∧ n = old) ∨ ∃ lit, v = .num lit ∧ IntText lit n ∧ -9223372036854775808 ≤ n ∧ n ≤ 9223372036854775807

/-- A variable of type `float64` that is 0 has value `x` after this JSON value was read into it. -/
def FloatFrom {α : Type} [Zero α] (N : NumberText α) (v : Json) (x : α) : Prop :=
  (v = .null ∧ x = 0) ∨ ∃ lit, v = .num lit ∧ N.read lit = some x

/-- A slice after this JSON value was read into it. -/
def SliceFrom {β : Type} (R : Json → β → Prop) (v : Json) (l : List β) : Prop :=
  (v = .null ∧ l = []) ∨ ∃ vs, v = .arr vs ∧ List.Forall₂ R vs l

/-- The last member with this name, without regard to case; `null` if there is none. -/
def lastCalled (name : String) (l : List (List Char × Json)) : Json := (called name l).getLast?.getD .null

end Spec

theorem digit_iff (ds : List Char) : ds.all Char.isDigit = true ↔ ∀ c ∈ ds, '0' ≤ c ∧ c ≤ '9' := by
  rw [List.all_eq_true]
  refine forall₂_congr fun c _ => ?_
  simp only [Char.isDigit, Bool.and_eq_true, decide_eq_true_eq, ge_iff_le]
  exact Iff.rfl

theorem parseInt_iff (lit : List Char) (n : Int) : parseInt lit = some n ↔ IntText lit n := by
  unfold parseInt
  simp only [digit_iff]
  constructor
  · intro h
    split at h
    · rename_i t
      obtain ⟨k, h1, rfl⟩ := Option.map_eq_some_iff.1 h
      split at h1
      · rename_i hd
        cases h1
        exact ⟨t, hd.1, hd.2, Or.inr ⟨rfl, rfl⟩⟩
      · cases h1
    · obtain ⟨k, h1, rfl⟩ := Option.map_eq_some_iff.1 h
      split at h1
      · rename_i hd
        cases h1
        exact ⟨lit, hd.1, hd.2, Or.inl ⟨rfl, rfl⟩⟩
      · cases h1
  · rintro ⟨ds, h1, h2, ⟨rfl, rfl⟩ | ⟨rfl, rfl⟩⟩
    · split
      · have := h2 '-' (by simp)
        exact absurd this (by decide)
      · rw [if_pos ⟨h1, h2⟩]
        rfl
    · simp only
      rw [if_pos ⟨h1, h2⟩]
      rfl

/-- **C129 (numbers).** A number is read as an `int` iff it has neither a fraction nor an exponent and fits 64 bits; `null`
leaves the old value. -/
theorem C129_int (old : Int) (v : Json) (n : Int) : intInto old v = some n ↔ IntFrom old v n := by
  unfold intInto IntFrom
  cases v with
  | num lit =>
    simp only [reduceCtorEq, false_and, false_or, Json.num.injEq, Option.bind_eq_some_iff]
    constructor
    · rintro ⟨k, h1, h2⟩
      split at h2
      · rename_i hr
        cases h2
        exact ⟨lit, rfl, (parseInt_iff _ _).1 h1, by omega, by omega⟩
      · cases h2
    · rintro ⟨lit', rfl, h1, h2, h3⟩
      exact ⟨n, (parseInt_iff _ _).2 h1, by rw [if_pos (by omega)]⟩
  | null => simp [eq_comm]
  | _ => simp

theorem numberOfJson_iff {α : Type} [Zero α] (N : NumberText α) (v : Json) (x : α) :
    numberOfJson N v = some x ↔ FloatFrom N v x := by
  unfold numberOfJson FloatFrom
  cases v <;> simp [eq_comm]

theorem listOfJson_iff {β : Type} {f : Json → Option β} {R : Json → β → Prop} (h : ∀ v x, f v = some x ↔ R v x)
    (v : Json) (l : List β) : listOfJson f v = some l ↔ SliceFrom R v l := by
  unfold listOfJson SliceFrom
  cases v with
  | arr vs =>
    simp only [reduceCtorEq, false_and, false_or, Json.arr.injEq, exists_eq_left']
    induction vs generalizing l with
    | nil => simp [eq_comm]
    | cons v vs ih =>
      rw [List.mapM_cons]
      constructor
      · intro hl
        obtain ⟨x, h1, hl⟩ := Option.bind_eq_some_iff.1 hl
        obtain ⟨xs, h2, hl⟩ := Option.bind_eq_some_iff.1 hl
        cases hl
        exact .cons ((h _ _).1 h1) ((ih _).1 h2)
      · rintro (_ | ⟨h1, h2⟩)
        rw [(h _ _).2 h1, (ih _).2 h2]
        rfl
  | null => simp [eq_comm]
  | _ => simp

theorem member_eq (l : List (List Char × Json)) (name : String) : member l name = lastCalled name l := by
  unfold member lastCalled called
  have : ∀ r : List (List Char × Json),
      (match r.find? (fun p => foldName p.1 == foldName name.toList) with
        | some p => p.2
        | none => Json.null) =
      (((r.filter (fun p => foldName p.1 = foldName name.toList)).map (·.2)).head?).getD .null := by
    intro r
    induction r with
    | nil => rfl
    | cons p r ih =>
      by_cases hp : foldName p.1 = foldName name.toList
      · simp [hp]
      · rw [List.find?_cons_of_neg (by simpa using hp), ih, List.filter_cons_of_neg (by simpa using hp)]
  refine (this l.reverse).trans ?_
  rw [List.filter_reverse, List.map_reverse, List.head?_reverse]

/-- **C129 (entries).** An entry has the right form iff it is an object whose numbers and lists are of the right types; the
last member of each name counts, and what is missing is read as 0 or an empty list. -/
theorem C129_entry {α : Type} [Zero α] (N : NumberText α) (j : Json) (aux : NodeJson α) :
    nodeFields N j = some aux ↔ ∃ l level, j = .obj l ∧
      SliceFrom (IntFrom 0) (lastCalled "selected" l) aux.selected ∧
      IntFrom 0 (lastCalled "totNumFeatures" l) aux.totNumFeatures ∧
      FloatFrom N (lastCalled "lower" l) aux.lower ∧
      FloatFrom N (lastCalled "upper" l) aux.upper ∧
      FloatFrom N (lastCalled "score" l) aux.score ∧
      IntFrom 0 (lastCalled "level" l) level ∧ aux.level = level.toNat ∧
      SliceFrom (FloatFrom N) (lastCalled "coeff" l) aux.coeff := by
  constructor
  · intro h
    cases j with
    | obj l =>
      unfold nodeFields at h
      obtain ⟨selected, h1, h⟩ := Option.bind_eq_some_iff.1 h
      obtain ⟨tot, h2, h⟩ := Option.bind_eq_some_iff.1 h
      obtain ⟨lower, h3, h⟩ := Option.bind_eq_some_iff.1 h
      obtain ⟨upper, h4, h⟩ := Option.bind_eq_some_iff.1 h
      obtain ⟨score, h5, h⟩ := Option.bind_eq_some_iff.1 h
      obtain ⟨level, h6, h⟩ := Option.bind_eq_some_iff.1 h
      obtain ⟨coeff, h7, h⟩ := Option.bind_eq_some_iff.1 h
      cases h
      rw [member_eq] at h1 h2 h3 h4 h5 h6 h7
      exact ⟨l, level, rfl, (listOfJson_iff (C129_int 0) _ _).1 h1, (C129_int _ _ _).1 h2, (numberOfJson_iff _ _ _).1 h3,
        (numberOfJson_iff _ _ _).1 h4, (numberOfJson_iff _ _ _).1 h5, (C129_int _ _ _).1 h6, rfl,
        (listOfJson_iff (numberOfJson_iff N) _ _).1 h7⟩
    | _ => cases h
  · rintro ⟨l, level, rfl, h1, h2, h3, h4, h5, h6, h7, h8⟩
    rw [← member_eq] at h1 h2 h3 h4 h5 h6 h8
    obtain ⟨s, t, lo, up, sc, le, co⟩ := aux
    simp only at h1 h2 h3 h4 h5 h7 h8
    subst h7
    unfold nodeFields
    simp only [(listOfJson_iff (C129_int 0) _ _).2 h1, (C129_int _ _ _).2 h2, (numberOfJson_iff _ _ _).2 h3,
      (numberOfJson_iff _ _ _).2 h4, (numberOfJson_iff _ _ _).2 h5, (C129_int _ _ _).2 h6,
      (listOfJson_iff (numberOfJson_iff N) _ _).2 h8]
    rfl

namespace Spec

/-- What reading these values one after the other, all into the same variable of type `int`, makes of it. -/
inductive ReadsInts : Int → List Json → Int → Prop
  | nil (old : Int) : ReadsInts old [] old
  | cons {old mid new : Int} {v : Json} {vs : List Json} : IntFrom old v mid → ReadsInts mid vs new →
      ReadsInts old (v :: vs) new

end Spec

theorem readsInts_last (vs : List Json) (old : Int) (h : ∀ v ∈ vs, ∃ n, intInto 0 v = some n) (M : Int) :
    M = ((vs.filter (fun v => intInto 1 v = intInto 0 v)).getLast?.bind (intInto 0)).getD old ↔ ReadsInts old vs M := by
  induction vs generalizing old with
  | nil =>
    constructor
    · rintro rfl; exact .nil _
    · rintro ⟨⟩; rfl
  | cons v vs ih =>
    obtain ⟨k, hk⟩ := h v (by simp)
    have hvs : ∀ w ∈ vs, ∃ n, intInto 0 w = some n := fun w hw => h w (by simp [hw])
    by_cases hv : v = .null
    · subst hv
      have e : intInto 1 Json.null ≠ intInto 0 Json.null := by simp [intInto]
      rw [List.filter_cons_of_neg (by simpa using e), ih old hvs]
      constructor
      · exact fun h' => .cons (Or.inl ⟨rfl, rfl⟩) h'
      · rintro (_ | ⟨h1 | ⟨lit, h1, -⟩, h2⟩)
        · rw [← h1.2]; exact h2
        · cases h1
    · have e : ∀ old, intInto old v = some k := by
        intro old
        cases v with
        | null => exact absurd rfl hv
        | num lit => exact hk
        | _ => cases hk
      have e' : intInto 1 v = intInto 0 v := by rw [e, e]
      rw [List.filter_cons_of_pos (by simpa using e')]
      have key : ((v :: vs.filter (fun v => intInto 1 v = intInto 0 v)).getLast?.bind (intInto 0)).getD old =
          ((vs.filter (fun v => intInto 1 v = intInto 0 v)).getLast?.bind (intInto 0)).getD k := by
        cases hf : vs.filter (fun v => intInto 1 v = intInto 0 v) with
        | nil => simp [e]
        | cons w ws =>
          have hw : ∃ x, ((w :: ws).getLast?.bind (intInto 0)) = some x := by
            have hmem := List.getLast_mem (List.cons_ne_nil w ws)
            have h2 : (w :: ws).getLast (List.cons_ne_nil w ws) ∈ vs := by
              have : (w :: ws).getLast (List.cons_ne_nil w ws) ∈ vs.filter (fun v => intInto 1 v = intInto 0 v) := by
                rw [hf]; exact hmem
              exact (List.mem_filter.1 this).1
            obtain ⟨x, hx⟩ := hvs _ h2
            exact ⟨x, by rw [List.getLast?_eq_getLast_of_ne_nil (List.cons_ne_nil w ws), Option.bind_some, hx]⟩
          obtain ⟨x, hx⟩ := hw
          rw [List.getLast?_cons_cons, hx]
          rfl
      rw [key, ih k hvs]
      constructor
      · exact fun h' => .cons ((C129_int _ _ _).1 (e old)) h'
      · rintro (_ | ⟨h1, h2⟩)
        have := (C129_int _ _ _).2 h1
        rw [e] at this
        cases this
        exact h2

/-- **C129 (capacity).** The capacity is what reading all members called `maxItems` in the order of the text makes of a
variable that is 0; a text of the right form has one. -/
theorem C129_capacity {α : Type} [Zero α] (N : NumberText α) (lim : Nat) (text : String) (l : List (List Char × Json))
    (ht : jsonParse text.toList = some (.obj l)) (M : Int) (ns : List (Option (Node α))) :
    Contents N lim text M ns ↔ ReadsInts 0 (called "maxItems" l) M ∧
      (∀ v ∈ called "items" l, v = .null ∨ ∃ es, v = .arr es) ∧ (∀ e ∈ entries l, Fine N lim e) ∧
      List.Forall₂ (StandsFor N) (elements (lastCalled "items" l)) ns := by
  have hlast : elements (lastCalled "items" l) = (((called "items" l).getLast?.map elements).getD []) := by
    unfold lastCalled
    cases (called "items" l).getLast? <;> rfl
  rw [hlast]
  have hall : ∀ {old M} {vs : List Json}, ReadsInts old vs M → ∀ v ∈ vs, ∃ n, intInto 0 v = some n := by
    intro old M vs h
    induction h with
    | nil => simp
    | @cons old mid new v vs h1 _ ih =>
      intro w hw
      rcases List.mem_cons.1 hw with rfl | hw
      · rcases h1 with ⟨rfl, -⟩ | ⟨lit, rfl, h2⟩
        · exact ⟨0, rfl⟩
        · exact ⟨mid, (C129_int _ _ _).2 (Or.inr ⟨lit, rfl, h2⟩)⟩
      · exact ih w hw
  constructor
  · rintro (⟨h1, -⟩ | ⟨l', h1, h2, h3, h4, h5, h6⟩)
    · rw [ht] at h1; cases h1
    · rw [ht] at h1
      cases h1
      exact ⟨(readsInts_last _ 0 h2 M).1 h5, h3, h4, h6⟩
  · rintro ⟨h1, h2, h3, h4⟩
    exact Or.inr ⟨l, ht, hall h1, h2, h3, (readsInts_last _ 0 (hall h1) M).2 h1, h4⟩

/-- Numbers in range, out of range, with a sign and with a fraction. -/
example : IntFrom 7 .null 7 ∧ IntFrom 7 (.num "-12".toList) (-12) ∧
    (∀ n, ¬ IntFrom 7 (.num "9223372036854775808".toList) n) ∧ (∀ n, ¬ IntFrom 7 (.num "1.0".toList) n) := by
  refine ⟨Or.inl ⟨rfl, rfl⟩, (C129_int _ _ _).1 (by decide), fun n h => ?_, fun n h => ?_⟩ <;>
  · have := (C129_int _ _ _).2 h
    revert this
    rw [show intInto 7 _ = none by decide]
    simp

/-- A later `null` does not take back the capacity. -/
example : ReadsInts 0 [.num "3".toList, .num "5".toList, .null] 5 :=
  .cons ((C129_int _ _ 3).1 (by decide)) (.cons ((C129_int _ _ 5).1 (by decide)) (.cons (Or.inl ⟨rfl, rfl⟩) (.nil _)))

end GoSelect
