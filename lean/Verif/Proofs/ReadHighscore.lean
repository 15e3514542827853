import Verif.Model.ReadHighscore
import Verif.Proofs.Highscore

/-!
# Reading highscore lists from arbitrary texts: specification and lemmas
-/

namespace GoSelect

variable {α : Type}

namespace Spec

/-- The values of the members of an object with this name, without regard to case. -/
def called (name : String) (l : List (List Char × Json)) : List Json :=
  (l.filter (fun p => foldName p.1 = foldName name.toList)).map (·.2)

/-- The elements of a value that is an array. -/
def elements : Json → List Json
  | .arr l => l
  | _ => []

/-- The entries of all lists called `items`, in the order of the text. -/
def entries (l : List (List Char × Json)) : List Json := (called "items" l).flatMap elements

/-- The feature numbers of an entry fit its number of features, and this number is possible. -/
def FeaturesFit (lim : Nat) (aux : NodeJson α) : Prop :=
  0 ≤ aux.totNumFeatures ∧ aux.totNumFeatures ≤ lim ∧ ∀ v ∈ aux.selected, 0 ≤ v ∧ v < aux.totNumFeatures

/-- The entry is `null`, or an object of the right form whose feature numbers are in range. -/
def Fine [Zero α] (N : NumberText α) (lim : Nat) (j : Json) : Prop :=
  j = .null ∨ ∃ aux, nodeFields N j = some aux ∧ FeaturesFit lim aux

/-- The entry is an object of the right form, but its feature numbers are not in range. -/
def Breaks [Zero α] (N : NumberText α) (lim : Nat) (j : Json) : Prop :=
  ∃ aux, nodeFields N j = some aux ∧ ¬ FeaturesFit lim aux

/-- The node (`none` for nil) that an entry stands for. -/
def StandsFor [Zero α] (N : NumberText α) (j : Json) (n : Option (Node α)) : Prop :=
  (j = .null ∧ n = none) ∨ ∃ aux m, nodeFields N j = some aux ∧ n = some m ∧ m.score = aux.score ∧
    m.coeff = aux.coeff ∧ m.lower = aux.lower ∧ m.upper = aux.upper ∧ m.level = aux.level ∧ m.wasFlipped = false ∧
    (m.model.length : Int) = aux.totNumFeatures ∧
    ∀ i < m.model.length, m.model[i]? = some true ↔ (i : Int) ∈ aux.selected

/-- The text is well-formed, and stands for a list with this capacity and these nodes: all numbers and lists are of the
right type, all entries are fine, the last number called `maxItems` is the capacity (0 if there is none), and the last list
called `items` holds the nodes. -/
def Contents [Zero α] (N : NumberText α) (lim : Nat) (text : String) (M : Int) (ns : List (Option (Node α))) : Prop :=
  (jsonParse text.toList = some .null ∧ M = 0 ∧ ns = []) ∨
  ∃ l, jsonParse text.toList = some (.obj l) ∧
    (∀ v ∈ called "maxItems" l, ∃ n, intInto 0 v = some n) ∧
    (∀ v ∈ called "items" l, v = .null ∨ ∃ es, v = .arr es) ∧
    (∀ e ∈ entries l, Fine N lim e) ∧
    (M = (((called "maxItems" l).filter (fun v => (intInto 1 v) = intInto 0 v)).getLast?.bind (intInto 0)).getD 0) ∧
    List.Forall₂ (StandsFor N) (((called "items" l).getLast?.map elements).getD []) ns

end Spec

open Spec

/-! ## Nodes -/

theorem goSetInt_fold (sel : List Int) (model : List Bool) :
    (∀ v ∈ sel, 0 ≤ v ∧ v < (model.length : Int)) ∧ (∃ m, sel.foldlM (fun model v => goSetInt model v true) model = some m ∧
      m.length = model.length ∧ ∀ i < m.length, m[i]? = some true ↔ model[i]? = some true ∨ (i : Int) ∈ sel) ∨
    (¬ ∀ v ∈ sel, 0 ≤ v ∧ v < (model.length : Int)) ∧ sel.foldlM (fun model v => goSetInt model v true) model = none := by
  induction sel generalizing model with
  | nil => left; exact ⟨by simp, model, rfl, rfl, by simp⟩
  | cons v sel ih =>
    by_cases hv : 0 ≤ v ∧ v < (model.length : Int)
    · have e : goSetInt model v true = some (model.set v.toNat true) := by
        unfold goSetInt goSet
        rw [if_neg (by omega), if_pos (by omega)]
      rcases ih (model.set v.toNat true) with ⟨h1, m, h2, h3, h4⟩ | ⟨h1, h2⟩
      · left
        rw [List.length_set] at h1 h3
        refine ⟨by simpa [hv] using h1, m, by rw [List.foldlM_cons, e]; exact h2, h3, fun i hi => ?_⟩
        rw [h4 i hi, List.getElem?_set]
        by_cases hvi : v.toNat = i
        · have : (i : Int) = v := by omega
          simp [hvi, this, show i < model.length by omega]
        · have : (i : Int) ≠ v := by omega
          simp [hvi, this]
      · right
        rw [List.length_set] at h1
        exact ⟨fun h => h1 (fun w hw => h w (by simp [hw])), by rw [List.foldlM_cons, e]; exact h2⟩
    · right
      refine ⟨fun h => hv (h v (by simp)), ?_⟩
      have e : goSetInt model v true = none := by
        unfold goSetInt goSet
        by_cases h0 : v < 0
        · rw [if_pos h0]
        · rw [if_neg h0, if_neg (by omega)]
      rw [List.foldlM_cons, e]; rfl

theorem nodeFill_none {lim : Nat} {aux : NodeJson α} : nodeFill lim aux = none ↔ ¬ FeaturesFit lim aux := by
  unfold nodeFill FeaturesFit
  by_cases h : aux.totNumFeatures < 0 ∨ (lim : Int) < aux.totNumFeatures
  · rw [if_pos h]; simp; omega
  · rw [if_neg h]
    have hlen : ((List.replicate aux.totNumFeatures.toNat false).length : Int) = aux.totNumFeatures := by
      rw [List.length_replicate]; omega
    rcases goSetInt_fold aux.selected (List.replicate aux.totNumFeatures.toNat false) with ⟨h1, m, h2, -, -⟩ | ⟨h1, h2⟩
    · rw [hlen] at h1
      rw [h2]
      simp only [Option.map_some, reduceCtorEq, false_iff, not_not]
      exact ⟨by omega, by omega, h1⟩
    · rw [hlen] at h1
      rw [h2]
      simp only [Option.map_none, true_iff]
      exact fun h' => h1 h'.2.2

theorem nodeFill_standsFor [Zero α] {N : NumberText α} {lim : Nat} {j : Json} {aux : NodeJson α} {n : Node α}
    (hj : nodeFields N j = some aux) (h : nodeFill lim aux = some n) : StandsFor N j (some n) := by
  unfold nodeFill at h
  split at h
  · cases h
  · rename_i hr
    have hlen : ((List.replicate aux.totNumFeatures.toNat false).length : Int) = aux.totNumFeatures := by
      rw [List.length_replicate]; omega
    rcases goSetInt_fold aux.selected (List.replicate aux.totNumFeatures.toNat false) with ⟨-, m, h2, h3, h4⟩ | ⟨-, h2⟩
    · rw [h2, Option.map_some, Option.some.injEq] at h
      subst h
      refine Or.inr ⟨aux, _, hj, rfl, rfl, rfl, rfl, rfl, rfl, rfl, by rw [h3]; exact hlen, fun i hi => ?_⟩
      rw [h4 i hi]
      simp [List.getElem?_replicate]
    · rw [h2] at h; cases h

theorem nodeFields_null [Zero α] (N : NumberText α) : nodeFields N .null = none := rfl

/-! ## Entries -/

/-- One step of `readItems` on an entry that is not `null`. -/
theorem readItems_cons [Zero α] (N : NumberText α) (lim : Nat) (j : Json) (rest : List Json) (hj : j ≠ .null) :
    readItems N lim (j :: rest) =
      match nodeFields N j with
      | none => .error []
      | some aux =>
        match nodeFill lim aux with
        | none => .panic
        | some n =>
          match readItems N lim rest with
          | .ok ns => .ok (some n :: ns)
          | .error ns => .error (some n :: ns)
          | .panic => .panic := by
  cases j <;> first | exact absurd rfl hj | rfl

theorem readItems_spec [Zero α] (N : NumberText α) (lim : Nat) (es : List Json) :
    (∃ ns, readItems N lim es = .ok ns ∧ (∀ e ∈ es, Fine N lim e) ∧ List.Forall₂ (StandsFor N) es ns) ∨
    (∃ ns, readItems N lim es = .error ns ∧ ∃ pre j post, es = pre ++ j :: post ∧ (∀ e ∈ pre, Fine N lim e) ∧
      ¬ Fine N lim j ∧ ¬ Breaks N lim j) ∨
    (readItems N lim es = .panic ∧ ∃ pre j post, es = pre ++ j :: post ∧ (∀ e ∈ pre, Fine N lim e) ∧
      Breaks N lim j) := by
  induction es with
  | nil => exact Or.inl ⟨[], rfl, by simp, .nil⟩
  | cons j rest ih =>
    have key : ∀ n, Fine N lim j → StandsFor N j n → readItems N lim (j :: rest) =
        (match readItems N lim rest with
          | .ok ns => .ok (n :: ns)
          | .error ns => .error (n :: ns)
          | .panic => .panic) →
        (∃ ns, readItems N lim (j :: rest) = .ok ns ∧ (∀ e ∈ j :: rest, Fine N lim e) ∧
          List.Forall₂ (StandsFor N) (j :: rest) ns) ∨
        (∃ ns, readItems N lim (j :: rest) = .error ns ∧ ∃ pre b post, j :: rest = pre ++ b :: post ∧
          (∀ e ∈ pre, Fine N lim e) ∧ ¬ Fine N lim b ∧ ¬ Breaks N lim b) ∨
        (readItems N lim (j :: rest) = .panic ∧ ∃ pre b post, j :: rest = pre ++ b :: post ∧
          (∀ e ∈ pre, Fine N lim e) ∧ Breaks N lim b) := by
      intro n hf hs e
      rcases ih with ⟨ns, h1, h2, h3⟩ | ⟨ns, h1, pre, b, post, h2, h3, h4⟩ | ⟨h1, pre, b, post, h2, h3, h4⟩
      · rw [h1] at e
        exact Or.inl ⟨_, e, by simpa [hf] using h2, .cons hs h3⟩
      · rw [h1] at e
        exact Or.inr (Or.inl ⟨_, e, j :: pre, b, post, by simp [h2], by simpa [hf] using h3, h4⟩)
      · rw [h1] at e
        exact Or.inr (Or.inr ⟨e, j :: pre, b, post, by simp [h2], by simpa [hf] using h3, h4⟩)
    by_cases hj : j = .null
    · subst hj
      exact key none (Or.inl rfl) (Or.inl ⟨rfl, rfl⟩) rfl
    · have e := readItems_cons N lim j rest hj
      cases hn : nodeFields N j with
      | none =>
        rw [hn] at e
        refine Or.inr (Or.inl ⟨[], e, [], j, rest, rfl, by simp, ?_, ?_⟩)
        · rintro (h | ⟨aux, h, -⟩)
          · exact hj h
          · rw [hn] at h; cases h
        · rintro ⟨aux, h, -⟩; rw [hn] at h; cases h
      | some aux =>
        rw [hn] at e
        simp only at e
        cases hfill : nodeFill lim aux with
        | none =>
          rw [hfill] at e
          exact Or.inr (Or.inr ⟨e, [], j, rest, rfl, by simp, aux, hn, nodeFill_none.1 hfill⟩)
        | some n =>
          rw [hfill] at e
          refine key (some n) (Or.inr ⟨aux, hn, ?_⟩) (nodeFill_standsFor hn hfill) e
          by_contra hc
          rw [nodeFill_none.2 hc] at hfill
          cases hfill

theorem Fine.not_breaks [Zero α] {N : NumberText α} {lim : Nat} {j : Json} (h : Fine N lim j) : ¬ Breaks N lim j := by
  rintro ⟨aux, h1, h2⟩
  rcases h with rfl | ⟨aux', h3, h4⟩
  · rw [nodeFields_null] at h1; cases h1
  · rw [h1] at h3; cases h3; exact h2 h4

/-- An entry that breaks off after fine ones. -/
def FirstBreaks [Zero α] (N : NumberText α) (lim : Nat) (es : List Json) : Prop :=
  ∃ pre j post, es = pre ++ j :: post ∧ (∀ e ∈ pre, Fine N lim e) ∧ Breaks N lim j

theorem firstBreaks_append [Zero α] {N : NumberText α} {lim : Nat} {a b : List Json} :
    FirstBreaks N lim (a ++ b) ↔ FirstBreaks N lim a ∨ (∀ e ∈ a, Fine N lim e) ∧ FirstBreaks N lim b := by
  induction a with
  | nil => simp [FirstBreaks]
  | cons x a ih =>
    have hc : ∀ c : List Json, FirstBreaks N lim (x :: c) ↔ Breaks N lim x ∨ Fine N lim x ∧ FirstBreaks N lim c := by
      intro c
      constructor
      · rintro ⟨pre, j, post, h1, h2, h3⟩
        cases pre with
        | nil => left; simp at h1; rw [h1.1]; exact h3
        | cons y pre =>
          simp at h1
          right
          exact ⟨by rw [h1.1]; exact h2 y (by simp), pre, j, post, h1.2, fun e he => h2 e (by simp [he]), h3⟩
      · rintro (h | ⟨h1, pre, j, post, h2, h3, h4⟩)
        · exact ⟨[], x, c, rfl, by simp, h⟩
        · exact ⟨x :: pre, j, post, by simp [h2], by simpa [h1] using h3, h4⟩
    rw [List.cons_append, hc, hc, ih]
    simp only [List.mem_cons, forall_eq_or_imp]
    tauto

theorem not_firstBreaks_of_fine [Zero α] {N : NumberText α} {lim : Nat} {es : List Json} (h : ∀ e ∈ es, Fine N lim e) :
    ¬ FirstBreaks N lim es := by
  rintro ⟨pre, j, post, h1, -, h3⟩
  exact Fine.not_breaks (h j (by simp [h1])) h3

/-! ## Members -/

/-- All values have the right types and all entries are fine. -/
def Accepted [Zero α] (N : NumberText α) (lim : Nat) (l : List (List Char × Json)) : Prop :=
  (∀ v ∈ called "maxItems" l, ∃ n, intInto 0 v = some n) ∧
  (∀ v ∈ called "items" l, v = .null ∨ ∃ es, v = .arr es) ∧ ∀ e ∈ entries l, Fine N lim e

theorem called_cons (name : String) (k : List Char) (v : Json) (l : List (List Char × Json)) :
    called name ((k, v) :: l) = if foldName k = foldName name.toList then v :: called name l else called name l := by
  unfold called
  by_cases h : foldName k = foldName name.toList <;> simp [List.filter_cons, h]

theorem names_differ : foldName "maxItems".toList ≠ foldName "items".toList := by decide

theorem intInto_some_iff (a b : Int) (v : Json) : (∃ n, intInto a v = some n) ↔ ∃ n, intInto b v = some n := by
  cases v <;> simp [intInto]

/-- The value after all numbers have been read. -/
def lastInt (m : Int) (vs : List Json) : Int := vs.foldl (fun m v => (intInto m v).getD m) m

/-- The nodes after all lists have been read. -/
def lastList (es : List Json) (vs : List Json) : List Json := (vs.getLast?.map elements).getD es

theorem lastList_cons (es : List Json) (v : Json) (vs : List Json) :
    lastList es (v :: vs) = lastList (elements v) vs := by
  cases vs with
  | nil => simp [lastList]
  | cons w ws =>
    obtain ⟨x, hx⟩ := Option.ne_none_iff_exists'.1 (show (w :: ws).getLast? ≠ none by simp)
    simp only [lastList, List.getLast?_cons_cons, hx, Option.map_some, Option.getD_some]

/-- One step of `readMembers`. -/
theorem readMembers_cons [Zero α] (N : NumberText α) (lim : Nat) (k : List Char) (v : Json) (rest : List (List Char × Json))
    (s : HighscoreAux α) :
    readMembers N lim ((k, v) :: rest) s =
      if foldName k = foldName "maxItems".toList then
        match intInto s.maxItems v with
        | some m => readMembers N lim rest { s with maxItems := m }
        | none => readMembers N lim rest { s with failed := true }
      else if foldName k = foldName "items".toList then
        match v with
        | .arr l =>
          match readItems N lim l with
          | .ok ns => readMembers N lim rest { s with items := ns }
          | .error ns => .error { s with items := ns, failed := true }
          | .panic => .panic
        | .null => readMembers N lim rest { s with items := [] }
        | _ => readMembers N lim rest { s with failed := true }
      else readMembers N lim rest s := by
  cases v <;> rfl

theorem readMembers_spec [Zero α] (N : NumberText α) (lim : Nat) (l : List (List Char × Json)) (s : HighscoreAux α)
    (es : List Json) (hes : List.Forall₂ (StandsFor N) es s.items) :
    (∃ s', readMembers N lim l s = .ok s' ∧ s.failed = false ∧ Accepted N lim l ∧
      s'.maxItems = lastInt s.maxItems (called "maxItems" l) ∧
      List.Forall₂ (StandsFor N) (lastList es (called "items" l)) s'.items) ∨
    (∃ s', readMembers N lim l s = .error s' ∧ ¬ FirstBreaks N lim (entries l) ∧ (s.failed = true ∨ ¬ Accepted N lim l)) ∨
    (readMembers N lim l s = .panic ∧ FirstBreaks N lim (entries l)) := by
  induction l generalizing s es with
  | nil =>
    cases hf : s.failed with
    | false =>
      left
      exact ⟨s, by simp [readMembers, hf], rfl, by simp [Accepted, called, entries], rfl, by simpa [called, lastList] using hes⟩
    | true =>
      right; left
      refine ⟨s, by simp [readMembers, hf], ?_, Or.inl rfl⟩
      rintro ⟨pre, j, post, h, -⟩
      simp [entries, called] at h
  | cons p rest ih =>
    obtain ⟨k, v⟩ := p
    by_cases hk : foldName k = foldName "maxItems".toList
    · have hk' : ¬ foldName k = foldName "items".toList := fun h => names_differ (hk ▸ h)
      have eM : called "maxItems" ((k, v) :: rest) = v :: called "maxItems" rest := by rw [called_cons, if_pos hk]
      have eI : called "items" ((k, v) :: rest) = called "items" rest := by rw [called_cons, if_neg hk']
      have eE : entries ((k, v) :: rest) = entries rest := by unfold entries; rw [eI]
      cases hv : intInto s.maxItems v with
      | some m =>
        have e : readMembers N lim ((k, v) :: rest) s = readMembers N lim rest { s with maxItems := m } := by
          rw [readMembers_cons, if_pos hk, hv]
        have hv0 : ∃ n, intInto 0 v = some n := (intInto_some_iff _ _ v).1 ⟨m, hv⟩
        have eA : Accepted N lim ((k, v) :: rest) ↔ Accepted N lim rest := by
          unfold Accepted
          rw [eM, eI, eE]
          simp [hv0]
        rw [e, eA, eM, eI, eE]
        have := ih { s with maxItems := m } es hes
        simpa [lastInt, hv] using this
      | none =>
        have e : readMembers N lim ((k, v) :: rest) s = readMembers N lim rest { s with failed := true } := by
          rw [readMembers_cons, if_pos hk, hv]
        have hv0 : ¬ ∃ n, intInto 0 v = some n := fun h => by
          have := (intInto_some_iff 0 s.maxItems v).1 h
          rw [hv] at this
          simp at this
        have eA : ¬ Accepted N lim ((k, v) :: rest) := fun h => hv0 (h.1 v (by rw [eM]; simp))
        rw [e, eE]
        rcases ih { s with failed := true } es hes with ⟨s', -, h, -⟩ | ⟨s', h1, h2, -⟩ | h
        · simp at h
        · exact Or.inr (Or.inl ⟨s', h1, h2, Or.inr eA⟩)
        · exact Or.inr (Or.inr h)
    · by_cases hk' : foldName k = foldName "items".toList
      · have eM : called "maxItems" ((k, v) :: rest) = called "maxItems" rest := by rw [called_cons, if_neg hk]
        have eI : called "items" ((k, v) :: rest) = v :: called "items" rest := by rw [called_cons, if_pos hk']
        have eE : entries ((k, v) :: rest) = elements v ++ entries rest := by unfold entries; rw [eI]; simp
        have bad : (v ≠ .null ∧ ∀ es, v ≠ .arr es) →
            readMembers N lim ((k, v) :: rest) s = readMembers N lim rest { s with failed := true } := by
          rintro ⟨h1, h2⟩
          rw [readMembers_cons, if_neg hk, if_pos hk']
          cases v <;> first | rfl | exact absurd rfl h1 | exact absurd rfl (h2 _)
        by_cases hnull : v = .null
        · subst hnull
          have e : readMembers N lim ((k, .null) :: rest) s = readMembers N lim rest { s with items := [] } := by
            rw [readMembers_cons, if_neg hk, if_pos hk']
          have eA : Accepted N lim ((k, .null) :: rest) ↔ Accepted N lim rest := by
            unfold Accepted
            rw [eM, eI, eE]
            simp [elements]
          rw [e, eA, eM, eI, eE, lastList_cons]
          have := ih { s with items := [] } [] .nil
          simpa [elements] using this
        · by_cases harr : ∃ a, v = .arr a
          · obtain ⟨a, rfl⟩ := harr
            have eA : Accepted N lim ((k, .arr a) :: rest) ↔ (∀ e ∈ a, Fine N lim e) ∧ Accepted N lim rest := by
              unfold Accepted
              rw [eM, eI, eE]
              simp only [elements, List.mem_append, List.mem_cons, forall_eq_or_imp]
              constructor
              · rintro ⟨h1, h2, h3⟩
                exact ⟨fun e he => h3 e (Or.inl he), h1, h2.2, fun e he => h3 e (Or.inr he)⟩
              · rintro ⟨h0, h1, h2, h3⟩
                exact ⟨h1, ⟨Or.inr ⟨a, rfl⟩, h2⟩, fun e he => he.elim (h0 e) (h3 e)⟩
            have ee : elements (.arr a) = a := rfl
            rw [ee] at eE
            rcases readItems_spec N lim a with ⟨ns, h1, h2, h3⟩ | ⟨ns, h1, pre, j, post, h2, h3, h4, h5⟩ | ⟨h1, h2⟩
            · have e : readMembers N lim ((k, .arr a) :: rest) s = readMembers N lim rest { s with items := ns } := by
                rw [readMembers_cons, if_neg hk, if_pos hk']
                simp only [h1]
              have eF : FirstBreaks N lim (a ++ entries rest) ↔ FirstBreaks N lim (entries rest) := by
                rw [firstBreaks_append]
                have := not_firstBreaks_of_fine h2
                tauto
              have eA' : Accepted N lim ((k, .arr a) :: rest) ↔ Accepted N lim rest := eA.trans (and_iff_right h2)
              rw [e, eA', eM, eI, eE, lastList_cons, eF, ee]
              exact ih { s with items := ns } a h3
            · have e : readMembers N lim ((k, .arr a) :: rest) s = .error { s with items := ns, failed := true } := by
                rw [readMembers_cons, if_neg hk, if_pos hk']
                simp only [h1]
              refine Or.inr (Or.inl ⟨_, e, ?_, Or.inr ?_⟩)
              · rw [eE, h2, List.append_assoc, firstBreaks_append]
                rintro (h | ⟨-, h⟩)
                · exact not_firstBreaks_of_fine h3 h
                · rw [List.cons_append, ← List.singleton_append, firstBreaks_append] at h
                  rcases h with ⟨pre', j', post', g1, -, g3⟩ | ⟨h, -⟩
                  · have : j' = j := by
                      have : j' ∈ [j] := by rw [g1]; simp
                      simpa using this
                    exact h5 (this ▸ g3)
                  · exact h4 (h j (by simp))
              · rw [eA]
                exact fun h => h4 (h.1 j (by simp [h2]))
            · have e : readMembers N lim ((k, .arr a) :: rest) s = .panic := by
                rw [readMembers_cons, if_neg hk, if_pos hk']
                simp only [h1]
              refine Or.inr (Or.inr ⟨e, ?_⟩)
              rw [eE, firstBreaks_append]
              exact Or.inl h2
          · have e := bad ⟨hnull, fun es h => harr ⟨es, h⟩⟩
            have eA : ¬ Accepted N lim ((k, v) :: rest) := fun h => by
              rcases h.2.1 v (by rw [eI]; simp) with h | h
              · exact hnull h
              · exact harr h
            have eE' : entries ((k, v) :: rest) = entries rest := by
              rw [eE]
              have : elements v = [] := by
                cases v <;> first | rfl | exact absurd ⟨_, rfl⟩ harr
              simp [this]
            rw [e, eE']
            rcases ih { s with failed := true } es hes with ⟨s', -, h, -⟩ | ⟨s', h1, h2, -⟩ | h
            · simp at h
            · exact Or.inr (Or.inl ⟨s', h1, h2, Or.inr eA⟩)
            · exact Or.inr (Or.inr h)
      · have eM : called "maxItems" ((k, v) :: rest) = called "maxItems" rest := by rw [called_cons, if_neg hk]
        have eI : called "items" ((k, v) :: rest) = called "items" rest := by rw [called_cons, if_neg hk']
        have eE : entries ((k, v) :: rest) = entries rest := by unfold entries; rw [eI]
        have e : readMembers N lim ((k, v) :: rest) s = readMembers N lim rest s := by
          rw [readMembers_cons, if_neg hk, if_neg hk']
        have eA : Accepted N lim ((k, v) :: rest) ↔ Accepted N lim rest := by
          unfold Accepted
          rw [eM, eI, eE]
        rw [e, eA, eM, eI, eE]
        exact ih s es hes

/-- The last number counts. -/
theorem lastInt_eq (m : Int) (vs : List Json) (h : ∀ v ∈ vs, ∃ n, intInto 0 v = some n) :
    lastInt m vs = ((vs.filter (fun v => intInto 1 v = intInto 0 v)).getLast?.bind (intInto 0)).getD m := by
  induction vs using List.reverseRec with
  | nil => rfl
  | append_singleton vs v ih =>
    have ih := ih (fun w hw => h w (by simp [hw]))
    obtain ⟨n, hn⟩ := h v (by simp)
    have e : lastInt m (vs ++ [v]) = (intInto (lastInt m vs) v).getD (lastInt m vs) := by
      unfold lastInt; rw [List.foldl_append]; rfl
    rw [e, List.filter_append]
    cases v with
    | null => simpa [intInto] using ih
    | num lit =>
      have : intInto 1 (.num lit) = intInto 0 (.num lit) := rfl
      rw [List.filter_cons, if_pos (by simp [this])]
      have e2 : intInto (lastInt m vs) (.num lit) = intInto 0 (.num lit) := rfl
      simp [e2, hn]
    | bool b => simp [intInto] at hn
    | str s => simp [intInto] at hn
    | arr l => simp [intInto] at hn
    | obj l => simp [intInto] at hn

/-! ## Insertions -/

section
variable [LinearOrder α]

theorem rawInsertBefore_some (x : Node α) (l : List (Node α)) :
    rawInsertBefore (some x) (l.map some) = some ((insertBefore x l).map (·.map some)) := by
  induction l with
  | nil => rfl
  | cons a l ih =>
    simp only [List.map_cons, rawInsertBefore, insertBefore]
    split
    · simp
    · rw [ih]
      cases insertBefore x l <;> simp

theorem rawInsert_some (h : Highscore α) (x : Node α) :
    h.raw.insert (some x) = (h.insert x).map Highscore.raw := by
  have tail : rawInsertTail (h.items.map some) h.maxItems (some x) = some (h.insertTail x).raw := by
    unfold rawInsertTail Highscore.insertTail
    rw [rawInsertBefore_some]
    cases insertBefore x h.items with
    | none =>
      by_cases hc : (h.items.length : Int) < h.maxItems
      · have hc' : (h.len : Int) < h.maxItems := hc
        simp [hc, hc', Highscore.raw]
      · have hc' : ¬ (h.len : Int) < h.maxItems := hc
        simp [hc, hc', Highscore.raw]
    | some l' =>
      simp only [Option.map_some, List.length_map]
      split <;> simp [Highscore.raw]
  unfold RawHighscore.insert Highscore.insert
  simp only [Highscore.raw, List.length_map]
  by_cases hc : (h.items.length : Int) = h.maxItems - 1
  · have hc' : (h.len : Int) = h.maxItems - 1 := hc
    rw [if_pos hc, if_pos hc', List.getLast?_map]
    cases h.items.getLast? with
    | none => rfl
    | some last =>
      simp only [Option.map_some]
      split
      · rfl
      · rw [tail]; rfl
  · have hc' : ¬ (h.len : Int) = h.maxItems - 1 := hc
    rw [if_neg hc, if_neg hc', tail]; rfl

theorem rawInsertAll_some (h : Highscore α) (ns : List (Node α)) :
    h.raw.insertAll (ns.map some) = (h.insertAll ns).map Highscore.raw := by
  induction ns generalizing h with
  | nil => rfl
  | cons x ns ih =>
    unfold RawHighscore.insertAll Highscore.insertAll at *
    rw [List.map_cons, List.foldlM_cons, List.foldlM_cons, rawInsert_some]
    cases h.insert x with
    | none => rfl
    | some h' => exact ih h'

/-- A list that is not empty does not take nil. -/
theorem rawInsert_nil (h : Highscore α) (hne : h.items ≠ []) : h.raw.insert none = none := by
  obtain ⟨a, l, hal⟩ := List.exists_cons_of_ne_nil hne
  have hb : rawInsertBefore none (h.items.map some) = none := by rw [hal]; rfl
  unfold RawHighscore.insert
  simp only [Highscore.raw, rawInsertTail, hb]
  split
  · cases (h.items.map some).getLast? <;> simp
  · rfl

/-- A list that holds only nil takes nothing. -/
theorem rawInsert_after_nil (M : Int) (hM : 1 < M) (x : Option (Node α)) :
    (⟨some [none], M⟩ : RawHighscore α).insert x = none := by
  unfold RawHighscore.insert
  simp only [rawInsertTail, rawInsertBefore]
  split
  · simp
  · rfl

theorem rawInsert_empty (M : Int) (hM : M ≠ 1) (x : Option (Node α)) :
    (⟨some [], M⟩ : RawHighscore α).insert x = some ⟨some (if 0 < M then [x] else []), M⟩ := by
  unfold RawHighscore.insert
  simp only [List.length_nil, Nat.cast_zero, rawInsertTail, rawInsertBefore]
  rw [if_neg (by omega)]
  simp

theorem insert_grows {h h' : Highscore α} {x : Node α} (hi : h.insert x = some h') :
    h'.maxItems = h.maxItems ∧ (h.items ≠ [] → h'.items ≠ []) ∧ (h.items.length ≤ h'.items.length) ∧
    ((h'.items.length : Int) ≤ max (h.items.length : Int) h.maxItems) ∧ (∀ n ∈ h'.items, n ∈ h.items ∨ n = x) ∧
    (Desc h.items → Desc h'.items) := by
  obtain ⟨h1, h2⟩ := insert_effect hi
  refine ⟨h1, ?_⟩
  have key : h.items.length ≤ h'.items.length ∧ ((h'.items.length : Int) ≤ max (h.items.length : Int) h.maxItems) ∧
      (∀ n ∈ h'.items, n ∈ h.items ∨ n = x) ∧ (Desc h.items → Desc h'.items) := by
    generalize h'.items = l at h2
    cases h2 with
    | reject => exact ⟨le_rfl, by omega, fun n hn => Or.inl hn, id⟩
    | place h3 h4 =>
      refine ⟨by rw [ins_length]; omega, by rw [ins_length]; push_cast; omega, fun n hn => ?_, ins_desc⟩
      rcases mem_ins.1 hn with h | h
      · exact Or.inr h
      · exact Or.inl h
    | replace h3 h4 =>
      refine ⟨by rw [List.length_dropLast, ins_length]; omega, by rw [List.length_dropLast, ins_length]; simp, fun n hn => ?_,
        fun hd => (ins_desc hd).sublist (List.dropLast_sublist _)⟩
      rcases mem_ins.1 (List.dropLast_subset _ hn) with h | h
      · exact Or.inr h
      · exact Or.inl h
    | push h3 h4 =>
      refine ⟨by simp, by simp; omega, fun n hn => by simpa using hn, fun hd => ?_⟩
      rw [Desc, List.pairwise_append]
      exact ⟨hd, by simp, fun a ha b hb => by simp at hb; rw [hb]; exact h3 a ha⟩
    | full => exact ⟨le_rfl, by omega, fun n hn => Or.inl hn, id⟩
  refine ⟨fun hne => ?_, key⟩
  intro h0
  have := key.1
  rw [h0] at this
  exact hne (List.length_eq_zero_iff.1 (by simpa using this))

/-- Insertions into a list that is not empty panic iff one of the nodes is nil. -/
theorem rawInsertAll_nonempty (h : Highscore α) (hne : h.items ≠ []) (ns : List (Option (Node α))) :
    h.raw.insertAll ns = none ↔ none ∈ ns := by
  induction ns generalizing h with
  | nil => simp [RawHighscore.insertAll]
  | cons x ns ih =>
    unfold RawHighscore.insertAll at *
    rw [List.foldlM_cons]
    cases x with
    | none => rw [rawInsert_nil h hne]; simp
    | some x =>
      rw [rawInsert_some]
      obtain ⟨h', hi⟩ := insert_isSome (h := h) (x := x) (fun hc => hne hc.2)
      rw [hi]
      have := ih h' ((insert_grows hi).2.1 hne)
      simpa using this

/-- When the insertions into any list panic. -/
theorem rawInsertAll_none (h : Highscore α) (ns : List (Option (Node α))) :
    h.raw.insertAll ns = none ↔
      (h.items = [] ∧ h.maxItems = 1 ∧ ns ≠ []) ∨
      (none ∈ ns ∧ ¬ (h.items = [] ∧ (h.maxItems ≤ 0 ∨ ns = [none]))) := by
  by_cases hne : h.items = []
  · have e : h.raw = ⟨some [], h.maxItems⟩ := by simp [Highscore.raw, hne]
    rw [e]
    by_cases h1 : h.maxItems = 1
    · cases ns with
      | nil => simp [RawHighscore.insertAll]
      | cons x ns =>
        have : (⟨some [], h.maxItems⟩ : RawHighscore α).insert x = none := by
          unfold RawHighscore.insert
          simp [h1]
        unfold RawHighscore.insertAll
        rw [List.foldlM_cons, this]
        simp [hne, h1]
    · by_cases h0 : h.maxItems ≤ 0
      · have : ∀ ns, (⟨some [], h.maxItems⟩ : RawHighscore α).insertAll ns = some ⟨some [], h.maxItems⟩ := by
          intro ns
          induction ns with
          | nil => rfl
          | cons x ns ih =>
            unfold RawHighscore.insertAll at *
            rw [List.foldlM_cons, rawInsert_empty _ h1, if_neg (by omega)]
            exact ih
        rw [this]
        simp [hne, h1, h0]
      · cases ns with
        | nil => simp [RawHighscore.insertAll]
        | cons x ns =>
          unfold RawHighscore.insertAll
          rw [List.foldlM_cons, rawInsert_empty _ h1, if_pos (by omega)]
          cases x with
          | none =>
            cases ns with
            | nil => simp [hne, h1]
            | cons y ns =>
              simp only [Option.bind_eq_bind, Option.bind_some, List.foldlM_cons]
              rw [rawInsert_after_nil _ (by omega)]
              simp [h0]
          | some x =>
            have := rawInsertAll_nonempty ⟨[x], h.maxItems⟩ (by simp) ns
            unfold RawHighscore.insertAll at this
            simp only [Highscore.raw, List.map_cons, List.map_nil] at this
            simp [h1, h0, this]
  · have := rawInsertAll_nonempty h hne ns
    rw [this]
    simp [hne]

theorem insertAll_grows {h h' : Highscore α} {ns : List (Node α)} (hi : h.insertAll ns = some h') :
    h'.maxItems = h.maxItems ∧ h.items.length ≤ h'.items.length ∧
    ((h'.items.length : Int) ≤ max (h.items.length : Int) h.maxItems) ∧ (∀ n ∈ h'.items, n ∈ h.items ∨ n ∈ ns) ∧
    (Desc h.items → Desc h'.items) := by
  induction ns generalizing h with
  | nil => cases hi; exact ⟨rfl, le_rfl, by omega, fun n hn => Or.inl hn, id⟩
  | cons x ns ih =>
    unfold Highscore.insertAll at *
    rw [List.foldlM_cons] at hi
    cases hx : h.insert x with
    | none => rw [hx] at hi; cases hi
    | some h1 =>
      rw [hx] at hi
      obtain ⟨a1, a2, a3, a4, a5⟩ := ih hi
      obtain ⟨b1, -, b3, b4, b5, b6⟩ := insert_grows hx
      refine ⟨a1.trans b1, b3.trans a2, ?_, fun n hn => ?_, fun hd => a5 (b6 hd)⟩
      · rw [b1] at a3
        omega
      · rcases a4 n hn with h | h
        · rcases b5 n h with h | h
          · exact Or.inl h
          · exact Or.inr (by simp [h])
        · exact Or.inr (by simp [h])

end

/-! ## Texts -/

theorem contents_of_accepted [Zero α] {N : NumberText α} {lim : Nat} {text : String} {l : List (List Char × Json)}
    (hp : jsonParse text.toList = some (.obj l)) (ha : Accepted N lim l) {ns : List (Option (Node α))}
    (hns : List.Forall₂ (StandsFor N) (lastList [] (called "items" l)) ns) :
    Contents N lim text (lastInt 0 (called "maxItems" l)) ns :=
  Or.inr ⟨l, hp, ha.1, ha.2.1, ha.2.2, lastInt_eq 0 _ ha.1, hns⟩

end GoSelect
