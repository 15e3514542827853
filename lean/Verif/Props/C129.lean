import Verif.Proofs.ReadHighscore
import Verif.Props.C45_text

/-!
# C129: Reading any text as a highscore list

`UnmarshalJSON` of a highscore list for all texts, all lists it is called on and all number formats.
-/

namespace GoSelect

open Spec
open scoped List

variable {α : Type} [Zero α] [LinearOrder α]

namespace Spec

/-- When inserting these nodes into a list with these items and this capacity dereferences nil: the list is empty and the
capacity is 1, or one of the nodes is nil and neither does the list stay empty nor is this node the only one. -/
def InsertsFail (old : List (Node α)) (M : Int) (ns : List (Option (Node α))) : Prop :=
  (old = [] ∧ M = 1 ∧ ns ≠ []) ∨ (none ∈ ns ∧ ¬ (old = [] ∧ (M ≤ 0 ∨ ns = [none])))

/-- The text holds an entry of the right form whose feature numbers are out of range, and all entries before it are
fine. -/
def HasBrokenEntry (N : NumberText α) (lim : Nat) (text : String) : Prop :=
  ∃ l, jsonParse text.toList = some (.obj l) ∧ ∃ pre j post, entries l = pre ++ j :: post ∧
    (∀ e ∈ pre, Fine N lim e) ∧ Breaks N lim j

end Spec

/-- What the call does, by cases. -/
theorem readHighscore_cases (N : NumberText α) (lim : Nat) (h : RawHighscore α) (text : String) :
    (HasBrokenEntry N lim text ∧ (∀ M ns, ¬ Contents N lim text M ns) ∧ readHighscore N lim h text = .panic) ∨
    (¬ HasBrokenEntry N lim text ∧ (∀ M ns, ¬ Contents N lim text M ns) ∧ readHighscore N lim h text = .error h) ∨
    (¬ HasBrokenEntry N lim text ∧ ∃ M ns, Contents N lim text M ns ∧
      readHighscore N lim h text =
        match (⟨h.items, M⟩ : RawHighscore α).insertAll ns with
        | none => .panic
        | some h' => .ok h') := by
  have other : ∀ j, jsonParse text.toList = some j → (∀ l, j ≠ .obj l) → ¬ HasBrokenEntry N lim text := by
    rintro j hj hne ⟨l, hl, -⟩
    rw [hj] at hl
    exact hne l (Option.some.inj hl)
  have noContents : ∀ j, jsonParse text.toList = some j → (∀ l, j ≠ .obj l) → j ≠ .null →
      ∀ M ns, ¬ Contents N lim text M ns := by
    rintro j hj hne hnull M ns (⟨h1, -⟩ | ⟨l, h1, -⟩)
    · rw [hj] at h1; exact hnull (Option.some.inj h1)
    · rw [hj] at h1; exact hne l (Option.some.inj h1)
  cases hp : jsonParse text.toList with
  | none =>
    right; left
    refine ⟨?_, ?_, by simp [readHighscore, hp]⟩
    · rintro ⟨l, hl, -⟩; rw [hp] at hl; cases hl
    · rintro M ns (⟨h1, -⟩ | ⟨l, h1, -⟩) <;> rw [hp] at h1 <;> cases h1
  | some j =>
    cases j with
    | null =>
      right; right
      exact ⟨other _ hp (by simp), 0, [], Or.inl ⟨hp, rfl, rfl⟩, by
        simp [readHighscore, hp, RawHighscore.insertAll]⟩
    | bool b => exact Or.inr (Or.inl ⟨other _ hp (by simp), noContents _ hp (by simp) (by simp), by simp [readHighscore, hp]⟩)
    | num b => exact Or.inr (Or.inl ⟨other _ hp (by simp), noContents _ hp (by simp) (by simp), by simp [readHighscore, hp]⟩)
    | str b => exact Or.inr (Or.inl ⟨other _ hp (by simp), noContents _ hp (by simp) (by simp), by simp [readHighscore, hp]⟩)
    | arr b => exact Or.inr (Or.inl ⟨other _ hp (by simp), noContents _ hp (by simp) (by simp), by simp [readHighscore, hp]⟩)
    | obj l =>
      have hb : HasBrokenEntry N lim text ↔ FirstBreaks N lim (entries l) := by
        constructor
        · rintro ⟨l', hl', h'⟩
          rw [hp] at hl'
          cases hl'
          exact h'
        · exact fun h' => ⟨l, hp, h'⟩
      have hc : ∀ M ns, Contents N lim text M ns → Accepted N lim l := by
        rintro M ns (⟨h1, -⟩ | ⟨l', h1, h2, h3, h4, -⟩)
        · rw [hp] at h1; cases h1
        · rw [hp] at h1; cases h1; exact ⟨h2, h3, h4⟩
      rcases readMembers_spec N lim l ⟨0, [], false⟩ [] .nil with ⟨s, h1, -, h2, h3, h4⟩ | ⟨s, h1, h2, h3⟩ | ⟨h1, h2⟩
      · right; right
        refine ⟨fun hf => not_firstBreaks_of_fine h2.2.2 (hb.1 hf), s.maxItems, s.items, ?_, ?_⟩
        · rw [h3]; exact contents_of_accepted hp h2 h4
        · simp only [readHighscore, hp, h1]
          rfl
      · right; left
        refine ⟨fun hf => h2 (hb.1 hf), fun M ns hM => ?_, ?_⟩
        · rcases h3 with h3 | h3
          · cases h3
          · exact h3 (hc M ns hM)
        · simp only [readHighscore, hp, h1]
      · left
        refine ⟨hb.2 h2, fun M ns hM => not_firstBreaks_of_fine (hc M ns hM).2.2 h2, ?_⟩
        simp only [readHighscore, hp, h1]

/-- The contents of a text are unique. -/
theorem Contents.unique_length {N : NumberText α} {lim : Nat} {text : String} {M M' : Int} {ns ns' : List (Option (Node α))}
    (h : Contents N lim text M ns) (h' : Contents N lim text M' ns') : M = M' ∧ ns.length = ns'.length ∧
      ∀ i : Nat, ns[i]? = some none ↔ ns'[i]? = some none := by
  rcases h with ⟨h1, rfl, rfl⟩ | ⟨l, h1, -, -, -, rfl, h2⟩
  · rcases h' with ⟨h1', rfl, rfl⟩ | ⟨l', h1', -⟩
    · simp
    · rw [h1] at h1'; cases h1'
  · rcases h' with ⟨h1', rfl, rfl⟩ | ⟨l', h1', -, -, -, rfl, h2'⟩
    · rw [h1] at h1'; cases h1'
    · rw [h1] at h1'
      cases h1'
      have key : ∀ {es : List Json} {ns : List (Option (Node α))}, List.Forall₂ (StandsFor N) es ns →
          es.length = ns.length ∧ ∀ i : Nat, ns[i]? = some none ↔ es[i]? = some .null := by
        intro es ns hf
        induction hf with
        | nil => simp
        | cons hs _ ih =>
          refine ⟨by simp [ih.1], fun i => ?_⟩
          cases i with
          | zero =>
            rcases hs with ⟨rfl, rfl⟩ | ⟨aux, m, e1, rfl, -⟩
            · simp
            · simp only [List.getElem?_cons_zero, Option.some.injEq, reduceCtorEq, false_iff]
              rintro rfl
              rw [nodeFields_null] at e1
              cases e1
          | succ i => simpa using ih.2 i
      exact ⟨rfl, (key h2).1.symm.trans (key h2').1, fun i => ((key h2).2 i).trans ((key h2').2 i).symm⟩

/-- **C129 (errors).** A call that returns an error leaves the list as it was; this happens exactly for the texts that are
not JSON, or hold a value of the wrong type (unless an entry with feature numbers out of range comes first). -/
theorem C129_errors (N : NumberText α) (lim : Nat) (h : RawHighscore α) (text : String) :
    (∀ h', readHighscore N lim h text = .error h' → h' = h) ∧
    ((∃ h', readHighscore N lim h text = .error h') ↔
      ¬ HasBrokenEntry N lim text ∧ ∀ M ns, ¬ Contents N lim text M ns) := by
  rcases readHighscore_cases N lim h text with ⟨h1, -, h3⟩ | ⟨h1, h2, h3⟩ | ⟨h1, M, ns, h2, h3⟩
  · rw [h3]; simp [h1]
  · rw [h3]
    exact ⟨fun h' e => by cases e; rfl, fun _ => ⟨h1, h2⟩, fun _ => ⟨h, rfl⟩⟩
  · rw [h3]
    have e : ∀ h', (match (⟨h.items, M⟩ : RawHighscore α).insertAll ns with
        | none => (.panic : ReadEnd (RawHighscore α))
        | some h' => .ok h') ≠ .error h' := by
      intro h'
      split <;> simp
    refine ⟨fun h' he => absurd he (e h'), fun ⟨h', he⟩ => absurd he (e h'), fun ⟨_, h4⟩ => absurd h2 (h4 M ns)⟩

/-- **C129 (panics).** For every text and every list without nil nodes: the call panics iff some entry has feature numbers
out of range and all entries before it are fine, or the text is all right and an insertion panics. -/
theorem C129_panics_iff (N : NumberText α) (lim : Nat) (h : Highscore α) (text : String) :
    readHighscore N lim h.raw text = .panic ↔
      HasBrokenEntry N lim text ∨ ∃ M ns, Contents N lim text M ns ∧ InsertsFail h.items M ns := by
  have hraw : ∀ M, (⟨h.raw.items, M⟩ : RawHighscore α) = (⟨h.items, M⟩ : Highscore α).raw := fun M => rfl
  rcases readHighscore_cases N lim h.raw text with ⟨h1, -, h3⟩ | ⟨h1, h2, h3⟩ | ⟨h1, M, ns, h2, h3⟩
  · rw [h3]; simp [h1]
  · rw [h3]; simp [h1, h2]
  · rw [h3, hraw]
    have key := rawInsertAll_none (⟨h.items, M⟩ : Highscore α) ns
    have e : (match (⟨h.items, M⟩ : Highscore α).raw.insertAll ns with
        | none => (.panic : ReadEnd (RawHighscore α))
        | some h' => .ok h') = .panic ↔ (⟨h.items, M⟩ : Highscore α).raw.insertAll ns = none := by
      cases (⟨h.items, M⟩ : Highscore α).raw.insertAll ns <;> simp
    rw [e, key]
    constructor
    · exact fun hf => Or.inr ⟨M, ns, h2, hf⟩
    · rintro (hf | ⟨M', ns', h2', hf⟩)
      · exact absurd hf h1
      · obtain ⟨u1, u2, u3⟩ := Contents.unique_length h2 h2'
        subst u1
        have m1 : ∀ {a b : List (Option (Node α))}, (∀ i : Nat, a[i]? = some none ↔ b[i]? = some none) →
            none ∈ b → none ∈ a := by
          intro a b hab hb
          obtain ⟨i, hi⟩ := List.mem_iff_getElem?.1 hb
          exact List.mem_iff_getElem?.2 ⟨i, (hab i).2 hi⟩
        rcases hf with ⟨f1, f2, f3⟩ | ⟨f1, f2⟩
        · refine Or.inl ⟨f1, f2, fun h0 => f3 ?_⟩
          rw [h0] at u2
          exact List.length_eq_zero_iff.1 u2.symm
        · refine Or.inr ⟨m1 u3 f1, fun ⟨g1, g2⟩ => f2 ⟨g1, g2.imp_right fun g => ?_⟩⟩
          rw [g] at u2 u3
          obtain ⟨a, ha⟩ := List.length_eq_one_iff.1 u2.symm
          have := (u3 0).1 (by simp)
          rw [ha] at this ⊢
          simpa using this

/-- **C129 (no panic).** A text whose entries all have feature numbers in range (or are not of the right form), that has no
`null` among its entries and a capacity other than 1, never makes the call panic. -/
theorem C129_no_panic_partial (N : NumberText α) (lim : Nat) (h : Highscore α) (text : String)
    (hentries : ∀ l, jsonParse text.toList = some (.obj l) → ∀ e ∈ entries l,
      e ≠ .null ∧ ∀ aux, nodeFields N e = some aux → FeaturesFit lim aux)
    (hcap : ∀ M ns, Contents N lim text M ns → M ≠ 1 ∨ h.items ≠ []) :
    readHighscore N lim h.raw text ≠ .panic := by
  rw [Ne, C129_panics_iff]
  rintro (⟨l, h1, pre, j, post, h2, -, aux, h3, h4⟩ | ⟨M, ns, h1, h2 | ⟨h2, -⟩⟩)
  · exact h4 ((hentries l h1 j (by simp [h2])).2 aux h3)
  · rcases hcap M ns h1 with h | h
    · exact h h2.2.1
    · exact h h2.1
  · rcases h1 with ⟨-, -, rfl⟩ | ⟨l, h3, -, -, -, -, h4⟩
    · simp at h2
    · obtain ⟨i, hi⟩ := List.mem_iff_getElem?.1 h2
      rw [List.forall₂_iff_get] at h4
      obtain ⟨h5, h6⟩ := h4
      obtain ⟨hlt, hi'⟩ := List.getElem?_eq_some_iff.1 hi
      have := h6 i (h5 ▸ hlt) hlt
      rw [List.get_eq_getElem, List.get_eq_getElem, hi'] at this
      rcases this with ⟨h7, -⟩ | ⟨_, _, _, h7, -⟩
      · refine (hentries l h3 .null ?_).1 rfl
        have hmem : Json.null ∈ ((called "items" l).getLast?.map elements).getD [] := by
          rw [← h7]; exact List.getElem_mem _
        cases hl : (called "items" l).getLast? with
        | none => rw [hl] at hmem; simp at hmem
        | some v =>
          rw [hl] at hmem
          exact List.mem_flatMap.2 ⟨v, List.mem_of_getLast? hl, by simpa using hmem⟩
      · cases h7

/-- **C129 (what is read).** If a text that stands for nodes is read without a panic, the list has its capacity, is in
descending order if it was before, holds only nodes that it held before or that the text stands for, and has not become
shorter.  It is the result of inserting the nodes in the order of the text. -/
theorem C129_reads (N : NumberText α) (lim : Nat) (h : Highscore α) (text : String) (h' : RawHighscore α)
    (hr : readHighscore N lim h.raw text = .ok h') :
    ∃ M ns, Contents N lim text M ns ∧ h'.maxItems = M ∧
      ∀ ms : List (Node α), ns = ms.map some → ∃ g : Highscore α, h' = g.raw ∧
        (⟨h.items, M⟩ : Highscore α).insertAll ms = some g ∧ h.len ≤ g.len ∧ (g.len : Int) ≤ max (h.len : Int) M ∧
        (h.scores.Pairwise (fun a b => b ≤ a) → g.scores.Pairwise (fun a b => b ≤ a)) ∧
        ∀ n ∈ g.items, n ∈ h.items ∨ n ∈ ms := by
  have hraw : ∀ M, (⟨h.raw.items, M⟩ : RawHighscore α) = (⟨h.items, M⟩ : Highscore α).raw := fun M => rfl
  have keep : ∀ (ns : List (Option (Node α))) (r r' : RawHighscore α), r.insertAll ns = some r' → r'.maxItems = r.maxItems := by
    intro ns
    induction ns with
    | nil => intro r r' e; cases e; rfl
    | cons x ns ih =>
      intro r r' e
      unfold RawHighscore.insertAll at *
      rw [List.foldlM_cons] at e
      cases hx : r.insert x with
      | none => rw [hx] at e; cases e
      | some r1 =>
        rw [hx] at e
        rw [ih r1 r' e]
        have tail : ∀ l M y (q : RawHighscore α), rawInsertTail l M y = some q → q.maxItems = M := by
          intro l M y q hq
          unfold rawInsertTail at hq
          split at hq
          · cases hq
          · cases hq; rfl
          · cases hq; rfl
        unfold RawHighscore.insert at hx
        split at hx
        · cases hx
        · split at hx
          · split at hx
            · split at hx
              · cases hx; rfl
              · exact tail _ _ _ _ hx
            · cases hx
          · exact tail _ _ _ _ hx
  rcases readHighscore_cases N lim h.raw text with ⟨-, -, h3⟩ | ⟨-, -, h3⟩ | ⟨-, M, ns, h2, h3⟩
  · rw [h3] at hr; cases hr
  · rw [h3] at hr; cases hr
  · rw [h3, hraw] at hr
    cases hi : (⟨h.items, M⟩ : Highscore α).raw.insertAll ns with
    | none => rw [hi] at hr; cases hr
    | some q =>
      rw [hi] at hr
      cases hr
      refine ⟨M, ns, h2, (keep _ _ _ hi), ?_⟩
      rintro ms rfl
      rw [rawInsertAll_some] at hi
      cases hg : (⟨h.items, M⟩ : Highscore α).insertAll ms with
      | none => rw [hg] at hi; cases hi
      | some g =>
        rw [hg] at hi
        obtain ⟨-, g2, g3, g4, g5⟩ := insertAll_grows hg
        refine ⟨g, (Option.some.inj hi).symm, rfl, g2, g3, fun hd => scoresOf_desc (g5 ?_), g4⟩
        exact List.pairwise_map.1 hd

/-- **C129 (zero value).** On a `Highscore{}`, whose list is nil, the call panics as soon as there is something to
insert; otherwise the list stays nil. -/
theorem C129_zero_value (N : NumberText α) (lim : Nat) (M₀ : Int) (text : String) :
    (readHighscore N lim ⟨none, M₀⟩ text = .panic ↔
      HasBrokenEntry N lim text ∨ ∃ M ns, Contents N lim text M ns ∧ ns ≠ []) ∧
    ∀ h', readHighscore N lim ⟨none, M₀⟩ text = .ok h' → h'.items = none := by
  have ins : ∀ M (ns : List (Option (Node α))), ns ≠ [] → (⟨none, M⟩ : RawHighscore α).insertAll ns = none := by
    intro M ns hns
    cases ns with
    | nil => exact absurd rfl hns
    | cons x ns => rfl
  rcases readHighscore_cases N lim ⟨none, M₀⟩ text with ⟨h1, -, h3⟩ | ⟨h1, h2, h3⟩ | ⟨h1, M, ns, h2, h3⟩
  · rw [h3]; simp [h1]
  · rw [h3]; simp [h1, h2]
  · rw [h3]
    by_cases hns : ns = []
    · subst hns
      refine ⟨⟨fun h => by simp [RawHighscore.insertAll] at h, ?_⟩, fun h' he => by
        simp [RawHighscore.insertAll] at he; rw [← he]⟩
      rintro (h | ⟨M', ns', h4, h5⟩)
      · exact absurd h h1
      · have := (Contents.unique_length h2 h4).2.1
        exact absurd (List.length_eq_zero_iff.1 this.symm) h5
    · rw [ins M ns hns]
      exact ⟨⟨fun _ => Or.inr ⟨M, ns, h2, hns⟩, fun _ => rfl⟩, fun h' he => by cases he⟩

/-! ### Files of the program itself -/

section
variable {N : NumberText α}

theorem intInto_literal (old n : Int) (h : -2 ^ 63 ≤ n ∧ n < 2 ^ 63) : intInto old (intJson n) = some n := by
  unfold intInto intJson
  simp only [parseInt_literal, Option.bind_some]
  rw [if_pos h]

theorem intsInto_literals (l : List Int) (h : ∀ n ∈ l, -2 ^ 63 ≤ n ∧ n < 2 ^ 63) :
    listOfJson (intInto 0) (intsJson l) = some l := by
  unfold intsJson listOfJson
  induction l with
  | nil => rfl
  | cons n l ih =>
    have := ih (fun m hm => h m (by simp [hm]))
    simp only at this ⊢
    rw [List.map_cons, List.mapM_cons, intInto_literal 0 n (h n (by simp)), this]
    rfl

theorem nodeFields_written (hN : Spec.RoundTrips N) (n : NodeJson α) (v : Json) (hv : nodeJson N n = some v)
    (hs : ∀ i ∈ n.selected, -2 ^ 63 ≤ i ∧ i < 2 ^ 63) (ht : -2 ^ 63 ≤ n.totNumFeatures ∧ n.totNumFeatures < 2 ^ 63)
    (hl : (n.level : Int) < 2 ^ 63) : nodeFields N v = some n := by
  unfold nodeJson at hv
  obtain ⟨lower, h1, hv⟩ := Option.bind_eq_some_iff.1 hv
  obtain ⟨upper, h2, hv⟩ := Option.bind_eq_some_iff.1 hv
  obtain ⟨score, h3, hv⟩ := Option.bind_eq_some_iff.1 hv
  obtain ⟨coeff, h4, hv⟩ := Option.bind_eq_some_iff.1 hv
  cases hv
  have l2 := (codes_number hN _ _ h1).2
  have u2 := (codes_number hN _ _ h2).2
  have o2 := (codes_number hN _ _ h3).2
  have c2 := (codes_numbers hN _ _ h4).2
  change (listOfJson (intInto 0) (intsJson n.selected)).bind (fun selected =>
    (intInto 0 (intJson n.totNumFeatures)).bind (fun tot => (numberOfJson N lower).bind (fun lower =>
      (numberOfJson N upper).bind (fun upper => (numberOfJson N score).bind (fun score =>
        (intInto 0 (intJson n.level)).bind (fun level => (listOfJson (numberOfJson N) coeff).bind (fun coeff =>
          some (NodeJson.mk selected tot lower upper score level.toNat coeff)))))))) = _
  rw [intsInto_literals _ hs, intInto_literal 0 _ ht, l2, u2, o2, intInto_literal 0 _ ⟨by omega, hl⟩, c2, List.map_id]
  rfl

theorem nodeFill_written (lim : Nat) (n : Node α) (hlim : n.model.length ≤ lim) :
    ∃ j, nodeToJson n = some j ∧ nodeFill lim j = some (withFlip false n) ∧ j.totNumFeatures = n.model.length ∧
      j.level = n.level ∧ ∀ i ∈ j.selected, 0 ≤ i ∧ i < (n.model.length : Int) := by
  obtain ⟨j, h1, h2⟩ := nodeJson_round n { n with wasFlipped := false }
  have e : j.totNumFeatures = n.model.length ∧ j.level = n.level := by
    unfold nodeToJson at h1
    split at h1
    · cases h1
    · cases h1; exact ⟨rfl, rfl⟩
  have hfill : nodeFill lim j = some (withFlip false n) := by
    unfold nodeFill
    unfold nodeOfJson at h2
    rw [if_neg (by rw [e.1]; omega)]
    split at h2
    · cases h2
    · split at h2
      · cases h2
      · rename_i hm
        rw [hm, Option.map_some]
        exact h2
  refine ⟨j, h1, hfill, e.1, e.2, ?_⟩
  have : ¬ nodeFill lim j = none := by rw [hfill]; simp
  rw [nodeFill_none, not_not] at this
  exact fun i hi => e.1 ▸ this.2.2 i hi

/-- A node that can be written with 64 bits, and read again. -/
def FitsInts (lim : Nat) (n : Node α) : Prop :=
  n.model.length ≤ lim ∧ (n.model.length : Int) < 2 ^ 63 ∧ (n.level : Int) < 2 ^ 63

theorem nodeJson_obj {n : NodeJson α} {v : Json} (h : nodeJson N n = some v) : v ≠ .null := by
  unfold nodeJson at h
  obtain ⟨_, -, h⟩ := Option.bind_eq_some_iff.1 h
  obtain ⟨_, -, h⟩ := Option.bind_eq_some_iff.1 h
  obtain ⟨_, -, h⟩ := Option.bind_eq_some_iff.1 h
  obtain ⟨_, -, h⟩ := Option.bind_eq_some_iff.1 h
  cases h
  simp

theorem readItems_written (hN : Spec.RoundTrips N) (lim : Nat) (items : List (Node α))
    (hf : ∀ n ∈ items, FitsInts lim n) (js : List (NodeJson α)) (vs : List Json) (hj : items.mapM nodeToJson = some js)
    (hv : js.mapM (nodeJson N) = some vs) :
    readItems N lim vs = .ok (items.map (fun n => some (withFlip false n))) := by
  induction items generalizing js vs with
  | nil => cases hj; cases hv; rfl
  | cons n items ih =>
    rw [List.mapM_cons] at hj
    obtain ⟨j, hj1, hj⟩ := Option.bind_eq_some_iff.1 hj
    obtain ⟨js', hj2, hj⟩ := Option.bind_eq_some_iff.1 hj
    cases hj
    rw [List.mapM_cons] at hv
    obtain ⟨v, hv1, hv⟩ := Option.bind_eq_some_iff.1 hv
    obtain ⟨vs', hv2, hv⟩ := Option.bind_eq_some_iff.1 hv
    cases hv
    obtain ⟨g1, g2, g3⟩ := hf n (by simp)
    obtain ⟨j', e1, e2, e3, e4, e5⟩ := nodeFill_written lim n g1
    rw [hj1] at e1
    cases e1
    have hfields := nodeFields_written hN j v hv1 (fun i hi => by have := e5 i hi; omega)
      (by rw [e3]; omega) (by rw [e4]; exact g3)
    rw [readItems_cons N lim v vs' (nodeJson_obj hv1), hfields]
    simp only [e2, ih (fun m hm => hf m (by simp [hm])) js' vs' hj2 hv2, List.map_cons]

/-- **C129 (files of the program).** The text that `MarshalJSON` makes of a list is read by inserting its nodes, in order,
into the list on which `UnmarshalJSON` is called, with the capacity of the text.  There is no error, and no panic unless the
capacity is 1. -/
theorem C129_own_files (hN : Spec.RoundTrips N) (lim : Nat) (h h₀ : Highscore α) (hf : ∀ n ∈ h.items, FitsInts lim n)
    (hM : -2 ^ 63 ≤ h.maxItems ∧ h.maxItems < 2 ^ 63) (hM1 : h.maxItems ≠ 1) (text : String)
    (ht : (highscoreToJson h).bind (fun j => marshalText (highscoreJson N j)) = some text) :
    ∃ g, (⟨h₀.items, h.maxItems⟩ : Highscore α).insertAll (h.items.map (withFlip false)) = some g ∧
      readHighscore N lim h₀.raw text = .ok g.raw := by
  obtain ⟨j, hj, ht⟩ := Option.bind_eq_some_iff.1 ht
  unfold marshalText at ht
  obtain ⟨v, hv, rfl⟩ := Option.map_eq_some_iff.1 ht
  have hnum := (codes_highscore hN _ _ hv).1
  unfold highscoreToJson at hj
  cases hjs : h.items.mapM nodeToJson with
  | none => rw [hjs] at hj; cases hj
  | some js =>
    rw [hjs] at hj
    cases hj
    unfold highscoreJson at hv
    obtain ⟨vs, hvs, hv⟩ := Option.bind_eq_some_iff.1 hv
    cases hv
    have hparse : jsonParse (String.ofList (jsonText (.obj [("maxItems".toList, intJson h.maxItems),
        ("items".toList, .arr vs)]))).toList = some (.obj [("maxItems".toList, intJson h.maxItems),
        ("items".toList, .arr vs)]) := by
      rw [String.toList_ofList]
      exact jsonParse_text _ hnum
    have hread : readMembers N lim [("maxItems".toList, intJson h.maxItems), ("items".toList, .arr vs)] ⟨0, [], false⟩ =
        .ok ⟨h.maxItems, h.items.map (fun n => some (withFlip false n)), false⟩ := by
      rw [readMembers_cons, if_pos rfl]
      simp only [intInto_literal _ _ hM]
      rw [readMembers_cons, if_neg (fun e => names_differ e.symm), if_pos rfl]
      simp only [readItems_written hN lim h.items hf js vs hjs hvs]
      rfl
    have hsome : h.items.map (fun n => some (withFlip false n)) = (h.items.map (withFlip false)).map some := by
      rw [List.map_map]; rfl
    have hins := rawInsertAll_some (⟨h₀.items, h.maxItems⟩ : Highscore α) (h.items.map (withFlip false))
    cases hg : (⟨h₀.items, h.maxItems⟩ : Highscore α).insertAll (h.items.map (withFlip false)) with
    | none =>
      rw [hg] at hins
      have := (rawInsertAll_none _ _).1 hins
      rcases this with ⟨-, h2, -⟩ | ⟨h2, -⟩
      · exact absurd h2 hM1
      · simp at h2
    | some g =>
      refine ⟨g, rfl, ?_⟩
      rw [hg] at hins
      have hins' : ({ h₀.raw with maxItems := h.maxItems } : RawHighscore α).insertAll
          (h.items.map (fun n => some (withFlip false n))) = some g.raw := by
        rw [hsome]; exact hins
      simp only [readHighscore, hparse, hread, hins']

end

/-! ### Witnesses -/

namespace ReadExample

/-- Numbers are eighths. -/
abbrev N : NumberText (FloatValue eighths) := valueText eighths_nonneg eighthsDigits

/-- A list of three models. -/
def three : Highscore (FloatValue eighths) :=
  ⟨[⟨[true], [eighth 8], 1, 0, 0, eighth 24, false⟩, ⟨[false], [], 1, 0, 0, eighth 16, false⟩,
    ⟨[true], [eighth 8], 1, 0, 0, eighth 8, false⟩], 10⟩

/-- The scores that a call leaves behind, and the capacity. -/
def scoresAfter (r : ReadEnd (RawHighscore (FloatValue eighths))) : Option (List (Option ℚ) × Int) :=
  match r with
  | .ok h => h.items.map (fun l => (l.map (fun n => n.map (fun n => n.score.1)), h.maxItems))
  | _ => none

/-- A text with blanks and unknown members is read. -/
example : scoresAfter (readHighscore N 1000 (newHighscore 3).raw
    "{ \"items\" : [{\"selected\":[1,0],\"totNumFeatures\":2,\"score\":1.5}, {\"Score\":2, \"x\":[1]}],\n\"maxItems\":4}") =
    some ([some 2, some (3 / 2)], 4) := by
  decide +kernel

/-- A list is written and read by another one. -/
example : ∃ text g, (highscoreToJson three).bind (fun j => marshalText (highscoreJson N j)) = some text ∧
    readHighscore N 1000 (newHighscore 5).raw text = .ok g ∧
    scoresAfter (.ok g) = some ([some 3, some 2, some 1], 10) := by
  obtain ⟨j, hj⟩ : ∃ j, highscoreToJson three = some j := ⟨_, rfl⟩
  obtain ⟨v, hv⟩ := highscoreJson_values eighths_nonneg eighthsDigits j
  have ht : (highscoreToJson three).bind (fun j => marshalText (highscoreJson N j)) = some (String.ofList (jsonText v)) := by
    rw [hj, Option.bind_some, hv]; rfl
  obtain ⟨g, h1, h2⟩ := C129_own_files (valueText_roundTrips eighths_nonneg eighths_readsBack) 1000 three (newHighscore 5)
    (by simp [three, FitsInts]) (by simp [three]) (by simp [three]) _ ht
  refine ⟨_, _, ht, h2, ?_⟩
  have h3 : ((⟨(newHighscore 5).items, three.maxItems⟩ : Highscore (FloatValue eighths)).insertAll
      (three.items.map (withFlip false))).bind (fun g => scoresAfter (.ok g.raw)) =
      some ([some 3, some 2, some 1], 10) := by decide +kernel
  rw [h1] at h3
  exact h3

/-- The hypotheses of `C129_no_panic_partial` are met by a list with one entry. -/
example : readHighscore N 1000 (newHighscore 3).raw
    "{\"maxItems\":4,\"items\":[{\"selected\":[1,0],\"totNumFeatures\":2,\"score\":1.5}]}" ≠ .panic := by
  have hp : jsonParse "{\"maxItems\":4,\"items\":[{\"selected\":[1,0],\"totNumFeatures\":2,\"score\":1.5}]}".toList =
      some (.obj [("maxItems".toList, .num ['4']), ("items".toList, .arr [.obj [("selected".toList, .arr [.num ['1'],
        .num ['0']]), ("totNumFeatures".toList, .num ['2']), ("score".toList, .num "1.5".toList)]])]) := by
    rw [show "{\"maxItems\":4,\"items\":[{\"selected\":[1,0],\"totNumFeatures\":2,\"score\":1.5}]}".toList =
      jsonText (.obj [("maxItems".toList, .num ['4']), ("items".toList, .arr [.obj [("selected".toList, .arr [.num ['1'],
        .num ['0']]), ("totNumFeatures".toList, .num ['2']), ("score".toList, .num "1.5".toList)]])]) by decide +kernel]
    refine jsonParse_text _ ?_
    simp only [Json.Numbers, numbersFields, numbersList]
    decide +kernel
  refine C129_no_panic_partial N 1000 (newHighscore 3) _ ?_ ?_
  · intro l hl e he
    rw [hp] at hl
    cases hl
    have he' : e = .obj [("selected".toList, .arr [.num ['1'], .num ['0']]), ("totNumFeatures".toList, .num ['2']),
      ("score".toList, .num "1.5".toList)] := by
      have : e ∈ ([Json.obj [("selected".toList, .arr [.num ['1'], .num ['0']]), ("totNumFeatures".toList, .num ['2']),
        ("score".toList, .num "1.5".toList)]] : List Json) := he
      simpa using this
    subst he'
    refine ⟨by simp, fun aux ha => ?_⟩
    have h1 : (nodeFields N (.obj [("selected".toList, .arr [.num ['1'], .num ['0']]), ("totNumFeatures".toList, .num ['2']),
      ("score".toList, .num "1.5".toList)])).map (fun aux => (aux.selected, aux.totNumFeatures)) = some ([1, 0], 2) := by
      decide +kernel
    rw [ha] at h1
    simp only [Option.map_some, Option.some.injEq, Prod.mk.injEq] at h1
    unfold FeaturesFit
    rw [h1.1, h1.2]
    decide
  · rintro M ns (⟨h, -⟩ | ⟨l, h, -, -, -, rfl, -⟩)
    · rw [hp] at h; cases h
    · rw [hp] at h
      cases h
      left
      decide +kernel

end ReadExample

theorem isPanic_iff {σ : Type} (r : ReadEnd σ) : r.isPanic = true ↔ r = .panic := by
  cases r <;> simp [ReadEnd.isPanic]

/-- **C129 is false in general.**  These texts are JSON with values of the right types, but reading them panics instead of
returning an error: a feature number out of range, a negative number of features, capacity 1, a `null` entry; the last one
panics for the zero value. -/
theorem C129_refuted :
    (∀ text ∈ ["{\"maxItems\":5,\"items\":[{\"selected\":[2],\"totNumFeatures\":2}]}",
        "{\"maxItems\":5,\"items\":[{\"selected\":[],\"totNumFeatures\":-1}]}",
        "{\"maxItems\":1,\"items\":[{\"selected\":[0],\"totNumFeatures\":1}]}",
        "{\"maxItems\":5,\"items\":[null,{\"selected\":[0],\"totNumFeatures\":1}]}"],
      readHighscore ReadExample.N 1000 (newHighscore 5).raw text = .panic) ∧
    readHighscore ReadExample.N 1000 ⟨none, 0⟩ "{\"maxItems\":5,\"items\":[{\"selected\":[0],\"totNumFeatures\":1}]}" =
      .panic := by
  have h : ((["{\"maxItems\":5,\"items\":[{\"selected\":[2],\"totNumFeatures\":2}]}",
        "{\"maxItems\":5,\"items\":[{\"selected\":[],\"totNumFeatures\":-1}]}",
        "{\"maxItems\":1,\"items\":[{\"selected\":[0],\"totNumFeatures\":1}]}",
        "{\"maxItems\":5,\"items\":[null,{\"selected\":[0],\"totNumFeatures\":1}]}"].all
      (fun text => (readHighscore ReadExample.N 1000 (newHighscore 5).raw text).isPanic)) &&
    (readHighscore ReadExample.N 1000 ⟨none, 0⟩
      "{\"maxItems\":5,\"items\":[{\"selected\":[0],\"totNumFeatures\":1}]}").isPanic) = true := by
    decide +kernel
  rw [Bool.and_eq_true, List.all_eq_true] at h
  exact ⟨fun text ht => (isPanic_iff _).1 (h.1 text ht), (isPanic_iff _).1 h.2⟩

/-- **The capacity of the text is not enforced**: reading a list with capacity 2 into one with three models leaves three
models in a list of capacity 2. -/
theorem C129_capacity_refuted :
    ReadExample.scoresAfter (readHighscore ReadExample.N 1000 ReadExample.three.raw
      "{\"maxItems\":2,\"items\":[{\"selected\":[0],\"totNumFeatures\":1,\"score\":2.5}]}") =
      some ([some 3, some (5 / 2), some 2], 2) := by
  decide +kernel

end GoSelect
