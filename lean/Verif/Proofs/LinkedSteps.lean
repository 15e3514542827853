import Verif.Proofs.LinkedList

/-! Every moment of an insertion. -/

namespace GoSelect

open Spec

variable {α : Type} [LinearOrder α]

/-- Links lead to elements that exist, and from larger to smaller scores. -/
structure Mono (m : LMem α) : Prop where
  link : ∀ a b, m.next a = some b → b < m.fresh ∧
    (b ≠ 0 → ∃ w, m.val b = some w ∧ (a ≠ 0 → ∃ v, m.val a = some v ∧ w.score ≤ v.score))
  val : ∀ a v, m.val a = some v → a < m.fresh
  pos : 0 < m.fresh

/-- A write that keeps this. -/
def OkWrite (m : LMem α) : LWrite α → Prop
  | .next a (some b) => b < m.fresh ∧
      (b ≠ 0 → ∃ w, m.val b = some w ∧ (a ≠ 0 → ∃ v, m.val a = some v ∧ w.score ≤ v.score))
  | _ => True

def AllOk : LMem α → List (LWrite α) → Prop
  | _, [] => True
  | m, w :: ws => OkWrite m w ∧ AllOk (m.write w) ws

theorem AllOk.append {m : LMem α} {ws ws' : List (LWrite α)} (h : AllOk m ws) (h' : AllOk (m.runs ws) ws') :
    AllOk m (ws ++ ws') := by
  induction ws generalizing m with
  | nil => exact h'
  | cons w ws ih => exact ⟨h.1, ih h.2 h'⟩

theorem Mono.write {m : LMem α} (h : Mono m) {w : LWrite α} (hw : OkWrite m w) : Mono (m.write w) := by
  cases w with
  | alloc v =>
    have hval : ∀ a, a < m.fresh → setAt m.val m.fresh (some v) a = m.val a := fun a ha => setAt_ne _ _ ha.ne
    refine ⟨?_, ?_, Nat.succ_pos _⟩
    · intro a b hab
      change setAt m.next m.fresh none a = some b at hab
      by_cases ha : a = m.fresh
      · rw [ha, setAt_same] at hab; cases hab
      · rw [setAt_ne _ _ ha] at hab
        obtain ⟨h1, h2⟩ := h.link a b hab
        refine ⟨Nat.lt_succ_of_lt h1, fun hb => ?_⟩
        obtain ⟨w, hw, h3⟩ := h2 hb
        refine ⟨w, (hval b h1).trans hw, fun ha => ?_⟩
        obtain ⟨v', hv', h4⟩ := h3 ha
        exact ⟨v', (hval a (h.val a v' hv')).trans hv', h4⟩
    · intro a w hw
      change setAt m.val m.fresh (some v) a = some w at hw
      show a < m.fresh + 1
      by_cases ha : a = m.fresh
      · omega
      · rw [setAt_ne _ _ ha] at hw
        have := h.val a w hw
        omega
  | next a p =>
    refine ⟨?_, h.val, h.pos⟩
    intro x b hxb
    change setAt m.next a p x = some b at hxb
    by_cases hx : x = a
    · subst hx
      rw [setAt_same] at hxb
      subst hxb
      exact hw
    · rw [setAt_ne _ _ hx] at hxb
      exact h.link x b hxb
  | prev a p => exact ⟨h.link, h.val, h.pos⟩
  | list a b => exact ⟨h.link, h.val, h.pos⟩
  | len n => exact ⟨h.link, h.val, h.pos⟩

theorem mono_newList : Mono (newList : LMem α) := by
  refine ⟨fun a b h => ?_, fun a v h => (by cases h), Nat.one_pos⟩
  unfold newList at h
  simp only at h
  split at h
  · cases h
    exact ⟨Nat.one_pos, fun hb => absurd rfl hb⟩
  · cases h

theorem shape_ok {m : LMem α} {node : Node α} {as as' : List Nat} {ws : List (LWrite α)} (h : Repr m as)
    (hs : Shape m node as ws as') : AllOk m ws := by
  have key : ∀ {p r : List Nat} {n : Nat}, as = p ++ r → n ∈ 0 :: r →
      (endOf 0 p ≠ 0 → ∃ v, m.val (endOf 0 p) = some v ∧ node.score ≤ v.score) →
      (n ≠ 0 → ∃ v, m.val n = some v ∧ v.score ≤ node.score) → AllOk m (insWs m node (endOf 0 p) n) := by
    intro p r n has hn hat hnv
    have hnlt : n < m.fresh := by
      rcases List.mem_cons.1 hn with h0 | h0
      · rw [h0]; exact h.pos
      · exact h.lt n (by rw [has]; exact List.mem_append_right _ h0)
    have hatlt : endOf 0 p < m.fresh := by
      rcases List.mem_cons.1 (endOf_mem 0 p) with h0 | h0
      · rw [h0]; exact h.pos
      · exact h.lt _ (by rw [has]; exact List.mem_append_left _ h0)
    have hval : ∀ a, a < m.fresh → setAt m.val m.fresh (some node) a = m.val a := fun a ha => setAt_ne _ _ ha.ne
    refine ⟨trivial, trivial, ⟨Nat.lt_succ_of_lt hnlt, fun hb => ?_⟩, ⟨Nat.lt_succ_self _, fun hb => ?_⟩, trivial,
      trivial, trivial, trivial⟩
    · obtain ⟨v, hv, hle⟩ := hnv hb
      exact ⟨v, (hval n hnlt).trans hv, fun _ => ⟨node, setAt_same _ _ _, hle⟩⟩
    · refine ⟨node, setAt_same _ _ _, fun ha => ?_⟩
      obtain ⟨v, hv, hle⟩ := hat ha
      exact ⟨v, (hval _ hatlt).trans hv, hle⟩
  cases hs with
  | none => trivial
  | ins has hn hat hnv => exact key has hn hat hnv
  | insDel has hn hat hnv hq hne has0 =>
    refine (key has hn hat hnv).append ?_
    refine ⟨⟨Nat.succ_pos _, fun hb => absurd rfl hb⟩, trivial, trivial, trivial, trivial, trivial, trivial⟩

/-! ## The root and the length during an insertion -/

theorem runs_append (m : LMem α) (ws ws' : List (LWrite α)) : m.runs (ws ++ ws') = (m.runs ws).runs ws' :=
  List.foldl_append ..

theorem insert_nonempty {hs hs' : Highscore α} {node : Node α} (hmax : 2 ≤ hs.maxItems) (h : hs.items ≠ [])
    (hi : hs.insert node = some hs') : hs'.items ≠ [] := by
  have ib : ∀ (l l' : List (Node α)), insertBefore node l = some l' → l'.length = l.length + 1 := by
    intro l
    induction l with
    | nil => intro l' h; cases h
    | cons x l ih =>
      intro l' h
      unfold insertBefore at h
      split at h
      · cases h; rfl
      · rcases hx : insertBefore node l with _ | y
        · rw [hx] at h; cases h
        · rw [hx] at h
          cases h
          simp [ih y hx]
  have ht : (hs.insertTail node).items ≠ [] := by
    unfold Highscore.insertTail
    rcases hb : insertBefore node hs.items with _ | items
    · simp only
      split
      · simp
      · exact h
    · simp only
      have hl := ib _ _ hb
      have h1 := List.length_pos_iff.2 h
      split
      · intro hc
        have := congrArg List.length hc
        simp at this
        omega
      · intro hc
        change items = [] at hc
        rw [hc] at hl
        simp at hl
  unfold Highscore.insert at hi
  split at hi
  · split at hi
    · cases hi
    · split at hi
      · cases hi; exact h
      · cases hi; exact ht
  · cases hi; exact ht

theorem fresh_write (m : LMem α) (w : LWrite α) : m.fresh ≤ (m.write w).fresh := by
  cases w <;> simp [LMem.write]

theorem val_write {m : LMem α} (w : LWrite α) {a : Nat} (ha : a < m.fresh) : (m.write w).val a = m.val a := by
  cases w with
  | alloc v => exact setAt_ne _ _ ha.ne
  | _ => rfl

theorem runs_val {m : LMem α} (ws : List (LWrite α)) {a : Nat} (ha : a < m.fresh) : (m.runs ws).val a = m.val a := by
  induction ws generalizing m with
  | nil => rfl
  | cons w ws ih => exact (ih (lt_of_lt_of_le ha (fresh_write m w))).trans (val_write w ha)

theorem runs_root {m : LMem α} {ws : List (LWrite α)} {X : Option Nat} (hpos : 0 < m.fresh)
    (h : ∀ p, LWrite.next 0 p ∈ ws → p = X) : (m.runs ws).next 0 = m.next 0 ∨ (m.runs ws).next 0 = X := by
  induction ws generalizing m with
  | nil => exact Or.inl rfl
  | cons w ws ih =>
    have hih := ih (m := m.write w) (lt_of_lt_of_le hpos (fresh_write m w)) (fun p hp => h p (List.mem_cons_of_mem _ hp))
    have hw : (m.write w).next 0 = m.next 0 ∨ (m.write w).next 0 = X := by
      cases w with
      | alloc v => exact Or.inl (setAt_ne _ _ hpos.ne)
      | next a p =>
        by_cases ha : (0 : Nat) = a
        · subst ha
          right
          show setAt m.next 0 p 0 = X
          rw [setAt_same]
          exact h p List.mem_cons_self
        · exact Or.inl (setAt_ne _ _ ha)
      | _ => exact Or.inl rfl
    rcases hih with h1 | h1
    · rcases hw with h2 | h2
      · exact Or.inl (h1.trans h2)
      · exact Or.inr (h1.trans h2)
    · exact Or.inr h1

theorem runs_len {m : LMem α} {ws : List (LWrite α)} {S : Nat → Prop} (h0 : S m.len) (h : ∀ n, LWrite.len n ∈ ws → S n) :
    S (m.runs ws).len := by
  induction ws generalizing m with
  | nil => exact h0
  | cons w ws ih =>
    refine ih (m := m.write w) ?_ (fun n hn => h n (List.mem_cons_of_mem _ hn))
    cases w with
    | len n => exact h n List.mem_cons_self
    | _ => exact h0

theorem head_next {m : LMem α} {as : List Nat} (h : Repr m as) : m.next 0 = some (as.headD 0) := by
  cases as with
  | nil => exact h.seg.1
  | cons a t => exact h.seg.1

theorem endOf_ne {p : List Nat} (h : (0 :: p).Nodup) (hp : p ≠ []) : endOf 0 p ≠ 0 := by
  intro h0
  cases p with
  | nil => exact hp rfl
  | cons b t =>
    have : endOf b t ∈ b :: t := endOf_mem b t
    rw [show endOf b t = 0 from h0] at this
    exact (List.nodup_cons.1 h).1 this

/-- At every moment the root points to the first element of the old or of the new list. -/
theorem shape_root {m : LMem α} {node : Node α} {as as' : List Nat} {ws : List (LWrite α)} (h : Repr m as)
    (hs : Shape m node as ws as') (h' : Repr (m.runs ws) as') (k : Nat) :
    (m.runs (ws.take k)).next 0 = m.next 0 ∨ (m.runs (ws.take k)).next 0 = (m.runs ws).next 0 := by
  refine runs_root h.pos fun x hx => ?_
  replace hx := List.mem_of_mem_take hx
  rw [head_next h']
  have hf0 : (0 : Nat) ≠ m.fresh := h.pos.ne
  have ndp : ∀ {p r : List Nat}, as = p ++ r → (0 :: p).Nodup := by
    intro p r has
    have := h.nodup
    rw [has, ← List.cons_append] at this
    exact (List.nodup_append.1 this).1
  cases hs with
  | none => cases hx
  | @ins p r n has hn hat hnv =>
    simp only [insWs, List.mem_cons, LWrite.next.injEq, reduceCtorEq, List.not_mem_nil, or_false, false_or] at hx
    rcases hx with ⟨h1, -⟩ | ⟨h1, h2⟩
    · exact absurd h1 hf0
    · by_cases hp : p = []
      · subst hp; exact h2
      · exact absurd h1.symm (endOf_ne (ndp has) hp)
  | @insDel p r _ n e has hn hat hnv hq hne has0 =>
    have hndq : (0 :: as').Nodup := h'.nodup
    have he : e ∈ p ++ m.fresh :: r := by rw [hq]; simp
    have he0 : e ≠ 0 := by
      rintro rfl
      simp only [List.mem_append, List.mem_cons] at he
      rcases he with h1 | h1 | h1
      · exact h.ne (by rw [has]; exact List.mem_append_left _ h1) rfl
      · exact hf0 h1
      · exact h.ne (by rw [has]; exact List.mem_append_right _ h1) rfl
    simp only [insWs, delWs, List.mem_append, List.mem_cons, LWrite.next.injEq, reduceCtorEq, List.not_mem_nil,
      or_false, false_or] at hx
    rcases hx with (⟨h1, -⟩ | ⟨h1, h2⟩) | ⟨h1, -⟩ | ⟨h1, -⟩
    · exact absurd h1 hf0
    · by_cases hp : p = []
      · subst hp
        cases as' with
        | nil => exact absurd rfl hne
        | cons b t =>
          have : m.fresh = b := (List.cons.inj hq).1
          rw [h2, this]
          rfl
      · exact absurd h1.symm (endOf_ne (ndp has) hp)
    · exact absurd h1.symm (endOf_ne hndq hne)
    · exact absurd h1.symm he0

/-- Before its last write the length is that of the old list, or one more than it (if that is not empty). -/
theorem shape_len {m : LMem α} {node : Node α} {as as' : List Nat} {ws : List (LWrite α)} (hs : Shape m node as ws as')
    {k : Nat} (hk : k < ws.length) :
    (m.runs (ws.take k)).len = m.len ∨ (as ≠ [] ∧ (m.runs (ws.take k)).len = m.len + 1) := by
  cases hs with
  | none => simp at hk
  | @ins p r n has hn hat hnv =>
    left
    have hk' : k ≤ 6 := by
      simp only [insWs, List.length_cons, List.length_nil] at hk
      omega
    have hsub : ∀ w ∈ (insWs m node (endOf 0 p) n).take k, w ∈ (insWs m node (endOf 0 p) n).take 6 := by
      intro w hw
      exact (List.take_subset_take_left _ hk') hw
    refine runs_len (S := fun x => x = m.len) rfl fun x hx => ?_
    have := hsub _ hx
    simp [insWs] at this
  | @insDel p r _ n e has hn hat hnv hq hne has0 =>
    have := runs_len (m := m) (ws := (insWs m node (endOf 0 p) n ++ delWs (endOf 0 as') e m.len).take k)
      (S := fun x => x = m.len ∨ x = m.len + 1) (Or.inl rfl) (fun x hx => by
        have hx := List.mem_of_mem_take hx
        simp only [insWs, delWs, List.mem_append, List.mem_cons, LWrite.len.injEq, reduceCtorEq, List.not_mem_nil,
          or_false, false_or] at hx
        rcases hx with h | h
        · exact Or.inr h
        · exact Or.inl h)
    rcases this with h | h
    · exact Or.inl h
    · exact Or.inr ⟨has0, h⟩

/-! ## The writer -/

/-- The list after insertion of the given nodes. -/
def Spec.listAfter (maxItems : Int) (nodes : List (Node α)) : Option (Highscore α) :=
  (newHighscore maxItems).insertAll nodes

theorem listAfter_concat {maxItems : Int} {nodes : List (Node α)} {hs hs' : Highscore α} {node : Node α}
    (h : listAfter maxItems nodes = some hs) (h' : hs.insert node = some hs') :
    listAfter maxItems (nodes ++ [node]) = some hs' := by
  unfold listAfter Highscore.insertAll at h ⊢
  rw [List.foldlM_append, h]
  simp [List.foldlM, h']

/-- Between two insertions, or within one. -/
inductive Mid (maxItems : Int) (c : LConf α) : Prop
  | idle {as : List Nat} {hs : Highscore α} (hp : c.pending = []) (hl : listAfter maxItems c.log = some hs)
      (hm : hs.maxItems = maxItems) (hr : Repr c.mem as) (hi : as.map c.mem.val = hs.items.map some)
  | busy {m : LMem α} {as as' : List Nat} {ws : List (LWrite α)} {k : Nat} {node : Node α} {log : List (Node α)}
      {hs hs' : Highscore α} (hlog : c.log = log ++ [node]) (hl : listAfter maxItems log = some hs)
      (hm : hs.maxItems = maxItems) (hr : Repr m as) (hi : as.map m.val = hs.items.map some)
      (hins : hs.insert node = some hs') (hm' : hs'.maxItems = maxItems) (hs : Shape m node as ws as')
      (hr' : Repr (m.runs ws) as') (hi' : as'.map (m.runs ws).val = hs'.items.map some) (hk : k < ws.length)
      (hmem : c.mem = m.runs (ws.take k)) (hp : c.pending = ws.drop k)

structure LInv (maxItems : Int) (c : LConf α) : Prop where
  mono : Mono c.mem
  ok : AllOk c.mem c.pending
  logged : ∀ a v, c.mem.val a = some v → v ∈ c.log
  alloc : ∀ v, LWrite.alloc v ∈ c.pending → v ∈ c.log
  mid : Mid maxItems c

theorem LInv.new (maxItems : Int) : LInv maxItems (newConf : LConf α) :=
  ⟨mono_newList, trivial, fun a v h => (by cases h), fun v h => (by cases h),
    .idle rfl rfl rfl repr_newList rfl⟩

theorem LInv.step {maxItems : Int} (hmax : 2 ≤ maxItems) {c d : LConf α} (h : LInv maxItems c) (hs : LStep maxItems c d) :
    LInv maxItems d := by
  cases hs with
  | @start m log node ws hins =>
    cases h.mid with
    | @idle as hs hp hl hm hr hi =>
      obtain ⟨ws', as', hs', r1, r2, r3, r4, r5, r6⟩ := insert_refines hr hs hi (by rw [hm]; exact hmax) node
      rw [hm, hins, Option.some.injEq] at r1
      subst r1
      refine ⟨h.mono, shape_ok hr r4, fun a v hv => List.mem_append_left _ (h.logged a v hv), ?_, ?_⟩
      · intro v hv
        refine List.mem_append_right _ (List.mem_singleton.2 ?_)
        change LWrite.alloc v ∈ ws at hv
        cases r4 with
        | none => cases hv
        | ins => simpa [insWs] using hv
        | insDel => simpa [insWs, delWs] using hv
      · by_cases hws : ws = []
        · subst hws
          exact .idle rfl (listAfter_concat hl r2) (r3.trans hm) r5 r6
        · exact .busy (k := 0) rfl hl hm hr hi r2 (r3.trans hm) r4 r5 r6 (List.length_pos_iff.2 hws) rfl rfl
    | busy _ _ _ _ _ _ _ _ _ _ hk _ hp =>
      have := congrArg List.length hp
      simp only [List.length_nil, List.length_drop] at this
      omega
  | @write m log w ws =>
    refine ⟨h.mono.write h.ok.1, h.ok.2, ?_, fun v hv => h.alloc v (List.mem_cons_of_mem _ hv), ?_⟩
    · intro a v hv
      change (m.write w).val a = some v at hv
      cases w with
      | alloc x =>
        change setAt m.val m.fresh (some x) a = some v at hv
        by_cases ha : a = m.fresh
        · rw [ha, setAt_same] at hv
          cases hv
          exact h.alloc _ List.mem_cons_self
        · rw [setAt_ne _ _ ha] at hv
          exact h.logged a v hv
      | _ => exact h.logged a v hv
    · cases h.mid with
      | idle hp => cases hp
      | @busy m0 as as' ws0 k node log0 hs hs' hlog hl hm hr hi hins hm' hshape hr' hi' hk hmem hp =>
        have hw : ws0.take (k + 1) = ws0.take k ++ [w] := by
          have h1 : ws0[k]? = some w := by
            have h2 : (ws0.drop k)[0]? = some w := by
              rw [← (show w :: ws = ws0.drop k from hp)]; rfl
            simpa using h2
          rw [List.take_add_one, h1]
          rfl
        have hmem' : m.write w = m0.runs (ws0.take (k + 1)) := by
          rw [hw, runs_append, ← (show m = m0.runs (ws0.take k) from hmem)]
          rfl
        have hp' : ws = ws0.drop (k + 1) := by
          have : (w :: ws).tail = (ws0.drop k).tail := by rw [(show w :: ws = ws0.drop k from hp)]
          rw [List.tail_drop] at this
          exact this
        by_cases hlast : k + 1 < ws0.length
        · exact .busy hlog hl hm hr hi hins hm' hshape hr' hi' hlast hmem' hp'
        · have hk1 : k + 1 = ws0.length := by omega
          have hfull : ws0.take (k + 1) = ws0 := by rw [hk1]; exact List.take_length
          rw [hfull] at hmem'
          refine .idle (as := as') (hs := hs') ?_ ?_ hm' ?_ ?_
          · show ws = []
            rw [hp', hk1]
            exact List.drop_length
          · show listAfter maxItems log = some hs'
            rw [(show log = log0 ++ [node] from hlog)]
            exact listAfter_concat hl hins
          · show Repr (m.write w) as'
            rw [hmem']; exact hr'
          · show as'.map (m.write w).val = _
            rw [hmem']; exact hi'

theorem LInv.steps {maxItems : Int} (hmax : 2 ≤ maxItems) {c d : LConf α} (h : LInv maxItems c)
    (hs : LSteps maxItems c d) : LInv maxItems d := by
  induction hs with
  | refl => exact h
  | tail _ hs ih => exact ih.step hmax hs

theorem LSteps.trans {maxItems : Int} {c d e : LConf α} (h : LSteps maxItems c d) (h' : LSteps maxItems d e) :
    LSteps maxItems c e := by
  induction h' with
  | refl => exact h
  | tail _ hs ih => exact .tail ih hs

theorem steps_val {maxItems : Int} {c d : LConf α} (hs : LSteps maxItems c d) {a : Nat} (ha : a < c.mem.fresh) :
    a < d.mem.fresh ∧ d.mem.val a = c.mem.val a := by
  induction hs with
  | refl => exact ⟨ha, rfl⟩
  | tail _ hs ih =>
    cases hs with
    | start => exact ih
    | @write m log w ws => exact ⟨lt_of_lt_of_le ih.1 (fresh_write _ _), (val_write w ih.1).trans ih.2⟩

theorem steps_log {maxItems : Int} {c d : LConf α} (hs : LSteps maxItems c d) : ∀ v ∈ c.log, v ∈ d.log := by
  induction hs with
  | refl => exact fun v hv => hv
  | tail _ hs ih =>
    cases hs with
    | start => exact fun v hv => List.mem_append_left _ (ih v hv)
    | write => exact ih

end GoSelect
