import Verif.Model.SelectRace
import Verif.Proofs.SelectInv
import Mathlib.Logic.Relation

/-! Happens-before and the invariant behind C132. -/

namespace GoSelect

open scoped List

namespace Spec

/-- The happens-before order of the Go memory model on the events of a run: the order within one goroutine, the meeting of
a send and a receive on an unbuffered channel (which orders what either side did before it before what either side does
after it), the start of a goroutine, and what follows from these. -/
def HappensBefore (tr : List Ev) : Nat → Nat → Prop :=
  Relation.TransGen fun i j => i < j ∧ ∃ e f g, tr[i]? = some e ∧ tr[j]? = some f ∧ g ∈ e.parts ∧ g ∈ f.parts

/-- A data race: two goroutines access the same memory, at least one of them writes, and neither access happens before the
other. -/
def Race (tr : List Ev) (i j : Nat) : Prop :=
  ∃ g h l w w' line line', tr[i]? = some (.access g l w line) ∧ tr[j]? = some (.access h l w' line') ∧ g ≠ h ∧
    (w = true ∨ w' = true) ∧ ¬ HappensBefore tr i j ∧ ¬ HappensBefore tr j i

end Spec

open Spec

/-- Event `i` is an event of `g`, or happens before one. -/
def Known (tr : List Ev) (g i : Nat) : Prop :=
  ∃ (j : Nat) (e : Ev), tr[j]? = some e ∧ g ∈ e.parts ∧ (i = j ∨ HappensBefore tr i j)

theorem hb_lt {tr : List Ev} {i j : Nat} (h : HappensBefore tr i j) : i < j := by
  induction h with
  | single h => exact h.1
  | tail _ h ih => exact ih.trans h.1

theorem getElem?_append_some {β : Type} {l l' : List β} {i : Nat} {x : β} (h : l[i]? = some x) : (l ++ l')[i]? = some x := by
  rw [List.getElem?_append_left (List.getElem?_eq_some_iff.1 h).1]
  exact h

theorem hb_append {tr es : List Ev} {i j : Nat} (h : HappensBefore tr i j) : HappensBefore (tr ++ es) i j := by
  induction h with
  | single h =>
    obtain ⟨h1, e, f, g, h2, h3, h4⟩ := h
    exact .single ⟨h1, e, f, g, getElem?_append_some h2, getElem?_append_some h3, h4⟩
  | tail _ h ih =>
    obtain ⟨h1, e, f, g, h2, h3, h4⟩ := h
    exact .tail ih ⟨h1, e, f, g, getElem?_append_some h2, getElem?_append_some h3, h4⟩

theorem Known.append {tr es : List Ev} {g i : Nat} (h : Known tr g i) : Known (tr ++ es) g i := by
  obtain ⟨j, e, h1, h2, h3⟩ := h
  exact ⟨j, e, getElem?_append_some h1, h2, h3.imp_right hb_append⟩

/-- What is known to a goroutine happens before its new events. -/
theorem Known.hb {tr es : List Ev} {g i j : Nat} {e : Ev} (h : Known tr g i) (hj : tr.length ≤ j)
    (he : (tr ++ es)[j]? = some e) (hg : g ∈ e.parts) : HappensBefore (tr ++ es) i j := by
  obtain ⟨k, f, h1, h2, h3⟩ := h
  have hk : k < j := lt_of_lt_of_le (List.getElem?_eq_some_iff.1 h1).1 hj
  have edge : HappensBefore (tr ++ es) k j := .single ⟨hk, f, e, g, getElem?_append_some h1, he, h2, hg⟩
  rcases h3 with rfl | h3
  · exact edge
  · exact Relation.TransGen.trans (hb_append h3) edge

theorem Known.self {tr : List Ev} {g j : Nat} {e : Ev} (he : tr[j]? = some e) (hg : g ∈ e.parts) : Known tr g j :=
  ⟨j, e, he, hg, Or.inl rfl⟩

/-- Whoever meets a goroutine learns what it knows. -/
theorem Known.meet {tr es : List Ev} {g h i : Nat} {e : Ev} (hk : Known tr h i) (he : e ∈ es) (hh : h ∈ e.parts)
    (hg : g ∈ e.parts) : Known (tr ++ es) g i := by
  obtain ⟨k, hk', rfl⟩ := List.mem_iff_getElem.1 he
  have hj : (tr ++ es)[tr.length + k]? = some es[k] := by
    rw [List.getElem?_append_right (Nat.le_add_right _ _), Nat.add_sub_cancel_left, List.getElem?_eq_getElem hk']
  exact ⟨tr.length + k, es[k], hj, hg, Or.inr (hk.hb (Nat.le_add_right _ _) hj hh)⟩

/-- New events of a goroutine are known to it. -/
theorem Known.new {tr es : List Ev} {g j : Nat} (h : ∀ e ∈ es, g ∈ e.parts) (hj : tr.length ≤ j)
    (hlt : j < (tr ++ es).length) : Known (tr ++ es) g j := by
  have : (tr ++ es)[j]? = some ((tr ++ es)[j]) := List.getElem?_eq_getElem hlt
  refine Known.self this ?_
  have e : (tr ++ es)[j] = es[j - tr.length]'(by rw [List.length_append] at hlt; omega) := List.getElem_append_right hj
  rw [e]
  exact h _ (List.getElem_mem _)

/-- All conflicting accesses outside of line 252 are ordered. -/
def Ordered (tr : List Ev) : Prop :=
  ∀ i j g h l w w' line line', tr[i]? = some (.access g l w line) → tr[j]? = some (.access h l w' line') → i < j →
    g ≠ h → (w = true ∨ w' = true) → line ≠ 252 → line' ≠ 252 → HappensBefore tr i j

theorem Ordered.append {tr es : List Ev} {g : Nat} (ho : Ordered tr) (hg : ∀ e ∈ es, g ∈ e.parts)
    (h : ∀ l w line, Ev.access g l w line ∈ es → line ≠ 252 → ∀ i g' w' line', tr[i]? = some (.access g' l w' line') →
      g' ≠ g → (w' = true ∨ w = true) → line' ≠ 252 → Known tr g i) : Ordered (tr ++ es) := by
  intro i j a b l w w' line line' hi hj hij hab hw hl hl'
  by_cases hj' : j < tr.length
  · rw [List.getElem?_append_left hj'] at hj
    rw [List.getElem?_append_left (hij.trans hj')] at hi
    exact hb_append (ho i j a b l w w' line line' hi hj hij hab hw hl hl')
  · have hjn := hj
    rw [List.getElem?_append_right (not_lt.1 hj')] at hj
    have hmem := List.mem_of_getElem? hj
    have hb : g = b := by simpa [Ev.parts] using hg _ hmem
    subst hb
    by_cases hi' : i < tr.length
    · rw [List.getElem?_append_left hi'] at hi
      exact (h l w' line' hmem hl' i a w line hi hab hw hl).hb (not_lt.1 hj') hjn (by simp [Ev.parts])
    · rw [List.getElem?_append_right (not_lt.1 hi')] at hi
      have := hg _ (List.mem_of_getElem? hi)
      simp only [Ev.parts, List.mem_singleton] at this
      exact absurd this.symm hab

theorem Ordered.sync {tr : List Ev} (ho : Ordered tr) {e : Ev} (he : ∀ g l w line, e ≠ .access g l w line) :
    Ordered (tr ++ [e]) := by
  intro i j a b l w w' line line' hi hj hij hab hw hl hl'
  have key : ∀ {k g l w line}, (tr ++ [e])[k]? = some (.access g l w line) → k < tr.length := by
    intro k g l w line hk
    by_contra hlt
    rw [List.getElem?_append_right (not_lt.1 hlt)] at hk
    exact he _ _ _ _ (by simpa using (List.mem_singleton.1 (List.mem_of_getElem? hk)).symm)
  have h1 := key hi
  have h2 := key hj
  rw [List.getElem?_append_left h1] at hi
  rw [List.getElem?_append_left h2] at hj
  exact hb_append (ho i j a b l w w' line line' hi hj hij hab hw hl hl')

/-! ### Batches of events -/

/-- All writes to node `x` are known to `g`. -/
def WritesKnown (tr : List Ev) (g x : Nat) : Prop :=
  ∀ i g' line, tr[i]? = some (.access g' (.node x) true line) → Known tr g i

/-- All accesses to node `x` are known to `g`. -/
def AccKnown (tr : List Ev) (g x : Nat) : Prop :=
  ∀ i g' w line, tr[i]? = some (.access g' (.node x) w line) → Known tr g i

theorem AccKnown.writes {tr : List Ev} {g x : Nat} (h : AccKnown tr g x) : WritesKnown tr g x :=
  fun i g' line hi => h i g' true line hi

/-- An event of `tr ++ es` is old, or one of `es`. -/
theorem old_or_new {tr es : List Ev} {i : Nat} {e : Ev} (h : (tr ++ es)[i]? = some e) :
    tr[i]? = some e ∨ (e ∈ es ∧ tr.length ≤ i) := by
  by_cases hi : i < tr.length
  · rw [List.getElem?_append_left hi] at h
    exact Or.inl h
  · rw [List.getElem?_append_right (not_lt.1 hi)] at h
    exact Or.inr ⟨List.mem_of_getElem? h, not_lt.1 hi⟩

theorem WritesKnown.append {tr es : List Ev} {g x : Nat} (h : WritesKnown tr g x)
    (hes : ∀ g' line, Ev.access g' (.node x) true line ∈ es → g' = g) : WritesKnown (tr ++ es) g x := by
  intro i g' line hi
  rcases old_or_new hi with h1 | ⟨h1, -⟩
  · exact (h i g' line h1).append
  · exact Known.self hi (by simp [Ev.parts, hes _ _ h1])

theorem AccKnown.append {tr es : List Ev} {g x : Nat} (h : AccKnown tr g x)
    (hes : ∀ g' w line, Ev.access g' (.node x) w line ∈ es → g' = g) : AccKnown (tr ++ es) g x := by
  intro i g' w line hi
  rcases old_or_new hi with h1 | ⟨h1, -⟩
  · exact (h i g' w line h1).append
  · exact Known.self hi (by simp [Ev.parts, hes _ _ _ h1])

theorem WritesKnown.meet {tr : List Ev} {g h x : Nat} {e : Ev} (hk : WritesKnown tr h x) (hh : h ∈ e.parts) (hg : g ∈ e.parts)
    (he : ∀ g l w line, e ≠ .access g l w line) : WritesKnown (tr ++ [e]) g x := by
  intro i g' line hi
  rcases old_or_new hi with h1 | ⟨h1, -⟩
  · exact (hk i g' line h1).meet (List.mem_singleton.2 rfl) hh hg
  · exact absurd (List.mem_singleton.1 h1).symm (he _ _ _ _)

theorem AccKnown.meet {tr : List Ev} {g h x : Nat} {e : Ev} (hk : AccKnown tr h x) (hh : h ∈ e.parts) (hg : g ∈ e.parts)
    (he : ∀ g l w line, e ≠ .access g l w line) : AccKnown (tr ++ [e]) g x := by
  intro i g' w line hi
  rcases old_or_new hi with h1 | ⟨h1, -⟩
  · exact (hk i g' w line h1).meet (List.mem_singleton.2 rfl) hh hg
  · exact absurd (List.mem_singleton.1 h1).symm (he _ _ _ _)

/-! ### The invariant -/

/-- The addresses that a child worker holds. -/
def AnnOk {α : Type} : ChildPc α → Held → Prop
  | .make .., b => b.parent.isSome ∧ b.child = none
  | .readLen .., b => b.parent.isSome ∧ b.child.isSome
  | .sendNode .., b => b.parent.isSome ∧ b.child.isSome
  | .sendPrune .., b => b.parent.isSome ∧ b.child = none
  | .ready, b => b.parent = none ∧ b.child = none

/-- The invariant of the accesses. -/
structure RInv {α : Type} (r : RState α) : Prop where
  lenQ : r.queue.length = r.s.queue.length
  lenB : r.busy.length = r.s.busy.length
  lenS : r.scoring.length = r.s.scoring.length
  ann : ∀ (i : Nat) pc b, r.s.busy[i]? = some pc → r.busy[i]? = some b → AnnOk pc b
  wantSome : ∀ n, r.s.main = .sendWant (some n) → r.want.isSome
  wantNone : r.s.main = .sendWant none → r.want = none
  worker : ∀ b ∈ r.busy, b.worker ∈ childIds
  swork : ∀ q ∈ r.scoring, q.1 ∈ scoreIds
  snodup : (r.scoring.map (·.1)).Nodup
  xnodup : (r.scoring.map (·.2)).Nodup
  fresh : ∀ (i : Nat) g x w line, r.trace[i]? = some (.access g (.node x) w line) → x < r.next
  settled : ∀ x, x = 0 ∨ x ∈ r.received → x < r.next ∧ WritesKnown r.trace 0 x
  wantOld : ∀ x ∈ r.want, x = 0 ∨ x ∈ r.received
  queueOld : ∀ x ∈ r.queue, x ∈ r.received
  parent : ∀ b ∈ r.busy, ∀ p ∈ b.parent, (p = 0 ∨ p ∈ r.received) ∧ WritesKnown r.trace b.worker p
  child : ∀ b ∈ r.busy, ∀ x ∈ b.child, x ≠ 0 ∧ x ∉ r.received ∧ x < r.next ∧ x ∉ r.scoring.map (·.2) ∧
    AccKnown r.trace b.worker x
  score : ∀ q ∈ r.scoring, q.2 ≠ 0 ∧ q.2 ∉ r.received ∧ q.2 < r.next ∧ AccKnown r.trace q.1 q.2
  dataBy : ∀ (i : Nat) g line, r.trace[i]? = some (.access g .data true line) →
    g = 0 ∧ ∀ k ∈ scoreIds ++ childIds, Known r.trace k i
  listBy : ∀ (i : Nat) g w line, r.trace[i]? = some (.access g .list w line) → line ≠ 252 → g = 0
  peekBy : ∀ (i : Nat) g l w line, r.trace[i]? = some (.access g l w line) → line = 252 → g ∈ childIds ∧ w = false
  cover : ∀ i, i < r.trace.length → Known r.trace 0 i ∨
    (∃ (k : Nat) (pc : ChildPc α) (b : Held), r.s.busy[k]? = some pc ∧ pc ≠ .ready ∧ r.busy[k]? = some b ∧ Known r.trace b.worker i) ∨
    ∃ q ∈ r.scoring, Known r.trace q.1 i
  ordered : Ordered r.trace
  returned : r.s.main = .done → r.trace[r.trace.length - 1]? = some .ret


section
variable {α : Type}

theorem set_single {β : Type} (a b : β) : [a].set 0 b = [b] := rfl

theorem RInv.single {r : RState α} (h : RInv r) {pc : ChildPc α} (hb : r.s.busy = [pc]) :
    ∃ b, r.busy = [b] ∧ AnnOk pc b := by
  have h1 := h.lenB
  rw [hb] at h1
  obtain ⟨b, hb'⟩ := List.length_eq_one_iff.1 h1
  exact ⟨b, hb', h.ann 0 pc b (by rw [hb]; rfl) (by rw [hb']; rfl)⟩

theorem heldChild_eq {pc : Option (ChildPc α)} {n x : Nat} (h : x ∈ heldChild pc n) : x = n := by
  unfold heldChild at h
  split at h
  · exact (Option.some.inj h).symm
  · exact (Option.some.inj h).symm
  · cases h

/-- Worker numbers. -/
theorem child_ne_main {g : Nat} (h : g ∈ childIds) : g ≠ 0 := by
  rintro rfl
  revert h
  decide

theorem score_ne_main {g : Nat} (h : g ∈ scoreIds) : g ≠ 0 := by
  rintro rfl
  revert h
  decide

/-- The meeting of the main loop with an idle child worker. -/
theorem RInv.want {r : RState α} (hr : RInv r) {node : Option (Node α)} (hm : r.s.main = .sendWant node)
    (hb : r.s.busy = []) {g : Nat} (hg : g ∈ childIds) :
    RInv { r with
      s := { r.s with main := .select, busy := [pcOf node] }
      want := none
      busy := r.busy ++ [⟨g, r.want, none⟩]
      trace := r.trace ++ [.sync 0 g] } := by
  have hb' : r.busy = [] := List.length_eq_zero_iff.1 (by rw [hr.lenB, hb]; rfl)
  have ne : ∀ g' l w line, Ev.sync 0 g ≠ .access g' l w line := by simp
  have old : ∀ {i : Nat} {g' l w line}, (r.trace ++ [Ev.sync 0 g])[i]? = some (.access g' l w line) →
      r.trace[i]? = some (.access g' l w line) := by
    intro i g' l w line h
    rcases old_or_new h with h1 | ⟨h1, -⟩
    · exact h1
    · simp at h1
  constructor
  · exact hr.lenQ
  · simp [hb']
  · exact hr.lenS
  · intro i pc b h1 h2
    rw [hb'] at h2
    cases i with
    | succ i => simp at h1
    | zero =>
      simp only [List.length_cons, List.length_nil, Nat.zero_add, Nat.lt_add_one, getElem?_pos, List.getElem_cons_zero,
        Option.some.injEq, List.nil_append] at h1 h2
      subst h1 h2
      cases node with
      | none => exact ⟨hr.wantNone hm, rfl⟩
      | some n => exact ⟨hr.wantSome n hm, rfl⟩
  · intro n h; simp at h
  · intro h; simp at h
  · intro b hbm
    simp only [hb', List.nil_append, List.mem_singleton] at hbm
    subst hbm
    exact hg
  · exact hr.swork
  · exact hr.snodup
  · exact hr.xnodup
  · intro i g' x w line h; exact hr.fresh i g' x w line (old h)
  · intro x hx
    exact ⟨(hr.settled x hx).1, fun i g' line h => ((hr.settled x hx).2 i g' line (old h)).append⟩
  · simp
  · exact hr.queueOld
  · intro b hbm p hp
    simp only [hb', List.nil_append, List.mem_singleton] at hbm
    subst hbm
    exact ⟨hr.wantOld p hp, (hr.settled p (hr.wantOld p hp)).2.meet (by simp [Ev.parts]) (by simp [Ev.parts]) ne⟩
  · intro b hbm x hx
    simp only [hb', List.nil_append, List.mem_singleton] at hbm
    subst hbm
    simp at hx
  · intro q hq
    obtain ⟨h1, h2, h3, h4⟩ := hr.score q hq
    exact ⟨h1, h2, h3, fun i g' w line h => (h4 i g' w line (old h)).append⟩
  · intro i g' line h
    obtain ⟨h1, h2⟩ := hr.dataBy i g' line (old h)
    exact ⟨h1, fun k hk => (h2 k hk).append⟩
  · intro i g' w line h; exact hr.listBy i g' w line (old h)
  · intro i g' l w line h; exact hr.peekBy i g' l w line (old h)
  · intro i hi
    by_cases hlt : i < r.trace.length
    · rcases hr.cover i hlt with h1 | ⟨k, pc, b, h1, -⟩ | ⟨q, hq, h1⟩
      · exact Or.inl h1.append
      · rw [hb] at h1; simp at h1
      · exact Or.inr (Or.inr ⟨q, hq, h1.append⟩)
    · exact Or.inl (Known.new (by simp [Ev.parts]) (not_lt.1 hlt) hi)
  · exact hr.ordered.sync ne
  · intro h; simp at h

/-- A child worker makes a child and reads the highscore list. -/
theorem RInv.make {r : RState α} (hr : RInv r) {p : Node α} {f : Bool} (hm : r.s.main = .select)
    (hb : r.s.busy = [.make p f]) {g pi : Nat} (hbusy : r.busy = [⟨g, some pi, none⟩]) {front : Option Nat}
    (hf : ∀ x ∈ front, x ∈ r.received) {pc : ChildPc α}
    (hpc : AnnOk pc ⟨g, some pi, heldChild (some pc) r.next⟩) :
    RInv { r with
      s := { r.s with busy := [pc] }
      busy := [⟨g, some pi, heldChild (some pc) r.next⟩]
      next := r.next + 1
      trace := r.trace ++ (.access g (.node pi) false 238 :: .access g (.node r.next) true 238 ::
        .access g .data false 243 :: peeks (some pc) g front) } := by
  have hgw : g ∈ childIds := hr.worker ⟨g, some pi, none⟩ (by simp [hbusy])
  obtain ⟨hpar1, hpar2⟩ := hr.parent ⟨g, some pi, none⟩ (by simp [hbusy]) pi rfl
  have hpi := (hr.settled pi hpar1).1
  set es : List Ev := .access g (.node pi) false 238 :: .access g (.node r.next) true 238 ::
        .access g .data false 243 :: peeks (some pc) g front with hes
  have hpk : ∀ e ∈ peeks (some pc) g front, e = .access g .list false 252 ∨
      ∃ x ∈ r.received, e = .access g (.node x) false 252 := by
    intro e he
    unfold peeks at he
    split at he
    · simp at he
    · rcases List.mem_cons.1 he with rfl | he
      · exact Or.inl rfl
      · obtain ⟨x, hx, rfl⟩ := List.mem_map.1 he
        exact Or.inr ⟨x, hf x (by simpa using hx), rfl⟩
  have hcases : ∀ e ∈ es, e = .access g (.node pi) false 238 ∨ e = .access g (.node r.next) true 238 ∨
      e = .access g .data false 243 ∨ e = .access g .list false 252 ∨ ∃ x ∈ r.received, e = .access g (.node x) false 252 := by
    intro e he
    simp only [hes, List.mem_cons] at he
    rcases he with h | h | h | h
    · exact Or.inl h
    · exact Or.inr (Or.inl h)
    · exact Or.inr (Or.inr (Or.inl h))
    · exact Or.inr (Or.inr (Or.inr (hpk e h)))
  have hparts : ∀ e ∈ es, g ∈ e.parts := by
    intro e he
    rcases hcases e he with rfl | rfl | rfl | rfl | ⟨x, -, rfl⟩ <;> simp [Ev.parts]
  have hready : pc ≠ .ready := by
    rintro rfl
    exact absurd hpc.1 (by simp)
  have nodeIn : ∀ {g' x w line}, Ev.access g' (.node x) w line ∈ es → g' = g ∧ (x = pi ∨ x = r.next ∨ x ∈ r.received) ∧
      (w = true → x = r.next) := by
    intro g' x w line h
    rcases hcases _ h with h | h | h | h | ⟨y, hy, h⟩
    · cases h; exact ⟨rfl, Or.inl rfl, by simp⟩
    · cases h; exact ⟨rfl, Or.inr (Or.inl rfl), fun _ => rfl⟩
    · cases h
    · cases h
    · cases h; exact ⟨rfl, Or.inr (Or.inr hy), by simp⟩
  constructor
  · exact hr.lenQ
  · rfl
  · exact hr.lenS
  · intro i pc' b h1 h2
    cases i with
    | succ i => simp at h1
    | zero =>
      simp only [List.length_cons, List.length_nil, Nat.zero_add, Nat.lt_add_one, getElem?_pos, List.getElem_cons_zero,
        Option.some.injEq] at h1 h2
      subst h1 h2
      exact hpc
  · intro n h; simp [hm] at h
  · intro h; simp [hm] at h
  · intro b hbm
    simp only [List.mem_singleton] at hbm
    subst hbm
    exact hgw
  · exact hr.swork
  · exact hr.snodup
  · exact hr.xnodup
  · intro i g' x w line h
    rcases old_or_new h with h1 | ⟨h1, -⟩
    · exact Nat.lt_succ_of_lt (hr.fresh i g' x w line h1)
    · rcases (nodeIn h1).2.1 with rfl | rfl | hx
      · exact Nat.lt_succ_of_lt hpi
      · exact Nat.lt_succ_self _
      · exact Nat.lt_succ_of_lt (hr.settled x (Or.inr hx)).1
  · intro x hx
    have := (hr.settled x hx).1
    refine ⟨Nat.lt_succ_of_lt this, (hr.settled x hx).2.append fun g' line h => ?_⟩
    have := (nodeIn h).2.2 rfl
    omega
  · exact hr.wantOld
  · exact hr.queueOld
  · intro b hbm q hq
    simp only [List.mem_singleton] at hbm
    subst hbm
    cases hq
    exact ⟨hpar1, hpar2.append fun g' line h => (nodeIn h).1⟩
  · intro b hbm x hx
    simp only [List.mem_singleton] at hbm
    subst hbm
    obtain rfl := heldChild_eq hx
    refine ⟨fun h0 => ?_, fun hx => ?_, Nat.lt_succ_self _, fun hx => ?_, ?_⟩
    · have := (hr.settled 0 (Or.inl rfl)).1
      omega
    · have := (hr.settled _ (Or.inr hx)).1
      omega
    · obtain ⟨q, hq, e⟩ := List.mem_map.1 hx
      have := (hr.score q hq).2.2.1
      omega
    · intro i g' w line h
      rcases old_or_new h with h1 | ⟨h1, -⟩
      · exact absurd (hr.fresh i g' _ w line h1) (lt_irrefl _)
      · exact Known.self h (by simp [Ev.parts, (nodeIn h1).1])
  · intro q hq
    obtain ⟨h1, h2, h3, h4⟩ := hr.score q hq
    refine ⟨h1, h2, Nat.lt_succ_of_lt h3, h4.append fun g' w line h => ?_⟩
    rcases (nodeIn h).2.1 with h5 | h5 | h5
    · rcases hpar1 with h6 | h6
      · exact absurd (h5.trans h6) h1
      · exact absurd (h5 ▸ h6) h2
    · omega
    · exact absurd h5 h2
  · intro i g' line h
    rcases old_or_new h with h1 | ⟨h1, -⟩
    · obtain ⟨h2, h3⟩ := hr.dataBy i g' line h1
      exact ⟨h2, fun k hk => (h3 k hk).append⟩
    · rcases hcases _ h1 with h | h | h | h | ⟨y, hy, h⟩ <;> cases h
  · intro i g' w line h hl
    rcases old_or_new h with h1 | ⟨h1, -⟩
    · exact hr.listBy i g' w line h1 hl
    · rcases hcases _ h1 with h | h | h | h | ⟨y, hy, h⟩ <;> cases h
      exact absurd rfl hl
  · intro i g' l w line h hl
    rcases old_or_new h with h1 | ⟨h1, -⟩
    · exact hr.peekBy i g' l w line h1 hl
    · rcases hcases _ h1 with h | h | h | h | ⟨y, hy, h⟩ <;> cases h <;>
        first | exact ⟨hgw, rfl⟩ | exact absurd hl (by decide)
  · intro i hi
    by_cases hlt : i < r.trace.length
    · rcases hr.cover i hlt with h1 | ⟨k, pc', b, h1, h2, h3, h4⟩ | ⟨q, hq, h1⟩
      · exact Or.inl h1.append
      · right; left
        cases k with
        | succ k => rw [hb] at h1; simp at h1
        | zero =>
          rw [hbusy] at h3
          simp only [List.length_cons, List.length_nil, Nat.zero_add, Nat.lt_add_one, getElem?_pos, List.getElem_cons_zero,
            Option.some.injEq] at h3
          subst h3
          exact ⟨0, pc, _, rfl, hready, rfl, h4.append⟩
      · exact Or.inr (Or.inr ⟨q, hq, h1.append⟩)
    · exact Or.inr (Or.inl ⟨0, pc, _, rfl, hready, rfl, Known.new hparts (not_lt.1 hlt) hi⟩)
  · refine hr.ordered.append hparts fun l w line hmem hl i g' w' line' hi hne hw hl' => ?_
    rcases hcases _ hmem with h | h | h | h | ⟨y, hy, h⟩ <;> cases h
    · obtain rfl : w' = true := by simpa using hw
      exact hpar2 i g' line' hi
    · exact absurd (hr.fresh i g' _ w' line' hi) (lt_irrefl _)
    · obtain rfl : w' = true := by simpa using hw
      exact (hr.dataBy i g' line' hi).2 g (List.mem_append_right _ hgw)
    · exact absurd rfl hl
    · exact absurd rfl hl
  · intro h; simp [hm] at h

/-- A child worker reads the length of the highscore list. -/
theorem RInv.len {r : RState α} (hr : RInv r) {pc₀ : ChildPc α} (hm : r.s.main = .select)
    (hb : r.s.busy = [pc₀]) {g pi x : Nat} (hbusy : r.busy = [⟨g, some pi, some x⟩]) {pc : ChildPc α} {t : Bool}
    (hpc : AnnOk pc ⟨g, some pi, heldChild (some pc) x⟩) :
    RInv { r with
      s := { r.s with busy := [pc], torn := t }
      busy := [⟨g, some pi, heldChild (some pc) x⟩]
      trace := r.trace ++ [.access g .list false 252] } := by
  have hgw : g ∈ childIds := hr.worker ⟨g, some pi, some x⟩ (by simp [hbusy])
  obtain ⟨hpar1, hpar2⟩ := hr.parent ⟨g, some pi, some x⟩ (by simp [hbusy]) pi rfl
  have hch := hr.child ⟨g, some pi, some x⟩ (by simp [hbusy]) x rfl
  have hready : pc ≠ .ready := by
    rintro rfl
    exact absurd hpc.1 (by simp)
  have oldNode : ∀ {i : Nat} {g' y w line}, (r.trace ++ [Ev.access g .list false 252])[i]? = some (.access g' (.node y) w line) →
      r.trace[i]? = some (.access g' (.node y) w line) := by
    intro i g' y w line h
    rcases old_or_new h with h1 | ⟨h1, -⟩
    · exact h1
    · simp at h1
  constructor
  · exact hr.lenQ
  · rfl
  · exact hr.lenS
  · intro i pc' b h1 h2
    cases i with
    | succ i => simp at h1
    | zero =>
      simp only [List.length_cons, List.length_nil, Nat.zero_add, Nat.lt_add_one, getElem?_pos, List.getElem_cons_zero,
        Option.some.injEq] at h1 h2
      subst h1 h2
      exact hpc
  · intro n h; simp [hm] at h
  · intro h; simp [hm] at h
  · intro b hbm
    simp only [List.mem_singleton] at hbm
    subst hbm
    exact hgw
  · exact hr.swork
  · exact hr.snodup
  · exact hr.xnodup
  · intro i g' y w line h; exact hr.fresh i g' y w line (oldNode h)
  · intro y hy
    exact ⟨(hr.settled y hy).1, fun i g' line h => ((hr.settled y hy).2 i g' line (oldNode h)).append⟩
  · exact hr.wantOld
  · exact hr.queueOld
  · intro b hbm q hq
    simp only [List.mem_singleton] at hbm
    subst hbm
    cases hq
    exact ⟨hpar1, fun i g' line h => (hpar2 i g' line (oldNode h)).append⟩
  · intro b hbm y hy
    simp only [List.mem_singleton] at hbm
    subst hbm
    obtain rfl := heldChild_eq hy
    exact ⟨hch.1, hch.2.1, hch.2.2.1, hch.2.2.2.1, fun i g' w line h => (hch.2.2.2.2 i g' w line (oldNode h)).append⟩
  · intro q hq
    obtain ⟨h1, h2, h3, h4⟩ := hr.score q hq
    exact ⟨h1, h2, h3, fun i g' w line h => (h4 i g' w line (oldNode h)).append⟩
  · intro i g' line h
    rcases old_or_new h with h1 | ⟨h1, -⟩
    · obtain ⟨h2, h3⟩ := hr.dataBy i g' line h1
      exact ⟨h2, fun k hk => (h3 k hk).append⟩
    · simp at h1
  · intro i g' w line h hl
    rcases old_or_new h with h1 | ⟨h1, -⟩
    · exact hr.listBy i g' w line h1 hl
    · simp only [List.mem_singleton] at h1
      cases h1
      exact absurd rfl hl
  · intro i g' l w line h hl
    rcases old_or_new h with h1 | ⟨h1, -⟩
    · exact hr.peekBy i g' l w line h1 hl
    · simp only [List.mem_singleton] at h1
      cases h1
      exact ⟨hgw, rfl⟩
  · intro i hi
    by_cases hlt : i < r.trace.length
    · rcases hr.cover i hlt with h1 | ⟨k, pc', b, h1, h2, h3, h4⟩ | ⟨q, hq, h1⟩
      · exact Or.inl h1.append
      · right; left
        cases k with
        | succ k => rw [hb] at h1; simp at h1
        | zero =>
          rw [hbusy] at h3
          simp only [List.length_cons, List.length_nil, Nat.zero_add, Nat.lt_add_one, getElem?_pos, List.getElem_cons_zero,
            Option.some.injEq] at h3
          subst h3
          exact ⟨0, pc, _, rfl, hready, rfl, h4.append⟩
      · exact Or.inr (Or.inr ⟨q, hq, h1.append⟩)
    · exact Or.inr (Or.inl ⟨0, pc, _, rfl, hready, rfl, Known.new (by simp [Ev.parts]) (not_lt.1 hlt) hi⟩)
  · refine hr.ordered.append (g := g) (by simp [Ev.parts]) fun l w line hmem hl i g' w' line' hi hne hw hl' => ?_
    simp only [List.mem_singleton] at hmem
    cases hmem
    exact absurd rfl hl
  · intro h; simp [hm] at h

/-- A child worker meets an idle score worker. -/
theorem RInv.send {r : RState α} (hr : RInv r) {pc₀ : ChildPc α} (hm : r.s.main = .select)
    (hb : r.s.busy = [pc₀]) {g pi x : Nat} (hbusy : r.busy = [⟨g, some pi, some x⟩]) {pc : ChildPc α} {k : Nat}
    (hk : k ∈ scoreIds) (hk' : k ∉ r.scoring.map (·.1)) {c : Node α}
    (hpc : AnnOk pc ⟨g, heldParent (some pc) pi, none⟩) :
    RInv { r with
      s := { r.s with busy := [pc], scoring := r.s.scoring ++ [c] }
      busy := [⟨g, heldParent (some pc) pi, none⟩]
      scoring := r.scoring ++ [(k, x)]
      trace := r.trace ++ [.sync g k] } := by
  have hgw : g ∈ childIds := hr.worker ⟨g, some pi, some x⟩ (by simp [hbusy])
  obtain ⟨hpar1, hpar2⟩ := hr.parent ⟨g, some pi, some x⟩ (by simp [hbusy]) pi rfl
  obtain ⟨c1, c2, c3, c4, c5⟩ := hr.child ⟨g, some pi, some x⟩ (by simp [hbusy]) x rfl
  have ne : ∀ g' l w line, Ev.sync g k ≠ .access g' l w line := by simp
  have old : ∀ {i : Nat} {g' l w line}, (r.trace ++ [Ev.sync g k])[i]? = some (.access g' l w line) →
      r.trace[i]? = some (.access g' l w line) := by
    intro i g' l w line h
    rcases old_or_new h with h1 | ⟨h1, -⟩
    · exact h1
    · simp at h1
  constructor
  · exact hr.lenQ
  · rfl
  · simp [hr.lenS]
  · intro i pc' b h1 h2
    cases i with
    | succ i => simp at h1
    | zero =>
      simp only [List.length_cons, List.length_nil, Nat.zero_add, Nat.lt_add_one, getElem?_pos, List.getElem_cons_zero,
        Option.some.injEq] at h1 h2
      subst h1 h2
      exact hpc
  · intro n h; simp [hm] at h
  · intro h; simp [hm] at h
  · intro b hbm
    simp only [List.mem_singleton] at hbm
    subst hbm
    exact hgw
  · intro q hq
    rcases List.mem_append.1 hq with hq | hq
    · exact hr.swork q hq
    · simp only [List.mem_singleton] at hq
      subst hq
      exact hk
  · rw [List.map_append]
    exact List.nodup_append.2 ⟨hr.snodup, by simp, by rintro a ha b hb rfl; simp at hb; exact hk' (hb ▸ ha)⟩
  · rw [List.map_append]
    exact List.nodup_append.2 ⟨hr.xnodup, by simp, by rintro a ha b hb rfl; simp at hb; exact c4 (hb ▸ ha)⟩
  · intro i g' y w line h; exact hr.fresh i g' y w line (old h)
  · intro y hy
    exact ⟨(hr.settled y hy).1, fun i g' line h => ((hr.settled y hy).2 i g' line (old h)).append⟩
  · exact hr.wantOld
  · exact hr.queueOld
  · intro b hbm q hq
    simp only [List.mem_singleton] at hbm
    subst hbm
    have : q = pi := by
      simp only [heldParent] at hq
      split at hq
      · cases hq
      · exact (Option.some.inj hq).symm
    subst this
    exact ⟨hpar1, fun i g' line h => (hpar2 i g' line (old h)).append⟩
  · intro b hbm y hy
    simp only [List.mem_singleton] at hbm
    subst hbm
    cases hy
  · intro q hq
    rcases List.mem_append.1 hq with hq | hq
    · obtain ⟨h1, h2, h3, h4⟩ := hr.score q hq
      exact ⟨h1, h2, h3, fun i g' w line h => (h4 i g' w line (old h)).append⟩
    · simp only [List.mem_singleton] at hq
      subst hq
      exact ⟨c1, c2, c3, c5.meet (by simp [Ev.parts]) (by simp [Ev.parts]) ne⟩
  · intro i g' line h
    obtain ⟨h2, h3⟩ := hr.dataBy i g' line (old h)
    exact ⟨h2, fun k hk => (h3 k hk).append⟩
  · intro i g' w line h hl; exact hr.listBy i g' w line (old h) hl
  · intro i g' l w line h; exact hr.peekBy i g' l w line (old h)
  · intro i hi
    by_cases hlt : i < r.trace.length
    · rcases hr.cover i hlt with h1 | ⟨j, pc', b, h1, h2, h3, h4⟩ | ⟨q, hq, h1⟩
      · exact Or.inl h1.append
      · right; right
        have hbm : b ∈ r.busy := List.mem_of_getElem? h3
        simp only [hbusy, List.mem_singleton] at hbm
        subst hbm
        exact ⟨(k, x), by simp, h4.meet (List.mem_singleton.2 rfl) (by simp [Ev.parts]) (by simp [Ev.parts])⟩
      · exact Or.inr (Or.inr ⟨q, List.mem_append_left _ hq, h1.append⟩)
    · exact Or.inr (Or.inr ⟨(k, x), by simp, Known.new (by simp [Ev.parts]) (not_lt.1 hlt) hi⟩)
  · exact hr.ordered.sync ne
  · intro h; simp [hm] at h

theorem retOf_parts {s : SState α} : ∀ e ∈ retOf s, 0 ∈ e.parts ∧ ∀ g l w line, e ≠ .access g l w line := by
  intro e he
  unfold retOf at he
  split at he
  · simp only [List.mem_singleton] at he
    subst he
    simp [Ev.parts]
  · simp at he

theorem retOf_last {s : SState α} (h : s.main = .done) (tr : List Ev) :
    (tr ++ retOf s)[(tr ++ retOf s).length - 1]? = some .ret := by
  simp [retOf, h]

theorem Ordered.retOf {tr : List Ev} (ho : Ordered tr) (s : SState α) : Ordered (tr ++ retOf s) := by
  unfold GoSelect.retOf
  split
  · exact ho.sync (by simp)
  · simpa using ho

/-- A child worker reports a child that is not explored. -/
theorem RInv.prune {r : RState α} (hr : RInv r) {pc₀ : ChildPc α} (hb : r.s.busy = [pc₀]) {g pi : Nat}
    (hbusy : r.busy = [⟨g, some pi, none⟩]) {pc : ChildPc α} (hpc : AnnOk pc ⟨g, heldParent (some pc) pi, none⟩)
    {s' : SState α} (hm' : ∀ n, s'.main ≠ .sendWant n) (hb' : s'.busy = [pc]) (hq' : s'.queue = r.s.queue)
    (hs' : s'.scoring = r.s.scoring) :
    RInv { r with
      s := s'
      busy := [⟨g, heldParent (some pc) pi, none⟩]
      trace := r.trace ++ (.access g (.node pi) false 266 :: .sync g 0 :: retOf s') } := by
  have hgw : g ∈ childIds := hr.worker ⟨g, some pi, none⟩ (by simp [hbusy])
  obtain ⟨hpar1, hpar2⟩ := hr.parent ⟨g, some pi, none⟩ (by simp [hbusy]) pi rfl
  have etr : r.trace ++ (.access g (.node pi) false 266 :: .sync g 0 :: retOf s') =
      (r.trace ++ [.access g (.node pi) false 266]) ++ (.sync g 0 :: retOf s') := by simp
  have etr' : r.trace ++ (.access g (.node pi) false 266 :: .sync g 0 :: retOf s') =
      ((r.trace ++ [.access g (.node pi) false 266]) ++ [.sync g 0]) ++ retOf s' := by simp
  have hmain : ∀ e ∈ (.sync g 0 :: retOf s' : List Ev), 0 ∈ e.parts ∧ ∀ g l w line, e ≠ .access g l w line := by
    intro e he
    rcases List.mem_cons.1 he with rfl | he
    · simp [Ev.parts]
    · exact retOf_parts e he
  have acc : ∀ {i : Nat} {g' l w line},
      (r.trace ++ (.access g (.node pi) false 266 :: .sync g 0 :: retOf s'))[i]? = some (.access g' l w line) →
      r.trace[i]? = some (.access g' l w line) ∨ (g' = g ∧ l = .node pi ∧ w = false) := by
    intro i g' l w line h
    rw [etr] at h
    rcases old_or_new h with h1 | ⟨h1, -⟩
    · rcases old_or_new h1 with h2 | ⟨h2, -⟩
      · exact Or.inl h2
      · simp only [List.mem_singleton] at h2
        cases h2
        exact Or.inr ⟨rfl, rfl, rfl⟩
    · exact absurd rfl ((hmain _ h1).2 _ _ _ _)
  have ordered : Ordered (r.trace ++ (.access g (.node pi) false 266 :: .sync g 0 :: retOf s')) := by
    rw [etr']
    refine Ordered.retOf (Ordered.sync (Ordered.append (g := g) hr.ordered (by simp [Ev.parts]) ?_) (by simp)) s'
    intro l w line hmem hl i g' w' line' hi hne hw hl'
    simp only [List.mem_singleton] at hmem
    cases hmem
    obtain rfl : w' = true := by simpa using hw
    exact hpar2 i g' line' hi
  have cover : ∀ i, i < (r.trace ++ (.access g (.node pi) false 266 :: .sync g 0 :: retOf s')).length →
      Known (r.trace ++ (.access g (.node pi) false 266 :: .sync g 0 :: retOf s')) 0 i ∨
      ∃ q ∈ r.scoring, Known (r.trace ++ (.access g (.node pi) false 266 :: .sync g 0 :: retOf s')) q.1 i := by
    intro i hi
    by_cases hlt : i < r.trace.length
    · rcases hr.cover i hlt with h1 | ⟨j, pc', b, h1, h2, h3, h4⟩ | ⟨q, hq, h1⟩
      · exact Or.inl h1.append
      · left
        have hbm : b ∈ r.busy := List.mem_of_getElem? h3
        simp only [hbusy, List.mem_singleton] at hbm
        subst hbm
        exact h4.meet (e := .sync g 0) (by simp) (by simp [Ev.parts]) (by simp [Ev.parts])
      · exact Or.inr ⟨q, hq, h1.append⟩
    · left
      rw [etr] at hi ⊢
      by_cases hlt' : i < (r.trace ++ [Ev.access g (.node pi) false 266]).length
      · have : Known (r.trace ++ [Ev.access g (.node pi) false 266]) g i :=
          Known.new (by simp [Ev.parts]) (not_lt.1 hlt) hlt'
        exact this.meet (e := .sync g 0) (by simp) (by simp [Ev.parts]) (by simp [Ev.parts])
      · exact Known.new (fun e he => (hmain e he).1) (not_lt.1 hlt') hi
  constructor
  · exact hr.lenQ.trans (congrArg _ hq'.symm)
  · simp [hb']
  · exact hr.lenS.trans (congrArg _ hs'.symm)
  · intro i pc' b h1 h2
    simp only [hb'] at h1
    cases i with
    | succ i => simp at h1
    | zero =>
      simp only [List.length_cons, List.length_nil, Nat.zero_add, Nat.lt_add_one, getElem?_pos, List.getElem_cons_zero,
        Option.some.injEq] at h1 h2
      subst h1 h2
      exact hpc
  · intro n h; exact absurd h (hm' _)
  · intro h; exact absurd h (hm' _)
  · intro b hbm
    simp only [List.mem_singleton] at hbm
    subst hbm
    exact hgw
  · exact hr.swork
  · exact hr.snodup
  · exact hr.xnodup
  · intro i g' y w line h
    rcases acc h with h1 | ⟨-, h1, -⟩
    · exact hr.fresh i g' y w line h1
    · cases h1
      exact (hr.settled pi hpar1).1
  · intro y hy
    refine ⟨(hr.settled y hy).1, fun i g' line h => ?_⟩
    rcases acc h with h1 | ⟨-, -, h1⟩
    · exact ((hr.settled y hy).2 i g' line h1).append
    · cases h1
  · exact hr.wantOld
  · exact hr.queueOld
  · intro b hbm q hq
    simp only [List.mem_singleton] at hbm
    subst hbm
    have : q = pi := by
      simp only [heldParent] at hq
      split at hq
      · cases hq
      · exact (Option.some.inj hq).symm
    subst this
    refine ⟨hpar1, fun i g' line h => ?_⟩
    rcases acc h with h1 | ⟨-, -, h1⟩
    · exact (hpar2 i g' line h1).append
    · cases h1
  · intro b hbm y hy
    simp only [List.mem_singleton] at hbm
    subst hbm
    cases hy
  · intro q hq
    obtain ⟨h1, h2, h3, h4⟩ := hr.score q hq
    refine ⟨h1, h2, h3, fun i g' w line h => ?_⟩
    rcases acc h with h5 | ⟨-, h5, -⟩
    · exact (h4 i g' w line h5).append
    · cases h5
      rcases hpar1 with h6 | h6
      · exact absurd h6 h1
      · exact absurd h6 h2
  · intro i g' line h
    rcases acc h with h1 | ⟨-, -, h1⟩
    · obtain ⟨h2, h3⟩ := hr.dataBy i g' line h1
      exact ⟨h2, fun k hk => (h3 k hk).append⟩
    · cases h1
  · intro i g' w line h hl
    rcases acc h with h1 | ⟨-, h1, -⟩
    · exact hr.listBy i g' w line h1 hl
    · cases h1
  · intro i g' l w line h hl
    rcases acc h with h1 | ⟨rfl, -, h1⟩
    · exact hr.peekBy i g' l w line h1 hl
    · exact ⟨hgw, h1⟩
  · intro i hi
    exact (cover i hi).imp_right Or.inr
  · exact ordered
  · intro h
    simp only
    rw [etr']
    exact retOf_last h _

/-- A child worker is ready for the next node. -/
theorem RInv.ready {r : RState α} (hr : RInv r) (hb : r.s.busy = [.ready]) {g : Nat}
    (hbusy : r.busy = [⟨g, none, none⟩]) {s' : SState α} (hb' : s'.busy = []) (hs' : s'.scoring = r.s.scoring)
    (hq' : s'.queue = r.s.queue.tail) (hm' : s'.main = .sendWant r.s.queue.head?) :
    RInv { r with
      s := s'
      want := r.queue.head?
      queue := r.queue.tail
      busy := []
      trace := r.trace ++ [.sync g 0] } := by
  have ne : ∀ g' l w line, Ev.sync g 0 ≠ .access g' l w line := by simp
  have old : ∀ {i : Nat} {g' l w line}, (r.trace ++ [Ev.sync g 0])[i]? = some (.access g' l w line) →
      r.trace[i]? = some (.access g' l w line) := by
    intro i g' l w line h
    rcases old_or_new h with h1 | ⟨h1, -⟩
    · exact h1
    · simp at h1
  have hlen := hr.lenQ
  constructor
  · simp [hq', hlen]
  · simp [hb']
  · exact hr.lenS.trans (congrArg _ hs'.symm)
  · intro i pc' b h1 h2
    simp at h2
  · intro n h
    rw [hm'] at h
    cases hq : r.s.queue with
    | nil => rw [hq] at h; cases h
    | cons a l =>
      cases hq2 : r.queue with
      | nil => rw [hq, hq2] at hlen; cases hlen
      | cons a l => rfl
  · intro h
    rw [hm'] at h
    cases hq : r.s.queue with
    | cons a l => rw [hq] at h; cases h
    | nil =>
      cases hq2 : r.queue with
      | cons a l => rw [hq, hq2] at hlen; cases hlen
      | nil => rfl
  · simp
  · exact hr.swork
  · exact hr.snodup
  · exact hr.xnodup
  · intro i g' y w line h; exact hr.fresh i g' y w line (old h)
  · intro y hy
    exact ⟨(hr.settled y hy).1, fun i g' line h => ((hr.settled y hy).2 i g' line (old h)).append⟩
  · intro x hx
    exact Or.inr (hr.queueOld x (List.mem_of_mem_head? hx))
  · intro x hx
    exact hr.queueOld x (List.mem_of_mem_tail hx)
  · simp
  · simp
  · intro q hq
    obtain ⟨h1, h2, h3, h4⟩ := hr.score q hq
    exact ⟨h1, h2, h3, fun i g' w line h => (h4 i g' w line (old h)).append⟩
  · intro i g' line h
    obtain ⟨h2, h3⟩ := hr.dataBy i g' line (old h)
    exact ⟨h2, fun k hk => (h3 k hk).append⟩
  · intro i g' w line h hl; exact hr.listBy i g' w line (old h) hl
  · intro i g' l w line h; exact hr.peekBy i g' l w line (old h)
  · intro i hi
    by_cases hlt : i < r.trace.length
    · rcases hr.cover i hlt with h1 | ⟨j, pc', b, h1, h2, h3, h4⟩ | ⟨q, hq, h1⟩
      · exact Or.inl h1.append
      · have := List.mem_of_getElem? h1
        simp only [hb, List.mem_singleton] at this
        exact absurd this h2
      · exact Or.inr (Or.inr ⟨q, hq, h1.append⟩)
    · exact Or.inl (Known.new (by simp [Ev.parts]) (not_lt.1 hlt) hi)
  · exact hr.ordered.sync ne
  · intro h
    rw [hm'] at h
    cases h

theorem mainAccesses_parts {b : Bool} {l : List Nat} {x : Nat} : ∀ e ∈ mainAccesses b l x,
    e = .access 0 .list false 122 ∨ e = .access 0 (.node x) false 124 ∨ (∃ y ∈ l, e = .access 0 (.node y) false 125) ∨
      e = .access 0 .list true 125 := by
  intro e he
  unfold mainAccesses at he
  simp only [List.mem_cons, List.mem_append, List.mem_map] at he
  rcases he with h | h | ⟨y, hy, rfl⟩ | h
  · exact Or.inl h
  · exact Or.inr (Or.inl h)
  · exact Or.inr (Or.inr (Or.inl ⟨y, hy, rfl⟩))
  · split at h
    · exact Or.inr (Or.inr (Or.inr (List.mem_singleton.1 h)))
    · simp at h

theorem scoreAccesses_parts {k x : Nat} : ∀ e ∈ scoreAccesses k x,
    e = .access k (.node x) false 221 ∨ e = .access k .data false 224 ∨ e = .access k (.node x) true 225 := by
  intro e he
  simpa [scoreAccesses] using he

/-- The main loop meets a score worker. -/
theorem RInv.scored {r : RState α} (hr : RInv r) {i : Nat} {k x : Nat} (hi : r.scoring[i]? = some (k, x)) {isNew : Bool}
    {s' : SState α} (hm' : ∀ n, s'.main ≠ .sendWant n) (hb' : s'.busy = r.s.busy)
    (hs' : s'.scoring = r.s.scoring.eraseIdx i) {kept : List Nat} (hlen : kept.length = s'.queue.length)
    (hkept : ∀ y ∈ kept, y = x ∨ y ∈ r.queue) :
    RInv { r with
      s := s'
      queue := kept
      scoring := r.scoring.eraseIdx i
      received := r.received ++ [x]
      trace := r.trace ++ (scoreAccesses k x ++ .sync k 0 :: (mainAccesses isNew r.received x ++ retOf s')) } := by
  have hmem := List.mem_of_getElem? hi
  have hkw : k ∈ scoreIds := hr.swork (k, x) hmem
  have hk0 := score_ne_main hkw
  obtain ⟨x1, x2, x3, x4⟩ := hr.score (k, x) hmem
  simp only at x1 x2 x3 x4
  set A := r.trace ++ scoreAccesses k x with hA
  set B := A ++ [Ev.sync k 0] with hB
  have etr : r.trace ++ (scoreAccesses k x ++ .sync k 0 :: (mainAccesses isNew r.received x ++ retOf s')) =
      (B ++ mainAccesses isNew r.received x) ++ retOf s' := by simp [hA, hB]
  have hsub : r.scoring.eraseIdx i <+ r.scoring := List.eraseIdx_sublist ..
  have hperm := eraseIdx_perm hi
  have hxs : x ∉ (r.scoring.eraseIdx i).map (·.2) := by
    have h1 : (r.scoring.map (·.2)).Perm (x :: (r.scoring.eraseIdx i).map (·.2)) := (hperm.map (·.2))
    exact (List.nodup_cons.1 (h1.nodup_iff.1 hr.xnodup)).1
  -- what the score worker knows
  have accA : AccKnown A k x := x4.append fun g' w line h => by
    rcases scoreAccesses_parts _ h with h | h | h <;> cases h <;> rfl
  have accB : AccKnown B 0 x := accA.meet (e := .sync k 0) (by simp [Ev.parts]) (by simp [Ev.parts]) (by simp)
  -- all accesses
  have accOld : ∀ {j : Nat} {g' l w line},
      ((B ++ mainAccesses isNew r.received x) ++ retOf s')[j]? = some (.access g' l w line) →
      r.trace[j]? = some (.access g' l w line) ∨ Ev.access g' l w line ∈ scoreAccesses k x ∨
        Ev.access g' l w line ∈ mainAccesses isNew r.received x := by
    intro j g' l w line h
    rcases old_or_new h with h | ⟨h, -⟩
    · rcases old_or_new h with h | ⟨h, -⟩
      · rcases old_or_new h with h | ⟨h, -⟩
        · rcases old_or_new h with h | ⟨h, -⟩
          · exact Or.inl h
          · exact Or.inr (Or.inl h)
        · simp at h
      · exact Or.inr (Or.inr h)
    · exact absurd rfl ((retOf_parts _ h).2 _ _ _ _)
  have grow : ∀ {g' j}, Known r.trace g' j → Known ((B ++ mainAccesses isNew r.received x) ++ retOf s') g' j :=
    fun h => h.append.append.append.append
  have settledB : ∀ y, y = 0 ∨ y ∈ r.received → WritesKnown B 0 y := by
    intro y hy j g' line h
    rcases old_or_new h with h | ⟨h, -⟩
    · rcases old_or_new h with h | ⟨h, -⟩
      · exact ((hr.settled y hy).2 j g' line h).append.append
      · rcases scoreAccesses_parts _ h with h | h | h <;> cases h
        rcases hy with h | h
        · exact absurd h x1
        · exact absurd h x2
    · simp at h
  have listA : ∀ {j : Nat} {g' w line}, B[j]? = some (.access g' .list w line) → line ≠ 252 → g' = 0 := by
    intro j g' w line h hl
    rcases old_or_new h with h | ⟨h, -⟩
    · rcases old_or_new h with h | ⟨h, -⟩
      · exact hr.listBy j g' w line h hl
      · rcases scoreAccesses_parts _ h with h | h | h <;> cases h
    · simp at h
  have mainWrite : ∀ {g' y line}, Ev.access g' (.node y) true line ∈ mainAccesses isNew r.received x → False := by
    intro g' y line h
    rcases mainAccesses_parts _ h with h | h | ⟨z, -, h⟩ | h <;> cases h
  have ordA : Ordered A := by
    refine hr.ordered.append (g := k) (fun e he => ?_) fun l w line hmem hl j g' w' line' hj hne hw hl' => ?_
    · rcases scoreAccesses_parts e he with rfl | rfl | rfl <;> simp [Ev.parts]
    · rcases scoreAccesses_parts _ hmem with h | h | h <;> cases h
      · exact x4 j g' w' line' hj
      · obtain rfl : w' = true := by simpa using hw
        exact (hr.dataBy j g' line' hj).2 k (List.mem_append_left _ hkw)
      · exact x4 j g' w' line' hj
  have ordB : Ordered B := ordA.sync (by simp)
  have ordC : Ordered (B ++ mainAccesses isNew r.received x) := by
    refine ordB.append (g := 0) (fun e he => ?_) fun l w line hmem hl j g' w' line' hj hne hw hl' => ?_
    · rcases mainAccesses_parts e he with rfl | rfl | ⟨y, -, rfl⟩ | rfl <;> simp [Ev.parts]
    · rcases mainAccesses_parts _ hmem with h | h | ⟨y, hy, h⟩ | h <;> cases h
      · exact absurd (listA hj hl') hne
      · exact accB j g' w' line' hj
      · obtain rfl : w' = true := by simpa using hw
        exact settledB y (Or.inr hy) j g' line' hj
      · exact absurd (listA hj hl') hne
  have hmain : ∀ e ∈ mainAccesses isNew r.received x ++ retOf s', 0 ∈ e.parts := by
    intro e he
    rcases List.mem_append.1 he with he | he
    · rcases mainAccesses_parts e he with rfl | rfl | ⟨y, -, rfl⟩ | rfl <;> simp [Ev.parts]
    · exact (retOf_parts e he).1
  have hscore : ∀ e ∈ scoreAccesses k x, k ∈ e.parts := by
    intro e he
    rcases scoreAccesses_parts e he with rfl | rfl | rfl <;> simp [Ev.parts]
  have known0 : ∀ {j}, Known A k j → Known ((B ++ mainAccesses isNew r.received x) ++ retOf s') 0 j := fun h =>
    ((h.meet (es := [Ev.sync k 0]) (e := .sync k 0) (by simp) (by simp [Ev.parts]) (by simp [Ev.parts]) :
      Known B 0 _)).append.append
  rw [etr]
  constructor
  · exact hlen
  · exact hr.lenB.trans (congrArg _ hb'.symm)
  · have h1 := eraseIdx_length hi
    obtain ⟨n, hn⟩ : ∃ n, r.s.scoring[i]? = some n := by
      have := (List.getElem?_eq_some_iff.1 hi).1
      rw [hr.lenS] at this
      exact ⟨_, List.getElem?_eq_getElem this⟩
    have h2 := eraseIdx_length hn
    have h3 := hr.lenS
    simp only [hs']
    omega
  · intro j pc b h1 h2
    simp only [hb'] at h1
    exact hr.ann j pc b h1 h2
  · intro n h; exact absurd h (hm' _)
  · intro h; exact absurd h (hm' _)
  · exact hr.worker
  · intro q hq; exact hr.swork q (hsub.subset hq)
  · exact hr.snodup.sublist (hsub.map _)
  · exact hr.xnodup.sublist (hsub.map _)
  · intro j g' y w line h
    rcases accOld h with h | h | h
    · exact hr.fresh j g' y w line h
    · rcases scoreAccesses_parts _ h with h | h | h <;> cases h <;> exact x3
    · rcases mainAccesses_parts _ h with h | h | ⟨z, hz, h⟩ | h <;> cases h
      · exact x3
      · exact (hr.settled _ (Or.inr hz)).1
  · intro y hy
    have hy' : y = x ∨ (y = 0 ∨ y ∈ r.received) := by
      rcases hy with h | h
      · exact Or.inr (Or.inl h)
      · rcases List.mem_append.1 h with h | h
        · exact Or.inr (Or.inr h)
        · exact Or.inl (List.mem_singleton.1 h)
    refine ⟨?_, ?_⟩
    · rcases hy' with rfl | h
      · exact x3
      · exact (hr.settled y h).1
    · have hBy : WritesKnown B 0 y := by
        rcases hy' with rfl | h
        · exact accB.writes
        · exact settledB y h
      refine (hBy.append fun g' line h => (mainWrite h).elim).append fun g' line h => ?_
      exact absurd rfl ((retOf_parts _ h).2 _ _ _ _)
  · intro y hy
    rcases hr.wantOld y hy with h | h
    · exact Or.inl h
    · exact Or.inr (List.mem_append_left _ h)
  · intro y hy
    rcases hkept y hy with rfl | h
    · simp
    · exact List.mem_append_left _ (hr.queueOld y h)
  · intro b hbm p hp
    obtain ⟨h1, h2⟩ := hr.parent b hbm p hp
    refine ⟨h1.imp_right (List.mem_append_left _), fun j g' line h => ?_⟩
    rcases accOld h with h | h | h
    · exact grow (h2 j g' line h)
    · rcases scoreAccesses_parts _ h with h | h | h <;> cases h
      rcases h1 with h | h
      · exact absurd h x1
      · exact absurd h x2
    · exact (mainWrite h).elim
  · intro b hbm y hy
    obtain ⟨h1, h2, h3, h4, h5⟩ := hr.child b hbm y hy
    have hyx : y ≠ x := by
      rintro rfl
      exact h4 (List.mem_map.2 ⟨(k, y), hmem, rfl⟩)
    refine ⟨h1, ?_, h3, fun h => h4 ((hsub.map _).subset h), fun j g' w line h => ?_⟩
    · simp only [List.mem_append, List.mem_singleton, not_or]
      exact ⟨h2, hyx⟩
    · rcases accOld h with h | h | h
      · exact grow (h5 j g' w line h)
      · rcases scoreAccesses_parts _ h with h | h | h <;> cases h <;> exact absurd rfl hyx
      · rcases mainAccesses_parts _ h with h | h | ⟨z, hz, h⟩ | h <;> cases h
        · exact absurd rfl hyx
        · exact absurd hz h2
  · intro q hq
    obtain ⟨h1, h2, h3, h4⟩ := hr.score q (hsub.subset hq)
    have hqx : q.2 ≠ x := by
      intro h
      exact hxs (List.mem_map.2 ⟨q, hq, h⟩)
    refine ⟨h1, ?_, h3, fun j g' w line h => ?_⟩
    · simp only [List.mem_append, List.mem_singleton, not_or]
      exact ⟨h2, hqx⟩
    · rcases accOld h with h | h | h
      · exact grow (h4 j g' w line h)
      · rcases scoreAccesses_parts _ h with h | h | h
        · injection h with _ h; injection h with h; exact absurd h hqx
        · cases h
        · injection h with _ h; injection h with h; exact absurd h hqx
      · rcases mainAccesses_parts _ h with h | h | ⟨z, hz, h⟩ | h
        · cases h
        · injection h with _ h; injection h with h; exact absurd h hqx
        · injection h with _ h; injection h with h; exact absurd (h ▸ hz) h2
        · cases h
  · intro j g' line h
    rcases accOld h with h | h | h
    · obtain ⟨h2, h3⟩ := hr.dataBy j g' line h
      exact ⟨h2, fun k hk => grow (h3 k hk)⟩
    · rcases scoreAccesses_parts _ h with h | h | h <;> cases h
    · rcases mainAccesses_parts _ h with h | h | ⟨z, hz, h⟩ | h <;> cases h
  · intro j g' w line h hl
    rcases accOld h with h | h | h
    · exact hr.listBy j g' w line h hl
    · rcases scoreAccesses_parts _ h with h | h | h <;> cases h
    · rcases mainAccesses_parts _ h with h | h | ⟨z, hz, h⟩ | h <;> cases h <;> rfl
  · intro j g' l w line h hl
    rcases accOld h with h | h | h
    · exact hr.peekBy j g' l w line h hl
    · rcases scoreAccesses_parts _ h with h | h | h <;> cases h <;> cases hl
    · rcases mainAccesses_parts _ h with h | h | ⟨z, hz, h⟩ | h <;> cases h <;> cases hl
  · intro j hj
    by_cases hlt : j < A.length
    · by_cases hlt' : j < r.trace.length
      · rcases hr.cover j hlt' with h1 | ⟨j', pc', b, h1, h2, h3, h4⟩ | ⟨q, hq, h1⟩
        · exact Or.inl (grow h1)
        · exact Or.inr (Or.inl ⟨j', pc', b, by rw [← h1]; simp only [hb'], h2, h3, grow h4⟩)
        · rcases List.mem_cons.1 (hperm.mem_iff.1 hq) with rfl | hq'
          · exact Or.inl (known0 h1.append)
          · exact Or.inr (Or.inr ⟨q, hq', grow h1⟩)
      · exact Or.inl (known0 (Known.new hscore (not_lt.1 hlt') hlt))
    · left
      have e : (B ++ mainAccesses isNew r.received x) ++ retOf s' =
          A ++ (.sync k 0 :: (mainAccesses isNew r.received x ++ retOf s')) := by simp [hB]
      rw [e] at hj ⊢
      refine Known.new (fun e he => ?_) (not_lt.1 hlt) hj
      rcases List.mem_cons.1 he with rfl | he
      · simp [Ev.parts]
      · exact hmain e he
  · exact ordC.retOf s'
  · intro h
    exact retOf_last h _

end

end GoSelect
