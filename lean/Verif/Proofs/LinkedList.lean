import Verif.Model.LinkedList
import Mathlib.Order.Defs.LinearOrder
import Mathlib.Data.List.Basic
import Mathlib.Data.Nat.Init
import Mathlib.Algebra.Order.Group.Nat
import Mathlib.Tactic.Common

/-! The linked list represents the abstract highscore list; what every moment of an insertion looks like. -/

namespace GoSelect

namespace Spec
end Spec

open Spec

variable {α : Type}

theorem setAt_same {β : Type} (f : Nat → β) (a : Nat) (b : β) : setAt f a b a = b := if_pos rfl
theorem setAt_ne {β : Type} (f : Nat → β) {a x : Nat} (b : β) (h : x ≠ a) : setAt f a b x = f x := if_neg h

/-! ## Links -/

/-- The links from `a` through the given addresses, in both directions. -/
def Seg (m : LMem α) : Nat → List Nat → Prop
  | _, [] => True
  | a, b :: t => m.next a = some b ∧ m.prev b = some a ∧ Seg m b t

def endOf : Nat → List Nat → Nat
  | a, [] => a
  | _, b :: t => endOf b t

theorem endOf_append (a : Nat) (p q : List Nat) : endOf a (p ++ q) = endOf (endOf a p) q := by
  induction p generalizing a with
  | nil => rfl
  | cons b t ih => exact ih b

theorem endOf_mem (a : Nat) (p : List Nat) : endOf a p ∈ a :: p := by
  induction p generalizing a with
  | nil => simp [endOf]
  | cons b t ih => exact List.mem_cons_of_mem _ (ih b)

theorem Seg.append {m : LMem α} {a : Nat} {p q : List Nat} : Seg m a (p ++ q) ↔ Seg m a p ∧ Seg m (endOf a p) q := by
  induction p generalizing a with
  | nil => simp [Seg, endOf]
  | cons b t ih =>
    show _ ∧ _ ∧ Seg m b (t ++ q) ↔ (_ ∧ _ ∧ Seg m b t) ∧ Seg m (endOf b t) q
    rw [ih]
    tauto

theorem Seg.congr {m m' : LMem α} {a : Nat} {p : List Nat} (hn : ∀ x ∈ a :: p, x ≠ endOf a p → m'.next x = m.next x)
    (hp : ∀ x ∈ p, m'.prev x = m.prev x) (hnd : (a :: p).Nodup) (h : Seg m a p) : Seg m' a p := by
  induction p generalizing a with
  | nil => trivial
  | cons b t ih =>
    obtain ⟨h1, h2, h3⟩ := h
    rw [List.nodup_cons] at hnd
    have hne : a ≠ endOf a (b :: t) := by
      intro h
      have := endOf_mem b t
      rw [h] at hnd
      exact hnd.1 this
    refine ⟨by rw [hn a List.mem_cons_self hne]; exact h1, by rw [hp b List.mem_cons_self]; exact h2, ?_⟩
    exact ih (fun x hx hne => hn x (List.mem_cons_of_mem _ hx) hne) (fun x hx => hp x (List.mem_cons_of_mem _ hx)) hnd.2 h3

/-- The list in memory has the elements at the given addresses. -/
structure Repr (m : LMem α) (as : List Nat) : Prop where
  seg : Seg m 0 (as ++ [0])
  nodup : (0 :: as).Nodup
  lt : ∀ a ∈ as, a < m.fresh
  pos : 0 < m.fresh
  list : ∀ a ∈ as, m.list a = true
  val : ∀ a ∈ as, ∃ v, m.val a = some v
  len : m.len = as.length

theorem Repr.ne {m : LMem α} {as : List Nat} (h : Repr m as) {a : Nat} (ha : a ∈ as) : a ≠ 0 := by
  rintro rfl
  exact (List.nodup_cons.1 h.nodup).1 ha

theorem repr_newList : Repr (newList : LMem α) [] :=
  ⟨⟨rfl, rfl, trivial⟩, by simp, by simp, Nat.one_pos, by simp, by simp, rfl⟩

theorem insertValue_repr {m : LMem α} {p r : List Nat} (h : Repr m (p ++ r)) (v : Node α) :
    ∃ ws, m.insertValue v (endOf 0 p) = some ws ∧ Repr (m.runs ws) (p ++ m.fresh :: r) ∧
      (∀ a, a < m.fresh → (m.runs ws).val a = m.val a) ∧ (m.runs ws).val m.fresh = some v ∧
      (m.runs ws).fresh = m.fresh + 1 ∧ m.prev ((r ++ [0]).head (by simp)) = some (endOf 0 p) ∧
      ∃ n, n ∈ 0 :: r ∧ (n = (r ++ [0]).head (by simp)) ∧
      ws = [.alloc v, .prev m.fresh (some (endOf 0 p)), .next m.fresh (some n), .next (endOf 0 p) (some m.fresh),
        .prev n (some m.fresh), .list m.fresh true, .len (m.len + 1)] := by
  obtain ⟨n, t, hnt⟩ : ∃ n t, r ++ [0] = n :: t := by
    cases r with
    | nil => exact ⟨0, [], rfl⟩
    | cons b r => exact ⟨b, r ++ [0], rfl⟩
  have hseg := h.seg
  rw [List.append_assoc, hnt, Seg.append] at hseg
  obtain ⟨s1, s2, s3, s4⟩ := hseg
  have hmem : ∀ x ∈ 0 :: (p ++ r), x < m.fresh := by
    intro x hx
    rcases List.mem_cons.1 hx with rfl | hx
    · exact h.pos
    · exact h.lt x hx
  have hat : endOf 0 p ∈ 0 :: p := endOf_mem 0 p
  have hatlt : endOf 0 p < m.fresh := hmem _ (by
    rcases List.mem_cons.1 hat with h | h
    · rw [h]; exact List.mem_cons_self
    · exact List.mem_cons_of_mem _ (List.mem_append_left _ h))
  have hnmem : n ∈ 0 :: r := by
    have : n ∈ r ++ [0] := by rw [hnt]; exact List.mem_cons_self
    rcases List.mem_append.1 this with h | h
    · exact List.mem_cons_of_mem _ h
    · rw [List.mem_singleton.1 h]; exact List.mem_cons_self
  have hnlt : n < m.fresh := hmem _ (by
    rcases List.mem_cons.1 hnmem with h | h
    · rw [h]; exact List.mem_cons_self
    · exact List.mem_cons_of_mem _ (List.mem_append_right _ h))
  have hnd := h.nodup
  rw [← List.cons_append] at hnd
  obtain ⟨hnd1, hnd2, hdis⟩ := List.nodup_append.1 hnd
  have htsub : ∀ x ∈ t, x ∈ 0 :: r := by
    intro x hx
    have : x ∈ r ++ [0] := by rw [hnt]; exact List.mem_cons_of_mem _ hx
    rcases List.mem_append.1 this with h | h
    · exact List.mem_cons_of_mem _ h
    · rw [List.mem_singleton.1 h]; exact List.mem_cons_self
  have hndr : (r ++ [0]).Nodup := by
    rw [List.nodup_append]
    refine ⟨hnd2, by simp, fun a ha b hb => ?_⟩
    rw [List.mem_singleton.1 hb]
    exact (hdis 0 List.mem_cons_self a ha).symm
  rw [hnt] at hndr
  have hnp : n ∉ p := by
    intro hn
    rcases List.mem_cons.1 hnmem with h0 | h0
    · rw [h0] at hn
      exact (List.nodup_cons.1 hnd1).1 hn
    · exact hdis n (List.mem_cons_of_mem _ hn) n h0 rfl
  have hatr : ∀ x ∈ r, x ≠ endOf 0 p := fun x hx heq => hdis _ hat x hx heq.symm
  have hf0 : (0 : Nat) ≠ m.fresh := h.pos.ne
  refine ⟨_, by rw [LMem.insertValue, s2], ?_, ?_, ?_, rfl, ?_, n, hnmem, ?_, rfl⟩
  · refine ⟨?_, ?_, ?_, Nat.succ_pos _, ?_, ?_, ?_⟩
    · rw [List.append_assoc, List.cons_append, hnt, Seg.append]
      refine ⟨?_, ?_, ?_, ?_, ?_, ?_⟩
      · refine Seg.congr ?_ ?_ hnd1 s1
        · intro x hx hne
          have hxf : x ≠ m.fresh := (hmem x (by
            rcases List.mem_cons.1 hx with h | h
            · rw [h]; exact List.mem_cons_self
            · exact List.mem_cons_of_mem _ (List.mem_append_left _ h))).ne
          show setAt (setAt (setAt m.next m.fresh none) m.fresh (some n)) (endOf 0 p) (some m.fresh) x = m.next x
          rw [setAt_ne _ _ hne, setAt_ne _ _ hxf, setAt_ne _ _ hxf]
        · intro x hx
          have hxf : x ≠ m.fresh := (hmem x (List.mem_cons_of_mem _ (List.mem_append_left _ hx))).ne
          have hxn : x ≠ n := by rintro rfl; exact hnp hx
          show setAt (setAt (setAt m.prev m.fresh none) m.fresh (some (endOf 0 p))) n (some m.fresh) x = m.prev x
          rw [setAt_ne _ _ hxn, setAt_ne _ _ hxf, setAt_ne _ _ hxf]
      · show setAt (setAt (setAt m.next m.fresh none) m.fresh (some n)) (endOf 0 p) (some m.fresh) (endOf 0 p) = _
        rw [setAt_same]
      · show setAt (setAt (setAt m.prev m.fresh none) m.fresh (some (endOf 0 p))) n (some m.fresh) m.fresh = _
        rw [setAt_ne _ _ hnlt.ne', setAt_same]
      · show setAt (setAt (setAt m.next m.fresh none) m.fresh (some n)) (endOf 0 p) (some m.fresh) m.fresh = _
        rw [setAt_ne _ _ hatlt.ne', setAt_same]
      · show setAt (setAt (setAt m.prev m.fresh none) m.fresh (some (endOf 0 p))) n (some m.fresh) n = _
        rw [setAt_same]
      · refine Seg.congr ?_ ?_ hndr s4
        · intro x hx hne
          have hx0 : x ∈ 0 :: r := by
            rcases List.mem_cons.1 hx with h | h
            · rw [h]; exact hnmem
            · exact htsub x h
          have hend : endOf n t = 0 := by
            have : endOf 0 (n :: t) = 0 := by rw [← hnt, endOf_append]; rfl
            exact this
          rw [hend] at hne
          have hxr : x ∈ r := by
            rcases List.mem_cons.1 hx0 with h | h
            · exact absurd h hne
            · exact h
          have hxf : x ≠ m.fresh := (hmem x (List.mem_cons_of_mem _ (List.mem_append_right _ hxr))).ne
          show setAt (setAt (setAt m.next m.fresh none) m.fresh (some n)) (endOf 0 p) (some m.fresh) x = m.next x
          rw [setAt_ne _ _ (hatr x hxr), setAt_ne _ _ hxf, setAt_ne _ _ hxf]
        · intro x hx
          have hxn : x ≠ n := by
            rintro rfl
            exact (List.nodup_cons.1 hndr).1 hx
          have hxf : x ≠ m.fresh := by
            rcases List.mem_cons.1 (htsub x hx) with h | h
            · rw [h]; exact hf0
            · exact (hmem x (List.mem_cons_of_mem _ (List.mem_append_right _ h))).ne
          show setAt (setAt (setAt m.prev m.fresh none) m.fresh (some (endOf 0 p))) n (some m.fresh) x = m.prev x
          rw [setAt_ne _ _ hxn, setAt_ne _ _ hxf, setAt_ne _ _ hxf]
    · rw [← List.cons_append, List.nodup_append]
      refine ⟨hnd1, List.nodup_cons.2 ⟨fun hx => ?_, hnd2⟩, fun a ha b hb => ?_⟩
      · exact absurd (h.lt _ (List.mem_append_right _ hx)) (lt_irrefl _)
      · rcases List.mem_cons.1 hb with hb | hb
        · rw [hb]
          rcases List.mem_cons.1 ha with ha | ha
          · rw [ha]; exact hf0
          · exact (h.lt _ (List.mem_append_left _ ha)).ne
        · exact hdis a ha b hb
    · intro a ha
      show a < m.fresh + 1
      rcases List.mem_append.1 ha with ha | ha
      · have := h.lt a (List.mem_append_left _ ha); omega
      · rcases List.mem_cons.1 ha with ha | ha
        · omega
        · have := h.lt a (List.mem_append_right _ ha); omega
    · intro a ha
      show setAt (setAt m.list m.fresh false) m.fresh true a = true
      by_cases haf : a = m.fresh
      · rw [haf, setAt_same]
      · rw [setAt_ne _ _ haf, setAt_ne _ _ haf]
        refine h.list a ?_
        simp only [List.mem_append, List.mem_cons, haf, false_or] at ha ⊢
        exact ha
    · intro a ha
      show ∃ w, setAt m.val m.fresh (some v) a = some w
      by_cases haf : a = m.fresh
      · exact ⟨v, by rw [haf, setAt_same]⟩
      · rw [setAt_ne _ _ haf]
        refine h.val a ?_
        simp only [List.mem_append, List.mem_cons, haf, false_or] at ha ⊢
        exact ha
    · show m.len + 1 = _
      rw [h.len]
      simp only [List.length_append, List.length_cons]
      omega
  · intro a ha
    show setAt m.val m.fresh (some v) a = m.val a
    rw [setAt_ne _ _ ha.ne]
  · show setAt m.val m.fresh (some v) m.fresh = _
    rw [setAt_same]
  · simp only [hnt, List.head_cons]
    exact s3
  · simp only [hnt, List.head_cons]

theorem remove_repr {m : LMem α} {p : List Nat} {e : Nat} (h : Repr m (p ++ [e])) :
    ∃ ws, m.remove e = some ws ∧ Repr (m.runs ws) p ∧ (∀ a, (m.runs ws).val a = m.val a) ∧
      (m.runs ws).fresh = m.fresh ∧
      ws = [.next (endOf 0 p) (some 0), .prev 0 (some (endOf 0 p)), .next e none, .prev e none, .list e false,
        .len (m.len - 1)] := by
  have hseg := h.seg
  rw [List.append_assoc, Seg.append] at hseg
  obtain ⟨s1, s2, s3, s4, s5, -⟩ := hseg
  have hl := h.list e (by simp)
  have hnd := h.nodup
  rw [← List.cons_append] at hnd
  obtain ⟨hnd1, -, hdis⟩ := List.nodup_append.1 hnd
  have hep : ∀ x ∈ 0 :: p, x ≠ e := fun x hx => hdis x hx e (by simp)
  have hee : endOf 0 p ≠ e := hep _ (endOf_mem 0 p)
  have h0 : 0 ∉ p := (List.nodup_cons.1 hnd1).1
  refine ⟨_, by rw [LMem.remove, if_pos hl, s3, s4], ?_, fun _ => rfl, rfl, rfl⟩
  refine ⟨?_, hnd1, fun a ha => h.lt a (List.mem_append_left _ ha), h.pos, ?_,
    fun a ha => h.val a (List.mem_append_left _ ha), ?_⟩
  · rw [Seg.append]
    refine ⟨?_, ?_, ?_, trivial⟩
    · refine Seg.congr ?_ ?_ hnd1 s1
      · intro x hx hne
        show setAt (setAt m.next (endOf 0 p) (some 0)) e none x = m.next x
        rw [setAt_ne _ _ (hep x hx), setAt_ne _ _ hne]
      · intro x hx
        show setAt (setAt m.prev 0 (some (endOf 0 p))) e none x = m.prev x
        have hx0 : x ≠ 0 := by rintro rfl; exact h0 hx
        rw [setAt_ne _ _ (hep x (List.mem_cons_of_mem _ hx)), setAt_ne _ _ hx0]
    · show setAt (setAt m.next (endOf 0 p) (some 0)) e none (endOf 0 p) = some 0
      rw [setAt_ne _ _ hee, setAt_same]
    · show setAt (setAt m.prev 0 (some (endOf 0 p))) e none 0 = some (endOf 0 p)
      rw [setAt_ne _ _ (hep 0 List.mem_cons_self), setAt_same]
  · intro a ha
    show setAt m.list e false a = true
    rw [setAt_ne _ _ (hep a (List.mem_cons_of_mem _ ha))]
    exact h.list a (List.mem_append_left _ ha)
  · show m.len - 1 = _
    rw [h.len]
    simp

/-! ## Insertion -/

/-- The writes of `insertValue`. -/
def insWs (m : LMem α) (v : Node α) (at' n : Nat) : List (LWrite α) :=
  [.alloc v, .prev m.fresh (some at'), .next m.fresh (some n), .next at' (some m.fresh), .prev n (some m.fresh),
    .list m.fresh true, .len (m.len + 1)]

/-- The writes of `Remove` of the last element `e`. -/
def delWs (at' e len : Nat) : List (LWrite α) :=
  [.next at' (some 0), .prev 0 (some at'), .next e none, .prev e none, .list e false, .len len]

section
variable [LinearOrder α]

/-- What an insertion does: nothing, insert, or insert and remove the last element. -/
inductive Shape (m : LMem α) (node : Node α) (as : List Nat) : List (LWrite α) → List Nat → Prop
  | none : Shape m node as [] as
  | ins {p r : List Nat} {n : Nat} (has : as = p ++ r) (hn : n ∈ 0 :: r)
      (hat : endOf 0 p ≠ 0 → ∃ v, m.val (endOf 0 p) = some v ∧ node.score ≤ v.score)
      (hnv : n ≠ 0 → ∃ v, m.val n = some v ∧ v.score ≤ node.score) :
      Shape m node as (insWs m node (endOf 0 p) n) (p ++ m.fresh :: r)
  | insDel {p r q : List Nat} {n e : Nat} (has : as = p ++ r) (hn : n ∈ 0 :: r)
      (hat : endOf 0 p ≠ 0 → ∃ v, m.val (endOf 0 p) = some v ∧ node.score ≤ v.score)
      (hnv : n ≠ 0 → ∃ v, m.val n = some v ∧ v.score ≤ node.score) (hq : p ++ m.fresh :: r = q ++ [e]) (hne : q ≠ [])
      (has0 : as ≠ []) : Shape m node as (insWs m node (endOf 0 p) n ++ delWs (endOf 0 q) e m.len) q

theorem nextElem_repr {m : LMem α} {as : List Nat} (h : Repr m as) {p t : List Nat} {e : Nat} (has : as = p ++ e :: t) :
    m.nextElem e = t.head? := by
  have hseg := h.seg
  rw [has, List.append_assoc, Seg.append, List.cons_append] at hseg
  obtain ⟨-, -, -, h3⟩ := hseg
  have hl := h.list e (by rw [has]; simp)
  unfold LMem.nextElem
  cases t with
  | nil =>
    obtain ⟨h3, -⟩ := h3
    rw [h3]
    simp
  | cons b t =>
    obtain ⟨h3, -⟩ := h3
    rw [h3]
    have hb : b ≠ 0 := h.ne (by rw [has]; simp)
    simp [hl, hb]

theorem findSmaller_repr {m : LMem α} {as : List Nat} (h : Repr m as) (node : Node α) (fuel : Nat) :
    ∀ (p r : List Nat), as = p ++ r → r.length ≤ fuel →
      (∃ q mark t, r = q ++ mark :: t ∧ m.findSmaller node fuel r.head? = some (some mark) ∧
        (∀ a ∈ q, ∃ v, m.val a = some v ∧ ¬ v.score < node.score) ∧ ∃ v, m.val mark = some v ∧ v.score < node.score) ∨
      (m.findSmaller node fuel r.head? = some none ∧ ∀ a ∈ r, ∃ v, m.val a = some v ∧ ¬ v.score < node.score) := by
  induction fuel with
  | zero =>
    intro p r _ hr
    have : r = [] := List.length_eq_zero_iff.1 (by omega)
    subst this
    exact Or.inr ⟨rfl, by simp⟩
  | succ fuel ih =>
    intro p r has hr
    cases r with
    | nil => exact Or.inr ⟨rfl, by simp⟩
    | cons e t =>
      obtain ⟨v, hv⟩ := h.val e (by rw [has]; simp)
      by_cases hs : v.score < node.score
      · refine Or.inl ⟨[], e, t, rfl, ?_, by simp, v, hv, hs⟩
        show LMem.findSmaller m node (fuel + 1) (some e) = _
        rw [LMem.findSmaller, hv]
        exact if_pos hs
      · have hstep : m.findSmaller node (fuel + 1) (e :: t).head? = m.findSmaller node fuel t.head? := by
          show LMem.findSmaller m node (fuel + 1) (some e) = _
          rw [LMem.findSmaller, hv, nextElem_repr h has]
          exact if_neg hs
        rcases ih (p ++ [e]) t (by rw [has]; simp) (by simpa using hr) with ⟨q, mark, t', h1, h2, h3, h4⟩ | ⟨h2, h3⟩
        · refine Or.inl ⟨e :: q, mark, t', by rw [h1]; rfl, by rw [hstep]; exact h2, ?_, h4⟩
          intro a ha
          rcases List.mem_cons.1 ha with rfl | ha
          · exact ⟨v, hv, hs⟩
          · exact h3 a ha
        · refine Or.inr ⟨by rw [hstep]; exact h2, ?_⟩
          intro a ha
          rcases List.mem_cons.1 ha with rfl | ha
          · exact ⟨v, hv, hs⟩
          · exact h3 a ha

theorem insertBefore_found {node : Node α} {P : List (Node α)} {M : Node α} {T : List (Node α)}
    (hP : ∀ v ∈ P, ¬ v.score < node.score) (hM : M.score < node.score) :
    insertBefore node (P ++ M :: T) = some (P ++ node :: M :: T) := by
  induction P with
  | nil => exact if_pos hM
  | cons x P ih =>
    show (if x.score < node.score then _ else (insertBefore node (P ++ M :: T)).map (x :: ·)) = _
    rw [if_neg (hP x List.mem_cons_self), ih (fun v hv => hP v (List.mem_cons_of_mem _ hv))]
    rfl

theorem insertBefore_none {node : Node α} {P : List (Node α)} (hP : ∀ v ∈ P, ¬ v.score < node.score) :
    insertBefore node P = none := by
  induction P with
  | nil => rfl
  | cons x P ih =>
    show (if x.score < node.score then _ else (insertBefore node P).map (x :: ·)) = _
    rw [if_neg (hP x List.mem_cons_self), ih (fun v hv => hP v (List.mem_cons_of_mem _ hv))]
    rfl

theorem front_repr {m : LMem α} {as : List Nat} (h : Repr m as) : m.front = as.head? := by
  unfold LMem.front
  rw [h.len]
  cases as with
  | nil => rfl
  | cons a t => exact h.seg.1

theorem back_repr {m : LMem α} {p : List Nat} {e : Nat} (h : Repr m (p ++ [e])) : m.back = some e := by
  unfold LMem.back
  have hseg := h.seg
  rw [List.append_assoc, Seg.append] at hseg
  rw [h.len, if_neg (by simp)]
  exact hseg.2.2.2.2.1

/-- `Insert` on the memory is `Insert` on the list. -/
theorem insert_refines {m : LMem α} {as : List Nat} (h : Repr m as) (hs : Highscore α)
    (hi : as.map m.val = hs.items.map some) (hmax : 2 ≤ hs.maxItems) (node : Node α) :
    ∃ ws as' hs', m.insert hs.maxItems node = some ws ∧ hs.insert node = some hs' ∧ hs'.maxItems = hs.maxItems ∧
      Shape m node as ws as' ∧ Repr (m.runs ws) as' ∧ as'.map (m.runs ws).val = hs'.items.map some := by
  have hlen : as.length = hs.items.length := by
    have := congrArg List.length hi
    simpa using this
  -- the part after the early return
  have tail : ∃ ws as', m.insertTail hs.maxItems node = some ws ∧ Shape m node as ws as' ∧ Repr (m.runs ws) as' ∧
      as'.map (m.runs ws).val = (hs.insertTail node).items.map some := by
    unfold LMem.insertTail
    rw [front_repr h]
    rcases findSmaller_repr h node m.len [] as rfl (by rw [h.len]) with ⟨q, mark, t, h1, h2, h3, v, hv, hvs⟩ | ⟨h2, h3⟩
    · rw [h2]
      simp only
      subst h1
      have hmark : m.list mark = true := h.list mark (by simp)
      obtain ⟨ws, w1, w2, w3, w4, w5, w6, n, w7, w8, w9⟩ := insertValue_repr h node
      have hn : n = mark := by rw [w8]; rfl
      have hprev : m.prev mark = some (endOf 0 q) := w6
      have hib : m.insertBefore node mark = some ws := by
        unfold LMem.insertBefore
        rw [if_pos hmark, hprev]
        exact w1
      rw [hib]
      simp only
      -- the values
      obtain ⟨P, M, T, hPMT, hP, hM, hT⟩ : ∃ P M T, hs.items = P ++ M :: T ∧ q.map m.val = P.map some ∧
          m.val mark = some M ∧ t.map m.val = T.map some := by
        rw [List.map_append] at hi
        obtain ⟨P, R, hPR, hP, hR⟩ := List.map_eq_append_iff.1 hi.symm
        rw [List.map_cons] at hR
        obtain ⟨M, T, hMT, hM, hT⟩ := List.map_eq_cons_iff.1 hR
        exact ⟨P, M, T, by rw [hPR, hMT], hP.symm, hM.symm, hT.symm⟩
      have hMv : M = v := by
        rw [hM] at hv; exact Option.some.inj hv
      have hPs : ∀ x ∈ P, ¬ x.score < node.score := by
        intro x hx
        have : some x ∈ q.map m.val := by rw [hP]; exact List.mem_map.2 ⟨x, hx, rfl⟩
        obtain ⟨a, ha, hax⟩ := List.mem_map.1 this
        obtain ⟨w, hw, hws⟩ := h3 a ha
        rw [hax] at hw
        rw [Option.some.inj hw]
        exact hws
      have hab : insertBefore node hs.items = some (P ++ node :: M :: T) := by
        rw [hPMT]; exact insertBefore_found hPs (by rw [hMv]; exact hvs)
      have hvals : (q ++ m.fresh :: mark :: t).map (m.runs ws).val = (P ++ node :: M :: T).map some := by
        have hold : ∀ l : List Nat, (∀ a ∈ l, a ∈ q ++ mark :: t) → l.map (m.runs ws).val = l.map m.val := by
          intro l hl
          refine List.map_congr_left fun a ha => w3 a (h.lt a (hl a ha))
        rw [List.map_append, List.map_cons, w4, hold q (fun a ha => by simp [ha]),
          hold (mark :: t) (fun a ha => List.mem_append_right _ ha), hP, List.map_cons, hM, hT]
        simp
      have hat : endOf 0 q ≠ 0 → ∃ v, m.val (endOf 0 q) = some v ∧ node.score ≤ v.score := by
        intro hne
        have hmem : endOf 0 q ∈ q := by
          rcases List.mem_cons.1 (endOf_mem 0 q) with h | h
          · exact absurd h hne
          · exact h
        obtain ⟨w, hw, hws⟩ := h3 _ hmem
        exact ⟨w, hw, not_lt.1 hws⟩
      have hnv : n ≠ 0 → ∃ v, m.val n = some v ∧ v.score ≤ node.score := by
        intro _
        rw [hn]
        exact ⟨v, hv, hvs.le⟩
      have hl1 : (m.runs ws).len = (P ++ node :: M :: T).length := by
        rw [w2.len]
        have := congrArg List.length hvals
        simpa using this
      have hshape1 : Shape m node (q ++ mark :: t) ws (q ++ m.fresh :: mark :: t) := by
        rw [w9]
        exact .ins rfl w7 hat hnv
      by_cases hbig : ((m.runs ws).len : Int) ≥ hs.maxItems
      · rw [if_pos hbig]
        obtain ⟨q', e, hq'⟩ : ∃ q' e, q ++ m.fresh :: mark :: t = q' ++ [e] := by
          rcases List.eq_nil_or_concat (q ++ m.fresh :: mark :: t) with h | ⟨q', e, h⟩
          · simp at h
          · exact ⟨q', e, by rw [h]; simp⟩
        have w2' := w2
        rw [hq'] at w2'
        rw [back_repr w2']
        simp only
        obtain ⟨ws', r1, r2, r3, -, r5⟩ := remove_repr w2'
        rw [r1, Option.map_some]
        have hne : q' ≠ [] := by
          rintro rfl
          have := congrArg List.length hq'
          simp at this
          omega
        have hlen1 : (m.runs ws).len - 1 = m.len := by
          rw [w2.len, h.len]
          simp only [List.length_append, List.length_cons]
          omega
        refine ⟨_, q', rfl, ?_, ?_, ?_⟩
        · rw [w9, r5, hlen1]
          exact .insDel rfl w7 hat hnv hq' hne (by simp)
        · rw [LMem.runs, List.foldl_append]
          exact r2
        · have hrun : (m.runs (ws ++ ws')).val = (m.runs ws).val := by
            rw [LMem.runs, List.foldl_append]
            exact funext r3
          rw [hrun]
          unfold Highscore.insertTail
          rw [hab]
          simp only
          rw [if_pos (by rw [← hl1]; exact hbig)]
          simp only
          have := congrArg List.dropLast hvals
          rw [← List.map_dropLast, ← List.map_dropLast, hq', List.dropLast_concat] at this
          exact this
      · rw [if_neg hbig]
        refine ⟨ws, _, rfl, hshape1, w2, ?_⟩
        unfold Highscore.insertTail
        rw [hab]
        simp only
        rw [if_neg (by rw [← hl1]; exact hbig)]
        exact hvals
    · rw [h2]
      simp only
      have hPs : ∀ x ∈ hs.items, ¬ x.score < node.score := by
        intro x hx
        have : some x ∈ as.map m.val := by rw [hi]; exact List.mem_map.2 ⟨x, hx, rfl⟩
        obtain ⟨a, ha, hax⟩ := List.mem_map.1 this
        obtain ⟨w, hw, hws⟩ := h3 a ha
        rw [hax] at hw
        rw [Option.some.inj hw]
        exact hws
      have hab := insertBefore_none hPs
      have hcond : ((m.len : Int) < hs.maxItems) ↔ ((hs.len : Int) < hs.maxItems) := by
        rw [h.len, hlen]; rfl
      by_cases hl : (m.len : Int) < hs.maxItems
      · rw [if_pos hl]
        have h' : Repr m (as ++ []) := by rw [List.append_nil]; exact h
        obtain ⟨ws, w1, w2, w3, w4, w5, w6, n, w7, w8, w9⟩ := insertValue_repr h' node
        have hn : n = 0 := by rw [w8]; rfl
        have hprev : m.prev 0 = some (endOf 0 as) := w6
        have hpb : m.pushBack node = some ws := by
          unfold LMem.pushBack
          rw [hprev]
          exact w1
        rw [hpb]
        refine ⟨ws, _, rfl, ?_, w2, ?_⟩
        · rw [w9]
          refine .ins (by simp) w7 ?_ (fun hne => absurd hn hne)
          intro hne
          have hmem : endOf 0 as ∈ as := by
            rcases List.mem_cons.1 (endOf_mem 0 as) with h | h
            · exact absurd h hne
            · exact h
          obtain ⟨w, hw, hws⟩ := h3 _ hmem
          exact ⟨w, hw, not_lt.1 hws⟩
        · unfold Highscore.insertTail
          rw [hab]
          simp only
          rw [if_pos (hcond.1 hl)]
          simp only
          rw [List.map_append, List.map_cons, w4, List.map_append, List.map_cons, ← hi]
          congr 1
          exact List.map_congr_left fun a ha => w3 a (h.lt a ha)
      · rw [if_neg hl]
        refine ⟨[], as, rfl, .none, h, ?_⟩
        unfold Highscore.insertTail
        rw [hab]
        simp only
        rw [if_neg (fun hh => hl (hcond.2 hh))]
        exact hi
  have hmaxT : (hs.insertTail node).maxItems = hs.maxItems := by
    unfold Highscore.insertTail
    split
    · split <;> rfl
    · split <;> rfl
  unfold LMem.insert Highscore.insert
  have hl : (m.len : Int) = (hs.len : Int) := by
    rw [h.len, hlen]; rfl
  rw [hl]
  by_cases he : (hs.len : Int) = hs.maxItems - 1
  · rw [if_pos he, if_pos he]
    obtain ⟨p, e, hpe⟩ : ∃ p e, as = p ++ [e] := by
      rcases List.eq_nil_or_concat as with h0 | ⟨q', e, h0⟩
      · rw [h0] at hlen
        have : hs.len = 0 := hlen.symm
        omega
      · exact ⟨q', e, by rw [h0]; simp⟩
    have hb : m.back = some e := by
      rw [hpe] at h
      exact back_repr h
    obtain ⟨v, hv⟩ := h.val e (by rw [hpe]; simp)
    have hlast : hs.items.getLast? = some v := by
      have h1 : (hs.items.map some).getLast? = some (some v) := by
        rw [← hi, hpe, List.map_append, List.map_cons, hv]
        simp
      rw [List.getLast?_map] at h1
      rcases hx : hs.items.getLast? with _ | x
      · rw [hx] at h1; cases h1
      · rw [hx] at h1
        simpa using h1
    rw [hb, hlast, Option.bind_some, hv]
    simp only
    split
    · exact ⟨[], as, hs, rfl, rfl, rfl, .none, h, hi⟩
    · obtain ⟨ws, as', t1, t2, t3, t4⟩ := tail
      exact ⟨ws, as', _, t1, rfl, hmaxT, t2, t3, t4⟩
  · rw [if_neg he, if_neg he]
    obtain ⟨ws, as', t1, t2, t3, t4⟩ := tail
    exact ⟨ws, as', _, t1, rfl, hmaxT, t2, t3, t4⟩

end

end GoSelect
