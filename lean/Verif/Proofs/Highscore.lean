import Verif.Model.Highscore
import Verif.Spec.Ranking
import Mathlib.Order.Basic
import Mathlib.Order.Lattice
import Mathlib.Data.List.Basic
import Mathlib.Data.List.Induction
import Mathlib.Tactic.Common

/-! Lemmas about the highscore list: it refines the stable descending sort. -/

namespace GoSelect

open Spec
open scoped List

/-! ### Facts that hold for every comparison, also one with NaN -/

section
variable {α : Type} [LT α] [DecidableLT α]

theorem insertAll_snoc (h : Highscore α) (ns : List (Node α)) (x : Node α) :
    h.insertAll (ns ++ [x]) = (h.insertAll ns).bind (fun h' => h'.insert x) := by
  simp [Highscore.insertAll, List.foldlM_append]

theorem insert_isSome {h : Highscore α} {x : Node α}
    (hne : ¬ ((h.items.length : Int) = h.maxItems - 1 ∧ h.items = [])) :
    ∃ h', h.insert x = some h' := by
  unfold Highscore.insert
  by_cases hc : (h.len : Int) = h.maxItems - 1
  · rw [if_pos hc]
    cases hl : h.items.getLast? with
    | none => exact absurd ⟨hc, List.getLast?_eq_none_iff.1 hl⟩ hne
    | some last => simp only; split <;> exact ⟨_, rfl⟩
  · rw [if_neg hc]
    exact ⟨_, rfl⟩

theorem insert_maxItems {h h' : Highscore α} {x : Node α} (hi : h.insert x = some h') : h'.maxItems = h.maxItems := by
  have tail : (h.insertTail x).maxItems = h.maxItems := by
    unfold Highscore.insertTail
    split
    · split <;> rfl
    · split <;> rfl
  unfold Highscore.insert at hi
  split at hi
  · split at hi
    · cases hi
    · split at hi
      · cases hi; rfl
      · cases hi; exact tail
  · cases hi; exact tail

theorem insertAll_maxItems {M : Int} {ns : List (Node α)} {h : Highscore α}
    (hi : (newHighscore M).insertAll ns = some h) : h.maxItems = M := by
  induction ns using List.reverseRec generalizing h with
  | nil =>
    simp only [Highscore.insertAll, List.foldlM_nil, newHighscore, pure, Option.some.injEq] at hi
    subst hi
    rfl
  | append_singleton ns x ih =>
    rw [insertAll_snoc] at hi
    cases hm : (newHighscore M).insertAll ns with
    | none => simp [hm] at hi
    | some h0 =>
      rw [hm, Option.bind_some] at hi
      exact (insert_maxItems hi).trans (ih hm)

/-- With a capacity other than 1 a list built by inserts never panics. -/
theorem insertAll_isSome {M : Int} (hM : M ≠ 1) (ns : List (Node α)) :
    ∃ h, (newHighscore M).insertAll ns = some h := by
  induction ns using List.reverseRec with
  | nil => exact ⟨newHighscore M, rfl⟩
  | append_singleton ns x ih =>
    obtain ⟨h, hh⟩ := ih
    rw [insertAll_snoc, hh, Option.bind_some]
    refine insert_isSome ?_
    rintro ⟨h1, h2⟩
    rw [insertAll_maxItems hh, h2] at h1
    simp at h1
    omega

end

variable {α : Type} [LinearOrder α]

/-- Descending order of scores. -/
def Desc (l : List (Node α)) : Prop := l.Pairwise (fun a b => b.score ≤ a.score)

/-- Stable insertion without a capacity. -/
def ins (x : Node α) : List (Node α) → List (Node α)
  | [] => [x]
  | a :: l => if a.score < x.score then x :: a :: l else a :: ins x l

theorem insertBefore_eq (x : Node α) (l : List (Node α)) :
    insertBefore x l = if (∃ a ∈ l, a.score < x.score) then some (ins x l) else none := by
  induction l with
  | nil => simp [insertBefore]
  | cons a l ih =>
    unfold insertBefore ins
    by_cases h : a.score < x.score
    · simp [h]
    · rw [if_neg h, ih, if_neg h]
      by_cases h2 : ∃ a ∈ l, a.score < x.score
      · have : ∃ b ∈ a :: l, b.score < x.score := by
          obtain ⟨b, hb, hc⟩ := h2
          exact ⟨b, List.mem_cons_of_mem _ hb, hc⟩
        simp [h2, this]
      · have : ¬ ∃ b ∈ a :: l, b.score < x.score := by
          rintro ⟨b, hb, hc⟩
          rcases List.mem_cons.1 hb with rfl | hb
          · exact h hc
          · exact h2 ⟨b, hb, hc⟩
        simp only [h2, this, if_false, Option.map_none]

theorem ins_of_ge (x : Node α) (l : List (Node α)) (h : ∀ a ∈ l, x.score ≤ a.score) :
    ins x l = l ++ [x] := by
  induction l with
  | nil => rfl
  | cons a l ih =>
    have ha := h a (by simp)
    simp [ins, not_lt.2 ha, ih (fun b hb => h b (by simp [hb]))]

theorem mem_ins {x a : Node α} {l : List (Node α)} : a ∈ ins x l ↔ a = x ∨ a ∈ l := by
  induction l with
  | nil => simp [ins]
  | cons b l ih =>
    unfold ins
    split
    · simp
    · simp only [List.mem_cons, ih]
      tauto

theorem ins_length (x : Node α) (l : List (Node α)) : (ins x l).length = l.length + 1 := by
  induction l with
  | nil => rfl
  | cons b l ih =>
    unfold ins
    split
    · simp
    · simp [ih]

theorem ins_desc {x : Node α} {l : List (Node α)} (h : Desc l) : Desc (ins x l) := by
  induction l with
  | nil => simp [ins, Desc]
  | cons b l ih =>
    have h' := List.pairwise_cons.1 h
    unfold ins
    split
    · rename_i hb
      refine List.pairwise_cons.2 ⟨fun a ha => ?_, h⟩
      rcases List.mem_cons.1 ha with rfl | ha
      · exact hb.le
      · exact (h'.1 a ha).trans hb.le
    · rename_i hb
      refine List.pairwise_cons.2 ⟨fun a ha => ?_, ih h'.2⟩
      rcases mem_ins.1 ha with rfl | ha
      · exact not_lt.1 hb
      · exact h'.1 a ha

theorem ins_filter {x : Node α} {l : List (Node α)} (h : Desc l) (s : α) :
    (ins x l).filter (fun n => n.score = s) =
      l.filter (fun n => n.score = s) ++ (if x.score = s then [x] else []) := by
  induction l with
  | nil => by_cases hx : x.score = s <;> simp [ins, hx]
  | cons b l ih =>
    have h' := List.pairwise_cons.1 h
    unfold ins
    split
    · rename_i hb
      by_cases hx : x.score = s
      · have : (b :: l).filter (fun n => n.score = s) = [] := by
          rw [List.filter_eq_nil_iff]
          intro a ha
          have : a.score < x.score := by
            rcases List.mem_cons.1 ha with rfl | ha
            · exact hb
            · exact lt_of_le_of_lt (h'.1 a ha) hb
          simpa [← hx] using this.ne
        rw [List.filter_cons, this]
        simp [hx]
      · rw [List.filter_cons]
        simp [hx]
    · rw [List.filter_cons, List.filter_cons, ih h'.2]
      split <;> simp

/-- A descending list is determined by its score classes. -/
theorem desc_ext {l₁ l₂ : List (Node α)} (h₁ : Desc l₁) (h₂ : Desc l₂)
    (h : ∀ s, l₁.filter (fun n => n.score = s) = l₂.filter (fun n => n.score = s)) :
    l₁ = l₂ := by
  have key : ∀ (l₁ l₂ : List (Node α)),
      (∀ s, l₁.filter (fun n => n.score = s) = l₂.filter (fun n => n.score = s)) →
      ∀ a ∈ l₁, a ∈ l₂ := by
    intro l₁ l₂ h a ha
    have : a ∈ l₁.filter (fun n => n.score = a.score) := by simp [ha]
    rw [h] at this
    exact (List.mem_filter.1 this).1
  induction l₁ generalizing l₂ with
  | nil =>
    cases l₂ with
    | nil => rfl
    | cons b l => exact absurd (key _ _ (fun s => (h s).symm) b (by simp)) (by simp)
  | cons a t₁ ih =>
    cases l₂ with
    | nil => exact absurd (key _ _ h a (by simp)) (by simp)
    | cons b t₂ =>
      have h₁' := List.pairwise_cons.1 h₁
      have h₂' := List.pairwise_cons.1 h₂
      have hab : a.score ≤ b.score := by
        rcases List.mem_cons.1 (key _ _ h a (by simp)) with rfl | hm
        · exact le_rfl
        · exact h₂'.1 a hm
      have hba : b.score ≤ a.score := by
        rcases List.mem_cons.1 (key _ _ (fun s => (h s).symm) b (by simp)) with rfl | hm
        · exact le_rfl
        · exact h₁'.1 b hm
      have hs : a.score = b.score := le_antisymm hab hba
      have hc := h a.score
      simp only [List.filter_cons, hs, decide_true, if_true, List.cons.injEq] at hc
      have hEq : a = b := hc.1
      subst hEq
      rw [ih h₁'.2 h₂'.2]
      intro s
      have := h s
      simp only [List.filter_cons] at this
      split at this
      · exact (List.cons.injEq _ _ _ _ ▸ this).2
      · exact this

theorem ranking_perm (h : List (Node α)) : (ranking h).Perm h := List.mergeSort_perm _ _

theorem ranking_length (h : List (Node α)) : (ranking h).length = h.length :=
  (ranking_perm h).length_eq

theorem mem_ranking {h : List (Node α)} {x : Node α} : x ∈ ranking h ↔ x ∈ h :=
  (ranking_perm h).mem_iff

theorem ranking_desc (h : List (Node α)) : Desc (ranking h) := by
  have := List.pairwise_mergeSort (le := fun a b : Node α => decide (b.score ≤ a.score))
    (fun a b c => by simpa using fun h1 h2 => le_trans h2 h1)
    (fun a b => by simpa using le_total b.score a.score) h
  exact this.imp (by simp)

theorem ranking_filter (h : List (Node α)) (s : α) :
    (ranking h).filter (fun n => n.score = s) = h.filter (fun n => n.score = s) := by
  have hsub : h.filter (fun n => n.score = s) <+ ranking h := by
    refine List.sublist_mergeSort (fun a b c => by simpa using fun h1 h2 => le_trans h2 h1)
      (fun a b => by simpa using le_total b.score a.score) ?_ List.filter_sublist
    refine List.pairwise_of_forall_mem_list ?_
    intro a ha b hb
    simp only [List.mem_filter, decide_eq_true_eq] at *
    rw [ha.2, hb.2]
  have h2 := hsub.filter (fun n => n.score = s)
  rw [List.filter_filter] at h2
  simp only [Bool.and_self] at h2
  refine (h2.eq_of_length ?_).symm
  exact ((ranking_perm h).filter _).length_eq.symm

theorem ranking_snoc (h : List (Node α)) (x : Node α) :
    ranking (h ++ [x]) = ins x (ranking h) := by
  refine desc_ext (ranking_desc _) (ins_desc (ranking_desc _)) (fun s => ?_)
  rw [ranking_filter, ins_filter (ranking_desc _), ranking_filter, List.filter_append]
  congr 1
  by_cases hx : x.score = s <;> simp [hx]

theorem sublist_ins (x : Node α) (l : List (Node α)) : l <+ ins x l := by
  induction l with
  | nil => simp
  | cons a l ih =>
    unfold ins
    split
    · exact List.sublist_cons_self _ _
    · exact ih.cons_cons _

theorem ins_sublist_ins {x : Node α} {l S : List (Node α)} (h : l <+ S) (hS : Desc S) :
    ins x l <+ ins x S := by
  induction h with
  | slnil => exact List.Sublist.refl _
  | @cons l S a h ih =>
    have h' := List.pairwise_cons.1 hS
    have ih := ih h'.2
    rw [show ins x (a :: S) = if a.score < x.score then x :: a :: S else a :: ins x S from rfl]
    split
    · rename_i ha
      have : ins x l = x :: l := by
        cases l with
        | nil => rfl
        | cons b t =>
          have : b.score < x.score := lt_of_le_of_lt (h'.1 b (h.subset (by simp))) ha
          simp [ins, this]
      rw [this]
      exact (h.cons a).cons_cons x
    · exact ih.cons a
  | @cons_cons l S a h ih =>
    have h' := List.pairwise_cons.1 hS
    unfold ins
    split
    · exact (h.cons_cons a).cons_cons x
    · exact (ih h'.2).cons_cons a

/-- Scores of a list of nodes. -/
def scoresOf (l : List (Node α)) : List α := l.map (·.score)

/-- Insertion on score lists. -/
def insS (v : α) : List α → List α
  | [] => [v]
  | a :: l => if a < v then v :: a :: l else a :: insS v l

theorem scoresOf_ins (x : Node α) (l : List (Node α)) :
    scoresOf (ins x l) = insS x.score (scoresOf l) := by
  induction l with
  | nil => rfl
  | cons a l ih =>
    unfold ins
    simp only [scoresOf, List.map_cons, insS] at *
    split
    · simp
    · simp [ih]

theorem insS_length (v : α) (l : List α) : (insS v l).length = l.length + 1 := by
  induction l with
  | nil => rfl
  | cons a l ih =>
    unfold insS
    split <;> simp [ih]

/-- If the first `k` values are all at least `v`, insertion does not touch them. -/
theorem take_insS_of_ge {v : α} {l : List α} {k : Nat} (hk : k ≤ l.length)
    (h : ∀ a ∈ l.take k, v ≤ a) : (insS v l).take k = l.take k := by
  induction l generalizing k with
  | nil => simp at hk; simp [hk]
  | cons a l ih =>
    cases k with
    | zero => simp
    | succ k =>
      have ha : v ≤ a := h a (by simp)
      rw [insS, if_neg (not_lt.2 ha), List.take_succ_cons, List.take_succ_cons]
      rw [ih (by simpa using hk) (fun b hb => h b (by simp [hb]))]

/-- Insertion into a truncated list that finds its place before the cut. -/
theorem take_insS_of_lt {v : α} {l : List α} {k : Nat}
    (h : ∃ a ∈ l.take k, a < v) : (insS v l).take (k + 1) = insS v (l.take k) := by
  induction l generalizing k with
  | nil => simp at h
  | cons a l ih =>
    cases k with
    | zero => simp at h
    | succ k =>
      rw [List.take_succ_cons] at h ⊢
      unfold insS
      by_cases hlt : a < v
      · simp [hlt]
      · rw [if_neg hlt, if_neg hlt, List.take_succ_cons]
        rw [ih]
        obtain ⟨b, hb, hc⟩ := h
        rcases List.mem_cons.1 hb with rfl | hb
        · exact absurd hc hlt
        · exact ⟨b, hb, hc⟩

/-- Descending on values. -/
def DescS (l : List α) : Prop := l.Pairwise (fun a b => b ≤ a)

/-- If the first `k` values are at least `v` and no later value exceeds `v`, then cutting after
insertion at `k + 1` is the same as appending `v` to the first `k` values. -/
theorem take_insS_append {v : α} {l : List α} {k : Nat} (hk : k ≤ l.length)
    (h : ∀ a ∈ l.take k, v ≤ a) (h2 : ∀ a ∈ l.drop k, a ≤ v) :
    (insS v l).take (k + 1) = l.take k ++ [v] := by
  induction l generalizing k with
  | nil => simp at hk; simp [hk, insS]
  | cons a l ih =>
    cases k with
    | zero =>
      have ha : a ≤ v := h2 a (by simp)
      unfold insS
      split
      · simp
      · rename_i hn
        simp [le_antisymm ha (not_lt.1 hn)]
    | succ k =>
      have ha : v ≤ a := h a (by simp)
      rw [insS, if_neg (not_lt.2 ha), List.take_succ_cons, List.take_succ_cons]
      rw [ih (by simpa using hk) (fun b hb => h b (by simp [hb])) (fun b hb => h2 b (by simpa using hb))]
      rfl

/-- The invariant linking a highscore list to the history of insertions. -/
structure HInv (M : Int) (hist items : List (Node α)) : Prop where
  sub : items <+ ranking hist
  sc : scoresOf items = (scoresOf (ranking hist)).take items.length
  keep : items.length < hist.length → M - 1 ≤ items.length
  cap : (items.length : Int) ≤ max M 0

theorem HInv.nil (M : Int) : HInv M ([] : List (Node α)) [] where
  sub := by simp
  sc := by simp [scoresOf]
  keep := by simp
  cap := by simp

theorem scoresOf_desc {l : List (Node α)} (h : Desc l) : DescS (scoresOf l) :=
  List.pairwise_map.2 h

theorem HInv.le_hist {M : Int} {hist items : List (Node α)} (h : HInv M hist items) :
    items.length ≤ hist.length := by
  rw [← ranking_length hist]; exact h.sub.length_le

theorem HInv.desc {M : Int} {hist items : List (Node α)} (h : HInv M hist items) : Desc items :=
  List.Pairwise.sublist h.sub (ranking_desc hist)

/-- What an `Insert` does, as a relation on the items. -/
inductive InsertEffect (M : Int) (items : List (Node α)) (x : Node α) : List (Node α) → Prop
  | reject (last : Node α) (h1 : (items.length : Int) = M - 1) (h2 : items.getLast? = some last)
      (h3 : x.score < last.score) : InsertEffect M items x items
  | place (h1 : ∃ a ∈ items, a.score < x.score) (h2 : (items.length : Int) + 1 < M) :
      InsertEffect M items x (ins x items)
  | replace (h1 : ∃ a ∈ items, a.score < x.score) (h2 : M ≤ (items.length : Int) + 1) :
      InsertEffect M items x (ins x items).dropLast
  | push (h1 : ∀ a ∈ items, x.score ≤ a.score) (h2 : (items.length : Int) < M)
      (h3 : (items.length : Int) = M - 1 → ∃ last, items.getLast? = some last ∧ last.score = x.score) :
      InsertEffect M items x (items ++ [x])
  | full (h1 : ∀ a ∈ items, x.score ≤ a.score) (h2 : M ≤ (items.length : Int)) :
      InsertEffect M items x items

theorem insertTail_effect {h : Highscore α} {x : Node α}
    (hb : (h.items.length : Int) = h.maxItems - 1 →
        ∃ last, h.items.getLast? = some last ∧ ¬ x.score < last.score) :
    (h.insertTail x).maxItems = h.maxItems ∧
      InsertEffect h.maxItems h.items x (h.insertTail x).items := by
  unfold Highscore.insertTail
  rw [insertBefore_eq]
  by_cases hex : ∃ a ∈ h.items, a.score < x.score
  · simp only [hex, if_true, ins_length]
    split
    · rename_i hge
      exact ⟨rfl, .replace hex (by push_cast at hge; omega)⟩
    · rename_i hge
      exact ⟨rfl, .place hex (by push_cast at hge; omega)⟩
  · simp only [hex, if_false]
    have hall : ∀ a ∈ h.items, x.score ≤ a.score := fun a ha =>
      not_lt.1 (fun hc => hex ⟨a, ha, hc⟩)
    split
    · rename_i hlt
      refine ⟨rfl, .push hall hlt (fun he => ?_)⟩
      obtain ⟨last, e1, e2⟩ := hb he
      exact ⟨last, e1, le_antisymm (not_lt.1 e2) (hall last (List.mem_of_getLast? e1))⟩
    · rename_i hlt
      exact ⟨rfl, .full hall (by simpa [Highscore.len] using hlt)⟩

theorem insert_effect {h h' : Highscore α} {x : Node α} (hi : h.insert x = some h') :
    h'.maxItems = h.maxItems ∧ InsertEffect h.maxItems h.items x h'.items := by
  unfold Highscore.insert at hi
  by_cases hc : (h.len : Int) = h.maxItems - 1
  · rw [if_pos hc] at hi
    cases hl : h.items.getLast? with
    | none => simp [hl] at hi
    | some last =>
      simp only [hl] at hi
      split at hi <;> cases hi
      · rename_i hlt
        exact ⟨rfl, .reject last hc hl hlt⟩
      · rename_i hlt
        exact insertTail_effect (fun _ => ⟨last, hl, hlt⟩)
  · rw [if_neg hc] at hi
    cases hi
    exact insertTail_effect (fun he => absurd he hc)

theorem HInv.step {M : Int} {hist items items' : List (Node α)} {x : Node α}
    (h : HInv M hist items) (e : InsertEffect M items x items') :
    HInv M (hist ++ [x]) items' := by
  have hS := ranking_desc hist
  have hlen := h.le_hist
  have hle : items.length ≤ (scoresOf (ranking hist)).length := by
    simpa [scoresOf, ranking_length] using hlen
  have hmem : ∀ a ∈ (scoresOf (ranking hist)).take items.length, ∃ b ∈ items, b.score = a := by
    rw [← h.sc]
    intro a ha
    simpa [scoresOf] using ha
  have hmem' : ∀ b ∈ items, b.score ∈ (scoresOf (ranking hist)).take items.length := by
    rw [← h.sc]
    intro b hb
    exact List.mem_map_of_mem hb
  cases e with
  | reject last h1 h2 h3 =>
    have hall : ∀ a ∈ items, x.score ≤ a.score := by
      intro a ha
      have hd := h.desc
      obtain ⟨pre, rfl⟩ := List.getLast?_eq_some_iff.1 h2
      rcases List.mem_append.1 ha with ha | ha
      · have := (List.pairwise_append.1 hd).2.2 a ha last (by simp)
        exact h3.le.trans this
      · simp only [List.mem_singleton] at ha
        rw [ha]; exact h3.le
    refine ⟨?_, ?_, ?_, h.cap⟩
    · rw [ranking_snoc]; exact h.sub.trans (sublist_ins _ _)
    · rw [ranking_snoc, scoresOf_ins, take_insS_of_ge hle, ← h.sc]
      intro a ha
      obtain ⟨b, hb, rfl⟩ := hmem a ha
      exact hall b hb
    · intro _; omega
  | place h1 h2 =>
    have hfull : items.length = hist.length := by
      by_contra hc
      have := h.keep (by omega)
      omega
    refine ⟨?_, ?_, ?_, ?_⟩
    · rw [ranking_snoc]; exact ins_sublist_ins h.sub hS
    · rw [ranking_snoc, scoresOf_ins, scoresOf_ins, ins_length, take_insS_of_lt, ← h.sc]
      obtain ⟨a, ha, hlt⟩ := h1
      exact ⟨a.score, hmem' a ha, hlt⟩
    · simp [ins_length, hfull]
    · rw [ins_length]; push_cast; omega
  | replace h1 h2 =>
    refine ⟨?_, ?_, ?_, ?_⟩
    · rw [ranking_snoc]
      exact (List.dropLast_sublist _).trans (ins_sublist_ins h.sub hS)
    · rw [ranking_snoc, scoresOf_ins]
      have hex : ∃ a ∈ (scoresOf (ranking hist)).take items.length, a < x.score := by
        obtain ⟨a, ha, hlt⟩ := h1
        exact ⟨a.score, hmem' a ha, hlt⟩
      have hd : (ins x items).dropLast = (ins x items).take items.length := by
        rw [List.dropLast_eq_take, ins_length]; rfl
      rw [hd, List.length_take, ins_length, Nat.min_eq_left (Nat.le_succ _)]
      have := congrArg (List.take items.length) (take_insS_of_lt hex)
      rw [List.take_take, Nat.min_eq_left (Nat.le_succ _)] at this
      rw [this, ← h.sc, ← scoresOf_ins]
      simp [scoresOf, List.map_take]
    · intro _; simp only [List.length_dropLast, ins_length]; omega
    · have := h.cap
      simpa [ins_length] using this
  | push h1 h2 h3 =>
    refine ⟨?_, ?_, ?_, ?_⟩
    · rw [ranking_snoc, ← ins_of_ge x items h1]; exact ins_sublist_ins h.sub hS
    · rw [ranking_snoc, scoresOf_ins]
      simp only [List.length_append, List.length_singleton]
      rw [take_insS_append hle, ← h.sc]
      · simp [scoresOf]
      · intro a ha
        obtain ⟨b, hb, rfl⟩ := hmem a ha
        exact h1 b hb
      · intro a ha
        by_cases hfull : items.length = hist.length
        · rw [List.drop_of_length_le (by simp [scoresOf, ranking_length, hfull])] at ha
          simp at ha
        · have hk := h.keep (by omega)
          obtain ⟨last, e1, e2⟩ := h3 (by omega)
          have hlast : last.score ∈ (scoresOf (ranking hist)).take items.length :=
            hmem' last (List.mem_of_getLast? e1)
          have hd := scoresOf_desc hS
          rw [DescS, ← List.take_append_drop items.length (scoresOf (ranking hist)),
            List.pairwise_append] at hd
          rw [← e2]
          exact hd.2.2 _ hlast _ ha
    · intro hlt
      simp only [List.length_append, List.length_singleton] at *
      have := h.keep (by omega)
      push_cast; omega
    · simp only [List.length_append, List.length_singleton]; push_cast; omega
  | full h1 h2 =>
    refine ⟨?_, ?_, ?_, h.cap⟩
    · rw [ranking_snoc]; exact h.sub.trans (sublist_ins _ _)
    · rw [ranking_snoc, scoresOf_ins, take_insS_of_ge hle, ← h.sc]
      intro a ha
      obtain ⟨b, hb, rfl⟩ := hmem a ha
      exact h1 b hb
    · intro _; omega

theorem insertAll_inv {M : Int} {ns : List (Node α)} {h : Highscore α}
    (hi : (newHighscore M).insertAll ns = some h) : h.maxItems = M ∧ HInv M ns h.items := by
  induction ns using List.reverseRec generalizing h with
  | nil =>
    simp only [Highscore.insertAll, List.foldlM_nil, newHighscore, pure, Option.some.injEq] at hi
    subst hi
    exact ⟨rfl, HInv.nil M⟩
  | append_singleton ns x ih =>
    rw [insertAll_snoc] at hi
    cases hm : (newHighscore M).insertAll ns with
    | none => simp [hm] at hi
    | some h0 =>
      rw [hm, Option.bind_some] at hi
      obtain ⟨e1, e2⟩ := ih hm
      obtain ⟨e3, e4⟩ := insert_effect hi
      rw [e1] at e3 e4
      exact ⟨e3, e2.step e4⟩

end GoSelect
