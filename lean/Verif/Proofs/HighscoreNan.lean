import Verif.Proofs.Highscore
import Verif.Model.Float

/-! The highscore list when some scores are NaN. -/

namespace GoSelect

open scoped List

variable {K : Type} [LinearOrder K]

namespace Fl

theorem not_nan_lt (a : Fl K) : ¬ (nan : Fl K) < a := by
  change ¬ ltB nan a = true
  cases a <;> simp [ltB]

theorem not_lt_nan (a : Fl K) : ¬ a < (nan : Fl K) := by
  change ¬ ltB a nan = true
  cases a <;> simp [ltB]

theorem lt_irrefl' (a : Fl K) : ¬ a < a := by
  change ¬ ltB a a = true
  cases a <;> simp [ltB]

theorem lt_trans' {a b c : Fl K} (h1 : a < b) (h2 : b < c) : a < c := by
  change ltB a b = true at h1
  change ltB b c = true at h2
  change ltB a c = true
  cases a <;> cases b <;> cases c <;> simp_all [ltB]
  exact h1.trans h2

/-- A number is below one of two other values if one of them is below the other. -/
theorem lt_or_lt {a b : Fl K} (c : Fl K) (hc : c ≠ nan) (h : a < b) : a < c ∨ c < b := by
  change ltB a b = true at h
  change ltB a c = true ∨ ltB c b = true
  cases a <;> cases b <;> cases c <;> simp_all [ltB]
  exact lt_or_lt_of_ne_of_lt' h
where
  lt_or_lt_of_ne_of_lt' {x y z : K} (h : x < y) : x < z ∨ z < y := by
    rcases lt_or_ge x z with h1 | h1
    · exact Or.inl h1
    · exact Or.inr (lt_of_le_of_lt h1 h)

theorem eq_of_not_lt {a b : Fl K} (ha : a ≠ nan) (hb : b ≠ nan) (h1 : ¬ a < b) (h2 : ¬ b < a) : a = b := by
  change ¬ ltB a b = true at h1
  change ¬ ltB b a = true at h2
  cases a <;> cases b <;> simp_all [ltB]
  exact le_antisymm h2 h1

theorem ne_nan_of_lt {a b : Fl K} (h : a < b) : a ≠ nan ∧ b ≠ nan := by
  constructor <;> rintro rfl
  · exact not_nan_lt _ h
  · exact not_lt_nan _ h

end Fl

/-- The score of the node is a number (or an infinity). -/
def NumScore (n : Node (Fl K)) : Prop := n.score ≠ .nan

instance (n : Node (Fl K)) : Decidable (NumScore n) := inferInstanceAs (Decidable (n.score ≠ .nan))

/-- What the loop of `Insert` does. -/
theorem insertBefore_cases {α : Type} [LT α] [DecidableLT α] (x : Node α) (l : List (Node α)) :
    (insertBefore x l = none ∧ ∀ a ∈ l, ¬ a.score < x.score) ∨
      ∃ p z q, l = p ++ z :: q ∧ (∀ a ∈ p, ¬ a.score < x.score) ∧ z.score < x.score ∧
        insertBefore x l = some (p ++ x :: z :: q) := by
  induction l with
  | nil => exact Or.inl ⟨rfl, by simp⟩
  | cons a l ih =>
    by_cases ha : a.score < x.score
    · exact Or.inr ⟨[], a, l, rfl, by simp, ha, by simp [insertBefore, ha]⟩
    · rcases ih with ⟨h1, h2⟩ | ⟨p, z, q, h1, h2, h3, h4⟩
      · refine Or.inl ⟨by simp [insertBefore, ha, h1], ?_⟩
        intro b hb
        rcases List.mem_cons.1 hb with rfl | hb
        · exact ha
        · exact h2 b hb
      · refine Or.inr ⟨a :: p, z, q, by rw [h1]; rfl, ?_, h3, by simp [insertBefore, ha, h4]⟩
        intro b hb
        rcases List.mem_cons.1 hb with rfl | hb
        · exact ha
        · exact h2 b hb

/-- The effect of an insertion into a list of capacity `M`, for every comparison. -/
inductive AnyEffect {α : Type} [LT α] (M : Int) (x : Node α) (items : List (Node α)) : List (Node α) → Prop
  | reject (last : Node α) (h1 : (items.length : Int) = M - 1) (h2 : items.getLast? = some last)
      (h3 : x.score < last.score) : AnyEffect M x items items
  | place (p : List (Node α)) (z : Node α) (q : List (Node α)) (h1 : items = p ++ z :: q)
      (h2 : ∀ a ∈ p, ¬ a.score < x.score) (h3 : z.score < x.score) (h4 : (items.length : Int) + 1 < M) :
      AnyEffect M x items (p ++ x :: z :: q)
  | replace (p : List (Node α)) (z : Node α) (q : List (Node α)) (h1 : items = p ++ z :: q)
      (h2 : ∀ a ∈ p, ¬ a.score < x.score) (h3 : z.score < x.score) (h4 : M ≤ (items.length : Int) + 1) :
      AnyEffect M x items (p ++ x :: (z :: q).dropLast)
  | push (h1 : ∀ a ∈ items, ¬ a.score < x.score) (h2 : (items.length : Int) < M) : AnyEffect M x items (items ++ [x])
  | full (h1 : ∀ a ∈ items, ¬ a.score < x.score) (h2 : M ≤ (items.length : Int)) : AnyEffect M x items items

theorem insert_any {α : Type} [LT α] [DecidableLT α] {h h' : Highscore α} {x : Node α} (hi : h.insert x = some h') :
    AnyEffect h.maxItems x h.items h'.items := by
  have tail : AnyEffect h.maxItems x h.items (h.insertTail x).items := by
    unfold Highscore.insertTail
    rcases insertBefore_cases x h.items with ⟨h1, h2⟩ | ⟨p, z, q, h1, h2, h3, h4⟩
    · rw [h1]
      simp only
      split
      · exact .push h2 (by assumption)
      · rename_i hf
        exact .full h2 (by unfold Highscore.len at hf; omega)
    · rw [h4]
      have hl : (p ++ x :: z :: q).length = h.items.length + 1 := by rw [h1]; simp; omega
      simp only
      split
      · rename_i hf
        rw [hl] at hf
        push_cast at hf
        have e : (p ++ x :: z :: q).dropLast = p ++ x :: (z :: q).dropLast := by
          rw [List.dropLast_append_of_ne_nil (by simp), List.dropLast_cons_of_ne_nil (by simp)]
        simp only
        rw [e]
        exact .replace p z q h1 h2 h3 (by omega)
      · rename_i hf
        rw [hl] at hf
        push_cast at hf
        exact .place p z q h1 h2 h3 (by omega)
  unfold Highscore.insert at hi
  split at hi
  · rename_i hc
    split at hi
    · cases hi
    · rename_i last hl
      split at hi
      · rename_i hlt
        cases hi
        exact .reject last hc hl hlt
      · cases hi
        exact tail
  · cases hi
    exact tail

theorem dropLast_snoc_getLast? {β : Type} {l : List β} (h : l ≠ []) : ∃ b, l.getLast? = some b ∧ l = l.dropLast ++ [b] :=
  ⟨l.getLast h, List.getLast?_eq_some_getLast h, (List.dropLast_append_getLast h).symm⟩

/-- Number of nodes in the list with the given score. -/
def copies (s : Fl K) (l : List (Node (Fl K))) : Nat := (l.filter (fun n => decide (n.score = s))).length

/-- Number of nodes in the list whose score is a number that is at least `s`. -/
def atLeast (s : Fl K) (l : List (Node (Fl K))) : Nat :=
  (l.filter (fun n => decide (NumScore n ∧ ¬ n.score < s))).length

/-- Invariant of a list of capacity `M` after the insertions `ns`. -/
structure NanInv (M : Int) (ns items : List (Node (Fl K))) : Prop where
  desc : items.Pairwise (fun a b => ¬ a.score < b.score)
  stable : ∀ s, items.filter (fun n => decide (n.score = s)) <+ ns.filter (fun n => decide (n.score = s))
  cap : (items.length : Int) ≤ M
  keep : items.length < ns.length → M - 1 ≤ items.length
  headNan : ∀ b, ns.head? = some b → ¬ NumScore b → items.head? = some b
  headNum : ∀ b, ns.head? = some b → NumScore b → ∃ a, items.head? = some a ∧ NumScore a
  missing : ∀ s, s ≠ .nan → copies s items < copies s ns → M - 1 ≤ (atLeast s items : Int) + copies .nan ns
  best : (∃ b ∈ items, NumScore b ∧ ∀ n ∈ ns, ¬ b.score < n.score) ∨
    items = ns.take M.toNat ∧ ∀ a ∈ items, ¬ NumScore a

theorem NanInv.nil {M : Int} (hM : 2 ≤ M) : NanInv M ([] : List (Node (Fl K))) [] where
  desc := .nil
  stable := by simp
  cap := by simp; omega
  keep := by simp
  headNan := by simp
  headNum := by simp
  missing := by simp [copies]
  best := Or.inr ⟨by simp, by simp⟩

theorem atLeast_all {s : Fl K} {l : List (Node (Fl K))} (h : ∀ a ∈ l, NumScore a → ¬ a.score < s) :
    l.length = atLeast s l + copies .nan l := by
  induction l with
  | nil => rfl
  | cons a l ih =>
    have := ih (fun b hb => h b (by simp [hb]))
    unfold atLeast copies at *
    by_cases ha : NumScore a
    · have h1 : decide (NumScore a ∧ ¬ a.score < s) = true := by simp [ha, h a (by simp) ha]
      have h2 : decide (a.score = .nan) = false := by simpa [NumScore] using ha
      simp only [List.filter_cons, h1, h2, if_true, List.length_cons, Bool.false_eq_true, if_false]
      omega
    · have h1 : decide (NumScore a ∧ ¬ a.score < s) = false := by simp [ha]
      have h2 : decide (a.score = .nan) = true := by simpa [NumScore] using ha
      simp only [List.filter_cons, h1, h2, if_true, List.length_cons, Bool.false_eq_true, if_false]
      omega

theorem copies_append (s : Fl K) (l m : List (Node (Fl K))) : copies s (l ++ m) = copies s l + copies s m := by
  simp [copies]

theorem copies_single (s : Fl K) (x : Node (Fl K)) : copies s [x] = if x.score = s then 1 else 0 := by
  unfold copies
  by_cases h : x.score = s <;> simp [h]

theorem copies_cons (s : Fl K) (x : Node (Fl K)) (l : List (Node (Fl K))) :
    copies s (x :: l) = (if x.score = s then 1 else 0) + copies s l := by
  rw [← List.singleton_append, copies_append, copies_single]

theorem atLeast_sublist (s : Fl K) {l m : List (Node (Fl K))} (h : l <+ m) : atLeast s l ≤ atLeast s m :=
  (h.filter _).length_le

theorem copies_sublist (s : Fl K) {l m : List (Node (Fl K))} (h : l <+ m) : copies s l ≤ copies s m :=
  (h.filter _).length_le

theorem NanInv.nan_le {M : Int} {ns items : List (Node (Fl K))} (h : NanInv M ns items) :
    copies .nan items ≤ copies .nan ns := (h.stable .nan).length_le

/-- Nothing is in the list that was not inserted. -/
theorem NanInv.mem {M : Int} {ns items : List (Node (Fl K))} (h : NanInv M ns items) {a : Node (Fl K)} (ha : a ∈ items) :
    a ∈ ns := by
  have : a ∈ items.filter (fun n => decide (n.score = a.score)) := by simp [ha]
  exact (List.mem_filter.1 ((h.stable a.score).subset this)).1

/-- The position in which a number is inserted. -/
theorem insNan_desc {x z : Node (Fl K)} {p q : List (Node (Fl K))}
    (hd : (p ++ z :: q).Pairwise (fun a b => ¬ a.score < b.score)) (h2 : ∀ a ∈ p, ¬ a.score < x.score)
    (h3 : z.score < x.score) : (p ++ x :: z :: q).Pairwise (fun a b => ¬ a.score < b.score) := by
  obtain ⟨d1, d2, d3⟩ := List.pairwise_append.1 hd
  refine List.pairwise_append.2 ⟨d1, List.pairwise_cons.2 ⟨?_, d2⟩, ?_⟩
  · intro b hb hlt
    rcases List.mem_cons.1 hb with rfl | hb
    · exact Fl.lt_irrefl' _ (Fl.lt_trans' h3 hlt)
    · exact (List.pairwise_cons.1 d2).1 b hb (Fl.lt_trans' h3 hlt)
  · intro a ha b hb
    rcases List.mem_cons.1 hb with rfl | hb
    · exact h2 a ha
    · exact d3 a ha b hb

theorem insNan_stable {x z : Node (Fl K)} {p q : List (Node (Fl K))}
    (hd : (p ++ z :: q).Pairwise (fun a b => ¬ a.score < b.score)) (h3 : z.score < x.score) (s : Fl K) :
    (p ++ x :: z :: q).filter (fun n => decide (n.score = s)) =
      (p ++ z :: q).filter (fun n => decide (n.score = s)) ++ [x].filter (fun n => decide (n.score = s)) := by
  by_cases hx : x.score = s
  · have : (z :: q).filter (fun n => decide (n.score = s)) = [] := by
      rw [List.filter_eq_nil_iff]
      intro b hb he
      simp only [decide_eq_true_eq] at he
      obtain ⟨-, d2, -⟩ := List.pairwise_append.1 hd
      rcases List.mem_cons.1 hb with rfl | hb
      · rw [he, hx] at h3
        exact Fl.lt_irrefl' _ h3
      · refine (List.pairwise_cons.1 d2).1 b hb ?_
        rw [he, ← hx]
        exact h3
    rw [List.filter_append, List.filter_append, this, List.filter_cons, this]
    simp [hx]
  · simp [List.filter_append, List.filter_cons, hx]

theorem NanInv.step {M : Int} (hM : 2 ≤ M) {ns items items' : List (Node (Fl K))} {x : Node (Fl K)}
    (h : NanInv M ns items) (he : AnyEffect M x items items') : NanInv M (ns ++ [x]) items' := by
  have hcs : ∀ s, copies s (ns ++ [x]) = copies s ns + if x.score = s then 1 else 0 := by
    intro s
    rw [copies_append, copies_single]
  have hsub : ∀ s, ns.filter (fun n => decide (n.score = s)) <+ (ns ++ [x]).filter (fun n => decide (n.score = s)) :=
    fun s => (List.sublist_append_left _ _).filter _
  have hnil : items = [] → ns = [] := by
    intro h0
    cases ns with
    | nil => rfl
    | cons b ns =>
      exfalso
      by_cases hb : NumScore b
      · obtain ⟨a, ha, -⟩ := h.headNum b rfl hb
        rw [h0] at ha; cases ha
      · have ha := h.headNan b rfl hb
        rw [h0] at ha; cases ha
  have hhead : items ≠ [] → ∀ b, (ns ++ [x]).head? = some b → ns.head? = some b := by
    intro hne b hb
    cases ns with
    | nil =>
      exfalso
      cases hit : items with
      | nil => exact hne hit
      | cons a l =>
        have := h.mem (a := a) (by rw [hit]; simp)
        simp at this
    | cons c ns => simpa using hb
  -- insertion of `x` before `z`, possibly with a removal at the end
  have placed : ∀ (p : List (Node (Fl K))) (z : Node (Fl K)) (q r : List (Node (Fl K))), items = p ++ z :: q →
      (∀ a ∈ p, ¬ a.score < x.score) → z.score < x.score → r <+: z :: q →
      (p ++ x :: r).Pairwise (fun a b => ¬ a.score < b.score) ∧
      (∀ s, (p ++ x :: r).filter (fun n => decide (n.score = s)) <+ (ns ++ [x]).filter (fun n => decide (n.score = s))) ∧
      (∀ b, (ns ++ [x]).head? = some b → ¬ NumScore b → (p ++ x :: r).head? = some b) ∧
      (∀ b, (ns ++ [x]).head? = some b → NumScore b → ∃ a, (p ++ x :: r).head? = some a ∧ NumScore a) := by
    intro p z q r h1 h2 h3 hr
    have hd := h.desc
    rw [h1] at hd
    have hs : (p ++ x :: r) <+ p ++ x :: z :: q := (List.Sublist.refl p).append (hr.sublist.cons_cons x)
    refine ⟨(insNan_desc hd h2 h3).sublist hs, ?_, ?_, ?_⟩
    · intro s
      refine (hs.filter _).trans ?_
      rw [insNan_stable hd h3 s, ← h1, List.filter_append]
      exact (h.stable s).append (List.Sublist.refl _)
    · intro b hb hn
      have hb' := h.headNan b (hhead (by rw [h1]; simp) b hb) hn
      rw [h1] at hb'
      cases p with
      | nil =>
        simp only [List.nil_append, List.head?_cons, Option.some.injEq] at hb'
        subst hb'
        exact absurd (Fl.ne_nan_of_lt h3).1 hn
      | cons c p => simpa using hb'
    · intro b hb hn
      obtain ⟨a, ha, han⟩ := h.headNum b (hhead (by rw [h1]; simp) b hb) hn
      rw [h1] at ha
      cases p with
      | nil => exact ⟨x, rfl, (Fl.ne_nan_of_lt h3).2⟩
      | cons c p => exact ⟨a, by simpa using ha, han⟩
  cases he with
  | reject last h1 h2 h3 =>
    have hlast : last ∈ items := List.mem_of_getLast? h2
    have hne : items ≠ [] := List.ne_nil_of_mem hlast
    have hxn : NumScore x := (Fl.ne_nan_of_lt h3).1
    have hge : ∀ a ∈ items, ¬ a.score < last.score := by
      obtain ⟨b, hb1, hb2⟩ := dropLast_snoc_getLast? hne
      rw [hb1] at h2
      cases h2
      intro a ha
      rw [hb2, List.mem_append, List.mem_singleton] at ha
      rcases ha with ha | rfl
      · have hd := h.desc
        rw [hb2] at hd
        exact (List.pairwise_append.1 hd).2.2 a ha last (by simp)
      · exact Fl.lt_irrefl' _
    refine ⟨h.desc, fun s => (h.stable s).trans (hsub s), h.cap, fun _ => by omega, fun b hb hn => h.headNan b (hhead hne b hb) hn,
      fun b hb hn => h.headNum b (hhead hne b hb) hn, ?_, ?_⟩
    · intro s hs hlt
      rw [hcs] at hlt ⊢
      by_cases hx : x.score = s
      · have := atLeast_all (s := s) (l := items) (fun a ha _ hlt => hge a ha (Fl.lt_trans' hlt (by rw [← hx]; exact h3)))
        have h4 := h.nan_le
        push_cast
        omega
      · rw [if_neg hx] at hlt
        have := h.missing s hs (by omega)
        push_cast
        split <;> omega
    · rcases h.best with ⟨b, hb, hbn, hbm⟩ | ⟨-, hall⟩
      · refine Or.inl ⟨b, hb, hbn, ?_⟩
        intro n hn
        rcases List.mem_append.1 hn with hn | hn
        · exact hbm n hn
        · rw [List.mem_singleton.1 hn]
          intro hlt
          exact hbm last (h.mem hlast) (Fl.lt_trans' hlt h3)
      · exact absurd (Fl.ne_nan_of_lt h3).2 (hall last hlast)
  | place p z q h1 h2 h3 h4 =>
    obtain ⟨g1, g2, g3, g4⟩ := placed p z q (z :: q) h1 h2 h3 (List.prefix_refl _)
    have hl : (p ++ x :: z :: q).length = items.length + 1 := by rw [h1]; simp; omega
    have hsubl : items <+ p ++ x :: z :: q := by
      rw [h1]
      exact (List.Sublist.refl p).append (List.sublist_cons_self _ _)
    refine ⟨g1, g2, by rw [hl]; push_cast; omega, ?_, g3, g4, ?_, ?_⟩
    · intro hlt
      rw [hl] at hlt ⊢
      rw [List.length_append, List.length_singleton] at hlt
      have := h.keep (by omega)
      push_cast
      omega
    · intro s hs hlt
      have hc : copies s (p ++ x :: z :: q) = copies s items + if x.score = s then 1 else 0 := by
        rw [h1, copies_append, copies_append, copies_cons]
        omega
      rw [hc, hcs] at hlt
      have := h.missing s hs (by omega)
      have h5 := atLeast_sublist s hsubl
      rw [hcs]
      push_cast
      split <;> omega
    · rcases h.best with ⟨b, hb, hbn, hbm⟩ | ⟨-, hall⟩
      · by_cases hbx : b.score < x.score
        · refine Or.inl ⟨x, by simp, (Fl.ne_nan_of_lt h3).2, ?_⟩
          intro n hn
          rcases List.mem_append.1 hn with hn | hn
          · exact fun hlt => hbm n hn (Fl.lt_trans' hbx hlt)
          · rw [List.mem_singleton.1 hn]
            exact Fl.lt_irrefl' _
        · refine Or.inl ⟨b, hsubl.subset hb, hbn, ?_⟩
          intro n hn
          rcases List.mem_append.1 hn with hn | hn
          · exact hbm n hn
          · rw [List.mem_singleton.1 hn]
            exact hbx
      · exact absurd (Fl.ne_nan_of_lt h3).1 (hall z (by rw [h1]; simp))
  | replace p z q h1 h2 h3 h4 =>
    obtain ⟨e, -, he2⟩ := dropLast_snoc_getLast? (l := z :: q) (by simp)
    set r := (z :: q).dropLast with hr
    obtain ⟨g1, g2, g3, g4⟩ := placed p z q r h1 h2 h3 (List.dropLast_prefix _)
    have hit : items = p ++ r ++ [e] := by rw [h1, he2, List.append_assoc]
    have hl : (p ++ x :: r).length = items.length := by rw [hit]; simp
    have hze : ¬ z.score < e.score := by
      have hd := h.desc
      rw [h1] at hd
      have hd2 := (List.pairwise_append.1 hd).2.1
      have hmem : e ∈ z :: q := by rw [he2]; simp
      rcases List.mem_cons.1 hmem with rfl | hm
      · exact Fl.lt_irrefl' _
      · exact (List.pairwise_cons.1 hd2).1 e hm
    have hge : ∀ a ∈ p ++ x :: r, ¬ a.score < e.score := by
      intro a ha hlt
      have hd := h.desc
      rw [hit] at hd
      have hd3 := (List.pairwise_append.1 hd).2.2
      simp only [List.mem_append, List.mem_cons] at ha
      rcases ha with ha | rfl | ha
      · exact hd3 a (by simp [ha]) e (by simp) hlt
      · exact hze (Fl.lt_trans' h3 hlt)
      · exact hd3 a (by simp [ha]) e (by simp) hlt
    refine ⟨g1, g2, by rw [hl]; exact h.cap, fun _ => by rw [hl]; omega, g3, g4, ?_, ?_⟩
    · intro s hs hlt
      have hc : copies s (p ++ x :: r) + (if e.score = s then 1 else 0) =
          copies s items + if x.score = s then 1 else 0 := by
        rw [hit, copies_append, copies_append, copies_append, copies_cons, copies_single]
        omega
      have hnan := (g2 .nan).length_le
      by_cases hes : NumScore e ∧ ¬ e.score < s
      · have := atLeast_all (s := s) (l := p ++ x :: r) (fun a ha _ hlt => by
          rcases Fl.lt_or_lt e.score hes.1 hlt with h5 | h5
          · exact hge a ha h5
          · exact hes.2 h5)
        change copies .nan _ ≤ copies .nan _ at hnan
        omega
      · have hne : e.score ≠ s := by
          rintro rfl
          exact hes ⟨hs, Fl.lt_irrefl' _⟩
        rw [if_neg hne] at hc
        rw [hcs] at hlt
        have h6 := h.missing s hs (by omega)
        have h7 : atLeast s items ≤ atLeast s (p ++ x :: r) := by
          have : atLeast s items = atLeast s (p ++ r) := by
            rw [hit]
            unfold atLeast
            rw [List.filter_append (l₂ := [e]), List.filter_singleton]
            simp [hes]
          rw [this]
          exact atLeast_sublist s ((List.Sublist.refl p).append (List.sublist_cons_self _ _))
        rw [hcs]
        push_cast
        split <;> omega
    · rcases h.best with ⟨b, hb, hbn, hbm⟩ | ⟨-, hall⟩
      · by_cases hbx : b.score < x.score
        · refine Or.inl ⟨x, by simp, (Fl.ne_nan_of_lt h3).2, ?_⟩
          intro n hn
          rcases List.mem_append.1 hn with hn | hn
          · exact fun hlt => hbm n hn (Fl.lt_trans' hbx hlt)
          · rw [List.mem_singleton.1 hn]
            exact Fl.lt_irrefl' _
        · refine Or.inl ⟨b, ?_, hbn, ?_⟩
          · rw [hit, List.mem_append, List.mem_singleton] at hb
            rcases hb with hb | rfl
            · rcases List.mem_append.1 hb with hb | hb <;> simp [hb]
            · exfalso
              rcases Fl.lt_or_lt b.score hbn h3 with h5 | h5
              · exact hze h5
              · exact hbx h5
          · intro n hn
            rcases List.mem_append.1 hn with hn | hn
            · exact hbm n hn
            · rw [List.mem_singleton.1 hn]
              exact hbx
      · exact absurd (Fl.ne_nan_of_lt h3).1 (hall z (by rw [h1]; simp))
  | push h1 h2 =>
    refine ⟨?_, ?_, by rw [List.length_append, List.length_singleton]; push_cast; omega, ?_, ?_, ?_, ?_, ?_⟩
    · refine List.pairwise_append.2 ⟨h.desc, List.pairwise_singleton _ _, ?_⟩
      intro a ha b hb
      rw [List.mem_singleton.1 hb]
      exact h1 a ha
    · intro s
      rw [List.filter_append, List.filter_append]
      exact (h.stable s).append (List.Sublist.refl _)
    · simp only [List.length_append, List.length_singleton]
      intro hlt
      have := h.keep (by omega)
      push_cast
      omega
    · intro b hb hn
      by_cases h0 : items = []
      · rw [hnil h0] at hb
        rw [h0]
        exact hb
      · have := h.headNan b (hhead h0 b hb) hn
        rw [List.head?_append, this]
        rfl
    · intro b hb hn
      by_cases h0 : items = []
      · rw [hnil h0] at hb
        rw [h0]
        exact ⟨b, hb, hn⟩
      · obtain ⟨a, ha, han⟩ := h.headNum b (hhead h0 b hb) hn
        exact ⟨a, by rw [List.head?_append, ha]; rfl, han⟩
    · intro s hs hlt
      rw [hcs, copies_append, copies_single] at hlt
      have := h.missing s hs (by omega)
      have h5 := atLeast_sublist s (List.sublist_append_left items [x])
      rw [hcs]
      push_cast
      split <;> omega
    · rcases h.best with ⟨b, hb, hbn, hbm⟩ | ⟨htake, hall⟩
      · refine Or.inl ⟨b, by simp [hb], hbn, ?_⟩
        intro n hn
        rcases List.mem_append.1 hn with hn | hn
        · exact hbm n hn
        · rw [List.mem_singleton.1 hn]
          exact h1 b hb
      · have hlen : ns.length < M.toNat := by
          have := congrArg List.length htake
          rw [List.length_take] at this
          omega
        rw [List.take_of_length_le (by omega)] at htake
        subst htake
        by_cases hx : NumScore x
        · refine Or.inl ⟨x, by simp, hx, ?_⟩
          intro n hn
          rcases List.mem_append.1 hn with hn | hn
          · intro hlt
            exact hall n hn (Fl.ne_nan_of_lt hlt).2
          · rw [List.mem_singleton.1 hn]
            exact Fl.lt_irrefl' _
        · refine Or.inr ⟨?_, ?_⟩
          · rw [List.take_of_length_le]
            simp
            omega
          · intro a ha
            rcases List.mem_append.1 ha with ha | ha
            · exact hall a ha
            · rw [List.mem_singleton.1 ha]
              exact hx
  | full h1 h2 =>
    have hne : items ≠ [] := by
      rintro rfl
      simp at h2
      omega
    refine ⟨h.desc, fun s => (h.stable s).trans (hsub s), h.cap, fun _ => by omega, fun b hb hn => h.headNan b (hhead hne b hb) hn,
      fun b hb hn => h.headNum b (hhead hne b hb) hn, ?_, ?_⟩
    · intro s hs hlt
      rw [hcs] at hlt ⊢
      by_cases hx : x.score = s
      · have := atLeast_all (s := s) (l := items) (fun a ha _ hlt => h1 a ha (by rw [hx]; exact hlt))
        have h4 := h.nan_le
        push_cast
        omega
      · rw [if_neg hx] at hlt
        have := h.missing s hs (by omega)
        push_cast
        split <;> omega
    · rcases h.best with ⟨b, hb, hbn, hbm⟩ | ⟨htake, hall⟩
      · refine Or.inl ⟨b, hb, hbn, ?_⟩
        intro n hn
        rcases List.mem_append.1 hn with hn | hn
        · exact hbm n hn
        · rw [List.mem_singleton.1 hn]
          exact h1 b hb
      · refine Or.inr ⟨?_, hall⟩
        have hlen : M.toNat ≤ ns.length := by
          have := congrArg List.length htake
          rw [List.length_take] at this
          omega
        rw [List.take_append_of_le_length hlen]
        exact htake

theorem insertAll_nan {M : Int} (hM : 2 ≤ M) {ns : List (Node (Fl K))} {h : Highscore (Fl K)}
    (hi : (newHighscore M).insertAll ns = some h) : NanInv M ns h.items := by
  induction ns using List.reverseRec generalizing h with
  | nil =>
    simp only [Highscore.insertAll, List.foldlM_nil, newHighscore, pure, Option.some.injEq] at hi
    subst hi
    exact NanInv.nil hM
  | append_singleton ns x ih =>
    rw [insertAll_snoc] at hi
    cases hm : (newHighscore M).insertAll ns with
    | none => simp [hm] at hi
    | some h0 =>
      rw [hm, Option.bind_some] at hi
      have := insert_any hi
      rw [insertAll_maxItems hm] at this
      exact (ih hm).step hM this

end GoSelect
