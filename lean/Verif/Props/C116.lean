import Verif.Proofs.LinkedSteps
import Mathlib.Algebra.Order.Ring.Int

/-!
# C116: reading the highscore list while the search inserts into it
-/

namespace GoSelect

open Spec

variable {α : Type} [LinearOrder α]

/-- The lists of a moment: the one with all nodes inserted so far, and within an insertion also the one before it. -/
def Spec.AtMoment (maxItems : Int) (c : LConf α) (hs : Highscore α) : Prop :=
  listAfter maxItems c.log = some hs ∨ (c.pending ≠ [] ∧ listAfter maxItems c.log.dropLast = some hs)

theorem busy_pending {ws : List (LWrite α)} {k : Nat} (hk : k < ws.length) : ws.drop k ≠ [] := by
  intro h
  have := congrArg List.length h
  simp only [List.length_drop, List.length_nil] at this
  omega

theorem items_ne {m : LMem α} {as : List Nat} {hs : Highscore α} (hi : as.map m.val = hs.items.map some) :
    as ≠ [] ↔ hs.items ≠ [] := by
  have := congrArg List.length hi
  simp only [List.length_map] at this
  rw [← List.length_pos_iff, ← List.length_pos_iff, this]

/-- A list whose length is not 0 is not empty at this moment. -/
theorem len_full {maxItems : Int} (hmax : 2 ≤ maxItems) {c : LConf α} (h : LInv maxItems c) (hl : c.mem.len ≠ 0) {hs : Highscore α}
    (hs' : AtMoment maxItems c hs) : hs.items ≠ [] := by
  cases h.mid with
  | @idle as hs0 hp hlog hm hr hi =>
    rcases hs' with h1 | ⟨h1, -⟩
    · rw [hlog, Option.some.injEq] at h1
      subst h1
      rw [← items_ne hi, ← List.length_pos_iff, ← hr.len]
      omega
    · exact absurd hp h1
  | @busy m as as' ws k node log hs0 hs1 hlog hl0 hm hr hi hins hm' hshape hr' hi' hk hmem hp =>
    have hne : hs0.items ≠ [] := by
      rw [← items_ne hi]
      rcases shape_len hshape hk with h1 | ⟨h1, -⟩
      · rw [← hmem, hr.len] at h1
        rw [← List.length_pos_iff]
        omega
      · exact h1
    have hlast := listAfter_concat hl0 hins
    rw [← hlog] at hlast
    rcases hs' with h1 | ⟨-, h1⟩
    · rw [hlast, Option.some.injEq] at h1
      subst h1
      exact insert_nonempty (by rw [hm]; exact hmax) hne hins
    · rw [hlog, List.dropLast_concat, hl0, Option.some.injEq] at h1
      subst h1
      exact hne

/-- This stays so. -/
theorem full_steps {maxItems : Int} (hmax : 2 ≤ maxItems) {c d : LConf α} (h : LInv maxItems c) (hs : LSteps maxItems c d)
    (hf : ∀ hs, AtMoment maxItems c hs → hs.items ≠ []) : ∀ hs, AtMoment maxItems d hs → hs.items ≠ [] := by
  induction hs with
  | refl => exact hf
  | @tail d e hcd hde ih =>
    have hd := h.steps hmax hcd
    cases hde with
    | @start m log node ws hins =>
      cases hd.mid with
      | @idle as hs0 hp hlog hm hr hi =>
        obtain ⟨ws', as', hs', r1, r2, r3, r4, r5, r6⟩ := insert_refines hr hs0 hi (by rw [hm]; exact hmax) node
        have hne := ih hs0 (Or.inl hlog)
        rintro hs1 (h1 | ⟨-, h1⟩)
        · change listAfter maxItems (log ++ [node]) = some hs1 at h1
          rw [listAfter_concat hlog r2, Option.some.injEq] at h1
          subst h1
          exact insert_nonempty (by rw [hm]; exact hmax) hne r2
        · change listAfter maxItems (log ++ [node]).dropLast = some hs1 at h1
          rw [List.dropLast_concat] at h1
          exact ih hs1 (Or.inl h1)
      | busy _ _ _ _ _ _ _ _ _ _ hk _ hp => exact absurd hp.symm (busy_pending hk)
    | @write m log w ws =>
      rintro hs1 (h1 | ⟨-, h1⟩)
      · exact ih hs1 (Or.inl h1)
      · exact ih hs1 (Or.inr ⟨by simp, h1⟩)

theorem head_val {m : LMem α} {as : List Nat} {hs : Highscore α} (hr : Repr m as) (hi : as.map m.val = hs.items.map some)
    (hne : hs.items ≠ []) : ∃ v, as.headD 0 ≠ 0 ∧ m.val (as.headD 0) = some v ∧ hs.items.head? = some v := by
  cases as with
  | nil => exact absurd rfl ((items_ne hi).2 hne)
  | cons a t =>
    cases hx : hs.items with
    | nil => exact absurd hx hne
    | cons v xs =>
      rw [hx, List.map_cons, List.map_cons] at hi
      exact ⟨v, hr.ne List.mem_cons_self, (List.cons.inj hi).1, rfl⟩

/-- The root points to the first node of a list of the moment. -/
theorem root_moment {maxItems : Int} {c : LConf α} (h : LInv maxItems c)
    (hf : ∀ hs, AtMoment maxItems c hs → hs.items ≠ []) :
    ∃ e v hs, c.mem.next 0 = some e ∧ e ≠ 0 ∧ c.mem.val e = some v ∧ AtMoment maxItems c hs ∧ hs.items.head? = some v := by
  cases h.mid with
  | @idle as hs0 hp hlog hm hr hi =>
    obtain ⟨v, h1, h2, h3⟩ := head_val hr hi (hf hs0 (Or.inl hlog))
    exact ⟨_, v, hs0, head_next hr, h1, h2, Or.inl hlog, h3⟩
  | @busy m as as' ws k node log hs0 hs1 hlog hl0 hm hr hi hins hm' hshape hr' hi' hk hmem hp =>
    have hb : AtMoment maxItems c hs0 :=
      Or.inr ⟨by rw [hp]; exact busy_pending hk, by rw [hlog, List.dropLast_concat]; exact hl0⟩
    have ha : AtMoment maxItems c hs1 := Or.inl (by rw [hlog]; exact listAfter_concat hl0 hins)
    rcases shape_root hr hshape hr' k with h1 | h1
    · rw [← hmem, head_next hr] at h1
      obtain ⟨v, g1, g2, g3⟩ := head_val hr hi (hf hs0 hb)
      refine ⟨_, v, hs0, h1, g1, ?_, hb, g3⟩
      have hlt : as.headD 0 < m.fresh := by
        cases as with
        | nil => exact absurd rfl g1
        | cons a t => exact hr.lt a List.mem_cons_self
      rw [hmem, runs_val _ hlt]
      exact g2
    · rw [← hmem, head_next hr'] at h1
      obtain ⟨v, g1, g2, g3⟩ := head_val hr' hi' (hf hs1 ha)
      obtain ⟨hlt, hw⟩ := h.mono.link 0 _ h1
      refine ⟨_, v, hs1, h1, g1, ?_, ha, g3⟩
      have hsplit : m.runs ws = c.mem.runs (ws.drop k) := by
        rw [hmem, ← runs_append, List.take_append_drop]
      rw [hsplit, runs_val _ hlt] at g2
      exact g2

/-- `BestScore`, called while the search inserts any number of nodes, returns the best score of a list that the search
had at some moment during the call. -/
theorem C116_best [Zero α] {maxItems : Int} (hmax : 2 ≤ maxItems) {c c' : LConf α} (hc : LSteps maxItems newConf c)
    {r : Option α} (h : ReadBest (LSteps maxItems) c c' r) :
    ∃ d hs, LSteps maxItems c d ∧ LSteps maxItems d c' ∧ AtMoment maxItems d hs ∧ r = some hs.bestScore := by
  have hinv := (LInv.new (α := α) maxItems).steps hmax hc
  have front : ∀ {d : LConf α}, LSteps maxItems c d → d.mem.len ≠ 0 → LSteps maxItems d c' →
      ∃ e v hs, c'.mem.next 0 = some e ∧ e ≠ 0 ∧ c'.mem.val e = some v ∧ AtMoment maxItems c' hs ∧
        hs.items.head? = some v := by
    intro d h1 h0 h2
    have hd := hinv.steps hmax h1
    exact root_moment (hd.steps hmax h2) (full_steps hmax hd h2 (fun hs => len_full hmax hd h0))
  cases h with
  | empty h1 h0 =>
    have hi := hinv.steps hmax h1
    cases hi.mid with
    | @idle as hs0 hp hlog hm hr him =>
      refine ⟨c', hs0, h1, .refl, Or.inl hlog, ?_⟩
      have : hs0.items = [] := by
        by_contra hne
        have := List.length_pos_iff.2 ((items_ne him).2 hne)
        rw [← hr.len] at this
        omega
      unfold Highscore.bestScore
      rw [this]
    | @busy m as as' ws k node log hs0 hs1 hlog hl0 hm hr him hins hm' hshape hr' hi' hk hmem hp =>
      refine ⟨c', hs0, h1, .refl,
        Or.inr ⟨by rw [hp]; exact busy_pending hk, by rw [hlog, List.dropLast_concat]; exact hl0⟩, ?_⟩
      have : hs0.items = [] := by
        by_contra hne
        have h3 := List.length_pos_iff.2 ((items_ne him).2 hne)
        rcases shape_len hshape hk with h2 | ⟨-, h2⟩
        · rw [← hmem, hr.len] at h2; omega
        · rw [← hmem] at h2; omega
      unfold Highscore.bestScore
      rw [this]
  | nil h1 h0 h2 hn =>
    obtain ⟨e, v, hs, g1, -⟩ := front h1 h0 h2
    rw [hn] at g1; cases g1
  | @front d e h1 h0 h2 hn =>
    obtain ⟨e', v, hs, g1, -, g3, g4, g5⟩ := front h1 h0 h2
    rw [hn, Option.some.injEq] at g1
    subst g1
    refine ⟨c', hs, h1.trans h2, .refl, g4, ?_⟩
    rw [g3, Option.map_some]
    unfold Highscore.bestScore
    cases hx : hs.items with
    | nil => rw [hx] at g5; cases g5
    | cons a t => rw [hx] at g5; cases g5; rfl

/-- `Len` returns the length of a list of the moment, or one more than the length of one that is not empty (before the
last element is removed); it is 0 only if a list of the moment is empty. -/
theorem C116_len {maxItems : Int} (hmax : 2 ≤ maxItems) {c : LConf α} (hc : LSteps maxItems newConf c) :
    ∃ hs, AtMoment maxItems c hs ∧ (c.mem.len = hs.len ∨ (0 < hs.len ∧ c.mem.len = hs.len + 1)) := by
  have hinv := (LInv.new (α := α) maxItems).steps hmax hc
  cases hinv.mid with
  | @idle as hs0 hp hlog hm hr hi =>
    refine ⟨hs0, Or.inl hlog, Or.inl ?_⟩
    have := congrArg List.length hi
    simp only [List.length_map] at this
    rw [hr.len]; exact this
  | @busy m as as' ws k node log hs0 hs1 hlog hl0 hm hr hi hins hm' hshape hr' hi' hk hmem hp =>
    have hl : m.len = hs0.len := by
      have := congrArg List.length hi
      simp only [List.length_map] at this
      rw [hr.len]; exact this
    refine ⟨hs0, Or.inr ⟨by rw [hp]; exact busy_pending hk, by rw [hlog, List.dropLast_concat]; exact hl0⟩, ?_⟩
    rw [hmem, ← hl]
    rcases shape_len hshape hk with h | ⟨h0, h⟩
    · exact Or.inl h
    · refine Or.inr ⟨?_, h⟩
      rw [hr.len]; exact List.length_pos_iff.2 h0

/-- The scores do not rise along the list. -/
def Spec.Falling (items : List (Node α)) : Prop := items.Pairwise (fun a b => b.score ≤ a.score)

theorem items_sound {maxItems : Int} (hmax : 2 ≤ maxItems) {n : Nat} {c c' : LConf α} {cur : Option Nat} {data : List (Node α)}
    {r : Saved α} (h : ReadItems (LSteps maxItems) n c cur data c' r) (hinv : LInv maxItems c) (hlen : data.length ≤ n)
    (hf : Falling data) (hlog : ∀ v ∈ data, v ∈ c.log)
    (hcur : ∀ e, cur = some e → e ≠ 0 ∧ ∃ v, c.mem.val e = some v ∧ ∀ u ∈ data, v.score ≤ u.score) :
    ∀ out, r = .slice out → ∃ items : List (Node α), out = items.map some ++ List.replicate (n - items.length) none ∧
      items.length ≤ n ∧ Falling items ∧ ∀ v ∈ items, v ∈ c'.log := by
  induction h with
  | @done c data => rintro out ⟨⟩; exact ⟨data, rfl, hlen, hf, hlog⟩
  | nil => rintro out ⟨⟩
  | full => rintro out ⟨⟩
  | @unlinked c c1 c2 c' e v data r hv hn h1 h2 hl h ih =>
    obtain ⟨he0, w, hw, hle⟩ := hcur e rfl
    rw [hv] at hw; cases hw
    have h12 := h1.trans h2
    refine ih (hinv.steps hmax h12) (by simp; omega) (List.pairwise_append.2 ⟨hf, by simp, by simpa using hle⟩) ?_ ?_
    · intro u hu
      rcases List.mem_append.1 hu with hu | hu
      · exact steps_log h12 u (hlog u hu)
      · cases List.mem_singleton.1 hu
        exact steps_log h12 _ (hinv.logged e _ hv)
    · intro _ h; cases h
  | removed => rintro out ⟨⟩
  | @next c c1 c2 c3 c' e v data r hv hn h1 h2 hl h3 hl' h ih =>
    obtain ⟨he0, w, hw, hle⟩ := hcur e rfl
    rw [hv] at hw; cases hw
    have h13 := (h1.trans h2).trans h3
    refine ih (hinv.steps hmax h13) (by simp; omega) (List.pairwise_append.2 ⟨hf, by simp, by simpa using hle⟩) ?_ ?_
    · intro u hu
      rcases List.mem_append.1 hu with hu | hu
      · exact steps_log h13 u (hlog u hu)
      · cases List.mem_singleton.1 hu
        exact steps_log h13 _ (hinv.logged e _ hv)
    · intro b hb
      split at hb
      · cases hb
      rename_i hb0
      have hi1 := hinv.steps hmax h1
      obtain ⟨hlt, hw⟩ := hi1.mono.link e b hb
      have hbne : b ≠ 0 := by rintro rfl; exact hb0 hb
      obtain ⟨w, hw1, hw2⟩ := hw hbne
      have he := hinv.mono.val e v hv
      obtain ⟨v', g1, g2⟩ := hw2 he0
      rw [(steps_val h1 he).2, hv] at g1
      cases g1
      refine ⟨hbne, w, by rw [(steps_val (h2.trans h3) hlt).2]; exact hw1, ?_⟩
      intro u hu
      rcases List.mem_append.1 hu with hu | hu
      · exact g2.trans (hle u hu)
      · cases List.mem_singleton.1 hu
        exact g2

/-- Partial: what `MarshalJSON` saves while the search inserts.  If it does not panic, then it saves nodes that were
inserted, sorted by score, perhaps followed by null entries.  Missing: that it does not panic, that there are no null
entries, and that the nodes are those of a list the search had (`C116_refuted`). -/
theorem C116_saved_partial {maxItems : Int} (hmax : 2 ≤ maxItems) {c c' : LConf α} (hc : LSteps maxItems newConf c)
    {out : List (Option (Node α))} (h : ReadAll (LSteps maxItems) c c' (.slice out)) :
    ∃ (items : List (Node α)) (k : Nat), out = items.map some ++ List.replicate k none ∧ Falling items ∧
      ∀ v ∈ items, v ∈ c'.log := by
  have hinv := (LInv.new (α := α) maxItems).steps hmax hc
  cases h with
  | empty h1 h2 h0 h =>
    obtain ⟨items, g1, -, g2, g3⟩ := items_sound hmax h (hinv.steps hmax (h1.trans h2)) (by simp) List.Pairwise.nil (by simp)
      (by simp) out rfl
    exact ⟨items, _, g1, g2, g3⟩
  | front h1 h2 h0 h3 h =>
    have hi2 := hinv.steps hmax (h1.trans h2)
    have hi3 := hi2.steps hmax h3
    obtain ⟨e, v, hs, r1, r0, r2, -⟩ := root_moment hi3 (full_steps hmax hi2 h3 (fun hs => len_full hmax hi2 h0))
    obtain ⟨items, g1, -, g2, g3⟩ := items_sound hmax h hi3 (by simp) List.Pairwise.nil (by simp)
      (fun e' he => by rw [r1] at he; cases he; exact ⟨r0, v, r2, by simp⟩) out rfl
    exact ⟨items, _, g1, g2, g3⟩

theorem quiet_items {c : LConf α} {n : Nat} (rest : List Nat) (xs data : List (Node α))
    (hseg : ∀ e t, rest = e :: t → Seg c.mem e (t ++ [0])) (hne : ∀ a ∈ rest, a ≠ 0) (hl : ∀ a ∈ rest, c.mem.list a = true)
    (hv : rest.map c.mem.val = xs.map some) (hlen : data.length + xs.length = n) :
    ReadItems Eq n c rest.head? data c (.slice ((data ++ xs).map some)) ∧
      ∀ c' r, ReadItems Eq n c rest.head? data c' r → c' = c ∧ r = .slice ((data ++ xs).map some) := by
  induction rest generalizing xs data with
  | nil =>
    cases xs with
    | cons x xs => simp at hv
    | nil =>
      simp only [List.length_nil, Nat.add_zero] at hlen
      have key : Saved.slice ((data ++ []).map some) =
          Saved.slice (data.map some ++ List.replicate (n - data.length) none) := by
        rw [hlen]; simp
      rw [key]
      refine ⟨.done, fun c' r h => ?_⟩
      cases h
      exact ⟨rfl, rfl⟩
  | cons e t ih =>
    cases xs with
    | nil => simp at hv
    | cons x xs =>
      rw [List.map_cons, List.map_cons, List.cons.injEq] at hv
      have hnext : (if c.mem.next e = some 0 then none else c.mem.next e) = t.head? := by
        have := hseg e t rfl
        cases t with
        | nil => rw [if_pos this.1]; rfl
        | cons b t =>
          rw [this.1, if_neg]
          · rfl
          · intro h
            cases h
            exact hne 0 (by simp) rfl
      have hle := hl e List.mem_cons_self
      simp only [List.length_cons] at hlen
      obtain ⟨g1, g2⟩ := ih xs (data ++ [x]) (by
        rintro b t' rfl
        exact (hseg e _ rfl).2.2) (fun a ha => hne a (List.mem_cons_of_mem _ ha))
        (fun a ha => hl a (List.mem_cons_of_mem _ ha)) hv.2 (by simp; omega)
      rw [show data ++ x :: xs = data ++ [x] ++ xs by simp]
      refine ⟨.next hv.1 (by omega) rfl rfl hle rfl hle (by rw [hnext]; exact g1), fun c' r h => ?_⟩
      change ReadItems Eq n c (some e) data c' r at h
      cases h with
      | nil h => rw [hv.1] at h; cases h
      | full h => omega
      | unlinked _ _ h1 h2 h => subst h1 h2; rw [hle] at h; cases h
      | removed _ _ h1 h2 _ h3 h => subst h1 h2 h3; rw [hle] at h; cases h
      | next hv' _ h1 h2 _ h3 _ h =>
        subst h1 h2 h3
        rw [hv.1, Option.some.injEq] at hv'
        subst hv'
        rw [hnext] at h
        exact g2 _ _ h

/-- While no insertion runs, `MarshalJSON` saves exactly the items of the list. -/
theorem C116_quiet {maxItems : Int} (hmax : 2 ≤ maxItems) {c : LConf α} (hc : LSteps maxItems newConf c)
    (hq : c.pending = []) : ∃ hs, listAfter maxItems c.log = some hs ∧ ReadAll Eq c c (.slice (hs.items.map some)) ∧
      ∀ c' r, ReadAll Eq c c' r → r = .slice (hs.items.map some) := by
  have hinv := (LInv.new (α := α) maxItems).steps hmax hc
  cases hinv.mid with
  | @idle as hs0 hp hlog hm hr hi =>
    refine ⟨hs0, hlog, ?_⟩
    have hlen : as.length = hs0.items.length := by
      have := congrArg List.length hi
      simpa only [List.length_map] using this
    obtain ⟨g1, g2⟩ := quiet_items (c := c) (n := c.mem.len) as hs0.items [] (by
      rintro e t rfl
      exact hr.seg.2.2) (fun a ha => hr.ne ha) hr.list hi (by rw [hr.len, hlen]; simp)
    rw [List.nil_append] at g1 g2
    by_cases h0 : c.mem.len = 0
    · have has : as = [] := List.length_eq_zero_iff.1 (hr.len.symm.trans h0)
      subst has
      refine ⟨.empty rfl rfl h0 g1, fun c' r h => ?_⟩
      cases h with
      | empty h1 h2 _ h => subst h1 h2; exact (g2 _ _ h).2
      | front h1 h2 h _ _ => subst h1 h2; exact absurd h0 h
    · have hh : c.mem.next 0 = as.head? := by
        rw [head_next hr]
        cases as with
        | nil => exact absurd hr.len h0
        | cons a t => rfl
      refine ⟨.front rfl rfl h0 rfl (by rw [hh]; exact g1), fun c' r h => ?_⟩
      cases h with
      | empty h1 h2 h _ => subst h1 h2; exact absurd h h0
      | front h1 h2 _ h3 h => subst h1 h2 h3; rw [hh] at h; exact (g2 _ _ h).2
  | busy _ _ _ _ _ _ _ _ _ _ hk _ hp => exact absurd (hp.symm.trans hq) (busy_pending hk)

theorem steps_prefix {maxItems : Int} {c d : LConf α} (hs : LSteps maxItems c d) : ∃ l, d.log = c.log ++ l := by
  induction hs with
  | refl => exact ⟨[], by simp⟩
  | tail _ hs ih =>
    obtain ⟨l, hl⟩ := ih
    cases hs with
    | @start _ _ node => exact ⟨l ++ [node], by rw [← List.append_assoc, ← hl]⟩
    | write => exact ⟨l, hl⟩

theorem LSteps.writes {maxItems : Int} {log : List (Node α)} {rest : List (LWrite α)} (ws : List (LWrite α)) :
    ∀ m : LMem α, LSteps maxItems ⟨m, ws ++ rest, log⟩ ⟨m.runs ws, rest, log⟩ := by
  induction ws with
  | nil => exact fun m => .refl
  | cons w ws ih => exact fun m => LSteps.trans (.tail .refl .write) (ih _)

theorem LSteps.inserts {maxItems : Int} {log : List (Node α)} {m : LMem α} {node : Node α} (ws rest : List (LWrite α))
    (h : m.insert maxItems node = some (ws ++ rest)) :
    LSteps maxItems ⟨m, [], log⟩ ⟨m.runs ws, rest, log ++ [node]⟩ :=
  LSteps.trans (.tail .refl (.start h)) (.writes ws m)

/-- No insertion panics, and the list in memory stays the one that the insertions demand: the search can always insert
the next node, whatever it is. -/
theorem C116_insert {maxItems : Int} (hmax : 2 ≤ maxItems) {c : LConf α} (hc : LSteps maxItems newConf c)
    (hq : c.pending = []) (node : Node α) :
    ∃ ws hs hs', c.mem.insert maxItems node = some ws ∧ LSteps maxItems c ⟨c.mem.runs ws, [], c.log ++ [node]⟩ ∧
      listAfter maxItems c.log = some hs ∧ hs.insert node = some hs' ∧ listAfter maxItems (c.log ++ [node]) = some hs' := by
  have hinv := (LInv.new (α := α) maxItems).steps hmax hc
  cases hinv.mid with
  | @idle as hs0 hp hlog hm hr hi =>
    obtain ⟨ws, as', hs', r1, r2, -⟩ := insert_refines hr hs0 hi (by rw [hm]; exact hmax) node
    rw [hm] at r1
    refine ⟨ws, hs0, hs', r1, ?_, hlog, r2, listAfter_concat hlog r2⟩
    have : c = ⟨c.mem, [], c.log⟩ := by cases c; cases hq; rfl
    have h2 := LSteps.inserts (log := c.log) ws [] (by rw [List.append_nil]; exact r1)
    rw [← this] at h2
    exact h2
  | busy _ _ _ _ _ _ _ _ _ _ hk _ hp => exact absurd (hp.symm.trans hq) (busy_pending hk)

/-! ## Torn files -/

namespace C116

/-- A node with the given score. -/
def nd (s : Int) : Node Int := ⟨[], [], 0, 0, 0, s, false⟩

/-- The writes that insert node `v` at the new address `e` between `a` and `b`. -/
def link (v : Node Int) (e a b : Nat) : List (LWrite Int) :=
  [.alloc v, .prev e (some a), .next e (some b), .next a (some e)]

def rest (e b len : Nat) : List (LWrite Int) := [.prev b (some e), .list e true, .len len]

def m1 : LMem Int := newList.runs (link (nd 5) 1 0 0 ++ rest 1 0 1)

/-- The list 5. -/
def one : LConf Int := ⟨m1, [], [nd 5]⟩

theorem one_reach : LSteps 10 newConf one := LSteps.inserts _ [] (by rw [List.append_nil]; rfl)

def m2 : LMem Int := m1.runs (link (nd 3) 2 1 0 ++ rest 2 0 2)

/-- The list 5, 3. -/
def two : LConf Int := ⟨m2, [], [nd 5, nd 3]⟩

theorem one_two : LSteps 10 one two := LSteps.inserts _ [] (by rw [List.append_nil]; rfl)

/-- While 7 is inserted in front of 5. -/
def three : LConf Int := ⟨m1.runs (link (nd 7) 2 0 1), rest 2 1 2, [nd 5, nd 7]⟩

theorem one_three : LSteps 10 one three := LSteps.inserts _ _ rfl

/-- While 7 is inserted in front of 5, 3. -/
def four : LConf Int := ⟨m2.runs (link (nd 7) 3 0 1), rest 3 1 3, [nd 5, nd 3, nd 7]⟩

theorem two_four : LSteps 10 two four := LSteps.inserts _ _ rfl

theorem torn : ReadAll (LSteps 10) two four (.slice [some (nd 7), none]) :=
  .front .refl .refl (by decide) two_four (.unlinked (v := nd 7) rfl (by decide) .refl .refl rfl .done)

end C116

open C116 in
/-- Saving the list while the search inserts may panic, may save null entries, and may save a list that the search never
had. -/
theorem C116_refuted :
    (∃ c c' : LConf Int, LSteps 10 newConf c ∧ ReadAll (LSteps 10) c c' .panic) ∧
      (∃ (c c' : LConf Int) (v : Node Int), LSteps 10 newConf c ∧ ReadAll (LSteps 10) c c' (.slice [some v, none])) ∧
      ∃ (c c' : LConf Int) (items : List (Node Int)), LSteps 10 newConf c ∧
        ReadAll (LSteps 10) c c' (.slice (items.map some)) ∧
        ∀ d hs, LSteps 10 c d → LSteps 10 d c' → AtMoment 10 d hs → hs.items ≠ items := by
  refine ⟨⟨one, two, one_reach, ?_⟩, ⟨two, four, nd 7, one_reach.trans one_two, ?_⟩, one, three, [nd 7], one_reach, ?_, ?_⟩
  · exact .front .refl .refl (by decide) .refl (.next (v := nd 5) rfl (by decide) one_two .refl rfl .refl rfl (.full (by decide)))
  · exact torn
  · exact .front .refl .refl (by decide) one_three (.unlinked (v := nd 7) rfl (by decide) .refl .refl rfl .done)
  · rintro d hs h1 h2 h
    obtain ⟨l, hl⟩ := steps_prefix h1
    obtain ⟨l', hl'⟩ := steps_prefix h2
    change d.log = [nd 5] ++ l at hl
    change [nd 5, nd 7] = d.log ++ l' at hl'
    have hcase : d.log = [nd 5] ∨ d.log = [nd 5, nd 7] := by
      rw [hl] at hl' ⊢
      cases l with
      | nil => exact Or.inl rfl
      | cons x l =>
        simp only [List.cons_append, List.nil_append, List.cons.injEq, true_and] at hl'
        obtain ⟨rfl, h⟩ := hl'
        obtain ⟨h, -⟩ := List.append_eq_nil_iff.1 h.symm
        subst h
        exact Or.inr rfl
    have hlen : ∀ nodes, listAfter 10 nodes = some hs → (nodes = [] ∨ nodes = [nd 5] ∨ nodes = [nd 5, nd 7]) →
        hs.items ≠ [nd 7] := by
      rintro nodes hn (rfl | rfl | rfl)
      · have : hs.items = [] := by cases hn; rfl
        rw [this]; decide
      · have : hs.items = [nd 5] := by cases hn; rfl
        rw [this]; decide
      · have : hs.items = [nd 7, nd 5] := by cases hn; rfl
        rw [this]; decide
    rcases h with h | ⟨-, h⟩
    · exact hlen _ h (by tauto)
    · refine hlen _ h ?_
      rcases hcase with h | h <;> rw [h]
      · exact Or.inl rfl
      · exact Or.inr (Or.inl rfl)

section Examples

open C116

/-- `BestScore` within the insertion of 7 in front of 5, 3: the reader may see 7 before the insertion has ended. -/
example : ReadBest (LSteps 10) two four (some 7) := ReadBest.front (d := two) (e := 3) LSteps.refl (by decide) two_four rfl

/-- It may also see 5, at the beginning of the same insertion. -/
example : ReadBest (LSteps 10) two two (some 5) := ReadBest.front (d := two) (e := 1) LSteps.refl (by decide) LSteps.refl rfl

example : LSteps 10 newConf four ∧ four.pending ≠ [] := ⟨(one_reach.trans one_two).trans two_four, by decide⟩

/-- The whole list is saved when nothing is inserted. -/
example : ReadAll Eq two two (.slice [some (nd 5), some (nd 3)]) := by
  obtain ⟨hs, h1, h2, -⟩ := C116_quiet (by decide) (one_reach.trans one_two) rfl
  cases h1
  exact h2

/-- What the theorem on saved lists says of the file with a null entry. -/
example : ∃ (items : List (Node Int)) (k : Nat), [some (nd 7), none] = items.map some ++ List.replicate k none ∧
    Falling items ∧ ∀ v ∈ items, v ∈ four.log :=
  C116_saved_partial (by decide) (one_reach.trans one_two) torn

end Examples

end GoSelect
