import Verif.Props.C12_C13
import Mathlib.Algebra.Order.Field.Basic
import Mathlib.Algebra.Order.BigOperators.Group.List
import Mathlib.Data.Rat.Lemmas
import Mathlib.Algebra.Order.Ring.Rat
import Mathlib.Tactic.Linarith

/-! C17-C19: root model, cutoff and queue eviction of `SelectModel`. -/

namespace GoSelect

open Spec
open scoped List

/-! ### C17 -/

/-- A search started from the model `[false, true, false]`, which has the best criterion. -/
def rootSearch : Search Int := { exSearch with root := [false, true, false] }

/-- The claim is false: started from `[false, true, false]` (score -1), with valid bounds, no
overflow and no torn read, `SelectModel` returns a list whose best score is -5. -/
theorem C17_refuted : ValidBounds rootSearch ∧ RowSafe rootSearch ∧
    ∃ s, SelectReaches rootSearch 20 [] s ∧ s.main = .done ∧ s.torn = false ∧ s.overflows = 0 ∧
      s.hs.bestScore = -5 ∧ -aiccOf rootSearch rootSearch.root = -1 := by
  refine ⟨⟨fun p l m _ _ _ _ _ => ?_, fun m _ => ?_⟩, Or.inr (by decide), ?_⟩
  · simp only [aiccOf, rootSearch, exSearch]; split <;> decide
  · simp only [aiccOf, rootSearch, exSearch]; split <;> decide
  obtain ⟨s, h1, h2⟩ := sstart_ex (S := rootSearch) (M := 20)
    (match sinit rootSearch (newHighscore 20) with
      | some s => greedy rootSearch s 200
      | none => [])
    (fun s => decide (s.main = .done ∧ s.torn = false ∧ s.overflows = 0 ∧ s.hs.bestScore = -5))
    (by decide +kernel)
  obtain ⟨a, b, c, d⟩ := of_decide_eq_true h2
  exact ⟨s, h1, a, b, c, d, by decide⟩

/-- What happens instead, for all data sets, root models and schedules: the root model is never
put into the list. -/
theorem C17_root_never_listed {α : Type} [LinearOrder α] [Zero α] [Neg α] (S : Search α) (M : Int)
    (hM : M ≠ 1) (s : SState α) (h : SelectReaches S M [] s) :
    ∀ n ∈ s.hs.items, n.model ≠ S.root :=
  fun n hn => ((C13_each_model_once S M hM s h).2 n hn).2.1

/-- Full claim: `BestScore()` is at least the score of the root model.  Proved here under the
additional assumption that some other competing model is at least as good as the root model. -/
theorem C17_root_partial {α : Type} [LinearOrder α] [AddCommGroup α] [IsOrderedAddMonoid α]
    (S : Search α) (M : Int) (hM : 2 ≤ M) (pre : List (Node α))
    (hv : ValidBounds S) (hr : RowSafe S) (s : SState α) (h : SelectReaches S M pre s)
    (hd : s.main = .done) (ht : s.torn = false) (ho : s.overflows = 0)
    (hother : ∃ m, Candidate S m ∧ m ≠ S.root ∧ aiccOf S m ≤ aiccOf S S.root) :
    -aiccOf S S.root ≤ s.hs.bestScore := by
  obtain ⟨m, hc, hne, hle⟩ := hother
  exact (neg_le_neg hle).trans (C12_no_better_model S M hM pre hv hr s h hd ht ho m hc.1 hc.2.1
    hc.2.2 hne).2

example : ∃ m, Candidate { exSearch with root := [true, false, false] } m ∧
    m ≠ [true, false, false] ∧ aiccOf { exSearch with root := [true, false, false] } m ≤
      aiccOf { exSearch with root := [true, false, false] } [true, false, false] :=
  ⟨[false, true, false], by unfold Candidate; decide, by decide, by decide⟩

/-! ### C18 -/

section
variable {α : Type} [LinearOrder α] [Zero α] [Neg α]

/-- The cutoff has no effect whatsoever: all cutoffs give the same reachable states. -/
theorem C18_cutoff_ignored (S : Search α) (c : α) (M : Int) (pre : List (Node α)) (s : SState α) :
    SelectReaches { S with cutoff := c } M pre s ↔ SelectReaches S M pre s := by
  have hstep : ∀ (s : SState α) (a : Action),
      sstep { S with cutoff := c } s a = sstep S s a := fun s a => by cases a <;> rfl
  have hreach : ∀ s₀ s : SState α, SReach { S with cutoff := c } s₀ s ↔ SReach S s₀ s := by
    intro s₀ s
    constructor
    · intro h
      induction h with
      | init => exact .init
      | step a _ hs ih => exact .step a ih (by rw [← hstep]; exact hs)
    · intro h
      induction h with
      | init => exact .init
      | step a _ hs ih => exact .step a ih (by rw [hstep]; exact hs)
  unfold SelectReaches
  have hsinit : ∀ hs, sinit { S with cutoff := c } hs = sinit S hs := fun _ => rfl
  simp only [hreach, hsinit]

/-- Full claim: a node is pruned exactly when `lower_bound + cutoff` exceeds the best AICc.
Proved: the rule without the cutoff.  `CreateChild` returns nil exactly when the child has at least
as many features as there are rows, or the list is not empty and the child's lower bound exceeds
`-BestScore()`. -/
theorem C18_prune_rule_partial (S : Search α) (p : Node α) (flip : Bool) (h : Highscore α)
    (hp : p.level < p.model.length) :
    let m := if flip then p.model.set p.level (!p.model[p.level]) else p.model
    let lower := if 0 < card m then (S.bounds m (p.level + 1)).1 else -S.huge
    (createChild S p flip h = some none ↔
      S.nrows ≤ card m ∨ (0 < h.len ∧ -h.bestScore < lower)) := by
  have hget : getChildNode p flip = some
      { model := if flip then p.model.set p.level (!p.model[p.level]) else p.model, coeff := []
        level := p.level + 1, lower := 0, upper := 0, score := 0, wasFlipped := flip } := by
    cases flip with
    | false => rw [getChildNode_false]; rfl
    | true =>
      rw [getChildNode_true _ hp]
      simp [flipAt, List.modify_eq_set_getElem?, hp]
  simp only
  generalize (if flip then p.model.set p.level (!p.model[p.level]) else p.model) = m at hget
  unfold createChild boundedChild
  rw [hget]
  simp only [numFeatures_eq_card]
  by_cases h1 : card m < S.nrows
  · by_cases h2 : 0 < card m
    · simp only [h1, h2, if_true]
      by_cases h3 : -h.bestScore < (S.bounds m (p.level + 1)).1 ∧ 0 < h.len
      · simp [h3]
      · rw [if_neg h3]
        simp only [Option.some.injEq, reduceCtorEq, false_iff, not_or, not_le]
        exact ⟨h1, fun hc => h3 ⟨hc.2, hc.1⟩⟩
    · simp only [h1, h2, if_true, if_false]
      by_cases h3 : -h.bestScore < -S.huge ∧ 0 < h.len
      · simp [h3]
      · rw [if_neg h3]
        simp only [Option.some.injEq, reduceCtorEq, false_iff, not_or, not_le]
        exact ⟨h1, fun hc => h3 ⟨hc.2, hc.1⟩⟩
  · simp only [h1, if_false]
    simp
    omega

end

/-- A list holding one node with score -3. -/
def oneItem : Highscore Int :=
  { items := [{ model := [true, false, false], coeff := [1], level := 1, lower := 1, upper := 5,
                score := -3, wasFlipped := true }], maxItems := 20 }

/-- The documented rule is false: with cutoff 10 the child `[true, false, false]` has lower bound
1 and 1 + 10 > 3 = best AICc, but it is not pruned. -/
theorem C18_refuted :
    let S := { exSearch with cutoff := 10 }
    (S.bounds [true, false, false] 1).1 + S.cutoff > -oneItem.bestScore ∧
    ∃ c, createChild S (newNode 0 [false, false, false]) true oneItem = some (some c) :=
  ⟨by decide, ⟨_, rfl⟩⟩

/-- A child that is pruned and one that is not. -/
example : createChild { exSearch with bounds := fun _ _ => (4, 5) }
      (newNode 0 [false, false, false]) true oneItem = some none ∧
    (createChild exSearch (newNode 0 [false, false, false]) true oneItem).isSome = true := by decide

/-! ### C19 -/

section
variable {K : Type} [Field K] [LinearOrder K] [IsStrictOrderedRing K]

/-- Sum over number, as `RemoveLeastPromising` computes it (optimize.go:292-296). -/
def meanOf (l : List K) : K := l.sum / l.length

theorem sum_le_card_mul {l : List K} {c : K} (h : ∀ x ∈ l, c < x) (hne : l ≠ []) :
    c * l.length < l.sum := by
  induction l with
  | nil => exact absurd rfl hne
  | cons x l ih =>
    have hx := h x (by simp)
    by_cases hl : l = []
    · subst hl; simpa using hx
    · have := ih (fun y hy => h y (by simp [hy])) hl
      simp only [List.sum_cons, List.length_cons, Nat.cast_add, Nat.cast_one, mul_add, mul_one]
      linarith

theorem exists_le_mean {l : List K} (hne : l ≠ []) : ∃ x ∈ l, x ≤ meanOf l := by
  by_contra hc
  have hc' : ∀ x ∈ l, meanOf l < x := by
    intro x hx
    by_contra hle
    exact hc ⟨x, hx, not_lt.1 hle⟩
  have h := sum_le_card_mul hc' hne
  have hlen : (0 : K) < l.length := by exact_mod_cast List.length_pos_of_ne_nil hne
  unfold meanOf at h
  rw [div_mul_cancel₀ _ hlen.ne'] at h
  exact lt_irrefl _ h

theorem exists_gt_mean {l : List K} (h : ∃ x ∈ l, ∃ y ∈ l, x < y) : ∃ x ∈ l, meanOf l < x := by
  obtain ⟨a, ha, b, hb, hab⟩ := h
  by_contra hc
  have hc' : ∀ x ∈ l, x ≤ meanOf l := by
    intro x hx
    by_contra hle
    exact hc ⟨x, hx, not_le.1 hle⟩
  have hlt : a < meanOf l := lt_of_lt_of_le hab (hc' b hb)
  have hlen : (0 : K) < l.length := by exact_mod_cast List.length_pos_of_mem ha
  have key : ∀ (l : List K) (c : K), (∀ x ∈ l, x ≤ c) → l.sum ≤ c * l.length := by
    intro l c
    induction l with
    | nil => simp
    | cons x l ih =>
      intro h
      have h1 := ih (fun y hy => h y (by simp [hy]))
      have h2 := h x (by simp)
      simp only [List.sum_cons, List.length_cons, Nat.cast_add, Nat.cast_one, mul_add, mul_one]
      linarith
  have hlt2 : l.sum < meanOf l * l.length := by
    obtain ⟨l1, l2, rfl⟩ := List.append_of_mem ha
    have h1 := key l1 (meanOf (l1 ++ a :: l2)) (fun x hx => hc' x (by simp [hx]))
    have h2 := key l2 (meanOf (l1 ++ a :: l2)) (fun x hx => hc' x (by simp [hx]))
    simp only [List.sum_append, List.sum_cons, List.length_append, List.length_cons, Nat.cast_add,
      Nat.cast_one]
    linarith
  unfold meanOf at hlt2
  rw [div_mul_cancel₀ _ hlen.ne'] at hlt2
  exact lt_irrefl _ hlt2

/-- `RemoveLeastPromising` keeps the order and keeps exactly the nodes whose lower bound does not
exceed the mean of all lower bounds. -/
theorem C19_keeps_below_mean (q : List (Node K)) :
    removeLeastPromising meanOf q <+ q ∧
    ∀ n, n ∈ removeLeastPromising meanOf q ↔
      n ∈ q ∧ n.lower ≤ (q.map (·.lower)).sum / (q.length : K) := by
  refine ⟨List.filter_sublist, fun n => ?_⟩
  simp [removeLeastPromising, cleanQueue, meanOf]

/-- It never empties a non-empty queue. -/
theorem C19_not_emptied (q : List (Node K)) (hq : q ≠ []) : removeLeastPromising meanOf q ≠ [] := by
  obtain ⟨x, hx, hle⟩ := exists_le_mean (l := q.map (·.lower)) (by simpa using hq)
  obtain ⟨n, hn, rfl⟩ := List.mem_map.1 hx
  have : n ∈ removeLeastPromising meanOf q := by
    rw [(C19_keeps_below_mean q).2]
    exact ⟨hn, by simpa [meanOf] using hle⟩
  exact List.ne_nil_of_mem this

/-- Full claim: eviction brings the queue to at most `MaxQueueSize`.  Proved: it removes at least
one node if two lower bounds differ. -/
theorem C19_shrinks_partial (q : List (Node K)) (h : ∃ a ∈ q, ∃ b ∈ q, a.lower < b.lower) :
    (removeLeastPromising meanOf q).length < q.length := by
  obtain ⟨a, ha, b, hb, hab⟩ := h
  obtain ⟨x, hx, hlt⟩ := exists_gt_mean (l := q.map (·.lower))
    ⟨a.lower, List.mem_map_of_mem ha, b.lower, List.mem_map_of_mem hb, hab⟩
  obtain ⟨n, hn, rfl⟩ := List.mem_map.1 hx
  refine List.length_filter_lt_length_iff_exists.2 ⟨n, hn, ?_⟩
  simpa [meanOf] using hlt

/-- The claim is false: if all lower bounds are equal nothing is evicted, so the queue stays above
`MaxQueueSize` however small that is. -/
theorem C19_bound_refuted (q : List (Node K)) (c : K) (h : ∀ n ∈ q, n.lower = c) :
    removeLeastPromising meanOf q = q := by
  refine List.filter_eq_self.2 fun n hn => ?_
  have hmap : q.map (·.lower) = List.replicate q.length c := by
    rw [List.eq_replicate_iff]
    refine ⟨by simp, fun x hx => ?_⟩
    obtain ⟨n, hn, rfl⟩ := List.mem_map.1 hx
    exact h n hn
  have hlen : (q.length : K) ≠ 0 := by
    have := List.length_pos_of_mem hn
    exact_mod_cast this.ne'
  simp only [hmap, meanOf, List.sum_replicate, List.length_replicate, nsmul_eq_mul, h n hn]
  rw [mul_div_cancel_left₀ _ hlen]
  simp

end

/-- Node with a given lower bound. -/
def nodeWithLower (x : ℚ) : Node ℚ := { newNode 1 [true, false] with lower := x }

example : ((removeLeastPromising meanOf [nodeWithLower 3, nodeWithLower 1, nodeWithLower 8,
    nodeWithLower 2]).map (·.lower)) = [3, 1, 2] := by
  decide +kernel

end GoSelect
