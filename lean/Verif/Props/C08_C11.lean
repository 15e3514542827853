import Verif.Proofs.Highscore
import Verif.Model.Float
import Mathlib.Algebra.Order.Ring.Int

/-!
C08-C11: the highscore list, for every capacity and every insertion history.

`(newHighscore M).insertAll ns = some h` says that inserting the nodes `ns` one after the other
into a new list of capacity `M` did not panic and produced `h`.
-/

namespace GoSelect

open Spec
open scoped List

variable {α : Type} [LinearOrder α]

/-! ### C08 -/

/-- The scores of a list are never increasing. -/
theorem C08_sorted (M : Int) (ns : List (Node α)) (h : Highscore α)
    (hi : (newHighscore M).insertAll ns = some h) : h.scores.Pairwise (fun a b => b ≤ a) :=
  scoresOf_desc (insertAll_inv hi).2.desc

/-- Nodes of equal score are kept in the order in which they were inserted, and every kept node
was inserted (with multiplicity). -/
theorem C08_stable (M : Int) (ns : List (Node α)) (h : Highscore α)
    (hi : (newHighscore M).insertAll ns = some h) (s : α) :
    h.items.filter (fun n => n.score = s) <+ ns.filter (fun n => n.score = s) := by
  have := (insertAll_inv hi).2.sub.filter (fun n => n.score = s)
  rwa [ranking_filter] at this

/-! ### C09 -/

/-- The scores in the list are exactly the largest `Len()` scores ever inserted, in descending
order; something is missing only if the list holds at least `MaxItems - 1` nodes. -/
theorem C09_top_scores (M : Int) (ns : List (Node α)) (h : Highscore α)
    (hi : (newHighscore M).insertAll ns = some h) :
    h.scores = (((ranking ns).map (·.score)).take h.len) ∧
    (h.len < ns.length → M - 1 ≤ h.len) :=
  ⟨(insertAll_inv hi).2.sc, (insertAll_inv hi).2.keep⟩

/-- The kept nodes appear in the order of the stable descending sort of the history. -/
theorem C09_order (M : Int) (ns : List (Node α)) (h : Highscore α)
    (hi : (newHighscore M).insertAll ns = some h) : h.items <+ ranking ns :=
  (insertAll_inv hi).2.sub

/-- No inserted node that is missing from the list beats a node in the list. -/
theorem C09_dropped_not_better (M : Int) (ns : List (Node α)) (h : Highscore α)
    (hi : (newHighscore M).insertAll ns = some h) (a b : Node α)
    (ha : a ∈ ns) (hna : a ∉ h.items) (hb : b ∈ h.items) : a.score ≤ b.score := by
  have hinv := (insertAll_inv hi).2
  by_contra hlt
  rw [not_le] at hlt
  -- all nodes with a score above `b.score` are kept
  have hsub := hinv.sub.filter (fun n => b.score < n.score)
  have hd := scoresOf_desc (ranking_desc ns)
  have hlen : ((ranking ns).filter (fun n => b.score < n.score)).length
      ≤ (h.items.filter (fun n => b.score < n.score)).length := by
    have e1 : ((ranking ns).filter (fun n => b.score < n.score)).length
        = ((scoresOf (ranking ns)).filter (fun s => b.score < s)).length := by
      simp [scoresOf, List.filter_map, Function.comp_def]
    have e2 : (h.items.filter (fun n => b.score < n.score)).length
        = ((scoresOf h.items).filter (fun s => b.score < s)).length := by
      simp [scoresOf, List.filter_map, Function.comp_def]
    rw [e1, e2, hinv.sc]
    have hbm : b.score ∈ (scoresOf (ranking ns)).take h.items.length := by
      rw [← hinv.sc]; exact List.mem_map_of_mem hb
    have hsplit := List.take_append_drop h.items.length (scoresOf (ranking ns))
    have hdrop : ((scoresOf (ranking ns)).drop h.items.length).filter (fun s => b.score < s) = [] := by
      rw [List.filter_eq_nil_iff]
      intro s hs
      rw [DescS, ← hsplit, List.pairwise_append] at hd
      simpa using hd.2.2 _ hbm _ hs
    calc _ = (((scoresOf (ranking ns)).take h.items.length ++
              (scoresOf (ranking ns)).drop h.items.length).filter (fun s => b.score < s)).length := by
            rw [hsplit]
      _ ≤ _ := by rw [List.filter_append, hdrop, List.append_nil]
  have heq := hsub.eq_of_length_le hlen
  have : a ∈ (ranking ns).filter (fun n => b.score < n.score) := by
    simp [mem_ranking, ha, hlt]
  rw [← heq] at this
  exact hna (List.mem_filter.1 this).1

/-! ### C10 -/

/-- `Len()` never exceeds `MaxItems`, nor the number of insertions. -/
theorem C10_capacity (M : Int) (ns : List (Node α)) (h : Highscore α)
    (hi : (newHighscore M).insertAll ns = some h) :
    (h.len : Int) ≤ max M 0 ∧ h.len ≤ ns.length ∧ h.maxItems = M :=
  ⟨(insertAll_inv hi).2.cap, (insertAll_inv hi).2.le_hist, (insertAll_inv hi).1⟩

/-- If all inserted scores differ, the list never holds more than `MaxItems - 1` nodes
(so the effective capacity is one less than `MaxItems`). -/
theorem C10_effective_capacity (M : Int) (hM : 1 < M) (ns : List (Node α)) (h : Highscore α)
    (hd : (ns.map (·.score)).Nodup) (hi : (newHighscore M).insertAll ns = some h) :
    (h.len : Int) = min (M - 1) ns.length := by
  have main : (h.len : Int) ≤ M - 1 := by
    induction ns using List.reverseRec generalizing h with
    | nil =>
      simp only [Highscore.insertAll, List.foldlM_nil, newHighscore, pure, Option.some.injEq] at hi
      subst hi
      simp [Highscore.len]; omega
    | append_singleton ns x ih =>
      rw [insertAll_snoc] at hi
      cases hm : (newHighscore M).insertAll ns with
      | none => simp [hm] at hi
      | some h0 =>
        rw [hm, Option.bind_some] at hi
        have ⟨e1, e2⟩ := insertAll_inv hm
        have ⟨e3, e4⟩ := insert_effect hi
        rw [e1] at e4
        rw [List.map_append, List.nodup_append] at hd
        have ih := ih h0 hd.1 hm
        unfold Highscore.len at *
        generalize h'eq : h.items = items' at e4
        cases e4 with
        | reject => exact h'eq ▸ ih
        | place h1 h2 => rw [ins_length]; push_cast; omega
        | replace h1 h2 => simpa [ins_length] using ih
        | push h1 h2 h3 =>
          by_cases hc : (h0.items.length : Int) = M - 1
          · obtain ⟨last, f1, f2⟩ := h3 hc
            have hl : last ∈ ns := mem_ranking.1 (e2.sub.subset (List.mem_of_getLast? f1))
            exact absurd f2 (hd.2.2 last.score (List.mem_map_of_mem hl) x.score (by simp))
          · simp only [List.length_append, List.length_singleton]; push_cast; omega
        | full => exact h'eq ▸ ih
  have h1 := (insertAll_inv hi).2.keep
  have h2 := (insertAll_inv hi).2.le_hist
  unfold Highscore.len at *
  by_cases hc : h.items.length < ns.length
  · have := h1 hc; omega
  · omega

/-- `Insert` never shrinks the list and keeps the capacity. -/
theorem C10_never_shrinks (h h' : Highscore α) (x : Node α) (hi : h.insert x = some h') :
    h.len ≤ h'.len ∧ h'.len ≤ h.len + 1 ∧ h'.maxItems = h.maxItems := by
  have ⟨e1, e4⟩ := insert_effect hi
  rw [← and_assoc]
  refine ⟨?_, e1⟩
  unfold Highscore.len
  generalize h'.items = items' at e4
  cases e4 <;> simp [ins_length]

/-- For every capacity other than 1 no insertion history panics; with capacity 1 the first
insertion does. -/
theorem C10_panics_iff (M : Int) (ns : List (Node α)) :
    (newHighscore M).insertAll ns = none ↔ M = 1 ∧ ns ≠ [] := by
  constructor
  · intro hn
    by_cases hM : M = 1
    · refine ⟨hM, ?_⟩
      rintro rfl
      simp [Highscore.insertAll] at hn
    · obtain ⟨h, hh⟩ := insertAll_isSome hM ns
      rw [hh] at hn
      cases hn
  · rintro ⟨rfl, hne⟩
    cases ns with
    | nil => exact absurd rfl hne
    | cons x ns => simp [Highscore.insertAll, Highscore.insert, newHighscore, Highscore.len]

/-- A list with `MaxItems ≤ 0` stays empty. -/
theorem C10_zero_capacity (M : Int) (hM : M ≤ 0) (ns : List (Node α)) (h : Highscore α)
    (hi : (newHighscore M).insertAll ns = some h) : h.len = 0 := by
  have := (C10_capacity M ns h hi).1
  omega

/-! ### C11 -/

/-- `BestScore()` is the maximum of all scores ever inserted. -/
theorem C11_best_is_max [Zero α] (M : Int) (hM : 2 ≤ M) (ns : List (Node α)) (hne : ns ≠ [])
    (h : Highscore α) (hi : (newHighscore M).insertAll ns = some h) :
    (∃ n ∈ h.items, n.score = h.bestScore) ∧ (∃ n ∈ ns, n.score = h.bestScore) ∧
    ∀ n ∈ ns, n.score ≤ h.bestScore := by
  have hinv := (insertAll_inv hi).2
  cases hit : h.items with
  | nil =>
    have := hinv.keep (by simpa [hit] using List.length_pos_iff.2 hne)
    simp [hit] at this
    omega
  | cons a l =>
    have hb : h.bestScore = a.score := by simp [Highscore.bestScore, hit]
    have hsc := hinv.sc
    rw [hit] at hsc
    cases hr : ranking ns with
    | nil => simp [hr, scoresOf] at hsc
    | cons r rs =>
      simp only [hr, scoresOf, List.map_cons, List.length_cons, List.take_succ_cons,
        List.cons.injEq] at hsc
      have hd := ranking_desc ns
      rw [hr] at hd
      refine ⟨⟨a, by simp, hb.symm⟩, ⟨r, mem_ranking.1 (by simp [hr]), by rw [hb, hsc.1]⟩, ?_⟩
      intro n hn
      have : n ∈ ranking ns := mem_ranking.2 hn
      rw [hr] at this
      rw [hb, hsc.1]
      rcases List.mem_cons.1 this with rfl | hm
      · exact le_rfl
      · exact (List.pairwise_cons.1 hd).1 n hm

/-- `BestScore()` never decreases along a history (once the list is non-empty). -/
theorem C11_best_monotone [Zero α] (M : Int) (hM : 2 ≤ M) (ns ms : List (Node α)) (hne : ns ≠ [])
    (h h' : Highscore α) (hi : (newHighscore M).insertAll ns = some h)
    (hi' : (newHighscore M).insertAll (ns ++ ms) = some h') : h.bestScore ≤ h'.bestScore := by
  obtain ⟨-, ⟨n, hn, e⟩, -⟩ := C11_best_is_max M hM ns hne h hi
  rw [← e]
  exact (C11_best_is_max M hM (ns ++ ms) (by simp [hne]) h' hi').2.2 n (by simp [hn])

/-- `BestScore()` of an empty list is 0. -/
theorem C11_best_empty [Zero α] (M : Int) : (newHighscore (α := α) M).bestScore = 0 := rfl

/-- With NaN scores the claim is false: if the first inserted score is NaN, `BestScore()` is NaN
although a finite score was inserted. -/
theorem C11_nan_refuted :
    ∃ (a b : Node (Fl Int)) (h : Highscore (Fl Int)),
      (newHighscore 5).insertAll [a, b] = some h ∧ b.score = .fin 3 ∧ h.bestScore = .nan := by
  refine ⟨⟨[true], [], 1, 0, 0, .nan, true⟩, ⟨[true], [], 1, 0, 0, .fin 3, true⟩, _, rfl, rfl, rfl⟩

/-! ### Concrete histories -/

/-- A node of score `s`, for examples. -/
def exNode (s : Int) : Node Int := ⟨[true], [], 1, 0, 0, s, true⟩

example : ((newHighscore 3).insertAll [exNode 1, exNode 5, exNode 3, exNode 7]).map (·.scores)
    = some [7, 5] := by decide

example : ((newHighscore 3).insertAll [exNode 5, exNode 5, exNode 7, exNode 5]).map (·.scores)
    = some [7, 5, 5] := by decide

example : (([exNode 1, exNode 5, exNode 3, exNode 7] : List (Node Int)).map (·.score)).Nodup := by
  decide

end GoSelect
