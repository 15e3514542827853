import Verif.Proofs.SelectCover
import Verif.Proofs.SelectRun

/-!
C12, C13: what `SelectModel` finds and what it reports, for every schedule.

`SelectReaches S M pre s`: with a highscore list of capacity `M` into which `pre` was inserted
before, some interleaving of the goroutines leads to `s`.  `s.main = .done`: `SelectModel` returned.
`s.overflows = 0`: the queue-overflow message was never printed.  `s.torn = false`: no child was
discarded although the list was empty when `BestScore()` was read.
-/

namespace GoSelect

open Spec
open scoped List

/-- The same for scores that may be infinite (`α` has no addition here) and bounds that may miss models better than the
constant `1e100` for nodes without features, provided no score lies between. -/
theorem C12_no_better_model_extended {α : Type} [LinearOrder α] [Zero α] [Neg α] [NegReverses α] (S : Search α)
    (M : Int) (hM : 2 ≤ M) (pre : List (Node α)) (hv : SafeBounds S pre) (hr : RowSafe S) (s : SState α)
    (h : SelectReaches S M pre s) (hd : s.main = .done) (ht : s.torn = false) (ho : s.overflows = 0)
    (m : List Bool) (hlen : m.length = S.ncols) (hpos : 0 < card m) (hrows : card m < S.nrows)
    (hroot : m ≠ S.root) :
    0 < s.hs.len ∧ -S.aicc (card m) S.nrows (S.rss m) ≤ s.hs.bestScore := by
  obtain ⟨h1, h2⟩ := all_beaten hM hv.upTo hr h hd ht ho m ⟨hlen, hpos, hrows⟩ hroot
  exact ⟨List.length_pos_of_ne_nil h1, h2⟩

section
variable {α : Type} [LinearOrder α] [AddCommGroup α] [IsOrderedAddMonoid α]

/-- When `SelectModel` returns, no competing model other than the root model has a better score
than `BestScore()`. -/
theorem C12_no_better_model (S : Search α) (M : Int) (hM : 2 ≤ M) (pre : List (Node α))
    (hv : ValidBounds S) (hr : RowSafe S) (s : SState α) (h : SelectReaches S M pre s)
    (hd : s.main = .done) (ht : s.torn = false) (ho : s.overflows = 0)
    (m : List Bool) (hlen : m.length = S.ncols) (hpos : 0 < card m) (hrows : card m < S.nrows)
    (hroot : m ≠ S.root) :
    0 < s.hs.len ∧ -S.aicc (card m) S.nrows (S.rss m) ≤ s.hs.bestScore := by
  obtain ⟨h1, h2⟩ := all_beaten hM (hv.safe pre).upTo hr h hd ht ho m ⟨hlen, hpos, hrows⟩ hroot
  exact ⟨List.length_pos_of_ne_nil h1, h2⟩

end

section
variable {α : Type} [LinearOrder α] [Zero α] [Neg α]

/-- In every reachable state with a non-empty list `BestScore()` is the score of a node that was
in the history before, or of a model different from the root that this run fitted (or the
empty-model marker `-MaxFloat64`). -/
theorem C12_best_is_real (S : Search α) (M : Int) (hM : 2 ≤ M) (pre : List (Node α))
    (s : SState α) (h : SelectReaches S M pre s) (hne : 0 < s.hs.len) :
    (∃ n ∈ pre, s.hs.bestScore = n.score) ∨
    (∃ m : List Bool, m.length = S.ncols ∧ m ≠ S.root ∧ card m < S.nrows ∧
      ((0 < card m ∧ s.hs.bestScore = -S.aicc (card m) S.nrows (S.rss m)) ∨
       (card m = 0 ∧ s.hs.bestScore = -S.maxFloat))) := by
  have hi := SInv.reach (by omega : M ≠ 1) h
  have hh : pre ++ s.log ≠ [] := by
    intro h0
    have := (insertAll_inv hi.hist).2.le_hist
    rw [h0] at this
    simp at this
    simp [Highscore.len, this] at hne
  obtain ⟨-, ⟨n, hn, he⟩, -⟩ := C11_best_is_max M hM _ hh _ hi.hist
  rcases List.mem_append.1 hn with hn | hn
  · exact Or.inl ⟨n, hn, he.symm⟩
  · right
    obtain ⟨a, b⟩ := hi.logOk n hn
    obtain ⟨h1, h2, h3, h4⟩ := madeScored_spec a b
    refine ⟨n.model, h1, (log_spec (by omega : M ≠ 1) h).2.1 n hn, h2, ?_⟩
    rcases Nat.eq_zero_or_pos (card n.model) with hz | hz
    · exact Or.inr ⟨hz, by rw [← he]; exact h4 hz⟩
    · exact Or.inl ⟨hz, by rw [← he]; exact (h3 hz).1⟩

/-- Started with an empty list, the nodes in the highscore list have, in every reachable state,
pairwise different models of length `ncols`, none of them the root model, all with fewer features
than rows. -/
theorem C13_each_model_once (S : Search α) (M : Int) (hM : M ≠ 1) (s : SState α)
    (h : SelectReaches S M [] s) :
    (s.hs.items.map (·.model)).Nodup ∧
    ∀ n ∈ s.hs.items, n.model.length = S.ncols ∧ n.model ≠ S.root ∧ card n.model < S.nrows := by
  have hi := SInv.reach hM h
  obtain ⟨h1, h2, -⟩ := log_spec hM h
  have hist := hi.hist
  rw [List.nil_append] at hist
  have hsub := (insertAll_inv hist).2.sub
  have hp := ranking_perm s.log
  refine ⟨(hsub.map (·.model)).nodup ((hp.map (·.model)).nodup_iff.2 h1), fun n hn => ?_⟩
  have hn' := mem_ranking.1 (hsub.subset hn)
  obtain ⟨a, b⟩ := hi.logOk n hn'
  obtain ⟨c1, c2, -⟩ := madeScored_spec a b
  exact ⟨c1, h2 n hn', c2⟩

/-- Every node in the list carries score and coefficients of its own model. -/
theorem C13_own_score (S : Search α) (M : Int) (hM : M ≠ 1) (s : SState α)
    (h : SelectReaches S M [] s) (n : Node α) (hn : n ∈ s.hs.items) :
    (0 < card n.model → n.score = -S.aicc (card n.model) S.nrows (S.rss n.model) ∧
      n.coeff = S.fit n.model) ∧
    (card n.model = 0 → n.score = -S.maxFloat) := by
  have hi := SInv.reach hM h
  have hist := hi.hist
  rw [List.nil_append] at hist
  obtain ⟨a, b⟩ := hi.logOk n (mem_ranking.1 ((insertAll_inv hist).2.sub.subset hn))
  exact (madeScored_spec a b).2.2

/-- At most `2 ^ ncols - 1` nodes are inserted, whatever the schedule; with a list large enough for
all of them the list holds exactly the inserted ones. -/
theorem C13_at_most (S : Search α) (M : Int) (hM : M ≠ 1) (pre : List (Node α)) (s : SState α)
    (h : SelectReaches S M pre s) :
    s.numChecked + 1 ≤ 2 ^ S.ncols ∧
    (newHighscore M).insertAll (pre ++ s.log) = some s.hs ∧ s.numChecked = s.log.length := by
  have hi := SInv.reach hM h
  exact ⟨by rw [hi.checked]; exact (log_spec hM h).2.2, hi.hist, hi.checked⟩

end

/-! ### Concrete cases -/

/-- The hypotheses of C12 and C13 can be met: a complete run over 3 columns. -/
example : ValidBounds exSearch ∧ RowSafe exSearch ∧ ∃ s, SelectReaches exSearch 20 [] s ∧
    s.main = .done ∧ s.torn = false ∧ s.overflows = 0 ∧
    s.hs.scores = [-1, -5, -5, -5, -5, -5, -5] := by
  refine ⟨exSearch_bounds, Or.inl rfl, ?_⟩
  obtain ⟨s, h1, h2⟩ := sstart_ex (S := exSearch) (M := 20) exSchedule
    (fun s => decide (s.main = .done ∧ s.torn = false ∧ s.overflows = 0 ∧
      s.hs.scores = [-1, -5, -5, -5, -5, -5, -5])) (by decide +kernel)
  exact ⟨s, h1, of_decide_eq_true h2⟩

/-- The hypothesis `torn = false` is needed.  With the data of `exSearch`, valid bounds and no
overflow there is an interleaving after which the best reported score is -5 although the model
`[false, true, false]` has score -1. -/
theorem C12_torn_read_refutes : ∃ s, SelectReaches exSearch 20 [] s ∧ s.main = .done ∧
    s.overflows = 0 ∧ s.hs.bestScore = -5 ∧
    -exSearch.aicc (card [false, true, false]) exSearch.nrows (exSearch.rss [false, true, false])
      = -1 := by
  obtain ⟨s, h1, h2⟩ := sstart_ex (S := exSearch) (M := 20) tornSchedule
    (fun s => decide (s.main = .done ∧ s.overflows = 0 ∧ s.hs.bestScore = -5)) (by decide +kernel)
  obtain ⟨a, b, c⟩ := of_decide_eq_true h2
  exact ⟨s, h1, a, b, c, by decide⟩

/-- The hypothesis `RowSafe` is needed: with 2 rows, 3 columns and the root model "all features",
the search drops the whole tree at once although models with one feature compete. -/
def rowSearch : Search Int := { exSearch with nrows := 2, root := [true, true, true] }

theorem C12_root_rows_refutes : ∃ s, SelectReaches rowSearch 20 [] s ∧ s.main = .done ∧
    s.torn = false ∧ s.overflows = 0 ∧ s.hs.len = 0 ∧ Candidate rowSearch [false, true, false] := by
  obtain ⟨s, h1, h2⟩ := sstart_ex (S := rowSearch) (M := 20)
    [.want, .readBest 0, .prune 0, .readBest 0, .prune 0]
    (fun s => decide (s.main = .done ∧ s.torn = false ∧ s.overflows = 0 ∧ s.hs.len = 0))
    (by decide +kernel)
  obtain ⟨a, b, c, d⟩ := of_decide_eq_true h2
  exact ⟨s, h1, a, b, c, d, by unfold Candidate; decide⟩

/-- The hypothesis `overflows = 0` is needed: with `MaxQueueSize = 1` and valid bounds the node
above the best model is evicted unexplored. -/
def smallQueue : Search Int := { exSearch with
  maxQueue := 1
  rss := fun m => if m = [true, true, true] then -20 else 5
  bounds := fun _ _ => (-20, 5) }

theorem C12_overflow_refutes : ValidBounds smallQueue ∧ RowSafe smallQueue ∧
    ∃ s, SelectReaches smallQueue 20 [] s ∧ s.main = .done ∧ s.torn = false ∧
      s.hs.bestScore = -5 ∧ -aiccOf smallQueue [true, true, true] = 20 := by
  refine ⟨⟨fun p l m _ _ _ _ _ => ?_, fun m _ => ?_⟩, Or.inl rfl, ?_⟩
  · simp only [aiccOf, smallQueue, exSearch]; split <;> decide
  · simp only [aiccOf, smallQueue, exSearch]; split <;> decide
  obtain ⟨s, h1, h2⟩ := sstart_ex (S := smallQueue) (M := 20)
    (match sinit smallQueue (newHighscore 20) with
      | some s => greedy smallQueue s 200
      | none => [])
    (fun s => decide (s.main = .done ∧ s.torn = false ∧ s.hs.bestScore = -5)) (by decide +kernel)
  obtain ⟨a, b, c⟩ := of_decide_eq_true h2
  exact ⟨s, h1, a, b, c, by decide⟩

end GoSelect
