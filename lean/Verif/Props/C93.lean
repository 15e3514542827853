import Verif.Proofs.SelectQueue
import Verif.Props.C12_C13
import Verif.Props.C14_C16
import Mathlib.Tactic.NormNum

/-!
C93: how large the queue of the search has to be.  `s.overflows` counts the messages that nodes were removed for lack of
space, `s.main = .done` says that `SelectModel` returned.
-/

namespace GoSelect

open Spec

section
variable {α : Type} [LinearOrder α] [Zero α] [Neg α]

/-- For all data, root models, histories and schedules: the queue never holds more than `2 ^ (ncols - 1)` nodes. -/
theorem C93_queue_length (S : Search α) (M : Int) (hM : M ≠ 1) (pre : List (Node α)) (s : SState α)
    (h : SelectReaches S M pre s) : s.queue.length ≤ 2 ^ (S.ncols - 1) := by
  have hi := SInv.reach hM h
  have h1 := length_le_weight (S := S) (q := s.queue) fun n hn => (hi.queueOk n hn).2
  have h2 : (s.queue.map (lW S)).sum ≤ psi S s := by unfold psi; omega
  have h3 := (psi_reach hM h).1
  have h4 : 2 ^ S.ncols = 2 * 2 ^ (S.ncols - 1) := by
    rw [← Nat.pow_succ']; congr 1; have := hi.ncols; omega
  omega

/-- With space for `2 ^ (ncols - 1)` nodes, nothing is ever removed for lack of space. -/
theorem C93_no_eviction (S : Search α) (M : Int) (hM : M ≠ 1) (pre : List (Node α)) (s : SState α)
    (h : SelectReaches S M pre s) (hq : (2 : Int) ^ (S.ncols - 1) ≤ S.maxQueue) : s.overflows = 0 := by
  refine (psi_reach hM h).2 ?_
  have h4 : (2 : Int) ^ S.ncols = 2 * 2 ^ (S.ncols - 1) := by
    rw [← pow_succ']; congr 1; have := (SInv.reach hM h).ncols; omega
  omega

/-- The default of the command (10000000) is enough for 24 columns, that of the library (10000000000) for 34. -/
theorem C93_defaults (S : Search α) (M : Int) (hM : M ≠ 1) (pre : List (Node α)) (s : SState α)
    (h : SelectReaches S M pre s)
    (hq : (S.maxQueue = 10000000 ∧ S.ncols ≤ 24) ∨ (S.maxQueue = defaultMaxQueue ∧ S.ncols ≤ 34)) : s.overflows = 0 := by
  refine C93_no_eviction S M hM pre s h ?_
  rcases hq with ⟨h1, h2⟩ | ⟨h1, h2⟩ <;> rw [h1]
  · exact (pow_le_pow_right₀ (by norm_num) (show S.ncols - 1 ≤ 23 by omega)).trans (by norm_num)
  · exact (pow_le_pow_right₀ (by norm_num) (show S.ncols - 1 ≤ 33 by omega)).trans (by norm_num [defaultMaxQueue])

/-- From the start the search can always be run to its end without a torn read. -/
theorem C93_can_end (S : Search α) (M : Int) (hM : M ≠ 1) (pre : List (Node α)) (hs : Highscore α) (s₀ : SState α)
    (h1 : (newHighscore M).insertAll pre = some hs) (h2 : sinit S hs = some s₀) :
    ∃ s, SelectReaches S M pre s ∧ s.main = .done ∧ s.torn = false := by
  have key : ∀ k s, phi S s = k → SelectReaches S M pre s → s.torn = false →
      (∀ p f c e, ChildPc.readLen p f c e ∉ s.busy) → ∃ s, SelectReaches S M pre s ∧ s.main = .done ∧ s.torn = false := by
    intro k
    induction k using Nat.strong_induction_on with
    | _ k ih =>
      intro s hk h ht hc
      by_cases hd : s.main = .done
      · exact ⟨s, h, hd, ht⟩
      · obtain ⟨a, s', hs, hp | ⟨b, s'', hs', hp⟩⟩ := C14_no_deadlock S M hM pre s h hd
        · obtain ⟨t, h1, h2, h3, -, h5, -⟩ := calm_step hM h ht hc hs
          rw [polling_iff] at hp
          exact ih _ (by have := h5 hp; omega) t rfl h1 h2 h3
        · obtain ⟨t, h1, h2, h3, h4, h5, h6⟩ := calm_step hM h ht hc hs
          rcases h6 with rfl | ⟨i, rfl⟩
          · obtain ⟨u, g1, g2, g3, -, g5, -⟩ := calm_step hM h1 h2 h3 hs'
            rw [polling_iff] at hp
            exact ih _ (by have := g5 hp; omega) u rfl g1 g2 g3
          · exact ih _ (by have := h5 (by simp [Idle]); omega) t rfl h1 h2 h3
  have hinit : s₀.torn = false ∧ s₀.busy = [] := by
    unfold sinit at h2
    split at h2
    · simp at h2
    · split at h2
      · simp at h2
      · rw [Option.some.injEq] at h2
        subst h2
        exact ⟨rfl, rfl⟩
  exact key _ s₀ rfl ⟨hs, s₀, h1, h2, .init⟩ hinit.1 (by rw [hinit.2]; simp)

end

/-- With that much space the result of the search is optimal: no competing model other than the root model has a better
score, whatever the schedule, unless a read was torn. -/
theorem C93_optimal {α : Type} [LinearOrder α] [AddCommGroup α] [IsOrderedAddMonoid α] (S : Search α) (M : Int)
    (hM : 2 ≤ M) (pre : List (Node α)) (hv : ValidBounds S) (hr : RowSafe S) (s : SState α) (h : SelectReaches S M pre s)
    (hd : s.main = .done) (ht : s.torn = false) (hq : (2 : Int) ^ (S.ncols - 1) ≤ S.maxQueue) (m : List Bool)
    (hlen : m.length = S.ncols) (hpos : 0 < card m) (hrows : card m < S.nrows) (hroot : m ≠ S.root) :
    -S.aicc (card m) S.nrows (S.rss m) ≤ s.hs.bestScore :=
  (C12_no_better_model S M hM pre hv hr s h hd ht (C93_no_eviction S M (by omega) pre s h hq) m hlen hpos hrows hroot).2

/-- Three columns and room for `q` nodes. -/
def queueSearch (q : Int) : Search Int := { exSearch with maxQueue := q, bounds := fun _ _ => (-20, 5) }

/-- The bound is sharp: with three columns there are runs in which the queue holds four nodes, and with room for three
nodes something is removed. -/
theorem C93_sharp : (∃ s, SelectReaches (queueSearch 4) 20 [] s ∧ s.queue.length = 4) ∧
    ∃ s, SelectReaches (queueSearch 3) 20 [] s ∧ s.overflows = 1 := by
  constructor
  · obtain ⟨s, h1, h2⟩ := sstart_ex (S := queueSearch 4) (M := 20)
      (match sinit (queueSearch 4) (newHighscore 20) with
        | some s => greedy (queueSearch 4) s 23
        | none => [])
      (fun s => decide (s.queue.length = 4)) (by decide +kernel)
    exact ⟨s, h1, of_decide_eq_true h2⟩
  · obtain ⟨s, h1, h2⟩ := sstart_ex (S := queueSearch 3) (M := 20)
      (match sinit (queueSearch 3) (newHighscore 20) with
        | some s => greedy (queueSearch 3) s 23
        | none => [])
      (fun s => decide (s.overflows = 1)) (by decide +kernel)
    exact ⟨s, h1, of_decide_eq_true h2⟩

/-- The hypotheses can be met: a complete run with room for exactly four nodes. -/
example : ValidBounds (queueSearch 4) ∧ RowSafe (queueSearch 4) ∧
    (2 : Int) ^ ((queueSearch 4).ncols - 1) ≤ (queueSearch 4).maxQueue ∧
    ∃ s, SelectReaches (queueSearch 4) 20 [] s ∧ s.main = .done ∧ s.torn = false := by
  refine ⟨⟨fun p l m _ _ _ _ _ => ?_, fun m _ => ?_⟩, Or.inl rfl, by decide, ?_⟩
  · simp only [aiccOf, queueSearch, exSearch]; split <;> decide
  · simp only [aiccOf, queueSearch, exSearch]; split <;> decide
  · exact C93_can_end _ 20 (by norm_num) [] _ _ rfl rfl

end GoSelect
