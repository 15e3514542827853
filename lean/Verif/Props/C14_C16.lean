import Verif.Proofs.SelectTerm
import Verif.Proofs.SelectRun
import Mathlib.Algebra.BigOperators.Group.Finset.Basic

/-!
C14-C16: `SelectModel` does not deadlock, stops under fair scheduling and exits cleanly.

`Polling s a`: step `a` in state `s` is part of the loop in which the main loop answers a ready
worker with nil because its queue is empty.
-/

namespace GoSelect

open Spec

variable {α : Type} [LT α] [DecidableLT α] [DecidableEq α] [Zero α] [Neg α]

/-- A step of the nil-polling loop: receiving `ready` with an empty queue, or sending nil. -/
def Polling (s : SState α) (a : Action) : Prop :=
  (a = .want ∧ s.main = .sendWant none) ∨ ((∃ i, a = .ready i) ∧ s.queue = [])

theorem polling_iff (s : SState α) (a : Action) : Polling s a ↔ Idle s a := by
  cases a <;> simp [Polling, Idle]

/-- As long as `SelectModel` has not returned some step is possible, and after at most one polling
step one that is not polling. -/
theorem C14_no_deadlock (S : Search α) (M : Int) (hM : M ≠ 1) (pre : List (Node α)) (s : SState α)
    (h : SelectReaches S M pre s) (hd : s.main ≠ .done) :
    ∃ a s', sstep S s a = some s' ∧
      (¬ Polling s a ∨ ∃ b s'', sstep S s' b = some s'' ∧ ¬ Polling s' b) := by
  have hi := SInv.reach hM h
  simp only [polling_iff]
  cases hm : s.main with
  | done => exact absurd hm hd
  | panicked => exact absurd hm hi.noPanic
  | select =>
    obtain ⟨a, s', h1, h2⟩ := hi.enabled hm
    exact ⟨a, s', h1, Or.inl h2⟩
  | sendWant n =>
    have hb := hi.wantBusy n hm
    have hst : sstep S s .want = some { s with main := .select, busy := s.busy ++ [pcOf n] } := by
      simp [sstep, hm, hb]
    refine ⟨.want, _, hst, Or.inr ?_⟩
    have h' : SelectReaches S M pre { s with main := .select, busy := s.busy ++ [pcOf n] } := by
      obtain ⟨hs, s₀, a, b, c⟩ := h
      exact ⟨hs, s₀, a, b, .step _ c hst⟩
    exact (SInv.reach hM h').enabled rfl

/-- An infinite run: step `act n` leads from `σ n` to `σ (n + 1)`. -/
def InfiniteRun (S : Search α) (M : Int) (pre : List (Node α)) (σ : Nat → SState α)
    (act : Nat → Action) : Prop :=
  SelectReaches S M pre (σ 0) ∧ ∀ n, sstep S (σ n) (act n) = some (σ (n + 1))

/-- Strong fairness: a step that is possible again and again is taken again and again. -/
def Fair (S : Search α) (σ : Nat → SState α) (act : Nat → Action) : Prop :=
  ∀ a, (∀ N, ∃ n, N ≤ n ∧ (sstep S (σ n) a).isSome) → ∀ N, ∃ n, N ≤ n ∧ act n = a

theorem SReach.selectReaches {S : Search α} {M : Int} {pre : List (Node α)} {s s' : SState α}
    {a : Action} (h : SelectReaches S M pre s) (hs : sstep S s a = some s') :
    SelectReaches S M pre s' := by
  obtain ⟨hs', s₀, x, y, c⟩ := h
  exact ⟨hs', s₀, x, y, .step _ c hs⟩

/-- Runs of a given schedule, recorded as the list of states before each step. -/
def trace (S : Search α) (s : SState α) : List Action → List (SState α × Action)
  | [] => []
  | a :: as => match sstep S s a with
    | none => []
    | some t => (s, a) :: trace S t as

open Classical in
theorem trace_bound {S : Search α} {M : Int} (hM : M ≠ 1) {pre : List (Node α)} :
    ∀ (as : List Action) (s : SState α), SelectReaches S M pre s →
      ((trace S s as).filter (fun x => decide (¬ Polling x.1 x.2))).length ≤ phi S s
  | [], s, _ => by simp [trace]
  | a :: as, s, h => by
    unfold trace
    cases hs : sstep S s a with
    | none => simp
    | some t =>
      have hi := SInv.reach hM h
      have hst := hi.classify hM hs
      have hp := phi_step hi hst
      have ih := trace_bound hM as t (SReach.selectReaches h hs)
      simp only [List.filter_cons]
      by_cases hpol : Polling s a
      · simp only [hpol, not_true, decide_false, Bool.false_eq_true, if_false]
        omega
      · simp only [hpol, not_false_eq_true, decide_true, if_true, List.length_cons]
        rw [polling_iff] at hpol
        have := hp.2 hpol
        omega

/-- Whatever the schedule, a run takes fewer than `10 * 2 ^ ncols` steps that are not polling. -/
theorem C15_bounded_work (S : Search α) (M : Int) (hM : M ≠ 1) (pre : List (Node α))
    (hs : Highscore α) (s₀ : SState α) (h1 : (newHighscore M).insertAll pre = some hs)
    (h2 : sinit S hs = some s₀) (as : List Action) :
    open Classical in
    ((trace S s₀ as).filter (fun x => decide (¬ Polling x.1 x.2))).length < 10 * 2 ^ S.ncols := by
  have hr : SelectReaches S M pre s₀ := ⟨hs, s₀, h1, h2, .init⟩
  refine (trace_bound hM as s₀ hr).trans_lt ?_
  have hn := (SInv.reach hM hr).ncols
  unfold sinit at h2
  split at h2
  · cases h2
  · split at h2
    · cases h2
    · cases h2
      have := Nat.one_le_two_pow (n := S.ncols)
      simp [phi, mainW, qW, qw, newNode]
      omega

/-- A non-polling step is possible in every state in which the main loop is in its `select`. -/
theorem C15_work_enabled (S : Search α) (M : Int) (hM : M ≠ 1) (pre : List (Node α))
    (s : SState α) (h : SelectReaches S M pre s) (hm : s.main = .select) :
    ∃ a s', sstep S s a = some s' ∧ ¬ Polling s a := by
  obtain ⟨a, s', h1, h2⟩ := (SInv.reach hM h).enabled hm
  exact ⟨a, s', h1, by rw [polling_iff]; exact h2⟩

theorem InfiniteRun.reach {S : Search α} {M : Int} {pre : List (Node α)} {σ : Nat → SState α}
    {act : Nat → Action} (h : InfiniteRun S M pre σ act) (n : Nat) : SelectReaches S M pre (σ n) := by
  induction n with
  | zero => exact h.1
  | succ n ih => exact SReach.selectReaches ih (h.2 n)

theorem eventually_idle {f : Nat → Nat} (hf : ∀ n, f (n + 1) ≤ f n) :
    ∃ N, ∀ n, N ≤ n → f (n + 1) = f n := by
  have hmono : ∀ n k, f (n + k) ≤ f n := by
    intro n k
    induction k with
    | zero => exact le_rfl
    | succ k ih => exact (hf (n + k)).trans ih
  have key : ∀ b n, f n ≤ b → ∃ N, ∀ m, N ≤ m → f (m + 1) = f m := by
    intro b
    induction b with
    | zero =>
      intro n hn
      refine ⟨n, fun m hm => ?_⟩
      have h1 := hmono n (m - n)
      have h2 := hmono n (m + 1 - n)
      rw [show n + (m - n) = m by omega] at h1
      rw [show n + (m + 1 - n) = m + 1 by omega] at h2
      omega
    | succ b ih =>
      intro n hn
      by_cases hx : ∃ m, n ≤ m ∧ f m ≤ b
      · obtain ⟨m, _, hm⟩ := hx
        exact ih m hm
      · refine ⟨n, fun m hm => ?_⟩
        have h1 := hmono n (m - n)
        have h2 := hmono n (m + 1 - n)
        rw [show n + (m - n) = m by omega] at h1
        rw [show n + (m + 1 - n) = m + 1 by omega] at h2
        have h3 : ¬ f m ≤ b := fun h => hx ⟨m, hm, h⟩
        have h4 : ¬ f (m + 1) ≤ b := fun h => hx ⟨m + 1, by omega, h⟩
        omega
  exact key (f 0) 0 le_rfl

/-- There is no infinite fair run: under fair scheduling `SelectModel` returns. -/
theorem C15_terminates (S : Search α) (M : Int) (hM : M ≠ 1) (pre : List (Node α))
    (σ : Nat → SState α) (act : Nat → Action) (h : InfiniteRun S M pre σ act) :
    ¬ Fair S σ act := by
  intro hfair
  have hi : ∀ n, SInv S M pre (σ n) := fun n => SInv.reach hM (h.reach n)
  have hst : ∀ n, SStep S (σ n) (act n) (σ (n + 1)) := fun n => (hi n).classify hM (h.2 n)
  obtain ⟨N, hN⟩ := eventually_idle (f := fun n => phi S (σ n)) (fun n => (phi_step (hi n) (hst n)).1)
  have hidle : ∀ n, N ≤ n → Idle (σ n) (act n) := by
    intro n hn
    by_contra hc
    have := (phi_step (hi n) (hst n)).2 hc
    have := hN n hn
    omega
  -- in a `select` state of the idle tail a score is waiting
  have hscore : ∀ n, N ≤ n → (σ n).main = .select → (sstep S (σ n) (.score 0)).isSome := by
    intro n hn hm
    have hid := hidle n hn
    have hne : (σ n).scoring ≠ [] := by
      intro h0
      have hs := hst n
      have hc := (hi n).count
      have ha := (hi n).alive (by rw [hm]; simp)
      revert hid hs
      generalize act n = a
      generalize σ (n + 1) = s'
      intro hid hs
      cases hs with
      | want node hm' hb => rw [hm] at hm'; cases hm'
      | readyNil _ hb hq =>
        rw [hb, h0, hm] at hc
        simp [flipsLeft] at hc
        rw [hc, hq] at ha
        simp at ha
      | readyNode nn rest _ hb hq => simp [Idle, hq] at hid
      | _ => exact hid
    cases hsc : (σ n).scoring with
    | nil => exact absurd hsc hne
    | cons x l => simp [sstep, hm, hsc]
  -- `select` states occur again and again
  have hsel : ∀ K, ∃ n, K ≤ n ∧ (sstep S (σ n) (.score 0)).isSome := by
    intro K
    have hK : N ≤ max N K := le_max_left _ _
    have hid := hidle _ hK
    have hs := hst (max N K)
    by_cases hm : (σ (max N K)).main = .select
    · exact ⟨max N K, le_max_right _ _, hscore _ hK hm⟩
    · refine ⟨max N K + 1, (le_max_right N K).trans (by omega), hscore _ (by omega) ?_⟩
      revert hid hs hm
      generalize act (max N K) = a
      generalize σ (max N K + 1) = s'
      intro hid hs hm
      cases hs with
      | want node hm' hb => rfl
      | readyNil hm' hb hq => exact absurd hm' hm
      | readyNode nn rest hm' hb hq => exact absurd hm' hm
      | _ => exact hid.elim
  obtain ⟨n, hn, hact⟩ := hfair (.score 0) hsel N
  have := hidle n hn
  rw [hact] at this
  exact this

/-- Fairness is needed: there is an infinite run of `exSearch` that polls for ever. -/
theorem C15_unfair_run : ∃ σ act, InfiniteRun exSearch 20 [] σ act := by
  obtain ⟨s, h1, h2⟩ := sstart_ex (S := exSearch) (M := 20)
    [.want, .readBest 0, .sendNode 0, .readBest 0, .readLen 0, .sendNode 0]
    (fun s => decide (s.main = .select ∧ s.busy = [.ready] ∧ s.queue = [])) (by decide +kernel)
  obtain ⟨a, b, c⟩ := of_decide_eq_true h2
  refine ⟨fun n => if n % 2 = 0 then s else { s with main := .sendWant none, busy := [] },
    fun n => if n % 2 = 0 then .ready 0 else .want, by simpa using h1, fun n => ?_⟩
  rcases Nat.mod_two_eq_zero_or_one n with hn | hn
  · have : (n + 1) % 2 = 1 := by omega
    simp [hn, this, sstep, a, b, c]
  · have : (n + 1) % 2 = 0 := by omega
    simp only [hn, this, sstep, pcOf, if_true]
    cases s
    simp_all

/-- When `SelectModel` has returned, no node is queued or being scored, exactly one child worker is
busy, blocked on `ready`, and no step is possible any more: nothing is sent on a closed channel. -/
theorem C16_clean_exit (S : Search α) (M : Int) (hM : M ≠ 1) (pre : List (Node α)) (s : SState α)
    (h : SelectReaches S M pre s) (hd : s.main = .done) :
    s.queue = [] ∧ s.scoring = [] ∧ s.busy = [.ready] ∧ ∀ a, sstep S s a = none := by
  obtain ⟨h1, h2, h3, -⟩ := (SInv.reach hM h).doneBusy hd
  refine ⟨h3, h2, h1, fun a => ?_⟩
  cases a with
  | want => simp [sstep, hd]
  | readBest i => cases i <;> simp [sstep, hd, h1]
  | readLen i => cases i <;> simp [sstep, hd, h1]
  | sendNode i => cases i <;> simp [sstep, hd, h1]
  | prune i => cases i <;> simp [sstep, hd, h1]
  | ready i => simp [sstep, hd]
  | score i => simp [sstep, hd, h2]

/-- `SelectModel` leaves its loop only then: in every other state there is work left. -/
theorem C16_exit_only_when_done (S : Search α) (M : Int) (hM : M ≠ 1) (pre : List (Node α))
    (s : SState α) (h : SelectReaches S M pre s) (hd : s.main ≠ .done) :
    s.queue ≠ [] ∨ s.scoring ≠ [] ∨ (∃ pc ∈ s.busy, pc ≠ .ready) ∨
      ∃ n, s.main = .sendWant (some n) := by
  have hi := SInv.reach hM h
  by_contra hc
  simp only [not_or, not_exists, not_and, not_not] at hc
  obtain ⟨h1, h2, h3, h4⟩ := hc
  have ha := hi.alive hd
  have hcount := hi.count
  have hz : (s.busy.map flipsLeft).sum = 0 := by
    have : ∀ l : List (ChildPc α), (∀ pc ∈ l, pc = .ready) → (l.map flipsLeft).sum = 0 := by
      intro l
      induction l with
      | nil => simp
      | cons x l ih =>
        intro hl
        have hx := hl x (by simp)
        simp [hx, flipsLeft, ih (fun pc hpc => hl pc (by simp [hpc]))]
    exact this _ h3
  rw [hz, h2] at hcount
  cases hm : s.main with
  | sendWant n =>
    cases n with
    | none => rw [hm] at hcount; simp at hcount; rcases ha with h | h; · omega
              · exact h h1
    | some n => exact h4 n hm
  | select =>
    rw [hm] at hcount; simp at hcount; rcases ha with h | h
    · omega
    · exact h h1
  | done => exact hd hm
  | panicked => exact hi.noPanic hm

/-- No goroutine ever panics (the highscore list has `MaxItems ≠ 1`). -/
theorem C16_no_panic (S : Search α) (M : Int) (hM : M ≠ 1) (pre : List (Node α)) (s : SState α)
    (h : SelectReaches S M pre s) : s.main ≠ .panicked := (SInv.reach hM h).noPanic

/-- The capacity matters: with `MaxItems = 1` the first insertion panics. -/
theorem C16_capacity_one_panics : ∃ s, SelectReaches exSearch 1 [] s ∧ s.main = .panicked := by
  obtain ⟨s, h1, h2⟩ := sstart_ex (S := exSearch) (M := 1)
    [.want, .readBest 0, .sendNode 0, .readBest 0, .readLen 0, .sendNode 0, .score 1]
    (fun s => decide (s.main = .panicked)) (by decide +kernel)
  exact ⟨s, h1, of_decide_eq_true h2⟩

/-- A run that reaches the end, and one that polls. -/
example : (∃ s, SelectReaches exSearch 20 [] s ∧ s.main = .done) ∧
    ∃ s, SelectReaches exSearch 20 [] s ∧ s.main = .sendWant none := by
  obtain ⟨s, h1, h2⟩ := sstart_ex (S := exSearch) (M := 20) exSchedule
    (fun s => decide (s.main = .done)) (by decide +kernel)
  obtain ⟨t, h3, h4⟩ := sstart_ex (S := exSearch) (M := 20)
    [.want, .readBest 0, .sendNode 0, .readBest 0, .readLen 0, .sendNode 0, .ready 0]
    (fun s => decide (s.main = .sendWant none)) (by decide +kernel)
  exact ⟨⟨s, h1, of_decide_eq_true h2⟩, t, h3, of_decide_eq_true h4⟩

end GoSelect
