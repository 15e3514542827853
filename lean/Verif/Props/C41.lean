import Verif.Model.CohenSequence
import Verif.Proofs.Pool
import Mathlib.Order.Defs.LinearOrder
import Mathlib.Data.Rat.Defs
import Mathlib.Algebra.Order.Ring.Unbundled.Rat

/-! C41: `CalculateCohenSequence` under all schedules. -/

namespace GoSelect

/-- `<` on numbers with NaN and infinities is transitive. -/
theorem Fl.lt_trans {K : Type} [LinearOrder K] {a b c : Fl K} (h1 : a < b) (h2 : b < c) : a < c := by
  change Fl.ltB a b = true at h1
  change Fl.ltB b c = true at h2
  change Fl.ltB a c = true
  cases a <;> cases b <;> cases c <;> simp [Fl.ltB] at * 
  exact _root_.lt_trans h1 h2

theorem Fl.lt_irrefl {K : Type} [LinearOrder K] (a : Fl K) : ¬ a < a := by
  change ¬ Fl.ltB a a = true
  cases a <;> simp [Fl.ltB]

section
variable {K : Type} [LinearOrder K] [Zero K]

/-- Where the main goroutine is, in numbers of targets handed out and received. -/
def CohenPhaseInv (workers n : Nat) (m : CohenMain K) (nw : Nat) : Prop :=
  match m.phase with
  | .spawning i => m.nextTarget = min n i ∧ m.numReceives = 0 ∧ nw = i ∧ i ≤ workers
  | .sendFirst i => m.nextTarget = i ∧ i < n ∧ m.numReceives = 0 ∧ nw = i + 1 ∧ i < workers
  | .receiving => m.nextTarget = min n (workers + m.numReceives) ∧ m.numReceives ≤ n ∧ nw = workers
  | .sendNext => m.nextTarget + 1 = workers + m.numReceives ∧ m.nextTarget < n ∧
      m.numReceives ≤ m.nextTarget ∧ nw = workers

/-- The best kappa so far. -/
structure CohenBest (m : CohenMain K) (got : List (Nat × (Nat × Fl K))) : Prop where
  top : ∀ p ∈ got, ¬ m.bestKappa < p.2.2
  init : m.bestHyper = none → m.bestKappa = .fin 0
  hyper : ∀ t, m.bestHyper = some t → .fin 0 < m.bestKappa ∧ ∃ p ∈ got, p.2 = (t, m.bestKappa)

/-- The invariant of the main goroutine. -/
structure CohenInv (workers n : Nat) (s : Pool (CohenMain K) Nat (Nat × Fl K)) : Prop where
  pool : PoolInv cohenComp s
  phase : CohenPhaseInv workers n s.main s.workers.length
  sent : s.sent = List.range s.main.nextTarget
  got : s.got.length = s.main.numReceives
  best : CohenBest s.main s.got

theorem cohen_inv {workers n : Nat} (hw : 0 < workers) {s : Pool (CohenMain K) Nat (Nat × Fl K)}
    (h : PoolReach (cohenAct workers n) cohenComp cohenInit s) : CohenInv workers n s := by
  induction h with
  | init => exact ⟨PoolInv.init _ _, ⟨by simp [cohenInit, poolInit], rfl, rfl, by simp⟩, rfl, rfl,
      ⟨by simp [poolInit], fun _ => rfl, by simp [poolInit, cohenInit]⟩⟩
  | @step s s' h h' ih =>
    have hpool := ih.pool.step h'
    obtain ⟨-, hphase, hsent, hgot, hbest⟩ := ih
    obtain ⟨main, ws, sent, ev, got⟩ := s
    simp only at hphase hsent hgot hbest
    cases h' with
    | spawn m h =>
      simp only [cohenAct] at h
      split at h
      · rename_i i hph
        simp only [CohenPhaseInv, hph] at hphase
        split at h
        · simp only [Act.spawn.injEq] at h
          subst h
          refine ⟨hpool, ?_, hsent, hgot, ⟨hbest.top, hbest.init, hbest.hyper⟩⟩
          by_cases hn : main.nextTarget < n
          · simp only [CohenPhaseInv, hn, if_true, List.length_append, List.length_singleton]
            omega
          · simp only [CohenPhaseInv, hn, if_false, List.length_append, List.length_singleton]
            omega
        · simp at h
      · simp at h
      · split at h <;> simp at h
      · simp at h
    | tau m h =>
      simp only [cohenAct] at h
      split at h
      · rename_i i hph
        simp only [CohenPhaseInv, hph] at hphase
        split at h
        · simp at h
        · simp only [Act.tau.injEq] at h
          subst h
          refine ⟨hpool, ?_, hsent, hgot, ⟨hbest.top, hbest.init, hbest.hyper⟩⟩
          simp only [CohenPhaseInv]
          omega
      · simp at h
      · split at h <;> simp at h
      · simp at h
    | send w m i h hi =>
      simp only [cohenAct] at h
      split at h
      · split at h <;> simp at h
      · rename_i i hph
        simp only [CohenPhaseInv, hph] at hphase
        simp only [Act.send.injEq] at h
        obtain ⟨rfl, rfl⟩ := h
        refine ⟨hpool, ?_, ?_, hgot, ⟨hbest.top, hbest.init, hbest.hyper⟩⟩
        · simp only [CohenPhaseInv, List.length_set]
          omega
        · simp only [hsent, List.range_succ]
      · split at h <;> simp at h
      · rename_i hph
        simp only [CohenPhaseInv, hph] at hphase
        simp only [Act.send.injEq] at h
        obtain ⟨rfl, rfl⟩ := h
        refine ⟨hpool, ?_, ?_, hgot, ⟨hbest.top, hbest.init, hbest.hyper⟩⟩
        · simp only [CohenPhaseInv, List.length_set]
          omega
        · simp only [hsent, List.range_succ]
    | compute w i r hi hr =>
      exact ⟨hpool, by simpa using hphase, hsent, hgot, hbest⟩
    | recv f w i r h hi =>
      simp only [cohenAct] at h
      split at h
      · split at h <;> simp at h
      · simp at h
      · rename_i hph
        simp only [CohenPhaseInv, hph] at hphase
        split at h
        · rename_i hlt
          simp only [Act.recv.injEq] at h
          subst h
          refine ⟨hpool, ?_, hsent, by simp [cohenReceive, hgot], ?_, ?_, ?_⟩
          · by_cases hn : main.nextTarget < n
            · simp only [CohenPhaseInv, cohenReceive, hn, if_true, true_and, List.length_set]
              rcases Nat.le_total n (workers + main.numReceives) with hle | hle
              · rw [Nat.min_eq_left hle] at hphase; omega
              · rw [Nat.min_eq_right hle] at hphase; omega
            · simp only [CohenPhaseInv, cohenReceive, hn, if_false, List.length_set]
              omega
          · intro p hp
            simp only [cohenReceive]
            rcases List.mem_append.1 hp with hp | hp
            · have := hbest.top p hp
              split
              · rename_i hlt
                intro hc
                exact this (Fl.lt_trans hlt hc)
              · exact this
            · rw [List.mem_singleton.1 hp]
              simp only
              split
              · exact Fl.lt_irrefl _
              · assumption
          · simp only [cohenReceive]
            split
            · simp
            · exact hbest.init
          · intro t ht
            simp only [cohenReceive] at ht ⊢
            split at ht
            · rename_i hlt
              simp only [Option.some.injEq] at ht
              subst ht
              rw [if_pos hlt]
              refine ⟨?_, (w, r), by simp, rfl⟩
              cases hb : main.bestHyper with
              | none => rw [← hbest.init hb]; exact hlt
              | some t => exact Fl.lt_trans (hbest.hyper t hb).1 hlt
            · rename_i hlt
              rw [if_neg hlt]
              obtain ⟨h1, p, h2, h3⟩ := hbest.hyper t ht
              exact ⟨h1, p, by simp [h2], h3⟩
        · simp at h
      · simp at h

/-- The measure of the main goroutine. -/
def cohenNu (workers n : Nat) (m : CohenMain K) : Nat :=
  3 * (n - m.nextTarget) + 2 * (n - m.numReceives) +
    match m.phase with
    | .spawning i => 3 * (workers - i) + 3
    | .sendFirst i => 3 * (workers - i) + 2
    | .receiving => 0
    | .sendNext => 1

end

section
variable {K : Type} [LinearOrder K] [Zero K]

/-- **C41 (evaluated once).** When the call returns, every target has been evaluated exactly once
and its result has been received; no worker is busy. -/
theorem C41_each_once (n : Nat) (s : Pool (CohenMain K) Nat (Nat × Fl K)) (h : CohenReach n s)
    (hd : CohenDone n s) :
    s.evaluated.Perm (List.range n) ∧ (s.got.map (fun p => p.2.1)).Perm (List.range n) := by
  have hi := cohen_inv (by decide) h
  have hph := hi.phase
  unfold CohenDone cohenAct at hd
  split at hd
  · split at hd <;> simp at hd
  · simp at hd
  · rename_i hp
    simp only [CohenPhaseInv, hp] at hph
    split at hd
    · simp at hd
    · have hnr : s.main.numReceives = n := by omega
      have hnt : s.main.nextTarget = n := by have : cohenWorkers = 16 := rfl; omega
      have hb := hi.pool.busy
      rw [hi.sent, hnt, hi.got, hnr, List.length_range] at hb
      have hz : s.workers.filterMap Worker.held = [] := List.eq_nil_of_length_eq_zero (by omega)
      have hz' : s.workers.filterMap Worker.ready = [] := by
        rw [List.filterMap_eq_nil_iff] at hz ⊢
        intro a ha
        have := hz a ha
        cases a <;> simp_all [Worker.held, Worker.ready]
      have h1 := hi.pool.sent
      rw [hz, hi.sent, hnt] at h1
      have h2 := hi.pool.evaluated
      rw [hz'] at h2
      have hg : (s.got.map (fun p => p.2.1)) = s.got.map (·.1) := by
        apply List.map_congr_left
        intro p hp
        exact hi.pool.got p hp
      constructor
      · rw [← Multiset.coe_eq_coe, h2, h1]
      · rw [hg, ← Multiset.coe_eq_coe, h1]
        simp
  · simp at hd

/-- At no time is a target evaluated twice. -/
theorem C41_never_twice (n : Nat) (s : Pool (CohenMain K) Nat (Nat × Fl K)) (h : CohenReach n s) :
    s.evaluated.Nodup ∧ ∀ t ∈ s.evaluated, t < n := by
  have hi := cohen_inv (by decide) h
  have hle : s.main.nextTarget ≤ n := by
    have := hi.phase
    unfold CohenPhaseInv at this
    split at this <;> omega
  have h1 := hi.pool.sent
  rw [hi.sent] at h1
  have h2 := hi.pool.evaluated
  have hsub : (s.evaluated : Multiset Nat) ≤ (List.range s.main.nextTarget : Multiset Nat) := by
    rw [h1, h2]
    apply add_le_add_right
    rw [Multiset.coe_le]
    generalize s.workers = l
    induction l with
    | nil => simp
    | cons x l ih =>
      cases x with
      | idle => exact ih
      | computing w =>
        simp only [List.filterMap_cons, Worker.held, Worker.ready]
        exact ih.trans (List.sublist_cons_self _ _).subperm
      | sending w r =>
        simp only [List.filterMap_cons, Worker.held, Worker.ready]
        exact (List.subperm_cons w).2 ih
  have hnd : (s.evaluated : Multiset Nat).Nodup :=
    Multiset.nodup_of_le hsub (Multiset.coe_nodup.2 List.nodup_range)
  refine ⟨Multiset.coe_nodup.1 hnd, ?_⟩
  intro t ht
  have := Multiset.mem_of_le hsub (Multiset.mem_coe.2 ht)
  rw [Multiset.mem_coe, List.mem_range] at this
  omega

/-- **C41 (no deadlock).** As long as the call has not returned, some goroutine can proceed. -/
theorem C41_no_deadlock (n : Nat) (s : Pool (CohenMain K) Nat (Nat × Fl K)) (h : CohenReach n s)
    (hd : ¬ CohenDone n s) : ∃ s', CohenStep n s s' := by
  have hi := cohen_inv (by decide) h
  have hph := hi.phase
  have hlen : s.sent.length = s.main.nextTarget := by rw [hi.sent, List.length_range]
  have h16 : cohenWorkers = 16 := rfl
  cases hp : s.main.phase with
  | spawning i =>
    by_cases hlt : i < cohenWorkers
    · exact ⟨_, .spawn _ (by unfold cohenAct; rw [hp]; simp only; rw [if_pos hlt])⟩
    · exact ⟨_, .tau _ (by unfold cohenAct; rw [hp]; simp only; rw [if_neg hlt])⟩
  | sendFirst i =>
    simp only [CohenPhaseInv, hp] at hph
    refine hi.pool.send_step (w := s.main.nextTarget)
      (m := { s.main with nextTarget := s.main.nextTarget + 1, phase := .spawning (i + 1) })
      (by unfold cohenAct; rw [hp]) ?_
    omega
  | receiving =>
    simp only [CohenPhaseInv, hp] at hph
    by_cases hlt : s.main.numReceives < n
    · refine PoolInv.recv_step (act := cohenAct cohenWorkers n) (comp := cohenComp)
        (f := cohenReceive n s.main) (fun w => ⟨(w, .fin 0), rfl⟩) hi.pool
        (by unfold cohenAct; rw [hp]; simp only; rw [if_pos hlt]) ?_
      rw [hlen, hi.got]
      omega
    · exact absurd (by unfold CohenDone cohenAct; rw [hp]; simp only; rw [if_neg hlt]) hd
  | sendNext =>
    simp only [CohenPhaseInv, hp] at hph
    refine hi.pool.send_step (w := s.main.nextTarget)
      (m := { s.main with nextTarget := s.main.nextTarget + 1, phase := .receiving })
      (by unfold cohenAct; rw [hp]) ?_
    have := hi.got
    omega

/-- **C41 (termination).** No schedule runs forever. -/
theorem C41_terminates (n : Nat) (run : Nat → Pool (CohenMain K) Nat (Nat × Fl K))
    (h0 : run 0 = poolInit cohenInit) : ¬ ∀ k, CohenStep n (run k) (run (k + 1)) := by
  intro hs
  refine pool_terminates
    (fun s => cohenNu cohenWorkers n s.main + s.workers.countP Worker.isComputing) ?_ run h0 hs
  intro s s' hr hst
  have hi := cohen_inv (by decide) hr
  have hph := hi.phase
  apply pool_measure (cohenNu cohenWorkers n) hst
  · intro m h
    unfold cohenAct at h
    split at h
    · rename_i i hp
      simp only [CohenPhaseInv, hp] at hph
      split at h
      · simp only [Act.spawn.injEq] at h
        subst h
        by_cases hn : s.main.nextTarget < n
        · simp only [cohenNu, hp, hn, if_true]; omega
        · simp only [cohenNu, hp, hn, if_false]; omega
      · simp at h
    · simp at h
    · split at h <;> simp at h
    · simp at h
  · intro m h
    unfold cohenAct at h
    split at h
    · rename_i i hp
      split at h
      · simp at h
      · simp only [Act.tau.injEq] at h
        subst h
        simp only [cohenNu, hp]; omega
    · simp at h
    · split at h <;> simp at h
    · simp at h
  · intro w m h
    unfold cohenAct at h
    split at h
    · split at h <;> simp at h
    · rename_i i hp
      simp only [CohenPhaseInv, hp] at hph
      simp only [Act.send.injEq] at h
      obtain ⟨-, rfl⟩ := h
      simp only [cohenNu, hp]; omega
    · split at h <;> simp at h
    · rename_i hp
      simp only [CohenPhaseInv, hp] at hph
      simp only [Act.send.injEq] at h
      obtain ⟨-, rfl⟩ := h
      simp only [cohenNu, hp]; omega
  · intro f w i r h _
    unfold cohenAct at h
    split at h
    · split at h <;> simp at h
    · simp at h
    · rename_i hp
      split at h
      · simp only [Act.recv.injEq] at h
        subst h
        by_cases hn : s.main.nextTarget < n
        · simp only [cohenNu, cohenReceive, hp, hn, if_true]; omega
        · simp only [cohenNu, cohenReceive, hp, hn, if_false]; omega
      · simp at h
    · simp at h

/-- **C41 (number of results).** The call returns after exactly `len(targets)` results. -/
theorem C41_count (n : Nat) (s : Pool (CohenMain K) Nat (Nat × Fl K)) (h : CohenReach n s) :
    s.got.length ≤ n ∧ (CohenDone n s → s.got.length = n) := by
  have hi := cohen_inv (by decide) h
  constructor
  · have := hi.phase
    have hg := hi.got
    unfold CohenPhaseInv at this
    split at this <;> omega
  · intro hd
    have := (C41_each_once n s h hd).2.length_eq
    simpa using this

/-- **C41 (result).** The hyper parameters returned are those of a target with the largest kappa
that was computed if that is positive; if no kappa is positive, nil is returned. -/
theorem C41_best (n : Nat) (s : Pool (CohenMain K) Nat (Nat × Fl K)) (h : CohenReach n s) :
    (∀ t, s.main.bestHyper = some t → ∃ p ∈ s.got, p.2.1 = t ∧ .fin 0 < p.2.2 ∧
      ∀ q ∈ s.got, ¬ p.2.2 < q.2.2) ∧
    (s.main.bestHyper = none ↔ ∀ q ∈ s.got, ¬ .fin 0 < q.2.2) := by
  have hi := cohen_inv (by decide) h
  refine ⟨?_, ?_, ?_⟩
  · intro t ht
    obtain ⟨h1, p, h2, h3⟩ := hi.best.hyper t ht
    refine ⟨p, h2, by rw [h3], by rw [h3]; exact h1, ?_⟩
    intro q hq
    rw [h3]
    exact hi.best.top q hq
  · intro hn q hq
    rw [← hi.best.init hn]
    exact hi.best.top q hq
  · intro hall
    cases hb : s.main.bestHyper with
    | none => rfl
    | some t =>
      obtain ⟨h1, p, h2, h3⟩ := hi.best.hyper t hb
      exact absurd (by rw [h3]; exact h1) (hall p h2)

end

/-- The first steps with two targets: worker 0 gets target 0. -/
example : ∃ s : Pool (CohenMain ℚ) Nat (Nat × Fl ℚ), CohenReach 2 s ∧ s.sent = [0] ∧
    s.evaluated = [0] ∧ s.workers.length = 1 := by
  refine ⟨_, .step (.step (.step .init (.spawn _ rfl)) (.send 0 _ 0 rfl rfl))
    (.compute 0 0 (0, .fin (1/2)) rfl rfl), rfl, rfl, rfl⟩

end GoSelect
