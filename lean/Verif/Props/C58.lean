import Verif.Model.ThresholdSearch
import Verif.Proofs.Pool
import Verif.Props.C36
import Verif.Props.C59_C61
import Mathlib.Algebra.BigOperators.Group.List.Basic
import Mathlib.Algebra.BigOperators.Fin
import Mathlib.Tactic.Ring
import Mathlib.Tactic.Linarith

/-! C58: `L2ConsistentCovTO` under all schedules. -/

namespace GoSelect

open Finset

section
variable {K : Type} [Field K]

/-- The workload with number `i` in the order they are handed out. -/
def covWork (N i : Nat) : Nat × Nat := (i / N, i % N)

/-- Workloads handed out at the start of round `part`. -/
def covLead (N part : Nat) : Nat := if part = 0 then covSim N else 1

/-- Where the main goroutine is; `len` workloads have been handed out, `nw` workers started. -/
def CovPhaseInv (N : Nat) (m : CovMain K) (nw len : Nat) : Prop :=
  match m.phase with
  | .spawning i => m.part = 0 ∧ m.gridPt = i ∧ m.numReceives = 0 ∧ nw = i ∧ i ≤ covSim N ∧ len = i
  | .sendFirst i => m.part = 0 ∧ m.gridPt = i ∧ m.numReceives = 0 ∧ nw = i + 1 ∧ i < covSim N ∧ len = i
  | .receiving => ∃ r, r < N ∧ m.numReceives = m.part * N + r ∧ m.gridPt = covLead N m.part + r ∧
      len = m.part * N + min N m.gridPt ∧ nw = covSim N
  | .sendNext w => ∃ r, r < N ∧ m.numReceives = m.part * N + r ∧ m.gridPt = covLead N m.part + r ∧
      m.gridPt ≤ N ∧ 0 < m.gridPt ∧ len = m.part * N + (m.gridPt - 1) ∧ w = (m.part, m.gridPt - 1) ∧ nw = covSim N
  | .failed => False

/-- The sum collected for grid point `g`. -/
def covSum (S : Nat) (got : List ((Nat × Nat) × (K × Nat))) (g : Nat) : K :=
  ((got.filter (fun p => p.2.2 = g)).map (fun p => p.2.1 / (S : K))).sum

/-- The invariant. -/
structure CovInv (N S : Nat) (diff : Nat → Nat → K) (s : Pool (CovMain K) (Nat × Nat) (K × Nat)) : Prop where
  pool : PoolInv (covComp diff) s
  phase : CovPhaseInv N s.main s.workers.length s.sent.length
  sent : s.sent = (List.range s.sent.length).map (covWork N)
  got : s.got.length = s.main.numReceives
  held : ∀ w ∈ s.workers.filterMap Worker.held, w.1 = s.main.part
  le : s.main.numReceives ≤ S * N
  mean : s.main.meanNormDiff = (List.range N).map (covSum S s.got)

theorem covWork_append {N n : Nat} {w : Nat × Nat} {l : List (Nat × Nat)} (h : l = (List.range l.length).map (covWork N))
    (hn : l.length = n) (hw : w = covWork N n) :
    l ++ [w] = (List.range (l ++ [w]).length).map (covWork N) := by
  subst hn
  rw [List.length_append, List.length_singleton, List.range_succ, List.map_append, ← h, hw]
  rfl

theorem covWork_eq {N part g : Nat} (hg : g < N) : covWork N (part * N + g) = (part, g) := by
  unfold covWork
  rw [Nat.mul_add_mod_self_right, Nat.mod_eq_of_lt hg, Nat.mul_comm, Nat.mul_add_div (by omega),
    Nat.div_eq_of_lt hg, Nat.add_zero]

theorem mem_held_set_computing {W R : Type} {ws : List (Worker W R)} {i : Nat} {w x : W}
    (h : x ∈ (ws.set i (.computing w)).filterMap Worker.held) :
    x = w ∨ x ∈ ws.filterMap Worker.held := by
  obtain ⟨a, ha, hx⟩ := List.mem_filterMap.1 h
  rcases List.mem_or_eq_of_mem_set ha with ha | rfl
  · exact .inr (List.mem_filterMap.2 ⟨a, ha, hx⟩)
  · simp [Worker.held] at hx
    exact .inl hx.symm

theorem mem_held_set_sending {W R : Type} {ws : List (Worker W R)} {i : Nat} {w x : W} {r : R}
    (hi : ws[i]? = some (.computing w)) (h : x ∈ (ws.set i (.sending w r)).filterMap Worker.held) :
    x ∈ ws.filterMap Worker.held := by
  obtain ⟨a, ha, hx⟩ := List.mem_filterMap.1 h
  rcases List.mem_or_eq_of_mem_set ha with ha | rfl
  · exact List.mem_filterMap.2 ⟨a, ha, hx⟩
  · refine List.mem_filterMap.2 ⟨_, List.mem_of_getElem? hi, ?_⟩
    simpa [Worker.held] using hx

theorem mem_held_set_idle {W R : Type} {ws : List (Worker W R)} {i : Nat} {x : W}
    (h : x ∈ (ws.set i .idle).filterMap Worker.held) :
    x ∈ ws.filterMap Worker.held := by
  obtain ⟨a, ha, hx⟩ := List.mem_filterMap.1 h
  rcases List.mem_or_eq_of_mem_set ha with ha | rfl
  · exact List.mem_filterMap.2 ⟨a, ha, hx⟩
  · simp [Worker.held] at hx

theorem cov_inv {N S : Nat} {diff : Nat → Nat → K} (hN : 0 < N) {s : Pool (CovMain K) (Nat × Nat) (K × Nat)}
    (h : CovReach N S diff s) : CovInv N S diff s := by
  have hw10 : covSim N ≤ N := by unfold covSim; split <;> omega
  have hw1 : 0 < covSim N := by unfold covSim; split <;> omega
  have hl0 : covLead N 0 = covSim N := rfl
  induction h with
  | init =>
    refine ⟨PoolInv.init _ _, ⟨rfl, rfl, rfl, rfl, by simp, rfl⟩, rfl, rfl, by simp [poolInit], by simp [poolInit, covInit], ?_⟩
    simp only [poolInit, covInit]
    apply List.ext_getElem
    · simp
    · intro i h1 h2
      simp [covSum]
  | @step s s' h h' ih =>
    have hpool := ih.pool.step h'
    obtain ⟨hp0, hphase, hsent, hgot, hheld, hle, hmean⟩ := ih
    obtain ⟨main, ws, sent, ev, got⟩ := s
    simp only at hphase hsent hgot hheld hle hmean
    cases h' with
    | spawn m h =>
      simp only [covAct] at h
      split at h
      · rename_i i hph
        simp only [CovPhaseInv, hph] at hphase
        split at h
        · simp only [Act.spawn.injEq] at h
          subst h
          refine ⟨hpool, ?_, hsent, hgot, ?_, hle, hmean⟩
          · simp only [CovPhaseInv, List.length_append, List.length_singleton]
            omega
          · intro w hw
            apply hheld
            simpa [Worker.held] using hw
        · simp at h
      · simp at h
      · split at h <;> simp at h
      · simp at h
      · simp at h
    | tau m h =>
      simp only [covAct] at h
      split at h
      · rename_i i hph
        simp only [CovPhaseInv, hph] at hphase
        split at h
        · simp at h
        · simp only [Act.tau.injEq] at h
          subst h
          obtain ⟨h1, h2, h3, h4, h5, h6⟩ := hphase
          refine ⟨hpool, ⟨0, hN, by simp [h1, h3], ?_, ?_, ?_⟩, hsent, hgot, hheld, hle, hmean⟩
          · show main.gridPt = covLead N main.part + 0
            rw [h1, hl0]
            omega
          · show sent.length = main.part * N + min N main.gridPt
            rw [h1]
            omega
          · show ws.length = _
            omega
      · simp at h
      · split at h <;> simp at h
      · simp at h
      · simp at h
    | send w m i h hi =>
      simp only [covAct] at h
      split at h
      · split at h <;> simp at h
      · rename_i i hph
        simp only [CovPhaseInv, hph] at hphase
        obtain ⟨h1, h2, h3, h4, h5, h6⟩ := hphase
        simp only [Act.send.injEq] at h
        obtain ⟨rfl, rfl⟩ := h
        refine ⟨hpool, ?_, ?_, hgot, ?_, hle, hmean⟩
        · simp only [CovPhaseInv, List.length_set, List.length_append, List.length_singleton]
          omega
        · apply covWork_append hsent rfl
          rw [h6, show i = 0 * N + i by omega, covWork_eq (by omega), h1, h2]
        · intro x hx
          rcases mem_held_set_computing hx with rfl | hx
          · rfl
          · exact hheld x hx
      · split at h <;> simp at h
      · rename_i wk hph
        simp only [CovPhaseInv, hph] at hphase
        obtain ⟨r, h1, h2, h3, h4, h5, h6, h7, h8⟩ := hphase
        simp only [Act.send.injEq] at h
        obtain ⟨rfl, rfl⟩ := h
        refine ⟨hpool, ⟨r, h1, h2, h3, ?_, ?_⟩, ?_, hgot, ?_, hle, hmean⟩
        · simp only [List.length_append, List.length_singleton]
          omega
        · simpa using h8
        · apply covWork_append hsent rfl
          rw [h6, covWork_eq (by omega), h7]
        · intro x hx
          rcases mem_held_set_computing hx with rfl | hx
          · rw [h7]
          · exact hheld x hx
      · simp at h
    | compute w i r hi hr =>
      refine ⟨hpool, by simpa using hphase, hsent, hgot, ?_, hle, hmean⟩
      intro x hx
      exact hheld x (mem_held_set_sending hi hx)
    | recv f w i r h hi =>
      simp only [covAct] at h
      split at h
      · split at h <;> simp at h
      · simp at h
      · rename_i hph
        simp only [CovPhaseInv, hph] at hphase
        obtain ⟨q, h1, h2, h3, h4, h5⟩ := hphase
        split at h
        · rename_i hlt
          simp only [Act.recv.injEq] at h
          subst h
          have hwheld : w ∈ ws.filterMap Worker.held :=
            List.mem_filterMap.2 ⟨_, List.mem_of_getElem? hi, rfl⟩
          have hcomp : covComp diff w r := (hpool.got (w, r) (by simp))
          have hwN : w.2 < N := by
            have : w ∈ sent := by
              have e := hp0.sent
              rw [← Multiset.mem_coe, e]
              simp [hwheld]
            rw [hsent] at this
            obtain ⟨j, -, rfl⟩ := List.mem_map.1 this
            exact Nat.mod_lt _ hN
          have hr2 : r.2 = w.2 := by rw [hcomp]
          have hlenm : main.meanNormDiff.length = N := by rw [hmean]; simp
          have hmean' : main.meanNormDiff.set r.2 (main.meanNormDiff.getD r.2 0 + r.1 / (S : K)) =
              (List.range N).map (covSum S (got ++ [(w, r)])) := by
            apply List.ext_getElem
            · simp [hlenm]
            · intro j j1 j2
              have hj : j < N := by simpa [hlenm] using j1
              rw [List.getElem_set]
              simp only [List.getElem_map, List.getElem_range]
              by_cases hjr : r.2 = j
              · rw [if_pos hjr, hmean, hjr, List.getD_eq_getElem?_getD]
                simp [hj, covSum, List.filter_append, hjr]
              · rw [if_neg hjr]
                simp only [hmean, List.getElem_map, List.getElem_range]
                simp [covSum, List.filter_append, hjr]
          have hheld' : ∀ x ∈ (ws.set i Worker.idle).filterMap Worker.held, x.1 = main.part :=
            fun x hx => hheld x (mem_held_set_idle hx)
          have hb := hpool.busy
          have hgl : (got ++ [(w, r)]).length = main.numReceives + 1 := by simp [hgot]
          unfold covReceive at hpool hb ⊢
          rw [if_pos (by omega)] at hpool hb ⊢
          simp only at hb
          by_cases hmod : (main.numReceives + 1) % N = 0
          · have hq : q + 1 = N := by
              rw [h2, Nat.add_assoc, Nat.mul_add_mod_self_right] at hmod
              rcases Nat.lt_or_ge (q + 1) N with hc | hc
              · rw [Nat.mod_eq_of_lt hc] at hmod; omega
              · omega
            have hmul : (main.part + 1) * N = main.part * N + N := by ring
            simp only [hmod, if_true, if_pos (show 1 ≤ N by omega)] at hpool hb ⊢
            refine ⟨hpool, ⟨0, hN, ?_, ?_, ?_, ?_, ?_, rfl, ?_⟩, hsent, hgl, ?_, hlt, hmean'⟩
            · show main.numReceives + 1 = (main.part + 1) * N + 0
              omega
            · simp [covLead]
            · show 1 ≤ N; omega
            · show 0 < 1; omega
            · show sent.length = (main.part + 1) * N + (1 - 1)
              have hg1 : 1 ≤ covLead N main.part := by unfold covLead; split <;> omega
              omega
            · simpa using h5
            · have hg1 : 1 ≤ covLead N main.part := by unfold covLead; split <;> omega
              have hz : ((ws.set i Worker.idle).filterMap Worker.held).length = 0 := by
                rw [hgl] at hb
                omega
              intro x hx
              rw [List.eq_nil_of_length_eq_zero hz] at hx
              simp at hx
          · have hq : q + 1 < N := by
              by_contra hc
              apply hmod
              have : q + 1 = N := by omega
              rw [h2, Nat.add_assoc, this, Nat.mul_add_mod_self_right, Nat.mod_self]
            simp only [hmod, if_false] at hpool hb ⊢
            by_cases hgp : main.gridPt + 1 ≤ N
            · simp only [hgp, if_true] at hpool hb ⊢
              refine ⟨hpool, ⟨q + 1, hq, ?_, ?_, hgp, ?_, ?_, ?_, ?_⟩, hsent, hgl, hheld', hlt, hmean'⟩
              · show main.numReceives + 1 = _; simp only; omega
              · show main.gridPt + 1 = covLead N main.part + (q + 1); omega
              · show 0 < main.gridPt + 1; omega
              · show sent.length = main.part * N + (main.gridPt + 1 - 1); omega
              · simp
              · simpa using h5
            · simp only [hgp, if_false] at hpool hb ⊢
              refine ⟨hpool, ⟨q + 1, hq, ?_, ?_, ?_, ?_⟩, hsent, hgl, hheld', hlt, hmean'⟩
              · show main.numReceives + 1 = _; simp only; omega
              · show main.gridPt + 1 = covLead N main.part + (q + 1); omega
              · show sent.length = main.part * N + min N (main.gridPt + 1); omega
              · simpa using h5
        · simp at h
      · simp at h
      · simp at h

/-- **C58 (no panic).** The loops never index out of range. -/
theorem C58_no_panic {N S : Nat} {diff : Nat → Nat → K} (hN : 0 < N)
    (s : Pool (CovMain K) (Nat × Nat) (K × Nat)) (h : CovReach N S diff s) : covAct N S s.main ≠ .panic := by
  have hph := (cov_inv hN h).phase
  unfold covAct
  cases hp : s.main.phase with
  | spawning i => simp only; split <;> simp
  | sendFirst i => simp
  | receiving => simp only; split <;> simp
  | sendNext w => simp
  | failed => simp [CovPhaseInv, hp] at hph

/-- **C58 (no deadlock).** As long as the loop has not ended, some goroutine can proceed. -/
theorem C58_no_deadlock {N S : Nat} {diff : Nat → Nat → K} (hN : 0 < N)
    (s : Pool (CovMain K) (Nat × Nat) (K × Nat)) (h : CovReach N S diff s) (hd : ¬ CovDone N S s) :
    ∃ s', CovStep N S diff s s' := by
  have hi := cov_inv hN h
  have hph := hi.phase
  have hw1 : 0 < covSim N := by unfold covSim; split <;> omega
  have hgot := hi.got
  have hl : ∀ p, 1 ≤ covLead N p ∧ covLead N p ≤ covSim N := by
    intro p; unfold covLead; split <;> omega
  cases hp : s.main.phase with
  | spawning i =>
    by_cases hlt : i < covSim N
    · exact ⟨_, .spawn _ (by unfold covAct; rw [hp]; simp only; rw [if_pos hlt])⟩
    · exact ⟨_, .tau _ (by unfold covAct; rw [hp]; simp only; rw [if_neg hlt])⟩
  | sendFirst i =>
    simp only [CovPhaseInv, hp] at hph
    exact hi.pool.send_step (act := covAct N S) (w := (s.main.part, s.main.gridPt)) (m := _)
      (by unfold covAct; rw [hp]) (by omega)
  | receiving =>
    simp only [CovPhaseInv, hp] at hph
    obtain ⟨q, h1, h2, h3, h4, h5⟩ := hph
    by_cases hlt : s.main.numReceives < S * N
    · refine PoolInv.recv_step (act := covAct N S) (comp := covComp diff)
        (f := covReceive N S s.main) (fun w => ⟨_, rfl⟩) hi.pool
        (by unfold covAct; rw [hp]; simp only; rw [if_pos hlt]) ?_
      have := hl s.main.part
      omega
    · exact absurd (by unfold CovDone covAct; rw [hp]; simp only; rw [if_neg hlt]) hd
  | sendNext w =>
    simp only [CovPhaseInv, hp] at hph
    obtain ⟨q, h1, h2, h3, h4, h5, h6, h7, h8⟩ := hph
    have := hl s.main.part
    exact hi.pool.send_step (act := covAct N S) (w := w) (m := _) (by unfold covAct; rw [hp]) (by omega)
  | failed => simp only [CovPhaseInv, hp] at hph

/-- The measure of the main goroutine. -/
def covNu (N S : Nat) (m : CovMain K) : Nat :=
  3 * (S * N - m.numReceives) +
    match m.phase with
    | .spawning i => 4 * (covSim N - i) + 1
    | .sendFirst i => 4 * (covSim N - i)
    | .receiving => 0
    | .sendNext _ => 2
    | .failed => 0

/-- **C58 (termination).** No schedule runs forever. -/
theorem C58_terminates {N S : Nat} {diff : Nat → Nat → K} (hN : 0 < N)
    (run : Nat → Pool (CovMain K) (Nat × Nat) (K × Nat))
    (h0 : run 0 = poolInit (covInit N)) : ¬ ∀ k, CovStep N S diff (run k) (run (k + 1)) := by
  intro hs
  refine pool_terminates (fun s => covNu N S s.main + s.workers.countP Worker.isComputing) ?_ run h0 hs
  intro s s' hr hst
  have hi := cov_inv hN hr
  have hph := hi.phase
  apply pool_measure (covNu N S) hst
  · intro m h
    simp only [covAct] at h
    split at h
    · rename_i i hp
      simp only [CovPhaseInv, hp] at hph
      split at h
      · simp only [Act.spawn.injEq] at h
        subst h
        simp only [covNu, hp]; omega
      · simp at h
    · simp at h
    · split at h <;> simp at h
    · simp at h
    · simp at h
  · intro m h
    simp only [covAct] at h
    split at h
    · rename_i i hp
      split at h
      · simp at h
      · simp only [Act.tau.injEq] at h
        subst h
        simp only [covNu, hp]; omega
    · simp at h
    · split at h <;> simp at h
    · simp at h
    · simp at h
  · intro w m h
    simp only [covAct] at h
    split at h
    · split at h <;> simp at h
    · rename_i i hp
      simp only [CovPhaseInv, hp] at hph
      simp only [Act.send.injEq] at h
      obtain ⟨-, rfl⟩ := h
      simp only [covNu, hp]; omega
    · split at h <;> simp at h
    · rename_i wk hp
      simp only [Act.send.injEq] at h
      obtain ⟨-, rfl⟩ := h
      simp only [covNu, hp]; omega
    · simp at h
  · intro f w i r h hw
    simp only [covAct] at h
    split at h
    · split at h <;> simp at h
    · simp at h
    · rename_i hp
      split at h
      · rename_i hlt
        simp only [Act.recv.injEq] at h
        subst h
        have hinv := (cov_inv hN (.step hr (.recv _ w i r
          (by unfold covAct; rw [hp]; simp only; rw [if_pos hlt]) hw))).phase
        unfold covReceive at hinv ⊢
        split
        · split
          · split
            · simp only [covNu, hp]; omega
            · simp only [covNu, hp]; omega
          · split
            · simp only [covNu, hp]; omega
            · simp only [covNu, hp]; omega
        · rename_i hc
          simp only [if_neg hc, CovPhaseInv] at hinv
      · simp at h
    · simp at h
    · simp at h

theorem cov_done {N S : Nat} {diff : Nat → Nat → K} (hN : 0 < N)
    {s : Pool (CovMain K) (Nat × Nat) (K × Nat)} (h : CovReach N S diff s) (hd : CovDone N S s) :
    s.main.numReceives = S * N ∧ s.main.part = S := by
  have hi := cov_inv hN h
  have hph := hi.phase
  have hle := hi.le
  unfold CovDone at hd
  simp only [covAct] at hd
  split at hd
  · split at hd <;> simp at hd
  · simp at hd
  · rename_i hp
    simp only [CovPhaseInv, hp] at hph
    obtain ⟨q, h1, h2, -⟩ := hph
    split at hd
    · simp at hd
    · have h3 : s.main.numReceives = S * N := by omega
      refine ⟨h3, ?_⟩
      have h4 : s.main.part = s.main.numReceives / N := by
        rw [h2, Nat.mul_comm, Nat.mul_add_div hN, Nat.div_eq_of_lt h1, Nat.add_zero]
      rw [h4, h3, Nat.mul_div_cancel _ hN]
  · simp at hd
  · simp at hd

theorem covWork_filter (N S m : Nat) (hN : 0 < N) :
    ((List.range (S * N + m)).map (covWork N)).filter (fun w => decide (w.1 < S)) =
      (List.range (S * N)).map (covWork N) := by
  rw [List.range_add, List.map_append, List.filter_append]
  have h1 : ((List.range (S * N)).map (covWork N)).filter (fun w => decide (w.1 < S)) =
      (List.range (S * N)).map (covWork N) := by
    rw [List.filter_eq_self]
    intro w hw
    obtain ⟨i, hi, rfl⟩ := List.mem_map.1 hw
    rw [List.mem_range] at hi
    exact decide_eq_true ((Nat.div_lt_iff_lt_mul hN).2 hi)
  have h2 : (((List.range m).map (S * N + ·)).map (covWork N)).filter (fun w => decide (w.1 < S)) = [] := by
    rw [List.filter_eq_nil_iff]
    intro w hw
    obtain ⟨i, hi, rfl⟩ := List.mem_map.1 hw
    obtain ⟨j, -, rfl⟩ := List.mem_map.1 hi
    exact fun hc => absurd (of_decide_eq_true hc)
      (Nat.not_lt.2 ((Nat.le_div_iff_mul_le hN).2 (Nat.le_add_right _ _)))
  rw [h1, h2, List.append_nil]

theorem covWork_product (N S : Nat) (hN : 0 < N) :
    ((List.range (S * N)).map (covWork N)).Perm (List.range S ×ˢ List.range N) := by
  rw [List.perm_ext_iff_of_nodup]
  · rintro ⟨k, g⟩
    simp only [List.mem_map, List.mem_range, List.mem_product]
    constructor
    · rintro ⟨i, hi, he⟩
      simp only [covWork, Prod.mk.injEq] at he
      obtain ⟨rfl, rfl⟩ := he
      exact ⟨(Nat.div_lt_iff_lt_mul hN).2 hi, Nat.mod_lt _ hN⟩
    · rintro ⟨hk, hg⟩
      refine ⟨k * N + g, ?_, covWork_eq hg⟩
      calc k * N + g < k * N + N := by omega
        _ = (k + 1) * N := by ring
        _ ≤ S * N := Nat.mul_le_mul_right _ hk
  · refine List.Nodup.map_on ?_ List.nodup_range
    intro a _ b _ he
    simp only [covWork, Prod.mk.injEq] at he
    rw [← Nat.div_add_mod a N, he.1, he.2, Nat.div_add_mod]
  · exact List.Nodup.product List.nodup_range List.nodup_range

/-- **C58 (each grid point once per partition).** When the loop ends, the results received are those of every
grid point for every one of the first `numSamples` partitions, each exactly once. -/
theorem C58_each_once {N S : Nat} {diff : Nat → Nat → K} (hN : 0 < N)
    (s : Pool (CovMain K) (Nat × Nat) (K × Nat)) (h : CovReach N S diff s) (hd : CovDone N S s) :
    (s.got.map (·.1)).Perm (List.range S ×ˢ List.range N) ∧
      (∀ p ∈ s.got, p.2 = (diff p.1.1 p.1.2, p.1.2)) ∧
      ∀ w ∈ s.workers.filterMap Worker.held, w.1 = S := by
  have hi := cov_inv hN h
  obtain ⟨hnum, hpart⟩ := cov_done hN h hd
  have hgot := hi.got
  have hheld := hi.held
  rw [hpart] at hheld
  refine ⟨?_, fun p hp => hi.pool.got p hp, hheld⟩
  have hb := hi.pool.busy
  have hlen : S * N ≤ s.sent.length := by omega
  have hps : s.sent.Perm (s.got.map (·.1) ++ s.workers.filterMap Worker.held) := by
    rw [← Multiset.coe_eq_coe, hi.pool.sent]
    rfl
  have hf := hps.filter (fun w => decide (w.1 < S))
  rw [hi.sent, show s.sent.length = S * N + (s.sent.length - S * N) by omega, covWork_filter N S _ hN,
    List.filter_append] at hf
  have hz : (s.workers.filterMap Worker.held).filter (fun w => decide (w.1 < S)) = [] := by
    rw [List.filter_eq_nil_iff]
    intro w hw
    simp [hheld w hw]
  rw [hz, List.append_nil] at hf
  have hfl : ((s.got.map (·.1)).filter (fun w => decide (w.1 < S))) = s.got.map (·.1) := by
    apply (List.filter_sublist).eq_of_length
    rw [← hf.length_eq]
    simp [hgot, hnum]
  rw [hfl] at hf
  exact hf.symm.trans (covWork_product N S hN)

/-- **C58 (mean).** When the loop ends, the entry of each grid point is the mean over the first `numSamples`
partitions of the values computed from these partitions. -/
theorem C58_mean {N S : Nat} {diff : Nat → Nat → K} (hN : 0 < N)
    (s : Pool (CovMain K) (Nat × Nat) (K × Nat)) (h : CovReach N S diff s) (hd : CovDone N S s) :
    s.main.meanNormDiff = (List.range N).map (fun g => ∑ k ∈ range S, diff k g / (S : K)) := by
  have hi := cov_inv hN h
  obtain ⟨h1, h2, -⟩ := C58_each_once hN s h hd
  rw [hi.mean]
  apply List.map_congr_left
  intro g hg
  rw [List.mem_range] at hg
  have e1 : covSum S s.got g =
      (((s.got.map (·.1)).filter (fun w => decide (w.2 = g))).map (fun w => diff w.1 w.2 / (S : K))).sum := by
    unfold covSum
    rw [List.filter_map, List.map_map]
    have hfe : s.got.filter ((fun w : Nat × Nat => decide (w.2 = g)) ∘ fun x => x.1) =
        s.got.filter (fun p => decide (p.2.2 = g)) := by
      apply List.filter_congr
      intro p hp
      simp [h2 p hp]
    rw [hfe]
    congr 1
    apply List.map_congr_left
    intro p hp
    have := h2 p (List.mem_filter.1 hp).1
    simp [this]
  have hp : ((s.got.map (·.1)).filter (fun w => decide (w.2 = g))).Perm ((List.range S).map (fun k => (k, g))) := by
    refine (h1.filter _).trans ?_
    rw [List.perm_ext_iff_of_nodup ((List.Nodup.product List.nodup_range List.nodup_range).filter _)
      (List.Nodup.map (fun a b he => by simpa using he) List.nodup_range)]
    rintro ⟨a, b⟩
    simp only [List.mem_filter, List.mem_product, List.mem_range, decide_eq_true_eq, List.mem_map, Prod.mk.injEq]
    constructor
    · rintro ⟨⟨ha, hb⟩, rfl⟩
      exact ⟨a, ha, rfl, rfl⟩
    · rintro ⟨k, hk, rfl, rfl⟩
      exact ⟨⟨hk, hg⟩, rfl⟩
  rw [e1, (hp.map _).sum_eq, List.map_map, Finset.sum_range]
  rw [← List.sum_ofFn]
  congr 1
  apply List.ext_getElem <;> simp

theorem covReceive_length (N S : Nat) (m : CovMain K) (r : K × Nat) :
    (covReceive N S m r).meanNormDiff.length = m.meanNormDiff.length := by
  unfold covReceive
  split
  · simp only
    split
    · split <;> simp
    · split <;> simp
  · rfl

theorem cov_mean_length {N S : Nat} {diff : Nat → Nat → K} {s : Pool (CovMain K) (Nat × Nat) (K × Nat)}
    (h : CovReach N S diff s) : s.main.meanNormDiff.length = N := by
  induction h with
  | init => simp [poolInit, covInit]
  | @step s s' hr hst ih =>
    cases hst with
    | spawn m h =>
      simp only [covAct] at h
      split at h
      · split at h
        · simp only [Act.spawn.injEq] at h
          subst h
          exact ih
        · simp at h
      · simp at h
      · split at h <;> simp at h
      · simp at h
      · simp at h
    | tau m h =>
      simp only [covAct] at h
      split at h
      · split at h
        · simp at h
        · simp only [Act.tau.injEq] at h
          subst h
          exact ih
      · simp at h
      · split at h <;> simp at h
      · simp at h
      · simp at h
    | send w m i h hi =>
      simp only [covAct] at h
      split at h
      · split at h <;> simp at h
      · simp only [Act.send.injEq] at h
        obtain ⟨-, rfl⟩ := h
        exact ih
      · split at h <;> simp at h
      · simp only [Act.send.injEq] at h
        obtain ⟨-, rfl⟩ := h
        exact ih
      · simp at h
    | compute w i r hi hr => exact ih
    | recv f w i r h hi =>
      simp only [covAct] at h
      split at h
      · split at h <;> simp at h
      · simp at h
      · split at h
        · simp only [Act.recv.injEq] at h
          subst h
          rw [covReceive_length]
          exact ih
        · simp at h
      · simp at h
      · simp at h

/-- **C58 (returns).** Some schedule, hence by C58_terminates and C58_no_deadlock every schedule, reaches the
end of the loop. -/
theorem C58_returns {N S : Nat} {diff : Nat → Nat → K} (hN : 0 < N) :
    ∃ s, CovReach N S diff s ∧ CovDone N S s := by
  by_contra hc
  have hstep : ∀ s : {s // CovReach N S diff s}, ∃ s' : {s // CovReach N S diff s}, CovStep N S diff s.1 s'.1 := by
    rintro ⟨s, hs⟩
    obtain ⟨s', h'⟩ := C58_no_deadlock hN s hs (fun hd => hc ⟨s, hs, hd⟩)
    exact ⟨⟨s', .step hs h'⟩, h'⟩
  choose f hf using hstep
  refine C58_terminates (diff := diff) (S := S) hN
    (fun k => (f^[k] ⟨poolInit (covInit N), .init⟩).1) rfl (fun k => ?_)
  simp only [Function.iterate_succ_apply']
  exact hf _

end

/-- The covariance of columns `i` and `j`: mean of the products of the deviations. -/
noncomputable def Spec.cov (X : Mat ℝ) (i j : Nat) : ℝ :=
  (∑ r ∈ range X.nr, (X.get r i - Spec.colMean X i) * (X.get r j - Spec.colMean X j)) / (X.nr : ℝ)

/-- How badly the covariances of `A`, without those below `t`, predict the covariances of `B`: the Frobenius
norm of the difference. -/
noncomputable def Spec.holdoutError (A B : Mat ℝ) (t : ℝ) : ℝ :=
  Real.sqrt (∑ i ∈ range A.nc, ∑ j ∈ range A.nc,
    ((if |Spec.cov A i j| < t then 0 else Spec.cov A i j) - Spec.cov B i j) ^ 2)

theorem fNormDiff_eq {A B : Mat ℝ} (hA : 0 < A.nr) (hB : 0 < B.nr) (g : Nat) (step : ℝ) :
    fNormDiff (A, B) g step = Spec.holdoutError A B (Real.exp (-10 + (g : ℝ) * step)) := by
  unfold fNormDiff Spec.holdoutError fNormDiffSq
  obtain ⟨h1, h2, h3⟩ := C59_apply (getThreshold g step) (covarianceMatrix A)
  simp only [h1, h2]
  congr 1
  refine Finset.sum_congr rfl (fun i hi => Finset.sum_congr rfl (fun j hj => ?_))
  rw [h3 i j (Finset.mem_range.1 hi) (Finset.mem_range.1 hj), C60_centred A hA i j, C60_centred B hB i j]
  rfl

theorem goInt_toNat (x : ℝ) : (goInt x).toNat = ⌊x⌋₊ := by
  unfold goInt
  split
  · exact Int.floor_toNat x
  · rename_i h
    rw [Nat.floor_of_nonpos (not_le.1 h).le]
    have : ⌈x⌉ ≤ 0 := Int.ceil_le.2 (by push_cast; exact (not_le.1 h).le)
    omega

/-- **C58 (threshold).** Each sample splits the rows into `⌊n (1 - 1 / log n)⌋` rows and the others.  The threshold
returned belongs to the first grid point with the smallest mean error over `numSamples` such splits, whatever the
schedule. -/
theorem C58_threshold (X : Mat ℝ) (S : Nat) (maxT step op : ℝ) (shuffle : Nat → List Nat)
    (hs : ∀ k, List.Perm (shuffle k) (List.range X.nr)) (h : CovSearch X S maxT step shuffle op) :
    ∃ (A B : Nat → Mat ℝ) (idx : Nat),
      (∀ k, (A k).nr = ⌊(X.nr : ℝ) * (1 - 1 / Real.log X.nr)⌋₊ ∧ (A k).nr + (B k).nr = X.nr ∧
        (A k).nc = X.nc ∧ (B k).nc = X.nc ∧
        List.Perm ((List.range (A k).nr).map (A k).get ++ (List.range (B k).nr).map (B k).get)
          ((List.range X.nr).map X.get)) ∧
      op = Real.exp (-10 + (idx : ℝ) * step) ∧
      Spec.IsFirstMin ((List.range ⌊9 / step⌋₊).map (fun g : Nat =>
        ∑ k ∈ range S, Spec.holdoutError (A k) (B k) (Real.exp (-10 + (g : ℝ) * step)) / (S : ℝ))) idx := by
  obtain ⟨parts, s, idx, h0, h1, h2, h3, h4, h5⟩ := h
  refine ⟨fun k => (parts k).1, fun k => (parts k).2, idx, fun k => ?_, h5, ?_⟩
  · obtain ⟨g1, g2, g3, g4, g5⟩ := C61_partition X (covRows X.nr) (shuffle k) (hs k) (parts k).1 (parts k).2 (h1 k)
    refine ⟨?_, g2, g3, g4, g5⟩
    rw [← goInt_toNat]
    show (parts k).1.nr = (covRows X.nr).toNat
    omega
  · rw [show ⌊9 / step⌋₊ = (covGrid step).toNat from (goInt_toNat _).symm]
    rcases Nat.eq_zero_or_pos (covGrid step).toNat with hz | hN
    · exfalso
      have hm := cov_mean_length h2
      rw [hz] at hm
      rw [List.eq_nil_of_length_eq_zero hm] at h4
      simp [argmin] at h4
    · rw [C58_mean hN s h2 h3] at h4
      have e : ∀ k g, fNormDiff (parts k) g step =
          Spec.holdoutError (parts k).1 (parts k).2 (Real.exp (-10 + (g : ℝ) * step)) := by
        intro k g
        have hk := h1 k
        have hp : ¬ randomRowSplit X (covRows X.nr) (shuffle k) = none := by rw [hk]; simp
        rw [C61_panic (K := ℝ), not_not] at hp
        obtain ⟨g1, g2, -⟩ := C61_partition X (covRows X.nr) (shuffle k) (hs k) (parts k).1 (parts k).2 hk
        exact fNormDiff_eq (by omega) (by omega) g step
      simp only [e] at h4
      exact (C36_argmin _).2 idx h4

/-- A search that has ended: two partitions, three grid points. -/
example : ∃ s, CovReach 3 2 (fun k g => (k + g * g : ℚ)) s ∧ CovDone 3 2 s ∧
    s.main.meanNormDiff = [1 / 2, 3 / 2, 9 / 2] := by
  obtain ⟨s, h1, h2⟩ := C58_returns (K := ℚ) (N := 3) (S := 2) (diff := fun k g => (k + g * g : ℚ)) (by norm_num)
  refine ⟨s, h1, h2, ?_⟩
  rw [C58_mean (by norm_num) s h1 h2]
  simp [List.range_succ, Finset.sum_range_succ]
  norm_num

end GoSelect
