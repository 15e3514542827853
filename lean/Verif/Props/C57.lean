import Verif.Model.CrdDescPath
import Verif.Proofs.Pool
import Verif.Proofs.Selection
import Mathlib.Algebra.Order.Field.Rat

/-! # C57: `LassoCrdDescPath` under all schedules -/

namespace GoSelect

section
variable {K : Type} [Zero K]

/-- What the workers deliver fits the number of features. -/
def PathSolve (nFeat : Nat) (solve : Nat → List K → LassoLarsNode K → Prop) : Prop :=
  ∀ k x0 node, solve k x0 node → node.coeff.length = node.selection.length ∧ node.selection.Nodup ∧
    ∀ f ∈ node.selection, f < nFeat

/-- Where the main goroutine is. -/
def PathPhaseInv (n : Nat) (m : PathMain K) (nw : Nat) : Prop :=
  match m.phase with
  | .spawning i => n - m.availableLambs.length = i ∧ m.numReceive = 0 ∧ nw = i ∧ i ≤ pathWorkers n
  | .sendFirst i => n - m.availableLambs.length = i ∧ m.numReceive = 0 ∧ nw = i + 1 ∧ i < pathWorkers n
  | .receiving => n - m.availableLambs.length = min n (pathWorkers n + m.numReceive) ∧ m.numReceive ≤ n ∧
      nw = pathWorkers n
  | .sendNext => n - m.availableLambs.length + 1 = pathWorkers n + m.numReceive ∧ 0 < m.availableLambs.length ∧
      0 < m.numReceive ∧ m.numReceive ≤ n - m.availableLambs.length ∧ nw = pathWorkers n
  | .failed => False

/-- The invariant. -/
structure PathInv (n : Nat) (solve : Nat → List K → LassoLarsNode K → Prop)
    (s : Pool (PathMain K) (Nat × List K) (LassoLarsNode K × Nat)) : Prop where
  pool : PoolInv (pathComp solve) s
  phase : PathPhaseInv n s.main s.workers.length
  le : s.main.availableLambs.length ≤ n
  avail : s.main.availableLambs = (List.range s.main.availableLambs.length).reverse
  sent : s.sent.map (·.1) = (List.range (n - s.main.availableLambs.length)).map (fun i => n - 1 - i)
  got : s.got.length = s.main.numReceive
  len : s.main.nodes.length = n
  node : ∀ p ∈ s.got, p.2.2 < n ∧ s.main.nodes[n - 1 - p.2.2]? = some (some p.2.1)
  first : s.main.numReceive = 0 → s.main.highestInserted = 0
  highest : 0 < s.main.numReceive → 0 < s.main.availableLambs.length →
    ∃ p ∈ s.got, s.main.highestInserted = ((n - 1 - p.2.2 : Nat) : Int)

theorem pathSent_nodup {n j : Nat} (h : j ≤ n) : ((List.range j).map (fun i => n - 1 - i)).Nodup := by
  refine List.Nodup.map_on (fun a ha b hb hab => ?_) List.nodup_range
  rw [List.mem_range] at ha hb
  omega

/-- No regularisation is received twice, and all received ones have been handed out. -/
theorem path_got_nodup {n : Nat} {solve : Nat → List K → LassoLarsNode K → Prop}
    {s : Pool (PathMain K) (Nat × List K) (LassoLarsNode K × Nat)} (hp : PoolInv (pathComp solve) s)
    {j : Nat} (hj : j ≤ n) (hs : s.sent.map (·.1) = (List.range j).map (fun i => n - 1 - i)) :
    (s.got.map (fun p => p.2.2)).Nodup ∧ ∀ p ∈ s.got, p.2.2 < n ∧ n - j ≤ p.2.2 := by
  have e : s.got.map (fun p => p.2.2) = (s.got.map (·.1)).map (·.1) := by
    rw [List.map_map]
    exact List.map_congr_left (fun p hp' => (hp.got p hp').2)
  have hle : ((s.got.map (·.1)).map (·.1) : Multiset Nat) ≤ ((List.range j).map (fun i => n - 1 - i) : Multiset Nat) := by
    rw [← hs, ← Multiset.map_coe, ← Multiset.map_coe (f := Prod.fst) (l := s.sent), hp.sent]
    exact Multiset.map_le_map (Multiset.le_add_right _ _)
  constructor
  · rw [e]
    exact Multiset.coe_nodup.1 (Multiset.nodup_of_le hle (Multiset.coe_nodup.2 (pathSent_nodup hj)))
  · intro p hp'
    have hm : p.2.2 ∈ (s.got.map (·.1)).map (·.1) := by
      rw [← e]
      exact List.mem_map.2 ⟨p, hp', rfl⟩
    have := Multiset.mem_of_le hle (Multiset.mem_coe.2 hm)
    rw [Multiset.mem_coe, List.mem_map] at this
    obtain ⟨i, hi, hi2⟩ := this
    rw [List.mem_range] at hi
    omega

theorem path_avail_cons {l : List Nat} (h : l = (List.range l.length).reverse) {k : Nat} {rest : List Nat}
    (hc : l = k :: rest) : k = rest.length ∧ rest = (List.range rest.length).reverse := by
  subst hc
  rw [List.length_cons, List.range_succ, List.reverse_append] at h
  simp only [List.reverse_singleton, List.singleton_append, List.cons.injEq] at h
  exact h

theorem path_sent_step {n L : Nat} (h : L + 1 ≤ n) :
    (List.range (n - (L + 1))).map (fun i => n - 1 - i) ++ [L] = (List.range (n - L)).map (fun i => n - 1 - i) := by
  rw [show n - L = n - (L + 1) + 1 by omega, List.range_succ, List.map_append]
  congr 1
  simp
  omega

theorem path_inv {n nFeat : Nat} {solve : Nat → List K → LassoLarsNode K → Prop}
    {s : Pool (PathMain K) (Nat × List K) (LassoLarsNode K × Nat)} (h : PathReach n nFeat solve s) :
    PathInv n solve s := by
  induction h with
  | init =>
    refine ⟨PoolInv.init _ _, ?_, ?_, ?_, ?_, rfl, ?_, by simp [poolInit], fun _ => rfl, by simp [poolInit, pathInit]⟩
    · simp [PathPhaseInv, poolInit, pathInit]
    · simp [poolInit, pathInit]
    · simp only [poolInit, pathInit, List.length_map, List.length_range]
      apply List.ext_getElem
      · simp
      · intro i h1 h2
        simp at h1 ⊢
        omega
    · simp [poolInit, pathInit]
    · simp [poolInit, pathInit]
  | @step s s' h h' ih =>
    have hpool := ih.pool.step h'
    obtain ⟨hpool0, hphase, hle, havail, hsent, hgot, hlen, hnode, hfirst, hhigh⟩ := ih
    have hw10 : pathWorkers n ≤ n := by unfold pathWorkers; split <;> omega
    have hw1 : 0 < n → 0 < pathWorkers n := by unfold pathWorkers; split <;> omega
    obtain ⟨main, ws, sent, ev, got⟩ := s
    simp only at hphase hle havail hsent hgot hlen hnode hfirst hhigh
    cases h' with
    | spawn m h =>
      simp only [pathAct] at h
      split at h
      · rename_i i hph
        simp only [PathPhaseInv, hph] at hphase
        split at h
        · simp only [Act.spawn.injEq] at h
          subst h
          refine ⟨hpool, ?_, hle, havail, hsent, hgot, hlen, hnode, hfirst, hhigh⟩
          simp only [PathPhaseInv, List.length_append, List.length_singleton]
          omega
        · simp at h
      · split at h
        · simp at h
        · split at h <;> simp at h
      · split at h <;> simp at h
      · split at h
        · simp at h
        · split at h
          · split at h
            · simp at h
            · split at h
              · simp at h
              · split at h <;> simp at h
          · simp at h
      · simp at h
    | tau m h =>
      simp only [pathAct] at h
      split at h
      · rename_i i hph
        simp only [PathPhaseInv, hph] at hphase
        split at h
        · simp at h
        · simp only [Act.tau.injEq] at h
          subst h
          refine ⟨hpool, ?_, hle, havail, hsent, hgot, hlen, hnode, hfirst, hhigh⟩
          simp only [PathPhaseInv]
          omega
      · split at h
        · simp at h
        · split at h <;> simp at h
      · split at h <;> simp at h
      · split at h
        · simp at h
        · split at h
          · split at h
            · simp at h
            · split at h
              · simp at h
              · split at h <;> simp at h
          · simp at h
      · simp at h
    | send w m i h hi =>
      simp only [pathAct] at h
      split at h
      · split at h <;> simp at h
      · rename_i i hph
        simp only [PathPhaseInv, hph] at hphase
        split at h
        · simp at h
        · rename_i k rest hal
          obtain ⟨hk, hrest⟩ := path_avail_cons havail hal
          split at h
          · simp only [Act.send.injEq] at h
            obtain ⟨rfl, rfl⟩ := h
            rw [hal, List.length_cons] at hle hsent hphase
            refine ⟨hpool, ?_, by simp only; omega, hrest, ?_, hgot, hlen, hnode, hfirst, ?_⟩
            · simp only [PathPhaseInv, List.length_set]
              omega
            · simp only [List.map_append, List.map_cons, List.map_nil]
              rw [hsent, hk]
              exact path_sent_step hle
            · intro h0
              simp only at h0
              omega
          · simp at h
      · split at h <;> simp at h
      · rename_i hph
        simp only [PathPhaseInv, hph] at hphase
        split at h
        · simp at h
        · split at h
          · split at h
            · simp at h
            · split at h
              · simp at h
              · rename_i k rest hal
                obtain ⟨hk, hrest⟩ := path_avail_cons havail hal
                split at h
                · simp only [Act.send.injEq] at h
                  obtain ⟨rfl, rfl⟩ := h
                  rw [hal, List.length_cons] at hle hsent hphase hhigh
                  refine ⟨hpool, ?_, by simp only; omega, hrest, ?_, hgot, hlen, hnode, hfirst, ?_⟩
                  · simp only [PathPhaseInv, List.length_set]
                    omega
                  · simp only [List.map_append, List.map_cons, List.map_nil]
                    rw [hsent, hk]
                    exact path_sent_step hle
                  · intro h0 h1
                    exact hhigh h0 (by omega)
                · simp at h
          · simp at h
      · simp at h
    | compute w i r hi hr =>
      exact ⟨hpool, by simpa using hphase, hle, havail, hsent, hgot, hlen, hnode, hfirst, hhigh⟩
    | recv f w i r h hi =>
      simp only [pathAct] at h
      split at h
      · split at h <;> simp at h
      · split at h
        · simp at h
        · split at h <;> simp at h
      · rename_i hph
        simp only [PathPhaseInv, hph] at hphase
        split at h
        · rename_i hlt
          simp only [Act.recv.injEq] at h
          subst h
          obtain ⟨hnd, hrange⟩ := path_got_nodup (n := n) (j := n - main.availableLambs.length) hpool (by omega) hsent
          have hr := hrange (w, r) (by simp)
          simp only at hr
          have hset : goSetInt main.nodes ((n : Int) - r.2 - 1) (some r.1) =
              some (main.nodes.set (n - 1 - r.2) (some r.1)) := by
            have e : (n : Int) - r.2 - 1 = ((n - 1 - r.2 : Nat) : Int) := by omega
            rw [e, goSetInt_some (by omega)]
          have hrecv : pathReceive n main r =
              { phase := if main.availableLambs.length > 0 then .sendNext else .receiving
                availableLambs := main.availableLambs
                nodes := main.nodes.set (n - 1 - r.2) (some r.1)
                numReceive := main.numReceive + 1
                highestInserted := if (r.2 : Int) > main.highestInserted then (n : Int) - r.2 - 1
                  else main.highestInserted } := by
            simp only [pathReceive, hset]
          refine ⟨hpool, ?_, ?_, ?_, ?_, ?_, ?_, ?_, ?_, ?_⟩
          · rw [hrecv]
            by_cases ha : main.availableLambs.length > 0
            · simp only [PathPhaseInv, if_pos ha, List.length_set]
              omega
            · simp only [PathPhaseInv, if_neg ha, List.length_set]
              omega
          · rw [hrecv]; exact hle
          · rw [hrecv]; exact havail
          · rw [hrecv]; exact hsent
          · rw [hrecv]; simp [hgot]
          · rw [hrecv]; simpa using hlen
          · rw [hrecv]
            intro p hp
            simp only
            rcases List.mem_append.1 hp with hp | hp
            · obtain ⟨h1, h2⟩ := hnode p hp
              refine ⟨h1, ?_⟩
              rw [List.map_append, List.nodup_append] at hnd
              have hne : p.2.2 ≠ r.2 := hnd.2.2 _ (List.mem_map.2 ⟨p, hp, rfl⟩) _ (by simp)
              rw [List.getElem?_set_ne (by omega)]
              exact h2
            · rw [List.mem_singleton] at hp
              subst hp
              refine ⟨hr.1, ?_⟩
              simp only
              rw [List.getElem?_set_self (by omega)]
          · rw [hrecv]
            intro h0
            simp only at h0
            omega
          · rw [hrecv]
            intro _ hal
            simp only at hal ⊢
            by_cases hgt : (r.2 : Int) > main.highestInserted
            · rw [if_pos hgt]
              exact ⟨(w, r), by simp, by simp only; omega⟩
            · rw [if_neg hgt]
              by_cases h0 : main.numReceive = 0
              · have h00 := hfirst h0
                omega
              · obtain ⟨p, hp, hp2⟩ := hhigh (by omega) hal
                exact ⟨p, by simp [hp], hp2⟩
        · simp at h
      · split at h
        · simp at h
        · split at h
          · split at h
            · simp at h
            · split at h
              · simp at h
              · split at h <;> simp at h
          · simp at h
      · simp at h

/-- The next send has a node to start from. -/
theorem path_sendNext {n nFeat : Nat} {solve : Nat → List K → LassoLarsNode K → Prop} (hsolve : PathSolve nFeat solve)
    {s : Pool (PathMain K) (Nat × List K) (LassoLarsNode K × Nat)} (hi : PathInv n solve s)
    (hp : s.main.phase = .sendNext) :
    ∃ k x0 rest, s.main.availableLambs = k :: rest ∧
      pathAct n nFeat s.main = .send (k, x0) { s.main with phase := .receiving, availableLambs := rest } := by
  have hph := hi.phase
  simp only [PathPhaseInv, hp] at hph
  obtain ⟨p, hpg, hhi⟩ := hi.highest (by omega) (by omega)
  obtain ⟨h1, h2⟩ := hi.node p hpg
  obtain ⟨h3, h4, h5⟩ := hsolve _ _ _ (hi.pool.got p hpg).1
  cases hal : s.main.availableLambs with
  | nil => rw [hal] at hph; simp at hph
  | cons k rest =>
    obtain ⟨hk, -⟩ := path_avail_cons hi.avail hal
    have hle := hi.le
    rw [hal, List.length_cons] at hle
    obtain ⟨x0, hx0, -⟩ := fullCoeffVector_some (n := nFeat) (L := p.2.1.selection) (coeff := p.2.1.coeff) h4 h5 h3.ge
    refine ⟨k, x0, rest, rfl, ?_⟩
    unfold pathAct
    rw [hp]
    simp only
    rw [if_neg (by omega), hhi, Int.toNat_natCast, h2]
    simp only [hx0, hal]
    rw [if_pos (by omega)]

/-- **C57 (no panic).** No index is out of range and no nil node is dereferenced. -/
theorem C57_no_panic {n nFeat : Nat} {solve : Nat → List K → LassoLarsNode K → Prop} (hsolve : PathSolve nFeat solve)
    (s : Pool (PathMain K) (Nat × List K) (LassoLarsNode K × Nat)) (h : PathReach n nFeat solve s) :
    pathAct n nFeat s.main ≠ .panic := by
  have hi := path_inv h
  have hph := hi.phase
  have hw10 : pathWorkers n ≤ n := by unfold pathWorkers; split <;> omega
  cases hp : s.main.phase with
  | spawning i =>
    unfold pathAct
    rw [hp]
    simp only
    split <;> simp
  | sendFirst i =>
    simp only [PathPhaseInv, hp] at hph
    cases hal : s.main.availableLambs with
    | nil => rw [hal] at hph; simp at hph; omega
    | cons k rest =>
      obtain ⟨hk, -⟩ := path_avail_cons hi.avail hal
      have hle := hi.le
      rw [hal, List.length_cons] at hle
      unfold pathAct
      rw [hp]
      simp only [hal]
      rw [if_pos (by omega)]
      simp
  | receiving =>
    unfold pathAct
    rw [hp]
    simp only
    split <;> simp
  | sendNext =>
    obtain ⟨k, x0, rest, -, he⟩ := path_sendNext hsolve hi hp
    rw [he]
    simp
  | failed =>
    simp only [PathPhaseInv, hp] at hph

/-- **C57 (no deadlock).** As long as the call has not returned, some goroutine can proceed. -/
theorem C57_no_deadlock {n nFeat : Nat} {solve : Nat → List K → LassoLarsNode K → Prop}
    (hsolve : PathSolve nFeat solve) (htot : ∀ k x0, k < n → ∃ node, solve k x0 node)
    (s : Pool (PathMain K) (Nat × List K) (LassoLarsNode K × Nat)) (h : PathReach n nFeat solve s)
    (hd : ¬ PathDone n nFeat s) : ∃ s', PathStep n nFeat solve s s' := by
  have hi := path_inv h
  have hnp := C57_no_panic hsolve s h
  have hph := hi.phase
  have hw10 : pathWorkers n ≤ n := by unfold pathWorkers; split <;> omega
  have hw1 : 0 < n → 0 < pathWorkers n := by unfold pathWorkers; split <;> omega
  have hlen : s.sent.length = n - s.main.availableLambs.length := by
    have := congrArg List.length hi.sent
    simpa using this
  have hle := hi.le
  have hgot := hi.got
  cases hp : s.main.phase with
  | spawning i =>
    by_cases hlt : i < pathWorkers n
    · exact ⟨_, .spawn _ (by unfold pathAct; rw [hp]; simp only; rw [if_pos hlt])⟩
    · exact ⟨_, .tau _ (by unfold pathAct; rw [hp]; simp only; rw [if_neg hlt])⟩
  | sendFirst i =>
    simp only [PathPhaseInv, hp] at hph
    cases hal : s.main.availableLambs with
    | nil => rw [hal] at hph; simp at hph; omega
    | cons k rest =>
      obtain ⟨hk, -⟩ := path_avail_cons hi.avail hal
      have hle' := hi.le
      rw [hal, List.length_cons] at hle'
      refine hi.pool.send_step (act := pathAct n nFeat) (w := (k, List.replicate nFeat 0))
        (m := { s.main with phase := .spawning (i + 1), availableLambs := rest }) ?_ (by omega)
      unfold pathAct
      rw [hp]
      simp only [hal]
      rw [if_pos (by omega)]
  | receiving =>
    simp only [PathPhaseInv, hp] at hph
    by_cases hlt : s.main.numReceive < n
    · refine PoolInv.recv_step_sent (act := pathAct n nFeat) (comp := pathComp solve)
        (f := pathReceive n s.main) (fun w hw => ?_) hi.pool
        (by unfold pathAct; rw [hp]; simp only; rw [if_pos hlt]) (by omega)
      have hwn : w.1 < n := by
        have : w.1 ∈ s.sent.map (·.1) := List.mem_map_of_mem hw
        rw [hi.sent] at this
        obtain ⟨j, hj, he⟩ := List.mem_map.1 this
        rw [List.mem_range] at hj
        omega
      obtain ⟨node, hn⟩ := htot w.1 w.2 hwn
      exact ⟨(node, w.1), hn, rfl⟩
    · exact absurd (by unfold PathDone pathAct; rw [hp]; simp only; rw [if_neg hlt]) hd
  | sendNext =>
    simp only [PathPhaseInv, hp] at hph
    obtain ⟨k, x0, rest, -, he⟩ := path_sendNext hsolve hi hp
    exact hi.pool.send_step (act := pathAct n nFeat) he (by omega)
  | failed => simp only [PathPhaseInv, hp] at hph

/-- The measure of the main goroutine. -/
def pathNu (n : Nat) (m : PathMain K) : Nat :=
  3 * m.availableLambs.length + 2 * (n - m.numReceive) +
    match m.phase with
    | .spawning i => 3 * (pathWorkers n - i) + 3
    | .sendFirst i => 3 * (pathWorkers n - i) + 2
    | .receiving => 0
    | .sendNext => 1
    | .failed => 0

/-- **C57 (termination).** No schedule runs forever. -/
theorem C57_terminates {n nFeat : Nat} {solve : Nat → List K → LassoLarsNode K → Prop}
    (run : Nat → Pool (PathMain K) (Nat × List K) (LassoLarsNode K × Nat))
    (h0 : run 0 = poolInit (pathInit n)) : ¬ ∀ k, PathStep n nFeat solve (run k) (run (k + 1)) := by
  intro hs
  refine pool_terminates (fun s => pathNu n s.main + s.workers.countP Worker.isComputing) ?_ run h0 hs
  intro s s' hr hst
  have hi := path_inv hr
  have hph := hi.phase
  apply pool_measure (pathNu n) hst
  · intro m h
    simp only [pathAct] at h
    split at h
    · rename_i i hp
      simp only [PathPhaseInv, hp] at hph
      split at h
      · simp only [Act.spawn.injEq] at h
        subst h
        simp only [pathNu, hp]; omega
      · simp at h
    · split at h
      · simp at h
      · split at h <;> simp at h
    · split at h <;> simp at h
    · split at h
      · simp at h
      · split at h
        · split at h
          · simp at h
          · split at h
            · simp at h
            · split at h <;> simp at h
        · simp at h
    · simp at h
  · intro m h
    simp only [pathAct] at h
    split at h
    · rename_i i hp
      simp only [PathPhaseInv, hp] at hph
      split at h
      · simp at h
      · simp only [Act.tau.injEq] at h
        subst h
        simp only [pathNu, hp]; omega
    · split at h
      · simp at h
      · split at h <;> simp at h
    · split at h <;> simp at h
    · split at h
      · simp at h
      · split at h
        · split at h
          · simp at h
          · split at h
            · simp at h
            · split at h <;> simp at h
        · simp at h
    · simp at h
  · intro w m h
    simp only [pathAct] at h
    split at h
    · split at h <;> simp at h
    · rename_i i hp
      simp only [PathPhaseInv, hp] at hph
      split at h
      · simp at h
      · rename_i k rest hal
        split at h
        · simp only [Act.send.injEq] at h
          obtain ⟨-, rfl⟩ := h
          simp only [pathNu, hp, hal, List.length_cons]; omega
        · simp at h
    · split at h <;> simp at h
    · rename_i hp
      simp only [PathPhaseInv, hp] at hph
      split at h
      · simp at h
      · split at h
        · split at h
          · simp at h
          · split at h
            · simp at h
            · rename_i k rest hal
              split at h
              · simp only [Act.send.injEq] at h
                obtain ⟨-, rfl⟩ := h
                simp only [pathNu, hp, hal, List.length_cons]; omega
              · simp at h
        · simp at h
    · simp at h
  · intro f w i r h hw
    have hinv := path_inv (.step hr (.recv f w i r h hw))
    simp only [pathAct] at h
    split at h
    · split at h <;> simp at h
    · split at h
      · simp at h
      · split at h <;> simp at h
    · rename_i hp
      split at h
      · rename_i hlt
        simp only [Act.recv.injEq] at h
        subst h
        have hph' := hinv.phase
        unfold pathReceive at hph' ⊢
        simp only at hph' ⊢
        split
        · rename_i hnone
          rw [hnone] at hph'
          simp only [PathPhaseInv] at hph'
        · by_cases ha : s.main.availableLambs.length > 0
          · simp only [pathNu, hp, if_pos ha]; omega
          · simp only [pathNu, hp, if_neg ha]; omega
      · simp at h
    · split at h
      · simp at h
      · split at h
        · split at h
          · simp at h
          · split at h
            · simp at h
            · split at h <;> simp at h
        · simp at h
    · simp at h

/-- State when the call returns. -/
theorem path_done {n nFeat : Nat} {solve : Nat → List K → LassoLarsNode K → Prop}
    {s : Pool (PathMain K) (Nat × List K) (LassoLarsNode K × Nat)} (h : PathReach n nFeat solve s)
    (hd : PathDone n nFeat s) : s.main.numReceive = n ∧ s.main.availableLambs.length = 0 := by
  have hi := path_inv h
  have hph := hi.phase
  unfold PathDone at hd
  simp only [pathAct] at hd
  split at hd
  · split at hd <;> simp at hd
  · split at hd
    · simp at hd
    · split at hd <;> simp at hd
  · rename_i hp
    simp only [PathPhaseInv, hp] at hph
    split at hd
    · simp at hd
    · have := hi.le
      omega
  · split at hd
    · simp at hd
    · split at hd
      · split at hd
        · simp at hd
        · split at hd
          · simp at hd
          · split at hd <;> simp at hd
      · simp at hd
  · simp at hd

/-- **C57 (each solved once).** When the call returns, every regularisation has been solved exactly once and no
worker holds work. -/
theorem C57_each_once {n nFeat : Nat} {solve : Nat → List K → LassoLarsNode K → Prop}
    (s : Pool (PathMain K) (Nat × List K) (LassoLarsNode K × Nat)) (h : PathReach n nFeat solve s)
    (hd : PathDone n nFeat s) :
    (s.evaluated.map (·.1)).Perm (List.range n) ∧ (s.got.map (fun p => p.2.2)).Perm (List.range n) ∧
      s.workers.filterMap Worker.held = [] := by
  have hi := path_inv h
  obtain ⟨h1, h2⟩ := path_done h hd
  have hsent := hi.sent
  rw [h2, Nat.sub_zero] at hsent
  have hlen : s.sent.length = n := by
    have := congrArg List.length hsent
    simpa using this
  have hb := hi.pool.busy
  rw [hlen, hi.got, h1] at hb
  have hz : s.workers.filterMap Worker.held = [] := List.eq_nil_of_length_eq_zero (by omega)
  have hz' : s.workers.filterMap Worker.ready = [] := by
    rw [List.filterMap_eq_nil_iff] at hz ⊢
    intro a ha
    have := hz a ha
    cases a <;> simp_all [Worker.held, Worker.ready]
  have e1 := hi.pool.sent
  rw [hz] at e1
  have e2 := hi.pool.evaluated
  rw [hz'] at e2
  have hperm : ((List.range n).map (fun i => n - 1 - i)).Perm (List.range n) := by
    have : (List.range n).map (fun i => n - 1 - i) = (List.range n).reverse := by
      apply List.ext_getElem
      · simp
      · intro i h1 h2
        simp
    rw [this]
    exact List.reverse_perm _
  have hgs : (s.got.map (·.1)).Perm s.sent := by
    rw [← Multiset.coe_eq_coe, e1]
    simp
  have hes : s.evaluated.Perm s.sent := by
    rw [← Multiset.coe_eq_coe, e1, e2]
  have hg : s.got.map (fun p => p.2.2) = (s.got.map (·.1)).map (·.1) := by
    rw [List.map_map]
    exact List.map_congr_left (fun p hp => (hi.pool.got p hp).2)
  refine ⟨?_, ?_, hz⟩
  · exact ((hes.map _).trans (by rw [hsent])).trans hperm
  · rw [hg]
    exact ((hgs.map _).trans (by rw [hsent])).trans hperm

/-- **C57 (never twice).** At no time has a regularisation been solved twice. -/
theorem C57_never_twice {n nFeat : Nat} {solve : Nat → List K → LassoLarsNode K → Prop}
    (s : Pool (PathMain K) (Nat × List K) (LassoLarsNode K × Nat)) (h : PathReach n nFeat solve s) :
    (s.sent.map (·.1)).Nodup ∧ (s.got.map (fun p => p.2.2)).Nodup := by
  have hi := path_inv h
  have hle := hi.le
  refine ⟨?_, (path_got_nodup hi.pool (by omega) hi.sent).1⟩
  rw [hi.sent]
  exact pathSent_nodup (by omega)

theorem firstWithFeatures_spec (l : List (LassoLarsNode K)) (i : Nat) :
    ∃ f, firstWithFeatures (l.map some) i = some f ∧
      ((∀ x ∈ l, x.selection = []) ∧ f = 0 ∨
        ∃ x ∈ l, x.selection ≠ [] ∧ i ≤ f ∧ l.drop (f - i) = l.dropWhile (fun x => x.selection.isEmpty)) := by
  induction l generalizing i with
  | nil => exact ⟨0, rfl, .inl ⟨by simp, rfl⟩⟩
  | cons x l ih =>
    rw [List.map_cons, firstWithFeatures]
    by_cases hx : x.selection.length > 0
    · have hne : x.selection ≠ [] := List.length_pos_iff.1 hx
      rw [if_pos hx]
      refine ⟨i, rfl, .inr ⟨x, by simp, hne, le_refl _, ?_⟩⟩
      rw [Nat.sub_self, List.drop_zero, List.dropWhile_cons_of_neg (by simpa using hne)]
    · rw [if_neg hx]
      have hnil : x.selection = [] := List.eq_nil_of_length_eq_zero (by omega)
      obtain ⟨f, hf, h⟩ := ih (i + 1)
      refine ⟨f, hf, ?_⟩
      rcases h with ⟨h1, h2⟩ | ⟨z, hz, hz1, hz2, hz3⟩
      · exact .inl ⟨by simpa [hnil] using h1, h2⟩
      · refine .inr ⟨z, by simp [hz], hz1, by omega, ?_⟩
        rw [List.dropWhile_cons_of_pos (by simp [hnil]), ← hz3, show f - i = (f - (i + 1)) + 1 by omega]
        rfl

/-- **C57 (result).** The slice returned lists one solution per regularisation, from the last entry of `lambs` to
the first, without the leading solutions that have no features; all of them if none has features. -/
theorem C57_result {n nFeat : Nat} {solve : Nat → List K → LassoLarsNode K → Prop}
    (s : Pool (PathMain K) (Nat × List K) (LassoLarsNode K × Nat)) (h : PathReach n nFeat solve s)
    (hd : PathDone n nFeat s) :
    ∃ sol : List (LassoLarsNode K), sol.length = n ∧
      (∀ (i : Nat) (node : LassoLarsNode K), sol[i]? = some node → ∃ x0, solve (n - 1 - i) x0 node) ∧
      pathResult s.main = some ((if ∀ x ∈ sol, x.selection = [] then sol
        else sol.dropWhile (fun x => x.selection.isEmpty)).map some) := by
  have hi := path_inv h
  obtain ⟨-, hperm, -⟩ := C57_each_once s h hd
  have hlen := hi.len
  have hall : ∀ i, i < n → ∃ node, s.main.nodes[i]? = some (some node) ∧ ∃ x0, solve (n - 1 - i) x0 node := by
    intro i hin
    have : n - 1 - i ∈ s.got.map (fun p => p.2.2) := hperm.mem_iff.2 (List.mem_range.2 (by omega))
    obtain ⟨p, hp, hpi⟩ := List.mem_map.1 this
    obtain ⟨h1, h2⟩ := hi.node p hp
    obtain ⟨h3, h4⟩ := hi.pool.got p hp
    refine ⟨p.2.1, ?_, p.1.2, ?_⟩
    · rw [← h2]
      congr 1
      omega
    · rw [← hpi, h4]
      exact h3
  obtain ⟨sol, hsol⟩ : ∃ sol : List (LassoLarsNode K), s.main.nodes = sol.map some := by
    have : ∀ x ∈ s.main.nodes, ∃ y, some y = x := by
      intro x hx
      obtain ⟨i, hin, he⟩ := List.mem_iff_getElem.1 hx
      obtain ⟨node, hn, -⟩ := hall i (by omega)
      rw [List.getElem?_eq_getElem hin, he] at hn
      exact ⟨node, (Option.some.inj hn).symm⟩
    clear hall hlen hi
    generalize s.main.nodes = l at this
    induction l with
    | nil => exact ⟨[], rfl⟩
    | cons a l ih =>
      obtain ⟨y, rfl⟩ := this a (by simp)
      obtain ⟨t, ht⟩ := ih (fun x hx => this x (by simp [hx]))
      exact ⟨y :: t, by simp [ht]⟩
  have hl : sol.length = n := by rw [hsol] at hlen; simpa using hlen
  refine ⟨sol, hl, fun i node hn => ?_, ?_⟩
  · have hin : i < n := by rw [← hl]; exact (List.getElem?_eq_some_iff.1 hn).1
    obtain ⟨node', h1, h2⟩ := hall i hin
    rw [hsol, List.getElem?_map, hn] at h1
    simp only [Option.map_some, Option.some.injEq] at h1
    rw [h1]
    exact h2
  · unfold pathResult
    rw [hsol]
    obtain ⟨f, hf, h1⟩ := firstWithFeatures_spec sol 0
    rw [hf, Option.map_some, ← List.map_drop]
    rcases h1 with ⟨h1, rfl⟩ | ⟨x, hx, hx1, -, h2⟩
    · rw [if_pos h1, List.drop_zero]
    · rw [if_neg (fun hc => hx1 (hc x hx)), ← h2, Nat.sub_zero]

/-- **C57 (deterministic).** If the solution does not depend on the start vector, the result is the same under
every schedule. -/
theorem C57_deterministic {n nFeat : Nat} (f : Nat → LassoLarsNode K)
    (s : Pool (PathMain K) (Nat × List K) (LassoLarsNode K × Nat))
    (h : PathReach n nFeat (fun k _ node => node = f k) s) (hd : PathDone n nFeat s) :
    let sol := (List.range n).map (fun i => f (n - 1 - i))
    pathResult s.main = some ((if ∀ x ∈ sol, x.selection = [] then sol
      else sol.dropWhile (fun x => x.selection.isEmpty)).map some) := by
  obtain ⟨sol, h1, h2, h3⟩ := C57_result s h hd
  have e : sol = (List.range n).map (fun i => f (n - 1 - i)) := by
    apply List.ext_getElem?
    intro i
    by_cases hi : i < n
    · obtain ⟨_, hx⟩ := h2 i sol[i] (List.getElem?_eq_getElem (by omega))
      rw [List.getElem?_eq_getElem (by omega), hx]
      simp [hi]
    · rw [List.getElem?_eq_none (by omega), List.getElem?_eq_none (by simp; omega)]
  subst e
  exact h3

end

section
variable {K : Type} [Field K] [LinearOrder K] [IsStrictOrderedRing K]

/-- C57: what `PerformLassoCrd` delivers meets the hypothesis, for every correction and every state of it. -/
theorem C57_worker {S : Type} (problem : K → CDProblem K S) (nFeat : Nat) (hp : ∀ l, (problem l).nFeat = nFeat)
    (lambs : List K) (maxIter : Nat) : PathSolve nFeat (crdSolve problem lambs maxIter) := by
  rintro k x0 node ⟨lamb, -, s, r, -, rfl⟩
  refine ⟨by simp [crdNode], ?_, ?_⟩
  · exact List.Nodup.filter _ List.nodup_range
  · intro f hf
    have := (List.mem_filter.1 hf).1
    rw [hp, List.mem_range] at this
    exact this

/-- The node for the coefficients `x`: it lists the features with `|x j| > 1e-16` in increasing order with their
coefficients, and no others. -/
def Spec.IsNodeOf (nFeat : Nat) (x : Nat → K) (lamb : K) (node : LassoLarsNode K) : Prop :=
  node.lamb = lamb ∧ node.selection.Pairwise (· < ·) ∧
    (∀ j, j ∈ node.selection ↔ j < nFeat ∧ 1 / 10 ^ 16 < |x j|) ∧ node.coeff = node.selection.map x

theorem crdNode_spec (nFeat : Nat) (x : Nat → K) (lamb : K) : Spec.IsNodeOf nFeat x lamb (crdNode nFeat x lamb) := by
  refine ⟨rfl, ?_, fun j => ?_, rfl⟩
  · exact List.Pairwise.filter _ List.pairwise_lt_range
  · simp [crdNode, lassoCrdDescZero]

/-- C57: entry `i` of the returned slice (before the leading empty ones are dropped) is the node of a run of
`LassoCrdDesc` for entry `len - 1 - i` of `lambs`, for every correction. -/
theorem C57_nodes {S : Type} (problem : K → CDProblem K S) (nFeat : Nat) (hp : ∀ l, (problem l).nFeat = nFeat)
    (lambs : List K) (maxIter : Nat) (s : Pool (PathMain K) (Nat × List K) (LassoLarsNode K × Nat))
    (h : PathReach lambs.length nFeat (crdSolve problem lambs maxIter) s) (hd : PathDone lambs.length nFeat s) :
    ∃ sol : List (LassoLarsNode K), sol.length = lambs.length ∧
      (∀ (i : Nat) (node : LassoLarsNode K), sol[i]? = some node → ∃ l, lambs.reverse[i]? = some l ∧
        ∃ state x0 r, lassoCrdDesc (problem l) state (some x0) maxIter = some r ∧ Spec.IsNodeOf nFeat r.1 l node) ∧
      pathResult s.main = some ((if ∀ x ∈ sol, x.selection = [] then sol
        else sol.dropWhile (fun x => x.selection.isEmpty)).map some) := by
  obtain ⟨sol, h1, h2, h3⟩ := C57_result s h hd
  refine ⟨sol, h1, fun i node hn => ?_, h3⟩
  have hi : i < lambs.length := by rw [← h1]; exact (List.getElem?_eq_some_iff.1 hn).1
  obtain ⟨x0, l, hl, u, r, hr, rfl⟩ := h2 i node hn
  refine ⟨l, by rw [List.getElem?_reverse hi]; exact hl, u, x0, r, hr, ?_⟩
  rw [hp]
  exact crdNode_spec nFeat r.1 l

/-- C57: for corrections without state (`PureLasso`, `ElasticNet`) the whole result is a function of the input:
entry `i` belongs to entry `len - 1 - i` of `lambs`. -/
theorem C57_stateless (problem : K → CDProblem K Unit) (nFeat : Nat) (hp : ∀ l, (problem l).nFeat = nFeat)
    (lambs : List K) (maxIter : Nat)
    (s : Pool (PathMain K) (Nat × List K) (LassoLarsNode K × Nat))
    (h : PathReach lambs.length nFeat (crdSolve problem lambs maxIter) s) (hd : PathDone lambs.length nFeat s) :
    let sol := lambs.reverse.map (fun l => crdNode nFeat (cdLoop (problem l) maxIter (cdInit (problem l) ())).1.beta l)
    pathResult s.main = some ((if ∀ x ∈ sol, x.selection = [] then sol
      else sol.dropWhile (fun x => x.selection.isEmpty)).map some) := by
  obtain ⟨sol, h1, h2, h3⟩ := C57_result s h hd
  have e : sol = lambs.reverse.map
      (fun l => crdNode nFeat (cdLoop (problem l) maxIter (cdInit (problem l) ())).1.beta l) := by
    apply List.ext_getElem?
    intro i
    by_cases hi : i < lambs.length
    · obtain ⟨x0, lamb, hl, u, r, hr, hx⟩ := h2 i sol[i] (List.getElem?_eq_getElem (by omega))
      have hr1 : r.1 = (cdLoop (problem lamb) maxIter (cdInit (problem lamb) ())).1.beta := by
        unfold lassoCrdDesc at hr
        split at hr
        · cases hr
        · rw [← Option.some.inj hr]
      rw [List.getElem?_eq_getElem (by omega), hx, hr1, hp]
      have hl' : lambs.reverse[i]? = some lamb := by
        rw [List.getElem?_reverse hi]
        exact hl
      rw [List.getElem?_map, hl']
      rfl
    · rw [List.getElem?_eq_none (by omega), List.getElem?_eq_none (by simp; omega)]
  subst e
  exact h3

/-- C57: the totality hypothesis of C57_no_deadlock holds for the regularisations of the list. -/
theorem C57_worker_total {S : Type} [Inhabited S] (problem : K → CDProblem K S) (lambs : List K) (maxIter : Nat)
    (hp : ∀ l, l ∈ lambs → 0 < (problem l).nFeat ∧ (problem l).cov.nc = (problem l).nFeat ∧
      (problem l).cov.nr = (problem l).nFeat) (k : Nat) (hk : k < lambs.length) (x0 : List K) :
    ∃ node, crdSolve problem lambs maxIter k x0 node := by
  obtain ⟨h1, h2, h3⟩ := hp lambs[k] (List.getElem_mem hk)
  refine ⟨_, lambs[k], List.getElem?_eq_getElem hk, default,
    ((cdLoop (problem lambs[k]) maxIter (cdInit (problem lambs[k]) default)).1.beta,
      (some x0).map (fun x => goCopy x (List.replicate (problem lambs[k]).nFeat 0))), ?_, rfl⟩
  unfold lassoCrdDesc
  rw [if_neg (by omega)]

end

/-- A worker that solves the problem with index `k` by feature 2 with coefficient `k`. -/
def toySolve (k : Nat) (_ : List ℚ) (node : LassoLarsNode ℚ) : Prop := node = ⟨[1], (k : ℚ), [2]⟩

/-- The first steps with two regularisations: worker 0 gets the last one. -/
example : ∃ s : Pool (PathMain ℚ) (Nat × List ℚ) (LassoLarsNode ℚ × Nat),
    PathReach 2 3 toySolve s ∧ s.sent.map (·.1) = [1] ∧ s.workers.length = 1 ∧
    s.evaluated.map (·.1) = [1] :=
  ⟨_, .step (.step (.step .init (.spawn _ rfl)) (.send ((1, [0, 0, 0]) : Nat × List ℚ) _ 0 rfl rfl))
    (.compute ((1, [0, 0, 0]) : Nat × List ℚ) 0 ((⟨[1], ((1 : Nat) : ℚ), [2]⟩, 1) : LassoLarsNode ℚ × Nat)
      rfl ⟨rfl, rfl⟩), rfl, rfl, rfl⟩

/-- The toy worker meets the hypothesis. -/
example : PathSolve 3 toySolve := by
  rintro k x0 node rfl
  simp

end GoSelect
