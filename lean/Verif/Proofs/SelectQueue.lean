import Verif.Proofs.SelectTerm

/-! How long the queue of `SelectModel` can get: queued nodes have disjoint sets of models below them. -/

namespace GoSelect

open Spec
open scoped List

variable {α : Type} [LinearOrder α] [Zero α] [Neg α]

/-- Number of models below a node. -/
def lW (S : Search α) (n : Node α) : Nat := 2 ^ (S.ncols - n.level)

/-- Number of models below one child of `p`. -/
def cW (S : Search α) (p : Node α) : Nat := 2 ^ (S.ncols - (p.level + 1))

/-- Number of models that a worker still has to hand on. -/
def pcL (S : Search α) : ChildPc α → Nat
  | .make p f => cW S p + if f then 0 else cW S p
  | .readLen p f _ _ => cW S p + if f then 0 else cW S p
  | .sendNode p f _ => cW S p + if f then 0 else cW S p
  | .sendPrune p f => if f then 0 else cW S p
  | .ready => 0

/-- Number of models that the main loop hands out. -/
def mainL (S : Search α) : MainPc α → Nat
  | .sendWant (some n) => lW S n
  | _ => 0

/-- Number of models not yet dealt with. -/
def psi (S : Search α) (s : SState α) : Nat :=
  mainL S s.main + (s.busy.map (pcL S)).sum + (s.scoring.map (lW S)).sum + (s.queue.map (lW S)).sum

theorem pcL_afterChild (S : Search α) (p : Node α) (f : Bool) :
    pcL S (afterChild p f) = if f then 0 else cW S p := by
  cases f <;> simp [afterChild, pcL]

/-- The queue just before its length is checked. -/
def preQueue (S : Search α) (q : List (Node α)) (ns : Node α) : List (Node α) :=
  if ns.level < S.ncols then q ++ [ns] else q

theorem afterScore_overflow (S : Search α) (s : SState α) (ns : Node α)
    (h : ((preQueue S s.queue ns).length : Int) ≤ S.maxQueue) : (afterScore S s ns).overflows = s.overflows := by
  have key : ∀ t : SState α, (t.queue.length : Int) ≤ S.maxQueue →
      (loopOrExit (checkOverflow S t)).overflows = t.overflows := by
    intro t ht
    have : checkOverflow S t = t := by
      unfold checkOverflow; rw [if_neg (by omega)]
    rw [this]
    obtain ⟨m, e, -⟩ := loopOrExit_spec t
    rw [e]
  unfold afterScore
  unfold preQueue at h
  split
  · rename_i hl
    rw [if_pos hl] at h
    exact key { s with queue := s.queue ++ [ns] } h
  · rename_i hl
    rw [if_neg hl] at h
    exact key s h

theorem lW_two {S : Search α} {n : Node α} (h : n.level < S.ncols) : 2 ≤ lW S n := by
  unfold lW
  calc 2 = 2 ^ 1 := rfl
    _ ≤ _ := Nat.pow_le_pow_right (by omega) (by omega)

theorem length_le_weight {S : Search α} {q : List (Node α)} (h : ∀ n ∈ q, n.level < S.ncols) :
    2 * q.length ≤ (q.map (lW S)).sum := by
  induction q with
  | nil => simp
  | cons n q ih =>
    have h1 := lW_two (h n (by simp))
    have h2 := ih (fun x hx => h x (by simp [hx]))
    simp only [List.length_cons, List.map_cons, List.sum_cons]
    omega

/-- No step adds models; the queue is short before its length is checked. -/
theorem psi_step {S : Search α} {M : Int} {pre : List (Node α)} {s s' : SState α} {a : Action}
    (hi : SInv S M pre s) (h : SStep S s a s') :
    psi S s' ≤ psi S s ∧ ((psi S s : Int) ≤ 2 * S.maxQueue → s'.overflows = s.overflows) := by
  have scoreCase : ∀ (i : Nat) (n : Node α) (s1 : SState α), s.main = .select →
      s.scoring[i]? = some n → s1.scoring = s.scoring.eraseIdx i → s1.busy = s.busy →
      s1.queue <+ s.queue → s1.overflows = s.overflows →
      psi S (afterScore S s1 (scoreWorker S n)) ≤ psi S s ∧
      ((psi S s : Int) ≤ 2 * S.maxQueue → (afterScore S s1 (scoreWorker S n)).overflows = s.overflows) := by
    intro i n s1 hm hidx e2 e3 e4 e5
    have hp := sum_perm (lW S) (eraseIdx_perm hidx)
    have hq2 := sum_sublist (lW S) e4
    have hqn : lW S (scoreWorker S n) = lW S n := by unfold lW; rw [scoreWorker_level]
    have hsm : mainL S s.main = 0 := by rw [hm]; rfl
    simp only [List.map_cons, List.sum_cons] at hp
    have hpre : ((preQueue S s1.queue (scoreWorker S n)).map (lW S)).sum ≤ lW S n + (s.queue.map (lW S)).sum := by
      unfold preQueue
      split
      · simp only [List.map_append, List.map_cons, List.map_nil, List.sum_append, List.sum_cons, List.sum_nil, hqn]
        omega
      · omega
    constructor
    · obtain ⟨m, q, k, f1, f2, -, f3⟩ := afterScore_spec S s1 (scoreWorker S n)
      have hq := sum_sublist (lW S) f2
      have hmain : mainL S m = 0 := by
        rcases f3 with ⟨rfl, -⟩ | ⟨rfl, -⟩ <;> rfl
      rw [f1]
      have hpre' : ((if (scoreWorker S n).level < S.ncols then s1.queue ++ [scoreWorker S n] else s1.queue).map (lW S)).sum ≤
          lW S n + (s.queue.map (lW S)).sum := hpre
      simp only [psi, hmain, hsm, e2, e3, hp]
      omega
    · intro hmax
      rw [afterScore_overflow S s1 _ ?_, e5]
      have hlev : ∀ x ∈ preQueue S s1.queue (scoreWorker S n), x.level < S.ncols := by
        intro x hx
        unfold preQueue at hx
        split at hx
        · rename_i hl
          rcases List.mem_append.1 hx with h | h
          · exact (hi.queueOk x (e4.subset h)).2
          · rw [List.mem_singleton.1 h]; exact hl
        · exact (hi.queueOk x (e4.subset hx)).2
      have hlen := length_le_weight hlev
      have : lW S n + (s.queue.map (lW S)).sum ≤ psi S s := by
        simp only [psi, hp]; omega
      omega
  cases h with
  | want node hm hb =>
    refine ⟨?_, fun _ => rfl⟩
    cases node with
    | none => simp [psi, hm, hb, mainL, pcOf, pcL]
    | some p =>
      have hl := (hi.wantOk p hm).lvl
      have hk : S.ncols - p.level = (S.ncols - (p.level + 1)) + 1 := by omega
      have hx : mainL S s.main = 2 ^ (S.ncols - (p.level + 1)) * 2 := by
        rw [hm, ← Nat.pow_succ]; show 2 ^ (S.ncols - p.level) = _; rw [hk]
      have hy : mainL S (.select : MainPc α) = 0 := rfl
      simp only [psi, hx, hy, hb, pcOf, pcL, cW, List.map_cons, List.map_nil, List.sum_cons, List.sum_nil,
        Bool.false_eq_true, if_false]
      omega
  | rbPrune p f hm hb hc =>
    refine ⟨?_, fun _ => rfl⟩
    simp only [psi, hm, hb, mainL, pcL, List.map_cons, List.map_nil, List.sum_cons, List.sum_nil]
    omega
  | rbBound p f c hm hb hc hlt =>
    refine ⟨?_, fun _ => rfl⟩
    simp only [psi, hm, hb, mainL, pcL, List.map_cons, List.map_nil, List.sum_cons, List.sum_nil]
    omega
  | rbSend p f c hm hb hc hlt =>
    refine ⟨?_, fun _ => rfl⟩
    simp only [psi, hm, hb, mainL, pcL, List.map_cons, List.map_nil, List.sum_cons, List.sum_nil]
    omega
  | rlPrune p f c e hm hb hlen =>
    refine ⟨?_, fun _ => rfl⟩
    simp only [psi, hm, hb, mainL, pcL, List.map_cons, List.map_nil, List.sum_cons, List.sum_nil]
    omega
  | rlSend p f c e hm hb hlen =>
    refine ⟨?_, fun _ => rfl⟩
    simp only [psi, hm, hb, mainL, pcL, List.map_cons, List.map_nil, List.sum_cons, List.sum_nil]
    omega
  | send p f c hm hb hs =>
    refine ⟨?_, fun _ => rfl⟩
    have hok := hi.busyOk (.sendNode p f c) (by simp [hb])
    have hl := (boundedChild_some hok.1 hok.2).2.1
    have hq : lW S c = cW S p := by rw [lW, hl, cW]
    have h0 : pcL S (.sendNode p f c) = cW S p + if f then 0 else cW S p := rfl
    simp only [psi, hm, hb, mainL, pcL_afterChild, List.map_append, List.map_cons, List.map_nil, List.sum_append,
      List.sum_cons, List.sum_nil, hq, h0]
    omega
  | prune p f hm hb =>
    obtain ⟨m, e1, e2⟩ := loopOrExit_spec { s with
        busy := [afterChild p f], pruned := p.level :: s.pruned, inProgress := s.inProgress - 1 }
    rw [e1]
    refine ⟨?_, fun _ => rfl⟩
    have hmain : mainL S m = 0 := by
      rcases e2 with ⟨rfl, -⟩ | ⟨rfl, -⟩ <;> rfl
    have h0 : pcL S (.sendPrune p f) = if f then 0 else cW S p := rfl
    simp only [psi, hb, hmain, pcL_afterChild, List.map_cons, List.map_nil, List.sum_cons, List.sum_nil, h0]
    omega
  | readyNil hm hb hq => exact ⟨by simp [psi, hm, hb, hq, mainL, pcL], fun _ => rfl⟩
  | readyNode n rest hm hb hq =>
    refine ⟨?_, fun _ => rfl⟩
    simp only [psi, hm, hb, hq, mainL, pcL, List.map_cons, List.map_nil, List.sum_cons, List.sum_nil]
    omega
  | scoreOld i n hm hidx hn => exact scoreCase i n _ hm hidx rfl rfl (List.Sublist.refl _) rfl
  | scoreNew i n hs' hm hidx hn hins =>
    obtain ⟨q, b, e1, e2, e3⟩ := afterInsert_spec { s with
        scoring := s.scoring.eraseIdx i
        inProgress := s.inProgress - 1
        progress := (s.hs.bestScore, s.numChecked, s.pruned) :: s.progress } (scoreWorker S n) hs'
    rw [e1]
    exact scoreCase i n _ hm hidx rfl rfl e2 rfl

theorem psi_reach {S : Search α} {M : Int} (hM : M ≠ 1) {pre : List (Node α)} {s : SState α}
    (h : SelectReaches S M pre s) :
    psi S s ≤ 2 ^ S.ncols ∧ ((2 : Int) ^ S.ncols ≤ 2 * S.maxQueue → s.overflows = 0) := by
  obtain ⟨hs, s₀, h1, h2, h3⟩ := h
  induction h3 with
  | init =>
    unfold sinit at h2
    split at h2
    · simp at h2
    · split at h2
      · simp at h2
      · rw [Option.some.injEq] at h2
        subst h2
        simp [psi, mainL, lW, newNode]
  | step a hr hst ih =>
    have hreach : SelectReaches S M pre _ := ⟨hs, s₀, h1, h2, hr⟩
    have hi := SInv.reach hM hreach
    obtain ⟨p1, p2⟩ := psi_step hi (hi.classify hM hst)
    refine ⟨p1.trans ih.1, fun hmax => ?_⟩
    rw [p2 ?_, ih.2 hmax]
    have : ((2 ^ S.ncols : ℕ) : Int) = 2 ^ S.ncols := by push_cast; rfl
    have := ih.1
    omega

/-! ### A run without torn reads -/

/-- Reading the length right after the best score. -/
theorem calm_step {S : Search α} {M : Int} {pre : List (Node α)} (hM : M ≠ 1) {s s' : SState α} {a : Action}
    (h : SelectReaches S M pre s) (ht : s.torn = false)
    (hc : ∀ p f c e, ChildPc.readLen p f c e ∉ s.busy) (hs : sstep S s a = some s') :
    ∃ s'', SelectReaches S M pre s'' ∧ s''.torn = false ∧ (∀ p f c e, ChildPc.readLen p f c e ∉ s''.busy) ∧
      phi S s'' ≤ phi S s ∧ (¬ Idle s a → phi S s'' + 1 ≤ phi S s) ∧ (s'' = s' ∨ ∃ i, a = .readBest i) := by
  have hi := SInv.reach hM h
  have hst := hi.classify hM hs
  obtain ⟨p1, p2⟩ := phi_step hi hst
  have hr' : SelectReaches S M pre s' := by
    obtain ⟨hs0, s0, q1, q2, q3⟩ := h
    exact ⟨hs0, s0, q1, q2, .step a q3 hs⟩
  have same : s'.torn = s.torn → (∀ p f c e, ChildPc.readLen p f c e ∉ s'.busy) → _ := fun h1 h2 =>
    (⟨s', hr', h1.trans ht, h2, p1, p2, Or.inl rfl⟩ : ∃ s'', SelectReaches S M pre s'' ∧ s''.torn = false ∧
      (∀ p f c e, ChildPc.readLen p f c e ∉ s''.busy) ∧
      phi S s'' ≤ phi S s ∧ (¬ Idle s a → phi S s'' + 1 ≤ phi S s) ∧ (s'' = s' ∨ ∃ i, a = .readBest i))
  have after : ∀ p0 f0 p f c e, ChildPc.readLen (α := α) p f c e ∉ [afterChild p0 f0] := by
    intro p0 f0 p f c e hx
    rw [List.mem_singleton] at hx
    cases f0 <;> simp [afterChild] at hx
  have score : ∀ (s1 : SState α) (n : Node α), s1.busy = s.busy → s1.torn = s.torn →
      (afterScore S s1 n).busy = s.busy ∧ (afterScore S s1 n).torn = s.torn := by
    intro s1 n h1 h2
    obtain ⟨m, q, k, e, -⟩ := afterScore_spec S s1 n
    rw [e]
    exact ⟨h1, h2⟩
  cases hst with
  | want node hm hb =>
    refine same rfl fun p f c e hx => ?_
    cases node <;> simp [pcOf] at hx
  | rbPrune p f hm hb hcc => exact same rfl (by simp)
  | rbBound p f c hm hb hcc hlt =>
    by_cases hlen : 0 < s.hs.len
    · have hne : (s.hs.len == 0) = false := by simpa using hlen.ne'
      have hst2 : sstep S { s with busy := [.readLen p f c (s.hs.len == 0)] } (.readLen 0) =
          some { s with busy := [.sendPrune p f] } := by
        simp only [sstep, hm, List.getElem?_cons_zero, hlen, if_true, List.set_cons_zero, hne, Bool.or_false]
      have hi' := SInv.reach hM hr'
      obtain ⟨q1, q2⟩ := phi_step hi' (hi'.classify hM hst2)
      have hr'' : SelectReaches S M pre { s with busy := [.sendPrune p f] } := by
        obtain ⟨hs0, s0, q1, q2, q3⟩ := hr'
        exact ⟨hs0, s0, q1, q2, .step _ q3 hst2⟩
      exact ⟨_, hr'', ht, by simp, q1.trans p1, fun h => by have := p2 h; omega, Or.inr ⟨_, rfl⟩⟩
    · have hst2 : sstep S { s with busy := [.readLen p f c (s.hs.len == 0)] } (.readLen 0) =
          some { s with busy := [.sendNode p f c] } := by
        simp only [sstep, hm, List.getElem?_cons_zero, hlen, if_false, List.set_cons_zero]
      have hi' := SInv.reach hM hr'
      obtain ⟨q1, q2⟩ := phi_step hi' (hi'.classify hM hst2)
      have hr'' : SelectReaches S M pre { s with busy := [.sendNode p f c] } := by
        obtain ⟨hs0, s0, q1, q2, q3⟩ := hr'
        exact ⟨hs0, s0, q1, q2, .step _ q3 hst2⟩
      exact ⟨_, hr'', ht, by simp, q1.trans p1, fun h => by have := p2 h; omega, Or.inr ⟨_, rfl⟩⟩
  | rbSend p f c hm hb hcc hlt => exact same rfl (by simp)
  | rlPrune p f c e hm hb hlen => exact absurd (by rw [hb]; simp) (hc p f c e)
  | rlSend p f c e hm hb hlen => exact same rfl (by simp)
  | send p f c hm hb hs => exact same rfl (after p f)
  | prune p f hm hb =>
    obtain ⟨m, e1, e2⟩ := loopOrExit_spec { s with
        busy := [afterChild p f], pruned := p.level :: s.pruned, inProgress := s.inProgress - 1 }
    rw [e1] at same
    rw [e1]
    exact same rfl (after p f)
  | readyNil hm hb hq => exact same rfl (by simp)
  | readyNode n rest hm hb hq => exact same rfl (by simp)
  | scoreOld i n hm hidx hn =>
    obtain ⟨b1, b2⟩ := score { s with
        scoring := s.scoring.eraseIdx i
        inProgress := s.inProgress - 1
        progress := (s.hs.bestScore, s.numChecked, s.pruned) :: s.progress } (scoreWorker S n) rfl rfl
    exact same b2 (by rw [b1]; exact hc)
  | scoreNew i n hs' hm hidx hn hins =>
    obtain ⟨q, b, e1, e2, e3⟩ := afterInsert_spec { s with
        scoring := s.scoring.eraseIdx i
        inProgress := s.inProgress - 1
        progress := (s.hs.bestScore, s.numChecked, s.pruned) :: s.progress } (scoreWorker S n) hs'
    obtain ⟨b1, b2⟩ := score (afterInsert { s with
        scoring := s.scoring.eraseIdx i
        inProgress := s.inProgress - 1
        progress := (s.hs.bestScore, s.numChecked, s.pruned) :: s.progress } (scoreWorker S n) hs') (scoreWorker S n)
        (by rw [e1]) (by rw [e1])
    exact same b2 (by rw [b1]; exact hc)

end GoSelect
