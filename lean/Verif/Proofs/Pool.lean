import Verif.Model.Pool
import Verif.Proofs.ListUtil
import Mathlib.Data.List.Perm.Basic
import Mathlib.Data.Multiset.Basic
import Mathlib.Data.Multiset.MapFold
import Mathlib.Data.Multiset.AddSub
import Mathlib.Algebra.Order.Group.Multiset
import Mathlib.Order.WellFounded

/-! Worker pools: conservation of work, progress, termination. -/

namespace GoSelect

variable {M W R : Type}

/-- The work a worker holds. -/
def Worker.held : Worker W R → Option W
  | .idle => none
  | .computing w => some w
  | .sending w _ => some w

/-- The work a worker has evaluated and not delivered. -/
def Worker.ready : Worker W R → Option W
  | .idle => none
  | .computing _ => none
  | .sending w _ => some w

/-- The worker is evaluating. -/
def Worker.isComputing : Worker W R → Bool
  | .computing _ => true
  | _ => false

theorem filterMap_set {β γ : Type} (f : β → Option γ) {l : List β} {i : Nat} {a b : β}
    (h : l[i]? = some a) :
    ((l.set i b).filterMap f : Multiset γ) + (f a).toList = (l.filterMap f : Multiset γ) + (f b).toList := by
  induction l generalizing i with
  | nil => simp at h
  | cons x l ih =>
    cases i with
    | zero =>
      simp only [List.getElem?_cons_zero, Option.some.injEq] at h
      subst h
      rw [List.set_cons_zero, List.filterMap_cons, List.filterMap_cons]
      cases f x <;> cases f b <;> simp [← Multiset.cons_coe, ← Multiset.singleton_add, add_comm, add_left_comm, add_assoc]
    | succ i =>
      rw [List.getElem?_cons_succ] at h
      have := ih h
      rw [List.set_cons_succ, List.filterMap_cons, List.filterMap_cons]
      cases f x with
      | none => exact this
      | some c => 
        simp only [← Multiset.cons_coe, Multiset.cons_add]
        rw [this]

/-- Conservation of work. -/
structure PoolInv (comp : W → R → Prop) (s : Pool M W R) : Prop where
  sent : (s.sent : Multiset W) = (s.got.map (·.1) : Multiset W) + (s.workers.filterMap Worker.held : Multiset W)
  evaluated : (s.evaluated : Multiset W) =
    (s.got.map (·.1) : Multiset W) + (s.workers.filterMap Worker.ready : Multiset W)
  got : ∀ p ∈ s.got, comp p.1 p.2
  ready : ∀ (i : Nat) (w : W) (r : R), s.workers[i]? = some (Worker.sending w r) → comp w r

theorem PoolInv.init (comp : W → R → Prop) (m : M) : PoolInv comp (poolInit m : Pool M W R) :=
  ⟨rfl, rfl, by simp [poolInit], by simp [poolInit]⟩

theorem PoolInv.step {act : M → Act M W R} {comp : W → R → Prop} {s s' : Pool M W R}
    (hi : PoolInv comp s) (h : PoolStep act comp s s') : PoolInv comp s' := by
  cases h with
  | spawn m h =>
    refine ⟨?_, ?_, hi.got, ?_⟩
    · simp only [List.filterMap_append]
      rw [show List.filterMap Worker.held [(Worker.idle : Worker W R)] = [] from rfl, List.append_nil]
      exact hi.sent
    · simp only [List.filterMap_append]
      rw [show List.filterMap Worker.ready [(Worker.idle : Worker W R)] = [] from rfl, List.append_nil]
      exact hi.evaluated
    · intro i w r h
      simp only at h
      by_cases hlt : i < s.workers.length
      · rw [List.getElem?_append_left hlt] at h; exact hi.ready i w r h
      · rw [List.getElem?_append_right (by omega)] at h
        cases hk : i - s.workers.length with
        | zero => rw [hk] at h; simp at h
        | succ k => rw [hk] at h; simp at h
  | tau m h => exact ⟨hi.sent, hi.evaluated, hi.got, hi.ready⟩
  | send w m i h hi' =>
    refine ⟨?_, ?_, hi.got, ?_⟩
    · have := filterMap_set Worker.held (b := Worker.computing w) hi'
      simp only [Worker.held, Option.toList_none, Multiset.coe_nil, add_zero, Option.toList_some] at this
      simp only
      rw [this, ← Multiset.coe_add, hi.sent, add_assoc]
    · have := filterMap_set Worker.ready (b := Worker.computing w) hi'
      simp only [Worker.ready, Option.toList_none, Multiset.coe_nil, add_zero] at this
      simp only
      rw [this, hi.evaluated]
    · intro j w' r hj
      simp only at hj
      by_cases hij : i = j
      · subst hij
        rw [List.getElem?_set] at hj
        simp only [if_true] at hj
        split at hj <;> cases hj
      · rw [List.getElem?_set_ne hij] at hj; exact hi.ready j w' r hj
  | compute w i r hi' hr =>
    refine ⟨?_, ?_, hi.got, ?_⟩
    · have := filterMap_set Worker.held (b := Worker.sending w r) hi'
      simp only [Worker.held, Option.toList_some] at this
      simp only
      rw [hi.sent, add_right_cancel this]
    · have := filterMap_set Worker.ready (b := Worker.sending w r) hi'
      simp only [Worker.ready, Option.toList_none, Multiset.coe_nil, add_zero, Option.toList_some] at this
      simp only
      rw [this, ← Multiset.coe_add, hi.evaluated, add_assoc]
    · intro j w' r' hj
      simp only at hj
      by_cases hij : i = j
      · subst hij
        rw [List.getElem?_set] at hj
        simp only [if_true] at hj
        split at hj
        · simp only [Option.some.injEq, Worker.sending.injEq] at hj
          obtain ⟨rfl, rfl⟩ := hj
          exact hr
        · simp at hj
      · rw [List.getElem?_set_ne hij] at hj; exact hi.ready j w' r' hj
  | recv f w i r h hi' =>
    have hc := hi.ready i w r hi'
    refine ⟨?_, ?_, ?_, ?_⟩
    · have := filterMap_set Worker.held (b := Worker.idle) hi'
      simp only [Worker.held, Option.toList_none, Multiset.coe_nil, add_zero, Option.toList_some] at this
      simp only [List.map_append, List.map_cons, List.map_nil]
      rw [hi.sent, ← this, ← Multiset.coe_add, add_assoc, add_comm (((s.workers.set i .idle).filterMap _ : List W) : Multiset W)]
    · have := filterMap_set Worker.ready (b := Worker.idle) hi'
      simp only [Worker.ready, Option.toList_none, Multiset.coe_nil, add_zero, Option.toList_some] at this
      simp only [List.map_append, List.map_cons, List.map_nil]
      rw [hi.evaluated, ← this, ← Multiset.coe_add, add_assoc, add_comm (((s.workers.set i .idle).filterMap _ : List W) : Multiset W)]
    · intro p hp
      rcases List.mem_append.1 hp with hp | hp
      · exact hi.got p hp
      · rw [List.mem_singleton.1 hp]; exact hc
    · intro j w' r' hj
      simp only at hj
      by_cases hij : i = j
      · subst hij
        rw [List.getElem?_set] at hj
        simp only [if_true] at hj
        split at hj <;> cases hj
      · rw [List.getElem?_set_ne hij] at hj; exact hi.ready j w' r' hj

theorem PoolInv.reach {act : M → Act M W R} {comp : W → R → Prop} {m : M} {s : Pool M W R}
    (h : PoolReach act comp m s) : PoolInv comp s := by
  induction h with
  | init => exact PoolInv.init comp m
  | step _ h' ih => exact ih.step h'

/-- Number of workers that hold work. -/
theorem PoolInv.busy {comp : W → R → Prop} {s : Pool M W R} (hi : PoolInv comp s) :
    (s.workers.filterMap Worker.held).length + s.got.length = s.sent.length := by
  have := congrArg Multiset.card hi.sent
  simp only [Multiset.coe_card, Multiset.card_add, List.length_map] at this
  omega

/-- With less work out than workers, one of them is idle. -/
theorem PoolInv.exists_idle {comp : W → R → Prop} {s : Pool M W R} (hi : PoolInv comp s)
    (h : s.sent.length < s.got.length + s.workers.length) : ∃ i : Nat, s.workers[i]? = some .idle := by
  have hb := hi.busy
  have hlt : (s.workers.filterMap Worker.held).length < s.workers.length := by omega
  clear hb h hi
  generalize s.workers = l at hlt
  induction l with
  | nil => simp at hlt
  | cons x l ih =>
    cases x with
    | idle => exact ⟨0, rfl⟩
    | computing w =>
      obtain ⟨i, hi⟩ := ih (by simpa [Worker.held] using hlt)
      exact ⟨i + 1, by simpa using hi⟩
    | sending w r =>
      obtain ⟨i, hi⟩ := ih (by simpa [Worker.held] using hlt)
      exact ⟨i + 1, by simpa using hi⟩

/-- With work out, some worker can compute or deliver. -/
theorem PoolInv.exists_busy {comp : W → R → Prop} {s : Pool M W R} (hi : PoolInv comp s)
    (h : s.got.length < s.sent.length) :
    (∃ (i : Nat) (w : W), s.workers[i]? = some (.computing w)) ∨
      ∃ (i : Nat) (w : W) (r : R), s.workers[i]? = some (.sending w r) := by
  have hb := hi.busy
  have hlt : 0 < (s.workers.filterMap Worker.held).length := by omega
  clear hb h hi
  generalize s.workers = l at hlt
  induction l with
  | nil => simp at hlt
  | cons x l ih =>
    cases x with
    | idle =>
      rcases ih (by simpa [Worker.held] using hlt) with ⟨i, w, h⟩ | ⟨i, w, r, h⟩
      · exact .inl ⟨i + 1, w, by simpa using h⟩
      · exact .inr ⟨i + 1, w, r, by simpa using h⟩
    | computing w => exact .inl ⟨0, w, rfl⟩
    | sending w r => exact .inr ⟨0, w, r, rfl⟩

/-- Progress at a receive. -/
theorem PoolInv.recv_step {act : M → Act M W R} {comp : W → R → Prop} (hc : ∀ w, ∃ r, comp w r)
    {s : Pool M W R} (hi : PoolInv comp s) {f : R → M} (hf : act s.main = .recv f)
    (h : s.got.length < s.sent.length) : ∃ s', PoolStep act comp s s' := by
  rcases hi.exists_busy h with ⟨i, w, h⟩ | ⟨i, w, r, h⟩
  · obtain ⟨r, hr⟩ := hc w
    exact ⟨_, .compute w i r h hr⟩
  · exact ⟨_, .recv f w i r hf h⟩

/-- Progress at a receive when the work sent can be evaluated. -/
theorem PoolInv.recv_step_sent {act : M → Act M W R} {comp : W → R → Prop}
    {s : Pool M W R} (hc : ∀ w ∈ s.sent, ∃ r, comp w r) (hi : PoolInv comp s) {f : R → M}
    (hf : act s.main = .recv f) (h : s.got.length < s.sent.length) : ∃ s', PoolStep act comp s s' := by
  rcases hi.exists_busy h with ⟨i, w, h⟩ | ⟨i, w, r, h⟩
  · have hw : w ∈ s.sent := by
      have e := hi.sent
      have : w ∈ s.workers.filterMap Worker.held :=
        List.mem_filterMap.2 ⟨_, List.mem_of_getElem? h, rfl⟩
      rw [← Multiset.mem_coe, e]
      simp [this]
    obtain ⟨r, hr⟩ := hc w hw
    exact ⟨_, .compute w i r h hr⟩
  · exact ⟨_, .recv f w i r hf h⟩

/-- Progress at a send. -/
theorem PoolInv.send_step {act : M → Act M W R} {comp : W → R → Prop}
    {s : Pool M W R} (hi : PoolInv comp s) {w : W} {m : M} (hf : act s.main = .send w m)
    (h : s.sent.length < s.got.length + s.workers.length) : ∃ s', PoolStep act comp s s' := by
  obtain ⟨i, h⟩ := hi.exists_idle h
  exact ⟨_, .send w m i hf h⟩

/-- If every action of the main goroutine decreases `ν` (a send by at least 2), every step decreases
`ν` plus the number of evaluating workers. -/
theorem pool_measure {act : M → Act M W R} {comp : W → R → Prop} (ν : M → Nat) {s s' : Pool M W R}
    (h : PoolStep act comp s s')
    (hspawn : ∀ m, act s.main = .spawn m → ν m < ν s.main)
    (htau : ∀ m, act s.main = .tau m → ν m < ν s.main)
    (hsend : ∀ w m, act s.main = .send w m → ν m + 1 < ν s.main)
    (hrecv : ∀ (f : R → M) (w : W) (i : Nat) (r : R), act s.main = .recv f →
      s.workers[i]? = some (Worker.sending w r) → ν (f r) < ν s.main) :
    ν s'.main + s'.workers.countP Worker.isComputing < ν s.main + s.workers.countP Worker.isComputing := by
  cases h with
  | spawn m h =>
    have := hspawn m h
    simp only [List.countP_append]
    simp [Worker.isComputing]
    omega
  | tau m h => have := htau m h; simp only; omega
  | send w m i h hi =>
    have := hsend w m h
    have hc := countP_set Worker.isComputing (b := .computing w) hi
    simp [Worker.isComputing] at hc
    simp only
    omega
  | compute w i r hi hr =>
    have hc := countP_set Worker.isComputing (b := .sending w r) hi
    simp [Worker.isComputing] at hc
    simp only
    omega
  | recv f w i r h hi =>
    have := hrecv f w i r h hi
    have hc := countP_set Worker.isComputing (b := .idle) hi
    simp [Worker.isComputing] at hc
    simp only
    omega

/-- A measure that decreases on reachable states excludes infinite runs. -/
theorem pool_terminates {act : M → Act M W R} {comp : W → R → Prop} {m : M} (μ : Pool M W R → Nat)
    (h : ∀ s s', PoolReach act comp m s → PoolStep act comp s s' → μ s' < μ s)
    (run : Nat → Pool M W R) (h0 : run 0 = poolInit m)
    (hs : ∀ n, PoolStep act comp (run n) (run (n + 1))) : False := by
  have hr : ∀ n, PoolReach act comp m (run n) := by
    intro n
    induction n with
    | zero => rw [h0]; exact .init
    | succ n ih => exact .step ih (hs n)
  have hd : ∀ n, μ (run n) + n ≤ μ (run 0) := by
    intro n
    induction n with
    | zero => omega
    | succ n ih => have := h _ _ (hr n) (hs n); omega
  have := hd (μ (run 0) + 1)
  omega

end GoSelect
