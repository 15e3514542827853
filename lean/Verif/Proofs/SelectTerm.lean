import Verif.Proofs.SelectInv
import Mathlib.Algebra.BigOperators.Group.List.Basic
import Mathlib.Algebra.Order.BigOperators.Group.List
import Mathlib.Algebra.Order.Group.Nat

/-! Potential function of `SelectModel` runs: every step that is not idle polling lowers it. -/

namespace GoSelect

open Spec
open scoped List

variable {α : Type} [LT α] [DecidableLT α] [DecidableEq α] [Zero α] [Neg α]

/-- The nil-polling loop: the main loop hands out nil because the queue is empty. -/
def Idle (s : SState α) : Action → Prop
  | .want => s.main = .sendWant none
  | .ready _ => s.queue = []
  | _ => False

instance (s : SState α) (a : Action) : Decidable (Idle s a) := by
  cases a <;> unfold Idle <;> infer_instance

/-- Weight of a node to be expanded with `k` levels left. -/
def qw (k : Nat) : Nat := 10 * (2 ^ k - 1)

theorem qw_succ (k : Nat) : qw (k + 1) = 10 + 2 * qw k := by
  unfold qw
  rw [Nat.pow_succ]
  have := Nat.one_le_two_pow (n := k)
  omega

/-- Weight of a queued node. -/
def qW (S : Search α) (n : Node α) : Nat := qw (S.ncols - n.level)

/-- Weight of one child still to be made below `p`. -/
def mW (S : Search α) (p : Node α) : Nat := 4 + qw (S.ncols - (p.level + 1))

/-- Weight of the children after the current one. -/
def restW (S : Search α) (p : Node α) (f : Bool) : Nat := if f then 0 else mW S p

/-- Weight of a worker. -/
def pcW (S : Search α) : ChildPc α → Nat
  | .make p f => mW S p + restW S p f
  | .readLen p f _ _ => mW S p - 1 + restW S p f
  | .sendNode p f _ => mW S p - 2 + restW S p f
  | .sendPrune p f => 1 + restW S p f
  | .ready => 0

/-- Weight of the main loop. -/
def mainW (S : Search α) : MainPc α → Nat
  | .sendWant (some n) => qW S n - 1
  | _ => 0

/-- The potential. -/
def phi (S : Search α) (s : SState α) : Nat :=
  mainW S s.main + (s.busy.map (pcW S)).sum + (s.scoring.map (fun n => 1 + qW S n)).sum +
    (s.queue.map (qW S)).sum

theorem sum_sublist {β : Type} (f : β → Nat) {l l' : List β} (h : l <+ l') :
    (l.map f).sum ≤ (l'.map f).sum := by
  induction h with
  | slnil => simp
  | cons a _ ih => simp only [List.map_cons, List.sum_cons]; omega
  | cons_cons a _ ih => simp only [List.map_cons, List.sum_cons]; omega

theorem sum_perm {β : Type} (f : β → Nat) {l l' : List β} (h : l.Perm l') :
    (l.map f).sum = (l'.map f).sum := by
  induction h with
  | nil => rfl
  | cons a _ ih => simp only [List.map_cons, List.sum_cons]; omega
  | swap a b l => simp only [List.map_cons, List.sum_cons]; omega
  | trans _ _ ih1 ih2 => omega

theorem pcW_afterChild (S : Search α) (p : Node α) (f : Bool) :
    pcW S (afterChild p f) = restW S p f := by
  cases f <;> simp [afterChild, pcW, restW]

theorem phi_step {S : Search α} {M : Int} {pre : List (Node α)} {s s' : SState α} {a : Action}
    (hi : SInv S M pre s) (h : SStep S s a s') :
    phi S s' ≤ phi S s ∧ (¬ Idle s a → phi S s' + 1 ≤ phi S s) := by
  have weak : phi S s' + 1 ≤ phi S s → phi S s' ≤ phi S s ∧ (¬ Idle s a → phi S s' + 1 ≤ phi S s) :=
    fun h => ⟨by omega, fun _ => h⟩
  have scoreCase : ∀ (i : Nat) (n : Node α) (s1 : SState α), s.main = .select →
      s.scoring[i]? = some n → s1.scoring = s.scoring.eraseIdx i → s1.busy = s.busy →
      s1.queue <+ s.queue →
      phi S (afterScore S s1 (scoreWorker S n)) + 1 ≤ phi S s := by
    intro i n s1 hm hidx e2 e3 e4
    obtain ⟨m, q, k, f1, f2, -, f3⟩ := afterScore_spec S s1 (scoreWorker S n)
    have hp := sum_perm (fun n => 1 + qW S n) (eraseIdx_perm hidx)
    have hq := sum_sublist (qW S) f2
    have hq2 := sum_sublist (qW S) e4
    have hmain : mainW S m = 0 := by
      rcases f3 with ⟨rfl, -⟩ | ⟨rfl, -⟩ <;> rfl
    have hqn : qW S (scoreWorker S n) = qW S n := by unfold qW; rw [scoreWorker_level]
    rw [f1]
    have hsm : mainW S s.main = 0 := by rw [hm]; rfl
    simp only [List.map_cons, List.sum_cons] at hp
    simp only [phi, hmain, hsm, e2, e3, hp]
    split at hq
    · simp only [List.map_append, List.map_cons, List.map_nil, List.sum_append, List.sum_cons,
        List.sum_nil, hqn] at hq
      omega
    · omega
  cases h with
  | want node hm hb =>
    cases node with
    | none => exact ⟨by simp [phi, hm, hb, mainW, pcOf, pcW], fun h => absurd hm h⟩
    | some p =>
      have hl := (hi.wantOk p hm).lvl
      have hk : S.ncols - p.level = (S.ncols - (p.level + 1)) + 1 := by omega
      have hx : mainW S s.main = qw (S.ncols - (p.level + 1) + 1) - 1 := by rw [hm, ← hk]; rfl
      have hy : mainW S (.select : MainPc α) = 0 := rfl
      refine weak ?_
      simp only [phi, hx, hy, hb, pcOf, pcW, restW, mW, qw_succ, List.map_cons, List.map_nil,
        List.sum_cons, List.sum_nil, Bool.false_eq_true, if_false]
      omega
  | rbPrune p f hm hb hc =>
    refine weak ?_
    simp only [phi, hm, hb, mainW, pcW, mW, List.map_cons, List.map_nil, List.sum_cons,
      List.sum_nil]
    omega
  | rbBound p f c hm hb hc hlt =>
    refine weak ?_
    simp only [phi, hm, hb, mainW, pcW, mW, List.map_cons, List.map_nil, List.sum_cons,
      List.sum_nil]
    omega
  | rbSend p f c hm hb hc hlt =>
    refine weak ?_
    simp only [phi, hm, hb, mainW, pcW, mW, List.map_cons, List.map_nil, List.sum_cons,
      List.sum_nil]
    omega
  | rlPrune p f c e hm hb hlen =>
    refine weak ?_
    simp only [phi, hm, hb, mainW, pcW, mW, List.map_cons, List.map_nil, List.sum_cons,
      List.sum_nil]
    omega
  | rlSend p f c e hm hb hlen =>
    refine weak ?_
    simp only [phi, hm, hb, mainW, pcW, mW, List.map_cons, List.map_nil, List.sum_cons,
      List.sum_nil]
    omega
  | send p f c hm hb hs =>
    have hok := hi.busyOk (.sendNode p f c) (by simp [hb])
    have hl := (boundedChild_some hok.1 hok.2).2.1
    have hq : qW S c = qw (S.ncols - (p.level + 1)) := by rw [qW, hl]
    refine weak ?_
    have h0 : pcW S (.sendNode p f c) = mW S p - 2 + restW S p f := rfl
    simp only [phi, hm, hb, mainW, pcW_afterChild, List.map_append, List.map_cons, List.map_nil,
      List.sum_append, List.sum_cons, List.sum_nil, hq, h0, mW]
    omega
  | prune p f hm hb =>
    obtain ⟨m, e1, e2⟩ := loopOrExit_spec { s with
        busy := [afterChild p f], pruned := p.level :: s.pruned, inProgress := s.inProgress - 1 }
    refine weak ?_
    rw [e1]
    have hmain : mainW S m = 0 := by
      rcases e2 with ⟨rfl, -⟩ | ⟨rfl, -⟩ <;> rfl
    have h0 : pcW S (.sendPrune p f) = 1 + restW S p f := rfl
    simp only [phi, hb, hmain, pcW_afterChild, List.map_cons, List.map_nil,
      List.sum_cons, List.sum_nil, h0]
    omega
  | readyNil hm hb hq => exact ⟨by simp [phi, hm, hb, hq, mainW, pcW], fun h => absurd hq h⟩
  | readyNode n rest hm hb hq =>
    have hl := (hi.queueOk n (by simp [hq])).2
    have hk : S.ncols - n.level = (S.ncols - (n.level + 1)) + 1 := by omega
    have : 10 ≤ qW S n := by unfold qW; rw [hk, qw_succ]; omega
    refine weak ?_
    simp only [phi, hm, hb, hq, mainW, pcW, List.map_cons, List.map_nil, List.sum_cons,
      List.sum_nil]
    omega
  | scoreOld i n hm hidx hn => exact weak <| scoreCase i n _ hm hidx rfl rfl (List.Sublist.refl _)
  | scoreNew i n hs' hm hidx hn hins =>
    obtain ⟨q, b, e1, e2, e3⟩ := afterInsert_spec { s with
        scoring := s.scoring.eraseIdx i
        inProgress := s.inProgress - 1
        progress := (s.hs.bestScore, s.numChecked, s.pruned) :: s.progress } (scoreWorker S n) hs'
    refine weak ?_
    rw [e1]
    exact scoreCase i n _ hm hidx rfl rfl e2

/-- Some non-idle step is enabled whenever the main loop waits in its `select`. -/
theorem SInv.enabled {S : Search α} {M : Int} {pre : List (Node α)} {s : SState α}
    (hi : SInv S M pre s) (hm : s.main = .select) :
    ∃ a s', sstep S s a = some s' ∧ ¬ Idle s a := by
  have hscore : s.scoring ≠ [] → ∃ a s', sstep S s a = some s' ∧ ¬ Idle s a := by
    intro hne
    cases hsc : s.scoring with
    | nil => exact absurd hsc hne
    | cons n l => exact ⟨.score 0, _, by simp only [sstep, hm, hsc]; rfl, by simp [Idle]⟩
  obtain ⟨pc, hb⟩ := hi.selBusy hm
  cases pc with
  | make p f =>
    have hp : ParentOk S p := hi.busyOk (.make p f) (by rw [hb]; simp)
    cases hc : boundedChild S p f with
    | none => exact absurd hc (boundedChild_ne_none hp)
    | some o =>
      cases o with
      | none => exact ⟨.readBest 0, _, by simp only [sstep, hm, hb, List.getElem?_cons_zero, hc]; rfl, by simp [Idle]⟩
      | some c =>
        by_cases hlt : -s.hs.bestScore < c.lower
        · exact ⟨.readBest 0, _, by simp only [sstep, hm, hb, List.getElem?_cons_zero, hc, hlt, if_true]; rfl, by simp [Idle]⟩
        · exact ⟨.readBest 0, _, by simp only [sstep, hm, hb, List.getElem?_cons_zero, hc, hlt, if_false]; rfl, by simp [Idle]⟩
  | readLen p f c e =>
    by_cases hlt : 0 < s.hs.len
    · exact ⟨.readLen 0, _, by simp only [sstep, hm, hb, List.getElem?_cons_zero, hlt, if_true]; rfl, by simp [Idle]⟩
    · exact ⟨.readLen 0, _, by simp only [sstep, hm, hb, List.getElem?_cons_zero, hlt, if_false]; rfl, by simp [Idle]⟩
  | sendNode p f c =>
    by_cases hlt : s.scoring.length < 8
    · exact ⟨.sendNode 0, _, by simp only [sstep, hm, hb, List.getElem?_cons_zero, hlt, if_true]; rfl, by simp [Idle]⟩
    · refine hscore ?_
      intro h0
      rw [h0] at hlt
      simp at hlt
  | sendPrune p f =>
    exact ⟨.prune 0, _, by simp only [sstep, hm, hb, List.getElem?_cons_zero]; rfl, by simp [Idle]⟩
  | ready =>
    cases hq : s.queue with
    | cons n rest =>
      exact ⟨.ready 0, _, by simp only [sstep, hm, hb, List.getElem?_cons_zero, hq]; rfl, by simp [Idle, hq]⟩
    | nil =>
      refine hscore ?_
      intro h0
      have hc := hi.count
      have ha := hi.alive (by rw [hm]; simp)
      rw [hb, h0, hm] at hc
      simp [flipsLeft] at hc
      rw [hc, hq] at ha
      simp at ha

end GoSelect
