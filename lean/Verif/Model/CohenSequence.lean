import Verif.Model.Pool
import Verif.Model.Float

/-!
# `CalculateCohenSequence`

Model of cohens_kappa.go:54-121 on top of worker pools.  Target number `t` stands for `targets[t]`.
The value of `GetCohensKappa` is random: evaluating a target may give any number, also NaN (C40).
Printing is left out (lines 91, 95, 112-119).
-/

namespace GoSelect

/-- Where the main goroutine is. -/
inductive CohenPhase where
  /-- head of the loop of line 67, with loop variable `i` -/
  | spawning (i : Nat)
  /-- at line 76 -/
  | sendFirst (i : Nat)
  /-- head of the loop of line 87 -/
  | receiving
  /-- at line 108 -/
  | sendNext
  deriving DecidableEq, Repr

/-- Local variables.  `bestHyper` is the number of the target whose hyper parameters it holds. -/
structure CohenMain (K : Type) where
  phase : CohenPhase
  nextTarget : Nat
  numReceives : Nat
  bestKappa : Fl K
  bestHyper : Option Nat

variable {K : Type} [LT K] [DecidableLT K] [Zero K]

/-- cohens_kappa.go:63-66, 80-82. -/
def cohenInit : CohenMain K := ⟨.spawning 0, 0, 0, .fin 0, none⟩

/-- cohens_kappa.go:88-105: after the receive of the result `res` = (target, kappa). -/
def cohenReceive (n : Nat) (m : CohenMain K) (res : Nat × Fl K) : CohenMain K where
  phase := if m.nextTarget < n then .sendNext else .receiving
  nextTarget := m.nextTarget
  numReceives := m.numReceives + 1
  bestKappa := if m.bestKappa < res.2 then res.2 else m.bestKappa
  bestHyper := if m.bestKappa < res.2 then some res.1 else m.bestHyper

/-- cohens_kappa.go:62-120 with `len(targets) = n` and `numWorkers = workers`. -/
def cohenAct (workers n : Nat) (m : CohenMain K) : Act (CohenMain K) Nat (Nat × Fl K) :=
  match m.phase with
  | .spawning i =>
    if i < workers then
      .spawn { m with phase := if m.nextTarget < n then .sendFirst i else .spawning (i + 1) }
    else .tau { m with phase := .receiving }
  | .sendFirst i => .send m.nextTarget { m with nextTarget := m.nextTarget + 1, phase := .spawning (i + 1) }
  | .receiving => if m.numReceives < n then .recv (cohenReceive n m) else .done
  | .sendNext => .send m.nextTarget { m with nextTarget := m.nextTarget + 1, phase := .receiving }

/-- cohens_kappa.go:54-59: the worker evaluates the target it was given; any kappa. -/
def cohenComp (t : Nat) (res : Nat × Fl K) : Prop := res.1 = t

/-- cohens_kappa.go:63. -/
def cohenWorkers : Nat := 16

/-- States reachable by `CalculateCohenSequence` with `n` targets. -/
abbrev CohenReach (n : Nat) (s : Pool (CohenMain K) Nat (Nat × Fl K)) : Prop :=
  PoolReach (cohenAct cohenWorkers n) cohenComp cohenInit s

/-- One step of `CalculateCohenSequence`. -/
abbrev CohenStep (n : Nat) (s s' : Pool (CohenMain K) Nat (Nat × Fl K)) : Prop :=
  PoolStep (cohenAct cohenWorkers n) cohenComp s s'

/-- The call has returned. -/
def CohenDone (n : Nat) (s : Pool (CohenMain K) Nat (Nat × Fl K)) : Prop :=
  cohenAct cohenWorkers n s.main = .done

end GoSelect
