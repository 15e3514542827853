import Mathlib.Data.List.Basic

/-!
# Worker pools

Three functions of the code use the same construction: a main goroutine starts workers, hands out
work on an unbuffered channel and collects results on another one (cohens_kappa.go:62-110,
lassoCrdDesc.go:196-246, thresholdCov.go:60-118).  The workers loop `for w := range work { r :=
compute(w); res <- r }` (cohens_kappa.go:54-59, lassoCrdDesc.go:160-177, thresholdCov.go:204-208).

The main goroutine is a program given by its next action.  Steps of the goroutines interleave
arbitrarily; a send on an unbuffered channel happens together with the receive.
-/

namespace GoSelect

/-- The next action of the main goroutine in a state of type `M`. -/
inductive Act (M W R : Type) where
  /-- start a worker -/
  | spawn (m : M)
  /-- `workChannel <- w` -/
  | send (w : W) (m : M)
  /-- `<-resChannel` -/
  | recv (f : R → M)
  /-- internal step -/
  | tau (m : M)
  /-- the call has returned -/
  | done
  /-- a run-time panic -/
  | panic

/-- State of a worker. -/
inductive Worker (W R : Type) where
  /-- blocked in `range work` -/
  | idle
  /-- evaluating `w` -/
  | computing (w : W)
  /-- blocked in `res <- r`, where `r` is the result for `w` -/
  | sending (w : W) (r : R)

/-- The main goroutine, the workers, and three ghosts: all work handed out, all evaluations
finished, all results received (each in order). -/
structure Pool (M W R : Type) where
  main : M
  workers : List (Worker W R)
  sent : List W
  evaluated : List W
  got : List (W × R)

variable {M W R : Type}

/-- One step.  `comp w r`: evaluating `w` may give `r`. -/
inductive PoolStep (act : M → Act M W R) (comp : W → R → Prop) (s : Pool M W R) : Pool M W R → Prop
  | spawn (m) (h : act s.main = .spawn m) :
      PoolStep act comp s { s with main := m, workers := s.workers ++ [.idle] }
  | tau (m) (h : act s.main = .tau m) : PoolStep act comp s { s with main := m }
  | send (w m i) (h : act s.main = .send w m) (hi : s.workers[i]? = some .idle) :
      PoolStep act comp s { s with
        main := m
        workers := s.workers.set i (.computing w)
        sent := s.sent ++ [w] }
  | compute (w i r) (hi : s.workers[i]? = some (.computing w)) (hr : comp w r) :
      PoolStep act comp s { s with
        workers := s.workers.set i (.sending w r)
        evaluated := s.evaluated ++ [w] }
  | recv (f w i r) (h : act s.main = .recv f) (hi : s.workers[i]? = some (.sending w r)) :
      PoolStep act comp s { s with
        main := f r
        workers := s.workers.set i .idle
        got := s.got ++ [(w, r)] }

/-- Start of the call. -/
def poolInit (m : M) : Pool M W R := ⟨m, [], [], [], []⟩

/-- States reachable under some schedule. -/
inductive PoolReach (act : M → Act M W R) (comp : W → R → Prop) (m : M) : Pool M W R → Prop
  | init : PoolReach act comp m (poolInit m)
  | step {s s'} (h : PoolReach act comp m s) (h' : PoolStep act comp s s') : PoolReach act comp m s'

end GoSelect
