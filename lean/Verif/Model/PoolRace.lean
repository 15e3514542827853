import Verif.Model.CrdDescPath
import Verif.Model.CohenSequence
import Verif.Model.ThresholdSearch

/-!
# Accesses of worker pools to shared memory

The three functions that use worker pools (`Model.Pool`), with the accesses of their goroutines to memory that more than one
of them can reach.  Goroutine 0 is the main goroutine, goroutine `k + 1` is worker number `k`.  The variables of the
workers, and what the channels carry by value, are not shared and are left out; so is the source of random numbers, which
is protected by a lock of its own.

What the main goroutine accesses between two of its actions is put directly before the second one; this is a choice of
presentation, because the order of events of different goroutines that do not communicate in between does not matter.
-/

namespace GoSelect

/-- An event of a run. -/
inductive PEv (L : Type) where
  /-- goroutine `g` reads, or writes, the memory `l` -/
  | access (g : Nat) (l : L) (write : Bool)
  /-- goroutine `g` starts `h`, or hands a value to `h` on an unbuffered channel -/
  | sync (g h : Nat)
  /-- the call returns -/
  | ret
  deriving DecidableEq, Repr

/-- The goroutines that take part. -/
def PEv.parts {L : Type} : PEv L → List Nat
  | .access g _ _ => [g]
  | .sync g h => [g, h]
  | .ret => [0]

/-- The accesses of a pool; `true` is a write. -/
structure PoolMem (M W L : Type) where
  /-- before the first worker is started, by the caller or the main goroutine -/
  before : List (L × Bool)
  /-- by the main goroutine in state `m`, before its next action -/
  main : M → List (L × Bool)
  /-- by a worker that evaluates `w` -/
  work : W → List (L × Bool)

/-- Accesses of goroutine `g`. -/
def accesses {L : Type} (g : Nat) (l : List (L × Bool)) : List (PEv L) := l.map (fun a => .access g a.1 a.2)

variable {M W R L : Type}

/-- Runs with their events; the last argument: the call has returned.  Workers are not stopped by the return. -/
inductive PoolRun (act : M → Act M W R) (comp : W → R → Prop) (m₀ : M) (mem : PoolMem M W L) :
    Pool M W R → List (PEv L) → Bool → Prop
  | init : PoolRun act comp m₀ mem (poolInit m₀) (accesses 0 mem.before) false
  | spawn {s tr} (m) (hr : PoolRun act comp m₀ mem s tr false) (h : act s.main = .spawn m) :
      PoolRun act comp m₀ mem { s with main := m, workers := s.workers ++ [.idle] }
        (tr ++ (accesses 0 (mem.main s.main) ++ [.sync 0 (s.workers.length + 1)])) false
  | tau {s tr} (m) (hr : PoolRun act comp m₀ mem s tr false) (h : act s.main = .tau m) :
      PoolRun act comp m₀ mem { s with main := m } (tr ++ accesses 0 (mem.main s.main)) false
  | send {s tr} (w m i) (hr : PoolRun act comp m₀ mem s tr false) (h : act s.main = .send w m)
      (hi : s.workers[i]? = some .idle) :
      PoolRun act comp m₀ mem { s with
        main := m
        workers := s.workers.set i (.computing w)
        sent := s.sent ++ [w] } (tr ++ (accesses 0 (mem.main s.main) ++ [.sync 0 (i + 1)])) false
  | compute {s tr b} (w i r) (hr : PoolRun act comp m₀ mem s tr b) (hi : s.workers[i]? = some (.computing w))
      (hc : comp w r) :
      PoolRun act comp m₀ mem { s with
        workers := s.workers.set i (.sending w r)
        evaluated := s.evaluated ++ [w] } (tr ++ accesses (i + 1) (mem.work w)) b
  | recv {s tr} (f w i r) (hr : PoolRun act comp m₀ mem s tr false) (h : act s.main = .recv f)
      (hi : s.workers[i]? = some (.sending w r)) :
      PoolRun act comp m₀ mem { s with
        main := f r
        workers := s.workers.set i .idle
        got := s.got ++ [(w, r)] } (tr ++ (accesses 0 (mem.main s.main) ++ [.sync (i + 1) 0])) false
  | ret {s tr} (hr : PoolRun act comp m₀ mem s tr false) (h : act s.main = .done) :
      PoolRun act comp m₀ mem s (tr ++ (accesses 0 (mem.main s.main) ++ [.ret])) true

/-! ### `LassoCrdDescPath` -/

/-- Memory that the goroutines of `LassoCrdDescPath` share. -/
inductive PathLoc where
  /-- the normalised data and the regularisations -/
  | data
  /-- the start vector of the first jobs, lassoCrdDesc.go:181 -/
  | start
  /-- the start vector made for regularisation `k`, lassoCrdDesc.go:231 -/
  | x0 (k : Nat)
  /-- the variable part of the correction (`CLasso.beta`) -/
  | corr
  /-- the variable part of the covariance (`numRemoved` of the operator of a `SparseThresholded`) -/
  | cov
  /-- the node for regularisation `k` -/
  | node (k : Nat)
  deriving DecidableEq, Repr

/-- The start vector that the job for regularisation `k` is given: lassoCrdDesc.go:202 for the first jobs (regularisations
are handed out from the last to the first one), line 231 for the others. -/
def pathStart (n k : Nat) : PathLoc := if n - 1 - k < pathWorkers n then .start else .x0 k

/-- The accesses of `LassoCrdDescPath`.  `corr`: the correction is a `CLasso`, whose `Update` (lassoCorrections.go:42-44)
writes what its `Deriv` (lassoCorrections.go:48-60) reads; a `PureLasso` has no fields, an `ElasticNet` only one that is
never written.  `cov`: the covariance is a `SparseThresholded`, whose `Get` (covarianceMatrix.go:60-71) writes a counter of
its operator (thresholdCov.go:21-31).

Workers: the data (lassoCrdDesc.go:17, 22, 25-27), `copy(x0, betaOld)` (line 35, which writes unless there are no
features), covariance and correction (lines 22, 45, 51, 82), and the new node (line 172).  The length of `x0` in
line 18 is part of the job.  Main goroutine: data, received nodes (lines 226, 232-235, 249-254), new start vector
(lines 231-235). -/
def pathMem {K : Type} (n nFeat : Nat) (corr cov : Bool) : PoolMem (PathMain K) (Nat × List K) PathLoc where
  before := [(.data, true), (.start, true), (.corr, true), (.cov, true)]
  main m :=
    (.data, false) ::
      (((List.range n).filter (fun i => (m.nodes.getD i none).isSome)).map (fun i => (.node (n - 1 - i), false)) ++
        match m.phase, m.availableLambs with
        | .sendNext, k :: _ => [(.x0 k, true)]
        | _, _ => [])
  work w :=
    (.data, false) :: (if nFeat = 0 then [] else [(pathStart n w.1, true)]) ++
      (if corr then [(.corr, false), (.corr, true)] else []) ++
      (if cov then [(.cov, false), (.cov, true)] else []) ++ [(.node w.1, true)]

/-- Runs of `LassoCrdDescPath` with `n` regularisations, with their events. -/
abbrev PathTrace {K : Type} [Zero K] (n nFeat : Nat) (corr cov : Bool) (solve : Nat → List K → LassoLarsNode K → Prop) :=
  PoolRun (pathAct n nFeat) (pathComp solve) (pathInit n) (pathMem n nFeat corr cov)

/-! ### `CalculateCohenSequence` -/

/-- Memory that the goroutines of `CalculateCohenSequence` share. -/
inductive CohenLoc where
  /-- the data -/
  | data
  /-- the hyper parameters of object `o` -/
  | hyper (o : Nat)
  /-- the start vector of object `o`: the field and what it points to -/
  | x0 (o : Nat)
  /-- the variable part of correction `c` -/
  | corr (c : Nat)
  deriving DecidableEq, Repr

/-- The accesses of `CalculateCohenSequence` with targets for the lasso.  `obj t`: the object that `targets[t]` points to;
`corr o`: the `CLasso` correction of object `o`, `none` if its correction has no variable part.  The covariance has no
variable part: it is `Empirical` in the command, and a `SparseThresholded` panics on data other than those it was made for
(covarianceMatrix.go:61-63).

Workers: data, hyper parameters, start vector (lassoCrdDesc.go:286-305 and 35), correction.  Main goroutine: data
never, hyper parameters (cohens_kappa.go:91-95). -/
def cohenMem {K : Type} (n : Nat) (obj : Nat → Nat) (corr : Nat → Option Nat) : PoolMem (CohenMain K) Nat CohenLoc where
  before := (.data, true) :: (List.range n).flatMap (fun t => [(.hyper (obj t), true), (.x0 (obj t), true)] ++
    (corr (obj t)).toList.map (fun c => (.corr c, true)))
  main _ := (List.range n).map (fun t => (.hyper (obj t), false))
  work t := [(.data, false), (.hyper (obj t), false), (.x0 (obj t), false), (.x0 (obj t), true)] ++
    (corr (obj t)).toList.flatMap (fun c => [(.corr c, false), (.corr c, true)])

/-- Runs of `CalculateCohenSequence` with `n` targets, with their events. -/
abbrev CohenTrace {K : Type} [LT K] [DecidableLT K] [Zero K] (n : Nat) (obj : Nat → Nat) (corr : Nat → Option Nat) :=
  PoolRun (cohenAct (K := K) cohenWorkers n) cohenComp cohenInit (cohenMem n obj corr)

/-! ### `L2ConsistentCovTO` -/

/-- Memory that the goroutines of `L2ConsistentCovTO` share. -/
inductive CovLoc where
  /-- the two covariance matrices of partition `k`, thresholdCov.go:71-72, 105-106 -/
  | parts (k : Nat)
  deriving DecidableEq, Repr

/-- The accesses of `L2ConsistentCovTO`.  Workers copy the first and read the second matrix of their partition
(thresholdCov.go:164, 170).  The main goroutine makes the first ones before the workers start, and others when a round has
ended (thresholdCov.go:104-106). -/
def covMem {K : Type} : PoolMem (CovMain K) (Nat × Nat) CovLoc where
  before := [(.parts 0, true)]
  main m :=
    match m.phase with
    | .sendNext (k, 0) => [(.parts k, true)]
    | _ => []
  work w := [(.parts w.1, false)]

/-- Runs of `L2ConsistentCovTO`, with their events. -/
abbrev CovTrace {K : Type} [Field K] (numGrid numSamples : Nat) (diff : Nat → Nat → K) :=
  PoolRun (covAct numGrid numSamples) (covComp diff) (covInit numGrid) covMem

end GoSelect
