import Mathlib.Data.List.Basic

/-!
# `SearchProgress`

Model of searchProgress.go:5-26.  Any number of goroutines, each calling `Set` and `Get` any number
of times.  Every lock operation and every access to one of the three fields is a step of its own.

`sync.RWMutex`: `Lock` proceeds when there is neither a writer nor a reader, `RLock` when there is
no writer.  (The Go implementation moreover lets a waiting writer block new readers, which only
removes interleavings.)
-/

namespace GoSelect

/-- The three fields (searchProgress.go:6-8). -/
structure Triple (α : Type) where
  bestScore : α
  numExplored : Int
  log2Pruned : α
  deriving DecidableEq, Repr

/-- Program counter of one goroutine. -/
inductive SpPc (α : Type) where
  | idle
  /-- before `Lock()`, line 14 -/
  | lock (v : Triple α)
  /-- before the write of `BestScore`, line 16 -/
  | w1 (v : Triple α)
  /-- before the write of `NumExplored`, line 17 -/
  | w2 (v : Triple α)
  /-- before the write of `Log2NumPruned`, line 18 -/
  | w3 (v : Triple α)
  /-- before the deferred `Unlock()`, line 15 -/
  | unlock (v : Triple α)
  /-- before `RLock()`, line 23 -/
  | rlock
  /-- before the read of `BestScore`, line 25 -/
  | r1
  /-- before the read of `NumExplored`, line 25 -/
  | r2 (a : α)
  /-- before the read of `Log2NumPruned`, line 25 -/
  | r3 (a : α) (b : Int)
  /-- before the deferred `RUnlock()`, line 24 -/
  | runlock (v : Triple α)
  deriving DecidableEq, Repr

/-- Completed calls. -/
inductive SpEvent (α : Type) where
  /-- a `Set(v)` has left its critical section -/
  | set (v : Triple α)
  /-- a `Get()` has left its critical section and returns `v` -/
  | get (v : Triple α)
  deriving DecidableEq, Repr

/-- State: goroutines, fields, mutex, and the completed calls in order. -/
structure SpState (α : Type) where
  pcs : List (SpPc α)
  mem : Triple α
  writer : Bool
  readers : Nat
  log : List (SpEvent α)

variable {α : Type}

/-- One step of goroutine `i`. -/
inductive SpStep (s : SpState α) (i : Nat) : SpState α → Prop
  | callSet (v) (h : s.pcs[i]? = some .idle) : SpStep s i { s with pcs := s.pcs.set i (.lock v) }
  | lock (v) (h : s.pcs[i]? = some (.lock v)) (hw : s.writer = false) (hr : s.readers = 0) :
      SpStep s i { s with pcs := s.pcs.set i (.w1 v), writer := true }
  | w1 (v) (h : s.pcs[i]? = some (.w1 v)) :
      SpStep s i { s with pcs := s.pcs.set i (.w2 v), mem := { s.mem with bestScore := v.bestScore } }
  | w2 (v) (h : s.pcs[i]? = some (.w2 v)) :
      SpStep s i { s with
        pcs := s.pcs.set i (.w3 v)
        mem := { s.mem with numExplored := v.numExplored } }
  | w3 (v) (h : s.pcs[i]? = some (.w3 v)) :
      SpStep s i { s with
        pcs := s.pcs.set i (.unlock v)
        mem := { s.mem with log2Pruned := v.log2Pruned } }
  | unlock (v) (h : s.pcs[i]? = some (.unlock v)) :
      SpStep s i { s with pcs := s.pcs.set i .idle, writer := false, log := s.log ++ [.set v] }
  | callGet (h : s.pcs[i]? = some .idle) : SpStep s i { s with pcs := s.pcs.set i .rlock }
  | rlock (h : s.pcs[i]? = some .rlock) (hw : s.writer = false) :
      SpStep s i { s with pcs := s.pcs.set i .r1, readers := s.readers + 1 }
  | r1 (h : s.pcs[i]? = some .r1) :
      SpStep s i { s with pcs := s.pcs.set i (.r2 s.mem.bestScore) }
  | r2 (a) (h : s.pcs[i]? = some (.r2 a)) :
      SpStep s i { s with pcs := s.pcs.set i (.r3 a s.mem.numExplored) }
  | r3 (a b) (h : s.pcs[i]? = some (.r3 a b)) :
      SpStep s i { s with pcs := s.pcs.set i (.runlock ⟨a, b, s.mem.log2Pruned⟩) }
  | runlock (v) (h : s.pcs[i]? = some (.runlock v)) :
      SpStep s i { s with
        pcs := s.pcs.set i .idle
        readers := s.readers - 1
        log := s.log ++ [.get v] }

/-- `n` goroutines, nobody has called anything yet. -/
def spInit (n : Nat) (v : Triple α) : SpState α := ⟨List.replicate n .idle, v, false, 0, []⟩

/-- States reachable by some interleaving. -/
inductive SpReach (n : Nat) (v : Triple α) : SpState α → Prop
  | init : SpReach n v (spInit n v)
  | step {s s'} (i) (h : SpReach n v s) (h' : SpStep s i s') : SpReach n v s'

end GoSelect
