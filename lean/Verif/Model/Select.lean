import Verif.Model.BruteForce

/-!
# `SelectModel` as a labelled transition system

Model of optimize.go:71-171 (main loop), 218-233 (`ScoreWorker`), 237-274 (`CreateChild`,
`CreateChildNodes`), 278-298 (`CleanQueue`, `RemoveLeastPromising`).

Processes: the main loop, 8 score workers, 8 child workers.  All channels are unbuffered, so a
send and its receive are one joint step.  Workers of one kind are interchangeable and keep no
state between two rounds, so only the busy ones are listed; at most 8 may be busy.

Shared memory: child workers read the highscore list (`h.BestScore()`, then `h.Len()`) while the
main loop may insert into it.  The two reads are separate steps.  Simplifications: one call of
`BestScore`, `Len` or `Insert` is atomic (torn reads *inside* `container/list` are not modelled here;
C116_best and C116_len show that they do no harm on a sequentially consistent memory);
one iteration of the main loop is atomic (nothing it writes except the highscore list is read by
others, and its insertion is its only visible effect).

`log2Pruned` is kept as the list of the levels received from `pruneCh` (latest first); the float
is the fold of `NewLog2Pruned` over it, see `Verif/Props/C20.lean`.
-/

namespace GoSelect

/-- Inputs of `SelectModel`. -/
structure Search (α : Type) extends Problem α where
  /-- `params.RootModel` (all-false when nil, optimize.go:84-90) -/
  root : List Bool
  /-- `params.MaxQueueSize` -/
  maxQueue : Int
  /-- `params.Cutoff` -/
  cutoff : α
  /-- `BoundsAICC(model, level, X, y)`, criteria.go:74-76 -/
  bounds : List Bool → Nat → α × α
  /-- the constant `1e100` -/
  huge : α
  /-- the constant `math.MaxFloat64` -/
  maxFloat : α
  /-- sum divided by length of a list of lower bounds (optimize.go:292-296) -/
  mean : List α → α

variable {α : Type}

/-- optimize.go:58-64 `NewSelectModelOptParams`: `MaxQueueSize`.  `Cutoff` is 0 and `RootModel` nil. -/
def defaultMaxQueue : Int := 10000000000

/-- optimize.go:278-287 `CleanQueue`. -/
def cleanQueue [LT α] [DecidableLT α] (q : List (Node α)) (threshold : α) : List (Node α) :=
  q.filter (fun n => !decide (threshold < n.lower))

/-- optimize.go:291-298 `RemoveLeastPromising`. -/
def removeLeastPromising [LT α] [DecidableLT α] (mean : List α → α) (q : List (Node α)) :
    List (Node α) :=
  cleanQueue q (mean (q.map (·.lower)))

/-- optimize.go:221-231, one round of `ScoreWorker`. -/
def scoreWorker [Neg α] (S : Search α) (n : Node α) : Node α :=
  if 0 < numFeatures n.model ∧ isNewNode n = true then scoreNode S.toProblem n
  else { n with score := -S.maxFloat }

/-- optimize.go:238-250: the first part of `CreateChild`.  Outer `none`: panic in
`GetChildNode`; inner `none`: too many features. -/
def boundedChild [Zero α] [Neg α] (S : Search α) (parent : Node α) (flip : Bool) :
    Option (Option (Node α)) :=
  match getChildNode parent flip with
  | none => none
  | some child =>
    let n := numFeatures child.model
    if n < S.nrows then
      if 0 < n then
        let b := S.bounds child.model child.level
        some (some { child with lower := b.1, upper := b.2 })
      else some (some { child with lower := -S.huge, upper := S.huge })
    else some none

/-- optimize.go:237-256 `CreateChild` as a whole, for an `h` nobody else changes meanwhile.  (The
transition system below splits the two reads of `h`.)  Inner `none` is the returned nil. -/
def createChild [Zero α] [Neg α] [LT α] [DecidableLT α] (S : Search α) (parent : Node α)
    (flip : Bool) (h : Highscore α) : Option (Option (Node α)) :=
  match boundedChild S parent flip with
  | none => none
  | some none => some none
  | some (some child) =>
    if -h.bestScore < child.lower ∧ 0 < h.len then some none else some (some child)

/-- Program counter of a busy child worker (optimize.go:261-273). `flip` is the loop variable of
line 263. -/
inductive ChildPc (α : Type) where
  /-- about to call `CreateChild`, up to the read of `h.BestScore()` in line 252 -/
  | make (parent : Node α) (flip : Bool)
  /-- `child.Lower > -h.BestScore()` was true, about to read `h.Len()`.  `sawEmpty` is a ghost:
  the list was empty when `BestScore` was read. -/
  | readLen (parent : Node α) (flip : Bool) (child : Node α) (sawEmpty : Bool)
  /-- about to send the child on `nodeCh` (line 268) -/
  | sendNode (parent : Node α) (flip : Bool) (child : Node α)
  /-- about to send on `pruneCh` (line 266) -/
  | sendPrune (parent : Node α) (flip : Bool)
  /-- about to send on `ready` (line 272) -/
  | ready
  deriving DecidableEq, Repr

/-- Program counter of the main loop. -/
inductive MainPc (α : Type) where
  /-- blocked in `wantChildNode <- node` (lines 114, 164) -/
  | sendWant (node : Option (Node α))
  /-- in the `select` (line 119) -/
  | select
  /-- left the loop and closed the channels (lines 167-170) -/
  | done
  /-- some goroutine panicked -/
  | panicked
  deriving DecidableEq, Repr

/-- State of a run. -/
structure SState (α : Type) where
  main : MainPc α
  queue : List (Node α)
  hs : Highscore α
  /-- `numInProgress` -/
  inProgress : Int
  /-- `currentBestScore` -/
  best : α
  numChecked : Nat
  /-- levels received from `pruneCh`, latest first -/
  pruned : List Nat
  /-- arguments of the calls of `sp.Set`, latest first -/
  progress : List (α × Nat × List Nat)
  /-- busy child workers -/
  busy : List (ChildPc α)
  /-- nodes held by busy score workers -/
  scoring : List (Node α)
  /-- ghost: nodes inserted into the highscore list by this run, in order -/
  log : List (Node α)
  /-- ghost: number of queue-overflow messages (line 140) -/
  overflows : Nat
  /-- ghost: some child was discarded although the list was empty when `BestScore` was read -/
  torn : Bool
  deriving DecidableEq, Repr

/-- Steps.  The index chooses one of the busy workers. -/
inductive Action where
  /-- `wantChildNode <- node` meets `range parentCh` -/
  | want
  /-- `CreateChild` up to and including `h.BestScore()` -/
  | readBest (i : Nat)
  /-- `h.Len() > 0` -/
  | readLen (i : Nat)
  /-- `nodeCh <- n` meets an idle score worker -/
  | sendNode (i : Nat)
  /-- `pruneCh <- parent.Level` meets the select -/
  | prune (i : Nat)
  /-- `ready <- true` meets the select -/
  | ready (i : Nat)
  /-- a score worker finishes and `scoreCh <- n` meets the select -/
  | score (i : Nat)
  deriving DecidableEq, Repr

/-- Where a child worker starts after it has received `node` (lines 261-263, 272). -/
def pcOf : Option (Node α) → ChildPc α
  | none => .ready
  | some parent => .make parent false

/-- Where a child worker continues after it has delivered the child for `flip`
(the loop of line 263, then line 272). -/
def afterChild (parent : Node α) (flip : Bool) : ChildPc α :=
  if flip then .ready else .make parent true

/-- optimize.go:144-146 and 151-153: leave the loop when everything is done. -/
def loopOrExit (s : SState α) : SState α :=
  if s.inProgress ≤ 0 ∧ s.queue.length = 0 then { s with main := .done }
  else { s with main := .select }

/-- optimize.go:138-142. -/
def checkOverflow [LT α] [DecidableLT α] (S : Search α) (s : SState α) : SState α :=
  if (s.queue.length : Int) > S.maxQueue then
    { s with queue := removeLeastPromising S.mean s.queue, overflows := s.overflows + 1 }
  else s

/-- optimize.go:125-131, after the insertion gave `hs`. -/
def afterInsert [Zero α] [Neg α] [LT α] [DecidableLT α] (s : SState α) (ns : Node α)
    (hs : Highscore α) : SState α :=
  let s := { s with hs := hs, log := s.log ++ [ns], numChecked := s.numChecked + 1 }
  if s.best < hs.bestScore then
    { s with best := hs.bestScore, queue := cleanQueue s.queue (-hs.bestScore) }
  else s

/-- optimize.go:134-146. -/
def afterScore [LT α] [DecidableLT α] (S : Search α) (s : SState α) (ns : Node α) : SState α :=
  let s := if ns.level < S.ncols then { s with queue := s.queue ++ [ns] } else s
  loopOrExit (checkOverflow S s)

/-- optimize.go:120-146, the `score` case of the main loop. -/
def onScore [Zero α] [Neg α] [LT α] [DecidableLT α] (S : Search α) (s : SState α) (ns : Node α) :
    SState α :=
  let s := { s with
    inProgress := s.inProgress - 1
    progress := (s.hs.bestScore, s.numChecked, s.pruned) :: s.progress }
  if isNewNode ns then
    match s.hs.insert ns with
    | none => { s with main := .panicked }
    | some hs => afterScore S (afterInsert s ns hs) ns
  else afterScore S s ns

/-- One step; `none` when the action is not enabled. -/
def sstep [Zero α] [Neg α] [LT α] [DecidableLT α] (S : Search α) (s : SState α) :
    Action → Option (SState α)
  | .want =>
    match s.main with
    | .sendWant node =>
      if s.busy.length < 8 then
        some { s with main := .select, busy := s.busy ++ [pcOf node] }
      else none
    | _ => none
  | .readBest i =>
    match s.main, s.busy[i]? with
    | .panicked, _ => none
    | _, some (.make parent flip) =>
      match boundedChild S parent flip with
      | none => some { s with main := .panicked }
      | some none => some { s with busy := s.busy.set i (.sendPrune parent flip) }
      | some (some child) =>
        if -s.hs.bestScore < child.lower then
          some { s with busy := s.busy.set i (.readLen parent flip child (s.hs.len == 0)) }
        else some { s with busy := s.busy.set i (.sendNode parent flip child) }
    | _, _ => none
  | .readLen i =>
    match s.main, s.busy[i]? with
    | .panicked, _ => none
    | _, some (.readLen parent flip child sawEmpty) =>
      if 0 < s.hs.len then
        some { s with busy := s.busy.set i (.sendPrune parent flip), torn := s.torn || sawEmpty }
      else some { s with busy := s.busy.set i (.sendNode parent flip child) }
    | _, _ => none
  | .sendNode i =>
    match s.main, s.busy[i]? with
    | .panicked, _ => none
    | .done, some (.sendNode ..) => some { s with main := .panicked }   -- send on closed channel
    | _, some (.sendNode parent flip child) =>
      if s.scoring.length < 8 then
        some { s with busy := s.busy.set i (afterChild parent flip), scoring := s.scoring ++ [child] }
      else none
    | _, _ => none
  | .prune i =>
    match s.main, s.busy[i]? with
    | .done, some (.sendPrune ..) => some { s with main := .panicked }   -- send on closed channel
    | .select, some (.sendPrune parent flip) =>
      some (loopOrExit { s with
        busy := s.busy.set i (afterChild parent flip)
        pruned := parent.level :: s.pruned
        inProgress := s.inProgress - 1 })
    | _, _ => none
  | .ready i =>
    match s.main, s.busy[i]? with
    | .select, some .ready =>
      match s.queue with
      | [] => some { s with main := .sendWant none, busy := s.busy.eraseIdx i }
      | node :: rest =>
        some { s with main := .sendWant (some node), busy := s.busy.eraseIdx i, queue := rest,
                      inProgress := s.inProgress + 2 }
    | _, _ => none
  | .score i =>
    match s.main, s.scoring[i]? with
    | .done, some _ => some { s with main := .panicked }   -- send on closed channel
    | .select, some n => some (onScore S { s with scoring := s.scoring.eraseIdx i } (scoreWorker S n))
    | _, _ => none

/-- optimize.go:71-115: the state in which the main loop is about to send the root node.
`none` are the panics of lines 81 and 88. -/
def sinit [Zero α] [Neg α] (S : Search α) (hs : Highscore α) : Option (SState α) :=
  if S.ncols < 3 then none
  else if S.root.length ≠ S.ncols then none
  else some
    { main := .sendWant (some (newNode 0 S.root)), queue := [], hs := hs, inProgress := 2
      best := -S.huge, numChecked := 0, pruned := [], progress := [], busy := [], scoring := []
      log := [], overflows := 0, torn := false }

/-- States reachable from `s`. -/
inductive SReach [Zero α] [Neg α] [LT α] [DecidableLT α] (S : Search α) (s₀ : SState α) :
    SState α → Prop
  | init : SReach S s₀ s₀
  | step {s s' : SState α} (a : Action) (h : SReach S s₀ s) (hs : sstep S s a = some s') :
      SReach S s₀ s'

/-- Run a schedule. -/
def srun [Zero α] [Neg α] [LT α] [DecidableLT α] (S : Search α) (s : SState α) :
    List Action → Option (SState α)
  | [] => some s
  | a :: as => (sstep S s a).bind (fun s' => srun S s' as)

/-- `SelectModel` with an empty highscore list of capacity `M`, or one filled by inserting
`pre` before, can reach state `s`. -/
def SelectReaches [Zero α] [Neg α] [LT α] [DecidableLT α] (S : Search α) (M : Int)
    (pre : List (Node α)) (s : SState α) : Prop :=
  ∃ hs s₀, (newHighscore M).insertAll pre = some hs ∧ sinit S hs = some s₀ ∧ SReach S s₀ s

end GoSelect
