import Verif.Model.Select
import Mathlib.Order.Defs.LinearOrder

/-!
# Memory accesses of `SelectModel`

The transition system of `Verif/Model/Select.lean`, with the accesses of the goroutines to shared memory and their
communication over channels written down in the order of the run.  Each node is an address; each goroutine has a number: 0
is the goroutine that calls `SelectModel`, 1 to 8 are the score workers (optimize.go:104-107) and 9 to 16 the child workers
(optimize.go:109-112).

Accesses carry the line of optimize.go in which they are made (or from which the function that makes them is called).  The
fields of a node are one location, and so is the highscore list with its elements; `X`, `y` and what they refer to are one
location, written by the caller before the call and read by the workers.  Reads of the main loop in the nodes of the queue
and of the highscore list are written down for all nodes received so far, which are a superset of them.  Variables of one
goroutine, and the fields of `SearchProgress`, which a mutex protects (C21), are left out.
-/

namespace GoSelect

/-- Shared memory. -/
inductive Loc where
  /-- the fields of the node with this address -/
  | node (id : Nat)
  /-- the highscore list (`Items`, its elements, its length) -/
  | list
  /-- the design matrix and the response -/
  | data
  deriving DecidableEq, Repr

/-- What a goroutine does. -/
inductive Ev where
  /-- goroutine `g` reads or writes a location, in this line of optimize.go -/
  | access (g : Nat) (l : Loc) (write : Bool) (line : Nat)
  /-- a send of `g` on an unbuffered channel meets a receive of `h`, or `g` starts `h` with a `go` statement -/
  | sync (g h : Nat)
  /-- `SelectModel` returns -/
  | ret
  deriving DecidableEq, Repr

/-- The goroutines that take part in an event. -/
def Ev.parts : Ev → List Nat
  | .access g _ _ _ => [g]
  | .sync g h => [g, h]
  | .ret => [0]

/-- optimize.go:104-107 -/
def scoreIds : List Nat := [1, 2, 3, 4, 5, 6, 7, 8]

/-- optimize.go:109-112 -/
def childIds : List Nat := [9, 10, 11, 12, 13, 14, 15, 16]

/-- A busy child worker: its number, the address of `parent` and that of the child that it has made and not yet sent. -/
structure Held where
  worker : Nat
  parent : Option Nat
  child : Option Nat
  deriving DecidableEq, Repr

/-- A state of a run, with addresses and the history of the accesses. -/
structure RState (α : Type) where
  s : SState α
  /-- address of the node in `wantChildNode <- node` -/
  want : Option Nat
  /-- addresses of the nodes of the queue -/
  queue : List Nat
  /-- the busy child workers, in the order of `s.busy` -/
  busy : List Held
  /-- the busy score workers with the addresses of their nodes, in the order of `s.scoring` -/
  scoring : List (Nat × Nat)
  /-- addresses of all nodes that the main loop received from `score` -/
  received : List Nat
  /-- the next new address -/
  next : Nat
  trace : List Ev

/-- What the schedule decides besides the order: which idle worker receives, which of the received nodes is the first of the
highscore list when a child worker reads its score, and which addresses of the queue belong to the nodes that stay. -/
structure Choice where
  worker : Nat
  front : Option Nat
  kept : List Nat

variable {α : Type}

/-- The address of the child after the bounds test. -/
def heldChild (pc : Option (ChildPc α)) (id : Nat) : Option Nat :=
  match pc with
  | some (.readLen ..) => some id
  | some (.sendNode ..) => some id
  | _ => none

/-- optimize.go:252 reads the highscore list and the score of its first node; it is not reached if the child has too many
features (then the worker goes on to line 266). -/
def peeks (pc : Option (ChildPc α)) (g : Nat) (front : Option Nat) : List Ev :=
  match pc with
  | some (.sendPrune ..) => []
  | _ => .access g .list false 252 :: front.toList.map (fun x => .access g (.node x) false 252)

/-- The parent is kept until the second child is delivered (optimize.go:263). -/
def heldParent (pc : Option (ChildPc α)) (p : Nat) : Option Nat :=
  match pc with
  | some .ready => none
  | _ => some p

def retOf (s : SState α) : List Ev :=
  match s.main with
  | .done => [.ret]
  | _ => []

/-- Accesses of score worker `k` to node `x` (optimize.go:221-231). -/
def scoreAccesses (k x : Nat) : List Ev :=
  [.access k (.node x) false 221, .access k .data false 224, .access k (.node x) true 225]

/-- Accesses of the main loop after it received node `x` (optimize.go:122-142). -/
def mainAccesses (isNew : Bool) (received : List Nat) (x : Nat) : List Ev :=
  .access 0 .list false 122 :: .access 0 (.node x) false 124 ::
    (received.map (fun y => .access 0 (.node y) false 125) ++ if isNew then [.access 0 .list true 125] else [])

/-- One step of the run, with its accesses.  `none`: not enabled, or a panic. -/
def rstep [LT α] [DecidableLT α] [DecidableEq α] [Zero α] [Neg α] (S : Search α) (r : RState α) (a : Action) (c : Choice) : Option (RState α) :=
  match sstep S r.s a with
  | none => none
  | some s' =>
    if s'.main = .panicked then none
    else match a with
    | .want =>
      if c.worker ∈ childIds ∧ c.worker ∉ r.busy.map (·.worker) then
        some { r with
          s := s'
          want := none
          busy := r.busy ++ [⟨c.worker, r.want, none⟩]
          trace := r.trace ++ [.sync 0 c.worker] }
      else none
    | .readBest i =>
      match r.busy[i]? with
      | some ⟨g, some p, none⟩ =>
        if ∀ x ∈ c.front, x ∈ r.received then
          some { r with
            s := s'
            busy := r.busy.set i ⟨g, some p, heldChild s'.busy[i]? r.next⟩
            next := r.next + 1
            trace := r.trace ++ (.access g (.node p) false 238 :: .access g (.node r.next) true 238 ::
              .access g .data false 243 :: peeks s'.busy[i]? g c.front) }
        else none
      | _ => none
    | .readLen i =>
      match r.busy[i]? with
      | some ⟨g, some p, some x⟩ =>
        some { r with
          s := s'
          busy := r.busy.set i ⟨g, some p, heldChild s'.busy[i]? x⟩
          trace := r.trace ++ [.access g .list false 252] }
      | _ => none
    | .sendNode i =>
      match r.busy[i]? with
      | some ⟨g, some p, some x⟩ =>
        if c.worker ∈ scoreIds ∧ c.worker ∉ r.scoring.map (·.1) then
          some { r with
            s := s'
            busy := r.busy.set i ⟨g, heldParent s'.busy[i]? p, none⟩
            scoring := r.scoring ++ [(c.worker, x)]
            trace := r.trace ++ [.sync g c.worker] }
        else none
      | _ => none
    | .prune i =>
      match r.busy[i]? with
      | some ⟨g, some p, none⟩ =>
        some { r with
          s := s'
          busy := r.busy.set i ⟨g, heldParent s'.busy[i]? p, none⟩
          trace := r.trace ++ (.access g (.node p) false 266 :: .sync g 0 :: retOf s') }
      | _ => none
    | .ready i =>
      match r.busy[i]? with
      | some ⟨g, none, none⟩ =>
        some { r with
          s := s'
          want := r.queue.head?
          queue := r.queue.tail
          busy := r.busy.eraseIdx i
          trace := r.trace ++ [.sync g 0] }
      | _ => none
    | .score i =>
      match r.scoring[i]?, r.s.scoring[i]? with
      | some (k, x), some n =>
        if c.kept.length = s'.queue.length ∧
            (s'.queue.zip c.kept).Sublist (r.s.queue.zip r.queue ++ [(scoreWorker S n, x)]) then
          some { r with
            s := s'
            queue := c.kept
            scoring := r.scoring.eraseIdx i
            received := r.received ++ [x]
            trace := r.trace ++ (scoreAccesses k x ++ .sync k 0 ::
              (mainAccesses (isNewNode n) r.received x ++ retOf s')) }
        else none
      | _, _ => none

/-- optimize.go:92-114: the caller has prepared the data and the list, the root node is made, and the workers are
started. -/
def rinit (s₀ : SState α) : RState α :=
  { s := s₀
    want := some 0
    queue := []
    busy := []
    scoring := []
    received := []
    next := 1
    trace := .access 0 .data true 71 :: .access 0 .list true 71 :: .access 0 (.node 0) true 92 ::
      (scoreIds ++ childIds).map (fun w => .sync 0 w) }

/-- Runs of `SelectModel` with an empty highscore list of capacity `M`, or one filled by inserting `pre` before. -/
inductive Executes [LT α] [DecidableLT α] [DecidableEq α] [Zero α] [Neg α] (S : Search α) (M : Int) (pre : List (Node α)) : RState α → Prop
  | init {hs : Highscore α} {s₀ : SState α} (h : (newHighscore M).insertAll pre = some hs) (h₀ : sinit S hs = some s₀) :
      Executes S M pre (rinit s₀)
  | step {r r' : RState α} (a : Action) (c : Choice) (h : Executes S M pre r) (hs : rstep S r a c = some r') :
      Executes S M pre r'

end GoSelect
