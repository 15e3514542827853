import Verif.Model.Mat
import Verif.Model.IntUtil
import Mathlib.Logic.Function.Basic

/-!
# The highscore list of simulated annealing

Model of saScore.go:4-94.  `Items`, `BestItem` and `WorstItem` hold pointers and `Insert` writes
through `WorstItem`, so the items live in a heap and are referred to by addresses.
-/

namespace GoSelect

/-- saScore.go:4-8 `SAItem`. -/
structure SAItem (α : Type) where
  selection : List Int
  coeff : List α
  score : α
  deriving DecidableEq, Repr

/-- saScore.go:11-28 `NewSAItem` for a model that is not nil. -/
def newSAItem {α : Type} [Zero α] (model : List Bool) : SAItem α where
  selection := (selectedFrom 0 model).map Int.ofNat
  coeff := List.replicate (numFeatures model) 0
  score := 0

/-- saScore.go:32-37 `SAScore` together with the heap its pointers refer to. -/
structure SAScore (α : Type) where
  cap : Int
  items : List Nat
  best : Option Nat
  worst : Option Nat
  heap : Nat → SAItem α

variable {α : Type}

/-- saScore.go:40-44 `NewSAScore`. -/
def newSAScore (length : Int) (heap : Nat → SAItem α) : SAScore α := ⟨length, [], none, none, heap⟩

/-- saScore.go:87-94 `Exists`. -/
def SAScore.exists (s : SAScore α) (p : Nat) : Bool :=
  s.items.any (fun v => equalInt (s.heap v).selection (s.heap p).selection)

/-- saScore.go:75-81: search for the new worst item.  State: `minScore`, `WorstItem`. -/
def worstLoop [LT α] [DecidableLT α] (heap : Nat → SAItem α) (items : List Nat)
    (init : α × Nat) : α × Nat :=
  items.foldl (fun mw v => if (heap v).score < mw.1 then ((heap v).score, v) else mw) init

/-- saScore.go:47-84 `Insert(p)`; `none` is a nil dereference. -/
def SAScore.insert [LT α] [DecidableLT α] (s : SAScore α) (p : Nat) : Option (SAScore α) :=
  if s.exists p then some s
  else if s.items.length = 0 then
    some { s with items := s.items ++ [p], worst := some p, best := some p }
  else
    match s.best, s.worst with
    | some b, some w =>
      if (s.items.length : Int) < s.cap then
        some { s with
          items := s.items ++ [p]
          best := if (s.heap b).score < (s.heap p).score then some p else some b
          worst := if (s.heap p).score < (s.heap w).score then some p else some w }
      else if (s.heap w).score < (s.heap p).score then
        let heap := Function.update s.heap w
          { s.heap w with selection := (s.heap p).selection, score := (s.heap p).score }
        some { s with
          heap := heap
          best := if (heap b).score < (heap p).score then some p else some b
          worst := some (worstLoop heap s.items ((heap p).score, w)).2 }
      else some s
    | _, _ => none

/-- `Insert` of a newly allocated item `x` at address `k`. -/
def SAScore.insertNew [LT α] [DecidableLT α] (s : SAScore α) (k : Nat) (x : SAItem α) :
    Option (SAScore α) :=
  SAScore.insert { s with heap := Function.update s.heap k x } k

/-- A history of insertions of fresh items: the `k`-th inserted item is allocated at address `k`
right before, and nobody but the list writes to it (as in simmulatedAnnealing.go:56-59).  The
unused part of the heap holds `dflt`. -/
def saRun [LT α] [DecidableLT α] (cap : Int) (dflt : SAItem α) (hist : List (SAItem α)) :
    Option (SAScore α) :=
  hist.zipIdx.foldlM (fun s xk => s.insertNew xk.2 xk.1) (newSAScore cap (fun _ => dflt))

/-- The items of the list, as a caller sees them. -/
def SAScore.entries (s : SAScore α) : List (SAItem α) := s.items.map s.heap

end GoSelect
