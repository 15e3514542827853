/-!
# The branch-and-bound command

Model of cmd/bnb.go:66-125 as a labelled transition system of the search goroutine (lines 102-106), the ticker
(line 108) and the main goroutine (lines 111-124).  The search is the list of the insertions that it makes, in
order; it ends, and does not panic.  `insert` and `encode` are `Highscore.Insert` and `json.Marshal`.  A list that is
marshalled while the search may insert gives any value.  Writing the file does not fail.  Not modelled: reading the
CSV file, the initial simulated annealing (lines 79-100), printing.
-/

namespace GoSelect

/-- The search goroutine: in `SelectModel`; in the first deferred call, sending on the unbuffered channel (line 75);
in the second deferred call `wg.Done`; ended. -/
inductive BnbSearch where
  | running
  | sending
  | leaving
  | gone
  deriving DecidableEq, Repr

/-- The main goroutine: in `select` (line 113); after a tick before and after `json.Marshal` (lines 115-117); after
the loop before and after `json.Marshal` (line 122); in `wg.Wait` (line 123); returned. -/
inductive BnbMain (β : Type) where
  | select
  | report
  | write (b : β)
  | finalSave
  | finalWrite (b : β)
  | wait
  | done
  deriving DecidableEq, Repr

/-- What can be observed: an insertion in the list, a write of the file. -/
inductive BnbEvent (α β : Type) where
  | inserted (a : α)
  | written (b : β)
  deriving DecidableEq, Repr

/-- The state; `todo` are the insertions still to come, `tick` is the buffer of the ticker channel. -/
structure BnbState (α σ β : Type) where
  todo : List α
  list : σ
  search : BnbSearch
  tick : Bool
  main : BnbMain β
  file : Option β
  trace : List (BnbEvent α β)

/-- The steps; `tick` is the clock, which drops a tick if the buffer is full. -/
inductive BnbLabel where
  | insert
  | finish
  | tick
  | takeTick
  | marshal
  | write
  | receive
  | finalMarshal
  | finalWrite
  | wgDone
  | wgWait
  deriving DecidableEq, Repr

/-- cmd/bnb.go:102-124. -/
inductive BnbStep {α σ β : Type} (insert : σ → α → σ) (encode : σ → β) :
    BnbState α σ β → BnbLabel → BnbState α σ β → Prop
  | insert (s : BnbState α σ β) (a : α) (rest : List α) (h1 : s.search = .running) (h2 : s.todo = a :: rest) :
      BnbStep insert encode s .insert { s with
        todo := rest
        list := insert s.list a
        trace := s.trace ++ [.inserted a] }
  | finish (s : BnbState α σ β) (h1 : s.search = .running) (h2 : s.todo = []) :
      BnbStep insert encode s .finish { s with search := .sending }
  | tick (s : BnbState α σ β) : BnbStep insert encode s .tick { s with tick := true }
  | takeTick (s : BnbState α σ β) (h1 : s.main = .select) (h2 : s.tick = true) :
      BnbStep insert encode s .takeTick { s with
        tick := false
        main := .report }
  | marshal (s : BnbState α σ β) (b : β) (h1 : s.main = .report) :
      BnbStep insert encode s .marshal { s with main := .write b }
  | write (s : BnbState α σ β) (b : β) (h1 : s.main = .write b) :
      BnbStep insert encode s .write { s with
        main := .select
        file := some b
        trace := s.trace ++ [.written b] }
  | receive (s : BnbState α σ β) (h1 : s.main = .select) (h2 : s.search = .sending) :
      BnbStep insert encode s .receive { s with
        main := .finalSave
        search := .leaving }
  | finalMarshal (s : BnbState α σ β) (h1 : s.main = .finalSave) :
      BnbStep insert encode s .finalMarshal { s with main := .finalWrite (encode s.list) }
  | finalWrite (s : BnbState α σ β) (b : β) (h1 : s.main = .finalWrite b) :
      BnbStep insert encode s .finalWrite { s with
        main := .wait
        file := some b
        trace := s.trace ++ [.written b] }
  | wgDone (s : BnbState α σ β) (h1 : s.search = .leaving) :
      BnbStep insert encode s .wgDone { s with search := .gone }
  | wgWait (s : BnbState α σ β) (h1 : s.main = .wait) (h2 : s.search = .gone) :
      BnbStep insert encode s .wgWait { s with main := .done }

/-- The state after line 108: the search will insert `todo` into the empty list. -/
def bnbInit {α σ β : Type} (todo : List α) (empty : σ) (file : Option β) : BnbState α σ β :=
  ⟨todo, empty, .running, false, .select, file, []⟩

/-- Executions, as the labels of their steps. -/
inductive BnbExec {α σ β : Type} (insert : σ → α → σ) (encode : σ → β) (s0 : BnbState α σ β) :
    List BnbLabel → BnbState α σ β → Prop
  | nil : BnbExec insert encode s0 [] s0
  | snoc {ls : List BnbLabel} {s s' : BnbState α σ β} {l : BnbLabel} (h : BnbExec insert encode s0 ls s)
      (h' : BnbStep insert encode s l s') : BnbExec insert encode s0 (ls ++ [l]) s'

end GoSelect
