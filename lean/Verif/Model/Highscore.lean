import Verif.Model.Basic

/-!
# Highscore list

Model of `featselect/highscore.go`.  `container/list` is a Lean list (front = head).
Comparisons are Go's `<` and `>` on scores, so the model needs only a decidable `<`.
-/

namespace GoSelect

variable {α : Type}

/-- highscore.go:9-12 `Highscore`. -/
structure Highscore (α : Type) where
  items : List (Node α)
  maxItems : Int
  deriving DecidableEq, Repr

/-- highscore.go:15-20 `NewHighscore`. -/
def newHighscore (maxItems : Int) : Highscore α := { items := [], maxItems := maxItems }

/-- highscore.go:52-54 `Len`. -/
def Highscore.len (h : Highscore α) : Nat := h.items.length

/-- highscore.go:57-64 `BestScore`. -/
def Highscore.bestScore [Zero α] (h : Highscore α) : α :=
  match h.items with
  | [] => 0
  | front :: _ => front.score

/-- highscore.go:67-75 `Scores`. -/
def Highscore.scores (h : Highscore α) : List α := h.items.map (·.score)

/-- The loop highscore.go:31-44: insert `node` before the first item with a smaller score.
`none` means that no such item was found (`itemInserted == false`).  The nil check in
lines 33-35 is not modelled: items are never nil. -/
def insertBefore [LT α] [DecidableLT α] (node : Node α) : List (Node α) → Option (List (Node α))
  | [] => none
  | item :: rest =>
    if item.score < node.score then some (node :: item :: rest)
    else (insertBefore node rest).map (item :: ·)

/-- highscore.go:31-48, the part of `Insert` after the early return. -/
def Highscore.insertTail [LT α] [DecidableLT α] (h : Highscore α) (node : Node α) : Highscore α :=
  match insertBefore node h.items with
  | some items =>
    if (items.length : Int) ≥ h.maxItems then { h with items := items.dropLast }
    else { h with items := items }
  | none =>
    if (h.len : Int) < h.maxItems then { h with items := h.items ++ [node] } else h

/-- highscore.go:23-49 `Insert`.  `none` is the nil dereference at line 26, when the list is
empty and `MaxItems = 1`. -/
def Highscore.insert [LT α] [DecidableLT α] (h : Highscore α) (node : Node α) :
    Option (Highscore α) :=
  if (h.len : Int) = h.maxItems - 1 then
    match h.items.getLast? with
    | none => none
    | some last => if node.score < last.score then some h else some (h.insertTail node)
  else some (h.insertTail node)

/-- A history of `Insert` calls on the same list. -/
def Highscore.insertAll [LT α] [DecidableLT α] (h : Highscore α) (ns : List (Node α)) :
    Option (Highscore α) :=
  ns.foldlM Highscore.insert h

end GoSelect
