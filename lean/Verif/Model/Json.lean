import Verif.Model.Highscore
import Verif.Model.Selection

/-!
# JSON form of nodes and highscore lists

Model of node.go:78-126 and highscore.go:78-110 at the level of the structures handed to
`encoding/json`; the text format itself is a parameter of the theorems.
-/

namespace GoSelect

variable {α : Type}

/-- node.go:78-86 `nodeJsonified`. -/
structure NodeJson (α : Type) where
  selected : List Int
  totNumFeatures : Int
  lower : α
  upper : α
  score : α
  level : Nat
  coeff : List α
  deriving DecidableEq, Repr

/-- node.go:89-107: what `MarshalJSON` hands to the encoder.  The loop of lines 90-97 is
`collectLoop`; `none`: index out of range. -/
def nodeToJson (n : Node α) : Option (NodeJson α) :=
  match collectLoop n.model 0 (List.replicate (numFeatures n.model) 0, 0) with
  | none => none
  | some (selected, _) => some
      { selected := selected.map Int.ofNat
        totNumFeatures := n.model.length
        lower := n.lower
        upper := n.upper
        score := n.score
        level := n.level
        coeff := n.coeff }

/-- node.go:110-126 `UnmarshalJSON` into the receiver `n`, after decoding.  `none`: `make` with a
negative length or an index out of range. -/
def nodeOfJson (n : Node α) (aux : NodeJson α) : Option (Node α) :=
  if aux.totNumFeatures < 0 then none
  else
    match aux.selected.foldlM (fun model v => goSetInt model v true)
        (List.replicate aux.totNumFeatures.toNat false) with
    | none => none
    | some model => some
        { n with
          lower := aux.lower
          upper := aux.upper
          score := aux.score
          level := aux.level
          coeff := aux.coeff
          model := model }

/-- The anonymous structure of highscore.go:85-91 and 96-99. -/
structure HighscoreJson (α : Type) where
  maxItems : Int
  items : List (NodeJson α)

/-- highscore.go:78-92 `MarshalJSON` (the encoder calls `MarshalJSON` of every node). -/
def highscoreToJson (h : Highscore α) : Option (HighscoreJson α) :=
  match h.items.mapM nodeToJson with
  | none => none
  | some items => some ⟨h.maxItems, items⟩

/-- highscore.go:95-110 `UnmarshalJSON` into the receiver `h`; new nodes are zero values `zero`
before they are filled. -/
def highscoreOfJson [LT α] [DecidableLT α] (zero : Node α) (h : Highscore α)
    (aux : HighscoreJson α) : Option (Highscore α) :=
  match aux.items.mapM (nodeOfJson zero) with
  | none => none
  | some nodes => ({ h with maxItems := aux.maxItems } : Highscore α).insertAll nodes

end GoSelect
