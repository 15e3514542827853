import Verif.Model.Select

/-!
# The optional parameters of `SelectModel`

Model of optimize.go:48-92: what a call does with the parameters of its caller before the search begins.
-/

namespace GoSelect

/-- optimize.go:50-54 `SelectModelOptParams`; `none` is the nil slice. -/
structure OptParams (α : Type) where
  cutoff : α
  rootModel : Option (List Bool)
  maxQueue : Int
  deriving DecidableEq

/-- optimize.go:58-64 `NewSelectModelOptParams` -/
def newOptParams {α : Type} (zero : α) : OptParams α where
  cutoff := zero
  rootModel := none
  maxQueue := defaultMaxQueue

/-- What `SelectModel` searches with (lines 92, 114 and 140). -/
structure SelectStart (α : Type) where
  /-- the model of the root node -/
  root : List Bool
  cutoff : α
  maxQueue : Int
  deriving DecidableEq

/-- optimize.go:76-92: the parameters of the caller afterwards (line 85 writes them), and what is searched with, or
`none` for a panic.  `params` is not nil. -/
def selectStart {α : Type} (params : OptParams α) (ncols : Nat) : OptParams α × Option (SelectStart α) :=
  if ncols < 3 then (params, none)
  else
    match params.rootModel with
    | none => ({ params with rootModel := some (List.replicate ncols false) },
        some ⟨List.replicate ncols false, params.cutoff, params.maxQueue⟩)
    | some root =>
      if root.length ≠ ncols then (params, none) else (params, some ⟨root, params.cutoff, params.maxQueue⟩)

/-- The same for a nil pointer (line 76): the defaults are made anew. -/
def selectStartNil {α : Type} (zero : α) (ncols : Nat) : Option (SelectStart α) :=
  (selectStart (newOptParams zero) ncols).2

/-- Calls with the same parameters on data with these numbers of columns, one after the other; the caller recovers from
panics. -/
def selectStarts {α : Type} (params : OptParams α) : List Nat → List (Option (SelectStart α))
  | [] => []
  | n :: ns => (selectStart params n).2 :: selectStarts (selectStart params n).1 ns

end GoSelect
