import Verif.Model.Loop
import Verif.Model.Dataset
import Verif.Model.Normalize
import Verif.Model.LassoPath
import Verif.Model.ThresholdSearch

/-!
# Nested lasso

Model of nestedLasso.go:24-83.  `LassoLars` with the given estimator is the parameter `lars`, a function of the
normalised matrix and response; `none`: it panics.  Not modelled: the criteria and the printed tables (lines
42-48), which do not influence the rest; a constant response, which becomes NaN.
-/

namespace GoSelect

/-- nestedLasso.go:78-83 `MapSelectionByName`.  `none`: a column without a name, or a name that the original data
set does not have.  A negative number makes `Path2Unnormalized` panic (line 71) and is `none` too. -/
def mapSelectionByName {K : Type} (orig : Dataset K) (names : List String) (selection : List Nat) :
    Option (List Nat) :=
  selection.mapM (fun v => (names[v]?.bind orig.featNoByName).bind (fun i => if i < 0 then none else some i.toNat))

/-- Lines 54-57: the nodes with their mapped selections. -/
def mapNodes {K V : Type} (orig : Dataset K) (names : List String) (nodes : List (LassoLarsNode V)) :
    Option (List (LassoLarsNode V)) :=
  nodes.mapM (fun n => (mapSelectionByName orig names n.selection).map (fun s => { n with selection := s }))

/-- The values of a slice without NaN and infinities. -/
def finValues (v : List (Fl ℝ)) : Option (List ℝ) :=
  v.mapM (fun x => match x with
    | .fin a => some a
    | _ => none)

/-- `NewNormalizedData(d.X, d.Y)` (lines 33, 65 and 69): the statistics, and the data set afterwards, whose matrix
and response are overwritten. -/
noncomputable def normalizeInPlace (d : Dataset ℝ) : Option (NormalizedData × Dataset ℝ) :=
  (newNormalizedData d.X d.Y).bind (fun n => (finValues n.y).map (fun y => (n, { d with X := n.X, Y := y })))

/-- The variables of the loop: the current data set, already normalised, and the paths found so far. -/
structure NestedState where
  cur : Dataset ℝ
  paths : List (List (LassoLarsNode ℝ))

/-- nestedLasso.go:50-51 `newNum`. -/
noncomputable def nestedNum (keep : ℝ) (nc : Nat) : Int := goInt (keep * nc)

/-- nestedLasso.go:34-66, one round. -/
noncomputable def nestedBody (lars : Mat ℝ → List ℝ → Option (List (LassoLarsNode ℝ))) (keep : ℝ) (data : Dataset ℝ)
    (s : NestedState) : Outcome NestedState (List (List (LassoLarsNode ℝ))) :=
  match lars s.cur.X s.cur.Y with
  | none => .panic
  | some newPath =>
    let newNum := nestedNum keep s.cur.X.nc
    let survivors := pickMostRelevantFeatures newPath newNum
    match mapNodes data s.cur.names newPath with
    | none => .panic
    | some mapped =>
      if newNum ≤ 2 then .ret (s.paths ++ [mapped])
      else
        match (s.cur.getSubset survivors).bind normalizeInPlace with
        | none => .panic
        | some (_, cur) => .next ⟨cur, s.paths ++ [mapped]⟩

/-- nestedLasso.go:24-74 `NestedLasso` returns `paths` and leaves `after` in the caller's data set. -/
def NestedReturns (lars : Mat ℝ → List ℝ → Option (List (LassoLarsNode ℝ))) (keep : ℝ) (data : Dataset ℝ)
    (paths : List (List (LassoLarsNode ℝ))) (after : Dataset ℝ) : Prop :=
  ∃ n0 cur raw n, normalizeInPlace data.copy = some (n0, cur) ∧
    Runs (nestedBody lars keep data) ⟨cur, []⟩ raw ∧
    normalizeInPlace data = some (n, after) ∧ raw.mapM (path2Unnormalized n) = some paths

end GoSelect
