import Verif.Model.Mat

/-!
# Selections and coefficient vectors

Model of orthogonalMatchingPursuit.go:118-128, util.go:113-120, 242-272 and node.go:145-159.
-/

namespace GoSelect

/-- The counting loop `res[counter] = i; counter++` of orthogonalMatchingPursuit.go:119-126 (the
same loop stands in node.go:90-97, 149-157, saScore.go:18-26 and simmulatedAnnealing.go:96-103).
State: the slice and the counter; `none` when the counter leaves the slice. -/
def collectLoop : List Bool → Nat → List Nat × Nat → Option (List Nat × Nat)
  | [], _, st => some st
  | v :: model, i, (res, counter) =>
    if v then
      match goSet res counter i with
      | none => none
      | some res' => collectLoop model (i + 1) (res', counter + 1)
    else collectLoop model (i + 1) (res, counter)

/-- orthogonalMatchingPursuit.go:118-128 `SelectedFeatures`. -/
def selectedFeatures (model : List Bool) : Option (List Nat) :=
  (collectLoop model 0 (List.replicate (numFeatures model) 0, 0)).map (·.1)

/-- `a[v] = x` for an `int` index. -/
def goSetInt {β : Type} (a : List β) (v : Int) (x : β) : Option (List β) :=
  if v < 0 then none else goSet a v.toNat x

/-- util.go:113-120 `Selected2Model`. -/
def selected2Model (selected : List Int) (numFeatures : Int) : Option (List Bool) :=
  if numFeatures < 0 then none
  else selected.foldlM (fun model v => goSetInt model v true) (List.replicate numFeatures.toNat false)

/-- util.go:253-256 `SparseCoeff`. -/
structure SparseCoeff (K : Type) where
  coeff : List K
  selection : List Int
  deriving DecidableEq, Repr

/-- node.go:145-159 `ToSparseCoeff`. -/
def toSparseCoeff {K : Type} (n : Node K) : Option (SparseCoeff K) :=
  (selectedFeatures n.model).map (fun sel => ⟨n.coeff, sel.map Int.ofNat⟩)

/-- util.go:244-246, the loop of `FullCoeffVector`; `i` is the position in `selection`. -/
def fullCoeffLoop {K : Type} (coeff : List K) : List Int → Nat → List K → Option (List K)
  | [], _, res => some res
  | v :: selection, i, res =>
    match coeff[i]? with
    | none => none
    | some c =>
      match goSetInt res v c with
      | none => none
      | some res' => fullCoeffLoop coeff selection (i + 1) res'

/-- util.go:242-248 `FullCoeffVector`. -/
def fullCoeffVector {K : Type} [Zero K] (numFeat : Nat) (selection : List Int) (coeff : List K) :
    Option (List K) :=
  fullCoeffLoop coeff selection 0 (List.replicate numFeat 0)

/-- util.go:267-269, the inner loop of `WeightedAveragedCoeff`. -/
def addSparse {K : Type} [Add K] [Mul K] (w : K) (coeff : List K) :
    List Int → Nat → List K → Option (List K)
  | [], _, avg => some avg
  | v :: selection, j, avg =>
    if v < 0 then none
    else
      match coeff[j]?, avg[v.toNat]? with
      | some c, some old => addSparse w coeff selection (j + 1) (avg.set v.toNat (old + w * c))
      | _, _ => none

/-- util.go:259-272 `WeightedAveragedCoeff`. -/
def weightedAveragedCoeff {K : Type} [Zero K] [Add K] [Mul K] (numFeat : Nat) (weights : List K)
    (coeffs : List (SparseCoeff K)) : Option (List K) :=
  if weights.length ≠ coeffs.length then none
  else (weights.zip coeffs).foldlM (fun avg wc => addSparse wc.1 wc.2.coeff wc.2.selection 0 avg)
    (List.replicate numFeat 0)

end GoSelect
