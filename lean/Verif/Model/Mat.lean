import Verif.Model.Basic
import Mathlib.Algebra.BigOperators.Group.Finset.Basic

/-!
# Matrices, design matrices and predictions

`mat.Matrix` / `mat.Dense` of gonum: dimensions and entries.  Entries outside the dimensions are
never looked at.  Sums are exact (the order of floating-point summation is not modelled).
-/

namespace GoSelect

open Finset

/-- A matrix: `Dims()` and `At(i, j)`. -/
structure Mat (K : Type) where
  nr : Nat
  nc : Nat
  get : Nat → Nat → K

/-- The positions of the true entries, as collected by the counting loops of node.go:90-97,
145-159, saScore.go:21-26, simmulatedAnnealing.go:96-101 and util.go:21-29: entry number
`counter` is `i` for the `counter`-th true flag `i`. `i` is the position of the head. -/
def selectedFrom (i : Nat) : List Bool → List Nat
  | [] => []
  | true :: m => i :: selectedFrom (i + 1) m
  | false :: m => selectedFrom (i + 1) m

/-- util.go:12-31 `GetDesignMatrix`. `none`: the explicit panic of line 17, or `X.At` out of range
in line 25. -/
def getDesignMatrix {K : Type} (model : List Bool) (X : Mat K) : Option (Mat K) :=
  let idx := selectedFrom 0 model
  if numFeatures model = 0 then none
  else if 0 < X.nr ∧ idx.any (fun i => X.nc ≤ i) = true then none
  else some ⟨X.nr, numFeatures model, fun j k => X.get j (idx.getD k 0)⟩

section
variable {K : Type} [AddCommMonoid K] [Mul K]

/-- fit.go:63-68 `Predict`; gonum's `MulVec` panics when the dimensions differ. -/
def predict (X : Mat K) (coeff : List K) : Option (List K) :=
  if coeff.length ≠ X.nc then none
  else some ((List.range X.nr).map (fun i => ∑ j ∈ range X.nc, X.get i j * coeff.getD j 0))

/-- fit.go:52-59 `PredictOne`; `none` when `coeff` is shorter than `x`. -/
def predictOne (x coeff : List K) : Option K :=
  if coeff.length < x.length then none
  else some (∑ i ∈ range x.length, x.getD i 0 * coeff.getD i 0)

end

/-- fit.go:75-87 `Rss`. -/
def rss {K : Type} [AddCommGroup K] [Mul K] (X : Mat K) (coeff data : List K) : Option K :=
  match predict X coeff with
  | none => none
  | some pred =>
    if data.length ≠ pred.length then none
    else some (∑ i ∈ range data.length,
      (pred.getD i 0 - data.getD i 0) * (pred.getD i 0 - data.getD i 0))

end GoSelect
