import Verif.Model.Fit
import Verif.Model.Float
import Verif.Model.Selection
import Verif.Model.Sorting
import Mathlib.Data.Real.Sqrt

/-!
# Orthogonal matching pursuit

Model of orthogonalMatchingPursuit.go:13-94.  Arithmetic is exact over the reals; the division by the
norms is IEEE division.  `svd` is gonum's decomposition (see `Model.Fit`).  Printing (line 79) is left
out.
-/

namespace GoSelect

open Finset

/-- orthogonalMatchingPursuit.go:97-102 `Abs`, one entry. -/
noncomputable def flAbs : Fl ℝ → Fl ℝ
  | .fin x => .fin |x|
  | .negInf => .posInf
  | x => x

/-- `mat.Norm(v, 2)`. -/
noncomputable def norm2 (v : List ℝ) : ℝ := Real.sqrt (∑ i ∈ range v.length, v.getD i 0 ^ 2)

/-- orthogonalMatchingPursuit.go:43-48: the norm of column `i`. -/
noncomputable def colNorm (X : Mat ℝ) (i : Nat) : ℝ :=
  Real.sqrt (∑ r ∈ range X.nr, X.get r i * X.get r i)

open Classical in
/-- orthogonalMatchingPursuit.go:51-55 `proj`. -/
noncomputable def ompProj (X : Mat ℝ) (residuals : List ℝ) : List (Fl ℝ) :=
  (List.range X.nc).map (fun i =>
    flAbs (Fl.divFin (∑ r ∈ range X.nr, X.get r i * residuals.getD r 0)
      (norm2 residuals * colNorm X i)))

/-- Local variables of `Omp`. -/
structure OmpState where
  residuals : List ℝ
  model : List Bool
  coeff : List ℝ
  order : List Int

open Classical in
/-- orthogonalMatchingPursuit.go:51-74: the body of the loop.  The second component is the root mean
square error. -/
noncomputable def ompStep (svd : Mat ℝ → SVD ℝ) (X : Mat ℝ) (y : List ℝ) (current : Nat)
    (st : OmpState) : Option (OmpState × ℝ) := do
  let imax ← argmax (ompProj X st.residuals)
  let model ← goSet st.model imax true
  let order ← goSet st.order current (imax : Int)
  let design ← getDesignMatrix model X
  let coeff ← fit (svd design) design y
  let selected ← selectedFeatures model
  let full ← fullCoeffLoop coeff (selected.map Int.ofNat) 0 st.coeff
  let ypred ← predict design coeff
  return (⟨List.zipWith (· - ·) ypred y, model, full, order⟩,
    Real.sqrt ((∑ i ∈ range ypred.length, (y.getD i 0 - ypred.getD i 0) ^ 2) / y.length))

open Classical in
/-- orthogonalMatchingPursuit.go:50-78; `fuel = ncols - current`. -/
noncomputable def ompLoop (svd : Mat ℝ → SVD ℝ) (X : Mat ℝ) (y : List ℝ) (tol : ℝ) :
    Nat → Nat → OmpState → Option OmpState
  | 0, _, st => some st
  | fuel + 1, current, st =>
    match ompStep svd X y current st with
    | none => none
    | some (st', rmse) => if rmse < tol then some st' else ompLoop svd X y tol fuel (current + 1) st'

/-- orthogonalMatchingPursuit.go:82-91: the loop that finds where `Order` is cut, from position `i` on.
`none`: index out of range (a negative entry other than -1, or too large). -/
def trimLoop (order : List Int) : List Int → Nat → List Bool → Option (List Int)
  | [], _, _ => some order
  | v :: rest, i, foundBefore =>
    if v = -1 then some (order.take i)
    else if v < 0 then none
    else
      match foundBefore[v.toNat]? with
      | none => none
      | some true => some (order.take i)
      | some false => trimLoop order rest (i + 1) (foundBefore.set v.toNat true)

/-- orthogonalMatchingPursuit.go:13-16 `OmpResult`. -/
structure OmpResult where
  coeff : List ℝ
  order : List Int

/-- orthogonalMatchingPursuit.go:20-29, 32-94 `NewOmpResult`, `Omp`.  `none` also for empty data (`NewVecDense` of length 0)
and when the number of rows is not `len(y)`. -/
noncomputable def omp (svd : Mat ℝ → SVD ℝ) (X : Mat ℝ) (y : List ℝ) (tol : ℝ) : Option OmpResult :=
  if y.length = 0 ∨ X.nc = 0 ∨ X.nr ≠ y.length then none
  else
    match ompLoop svd X y tol X.nc 0
        ⟨y, List.replicate X.nc false, List.replicate X.nc 0, List.replicate X.nc (-1)⟩ with
    | none => none
    | some st =>
      match trimLoop st.order st.order 0 (List.replicate st.order.length false) with
      | none => none
      | some order => some ⟨st.coeff, order⟩

end GoSelect
