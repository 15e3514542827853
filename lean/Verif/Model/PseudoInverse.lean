import Verif.Model.Fit
import Mathlib.Data.Real.Sqrt

/-!
# Pseudo-inverses and the hat matrix

Model of util.go:358-399, fit.go:89-110 and lasso_cd.go:39-83.  `d` is the decomposition that gonum computes
(contract `SVD.Of`); arithmetic is exact.  `U` has `X.nr` rows, `V` has `X.nc` rows.
-/

namespace GoSelect

open Finset

section
variable {K : Type} [Field K] [LinearOrder K]

/-- util.go:358-375 `PseudoInverseXTX`. -/
def pseudoInverseXTX (d : SVD K) (X : Mat K) (tol : K) : Mat K :=
  let s := fun k => if d.s k * d.s k > tol then 1 / (d.s k * d.s k) else 0
  ⟨X.nc, X.nc, fun i j => ∑ k ∈ range d.p, d.v i k * s k * d.v j k⟩

/-- util.go:378-399 `PseudoInverse`. -/
def pseudoInverse (d : SVD K) (X : Mat K) (tol : K) : Mat K :=
  let s := fun k => if d.s k > tol then 1 / d.s k else 0
  ⟨X.nc, X.nr, fun i j => ∑ k ∈ range d.p, d.v i k * s k * d.u j k⟩

/-- fit.go:91-99 `DenumMatrixGcv`. -/
def denumMatrixGcv (d : SVD K) (X : Mat K) : Mat K :=
  let invD := pseudoInverseXTX d X (1 / 10 ^ 6)
  ⟨X.nr, X.nr, fun i j => ∑ a ∈ range X.nc, X.get i a * ∑ b ∈ range X.nc, invD.get a b * X.get j b⟩

/-- lasso_cd.go:39-61 `MorsePenroseCD.C` for the active columns `X`.  `none`: `Product` panics when the
lengths differ. -/
def morsePenroseC (d : SVD K) (X : Mat K) (y : List K) : Option (List K) :=
  if y.length ≠ X.nr then none
  else
    let s := fun k => if d.s k * d.s k > 1 / 10 ^ 6 then 1 / d.s k else d.s k
    some ((List.range X.nc).map (fun j => ∑ k ∈ range d.p, d.v j k * (s k * ∑ i ∈ range X.nr, d.u i k * y.getD i 0)))

/-- lasso_cd.go:64-69 `MorsePenroseCD.D` for the active columns `X`. -/
def morsePenroseD (d : SVD K) (X : Mat K) (signs : List K) : Option (List K) :=
  if signs.length ≠ X.nc then none
  else some ((List.range X.nc).map (fun i =>
    ∑ j ∈ range X.nc, (pseudoInverseXTX d X (1 / 10 ^ 6)).get i j * signs.getD j 0))

end

/-- fit.go:102-108 `Gcv` when no diagonal entry of `denum` is 1.  `none`: index out of range. -/
noncomputable def gcv (denum : Mat ℝ) (data pred : List ℝ) : Option ℝ :=
  if pred.length < data.length ∨ denum.nr < data.length ∨ denum.nc < data.length then none
  else some (Real.sqrt ((∑ i ∈ range data.length,
    (data.getD i 0 - pred.getD i 0) ^ 2 / (1 - denum.get i i)) / pred.length))

end GoSelect
