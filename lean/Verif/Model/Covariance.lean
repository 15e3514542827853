import Verif.Model.CrdDesc
import Verif.Model.Equality

/-!
# Covariance matrices and thresholding

Model of covarianceMatrix.go:18-69 and of the sequential parts of thresholdCov.go.  `Empirical.Get` is
`empiricalCov` in `Model.CrdDesc`.  Arithmetic is exact.
-/

namespace GoSelect

open Finset

section
variable {K : Type} [Field K] [LinearOrder K]

/-- `X.Set(i, j, v)` for a dense matrix. -/
def Mat.set (X : Mat K) (i j : Nat) (v : K) : Mat K :=
  ⟨X.nr, X.nc, fun a b => if a = i ∧ b = j then v else X.get a b⟩

/-- thresholdCov.go:25-28: one entry.  The second component is `numRemoved`. -/
def thresholdEntry (t : K) (i : Nat) (s : Mat K × Nat) (j : Nat) : Mat K × Nat :=
  if |s.1.get i j| < t then (s.1.set i j 0, s.2 + 1) else s

/-- thresholdCov.go:20-31 `ThresholdOperator.Apply`: the matrix afterwards and `numRemoved`. -/
def thresholdApply (t : K) (X : Mat K) : Mat K × Nat :=
  (List.range X.nr).foldl (fun s i => (List.range X.nc).foldl (thresholdEntry t i) s) (X, 0)

/-- thresholdCov.go:181-201 `CovarianceMatrix`. -/
def covarianceMatrix (X : Mat K) : Mat K :=
  let mu := fun j => ∑ i ∈ range X.nr, X.get i j / (X.nr : K)
  ⟨X.nc, X.nc, fun i j => (1 / (X.nr : K)) * (∑ r ∈ range X.nr, X.get r i * X.get r j) - mu i * mu j⟩

/-- covarianceMatrix.go:30-38 `Identity.Get`. -/
def identityCov (X : Mat K) : Mat K := ⟨X.nc, X.nc, fun i j => if i = j then 1 else 0⟩

/-- gonum `mat.EqualApprox` for matrices without NaN and infinities. -/
def matEqualApprox (tol : K) (A B : Mat K) : Bool :=
  decide (A.nr = B.nr ∧ A.nc = B.nc) && (List.range A.nr).all (fun r => (List.range A.nc).all (fun c =>
    eqWithin tol (.fin (A.get r c)) (.fin (B.get r c))))

/-- covarianceMatrix.go:59-69 `SparseThresholded.Get`; `X0` and `t` are the matrix and the threshold of the
constructor.  `none`: the explicit panic. -/
def sparseThresholdedGet (X0 : Mat K) (t : K) (X : Mat K) : Option (Mat K) :=
  if matEqualApprox eqTol X X0 = true then some (thresholdApply t (empiricalCov X)).1 else none

/-- thresholdCov.go:161-177: the square of the value that `CalculateFNormDiff` sends, the Frobenius norm of
the difference of the thresholded `mat1` and `mat2`. -/
def fNormDiffSq (t : K) (mat1 mat2 : Mat K) : K :=
  let m := (thresholdApply t mat1).1
  ∑ i ∈ range m.nr, ∑ j ∈ range m.nc, (m.get i j - mat2.get i j) ^ 2

end

/-- thresholdCov.go:132-157 `RandomRowSplit`; `indices` is the slice after the shuffle.  `none`: a matrix
without rows or columns (gonum's `NewDense` panics). -/
def randomRowSplit {K : Type} (X : Mat K) (num : Int) (indices : List Nat) : Option (Mat K × Mat K) :=
  let n2 := (X.nr : Int) - num
  if num ≤ 0 ∨ n2 ≤ 0 ∨ X.nc = 0 then none
  else some
    (⟨num.toNat, X.nc, fun i j => X.get (indices.getD i 0) j⟩,
      ⟨n2.toNat, X.nc, fun i j => X.get (indices.getD (i + num.toNat) 0) j⟩)

end GoSelect
