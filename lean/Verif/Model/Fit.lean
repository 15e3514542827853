import Verif.Model.Mat
import Mathlib.Algebra.Order.Field.Basic
import Mathlib.Algebra.Order.Group.Abs

/-!
# Least-squares fit

Model of fit.go:11-49.  The singular value decomposition is gonum's: an argument with the contract
`SVD.Of`.
-/

namespace GoSelect

open Finset

/-- Thin singular value decomposition: `U` is `nr × p`, `V` is `nc × p`. -/
structure SVD (K : Type) where
  p : Nat
  u : Nat → Nat → K
  s : Nat → K
  v : Nat → Nat → K

/-- The contract of `svd.Factorize(X, mat.SVDThin)`: `X = U diag(s) Vᵀ`, orthonormal columns,
non-negative, non-increasing singular values, `p = min(nr, nc)`. -/
structure SVD.Of {K : Type} [Field K] [LinearOrder K] (d : SVD K) (X : Mat K) : Prop where
  size : d.p = min X.nr X.nc
  prod : ∀ i j, i < X.nr → j < X.nc → X.get i j = ∑ k ∈ range d.p, d.u i k * d.s k * d.v j k
  uOrth : ∀ k l, k < d.p → l < d.p →
    ∑ i ∈ range X.nr, d.u i k * d.u i l = if k = l then 1 else 0
  vOrth : ∀ k l, k < d.p → l < d.p →
    ∑ j ∈ range X.nc, d.v j k * d.v j l = if k = l then 1 else 0
  nonneg : ∀ k, k < d.p → 0 ≤ d.s k
  sorted : ∀ k l, k ≤ l → l < d.p → d.s l ≤ d.s k

variable {K : Type} [Field K] [LinearOrder K]

/-- fit.go:34-38: the reciprocal of a singular value, 0 if that is at most `1e-6`. -/
def invSigma (s : K) : K := if 1 / 10 ^ 6 < |s| then 1 / s else 0

/-- fit.go:11-49 `Fit`.  `d` is the decomposition of `X` that gonum computes. -/
def fit (d : SVD K) (X : Mat K) (y : List K) : Option (List K) :=
  if X.nr ≠ y.length then none
  else
    let uTy := fun k => (∑ i ∈ range X.nr, d.u i k * y.getD i 0) * invSigma (d.s k)
    some ((List.range X.nc).map (fun j => ∑ k ∈ range d.p, d.v j k * uTy k))

end GoSelect
