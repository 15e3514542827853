import Verif.Model.Mat
import Mathlib.Algebra.Order.Field.Basic
import Mathlib.Algebra.Order.Group.Abs

/-! Specification vocabulary: the lasso problem. -/

namespace GoSelect.Spec

open Finset

variable {K : Type} [Field K] [LinearOrder K]

/-- Residual of row `r`. -/
def residual (X : Mat K) (y b : Nat → K) (r : Nat) : K := y r - ∑ j ∈ range X.nc, X.get r j * b j

/-- `1/(2n) ‖y - X b‖² + λ ‖b‖₁`. -/
def lassoObjective (X : Mat K) (y : Nat → K) (lamb : K) (b : Nat → K) : K :=
  (1 / (2 * (X.nr : K))) * ∑ r ∈ range X.nr, residual X y b r ^ 2 + lamb * ∑ j ∈ range X.nc, |b j|

/-- `1/(2n) ‖y - X b‖² + λ ‖b‖₁ + L/2 ‖b‖²`. -/
def elasticObjective (X : Mat K) (y : Nat → K) (lamb L : K) (b : Nat → K) : K :=
  lassoObjective X y lamb b + L / 2 * ∑ j ∈ range X.nc, b j ^ 2

/-- Correlation of feature `j` with the residual, `x_jᵀ (y - X b) / n`. -/
def gradient (X : Mat K) (y b : Nat → K) (j : Nat) : K :=
  (1 / (X.nr : K)) * ∑ r ∈ range X.nr, X.get r j * residual X y b r

/-- The KKT condition of feature `j`: the correlation is `λ sign b_j` for active features and at most
`λ` in magnitude for the others. -/
def KKT (X : Mat K) (y : Nat → K) (lamb : K) (b : Nat → K) (j : Nat) : Prop :=
  |gradient X y b j| ≤ lamb ∧ gradient X y b j * b j = lamb * |b j|

end GoSelect.Spec
