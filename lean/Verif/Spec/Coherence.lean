import Verif.Spec.LeastSquares
import Mathlib.Data.Real.Sqrt

/-! How close to orthogonal the columns of a matrix are. -/

namespace GoSelect.Spec

open Finset

/-- Scalar product of two columns. -/
def colProd {K : Type} [Field K] (X : Mat K) (i j : Nat) : K := ∑ r ∈ range X.nr, X.get r i * X.get r j

/-- Length of a column. -/
noncomputable def colLen (X : Mat ℝ) (i : Nat) : ℝ := Real.sqrt (colProd X i i)

/-- No two columns have a cosine beyond `μ` in absolute value. -/
def Coherence (X : Mat ℝ) (μ : ℝ) : Prop :=
  ∀ i j, i < X.nc → j < X.nc → i ≠ j → |colProd X i j| ≤ μ * (colLen X i * colLen X j)

end GoSelect.Spec
