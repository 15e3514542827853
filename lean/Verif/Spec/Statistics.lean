import Mathlib.Data.Real.Basic
import Mathlib.Algebra.BigOperators.Group.List.Basic

/-! Specification vocabulary: mean, variance, and predictions with sparse coefficients. -/

namespace GoSelect.Spec

/-- Arithmetic mean. -/
noncomputable def mean (v : List ℝ) : ℝ := v.sum / v.length

/-- Sample variance (divisor `n - 1`). -/
noncomputable def variance (v : List ℝ) : ℝ :=
  (v.map (fun x => (x - mean v) ^ 2)).sum / (v.length - 1 : ℝ)

/-- All entries agree. -/
def Constant (v : List ℝ) : Prop := ∀ x ∈ v, ∀ y ∈ v, x = y

/-- Prediction of a sparse linear model on a row. -/
noncomputable def sparsePredict (row : Nat → ℝ) (selection : List Nat) (coeff : List ℝ) : ℝ :=
  (List.zipWith (fun s c => c * row s) selection coeff).sum

end GoSelect.Spec
