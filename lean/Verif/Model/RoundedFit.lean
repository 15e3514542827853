import Verif.Model.RoundedSearch

/-!
# Predictions and residual sums of squares with rounding

As `Model.Mat`, with rounding after every operation.  The inner products of gonum (`MulVec`) are a parameter: gonum may
add the products in any order.
-/

namespace GoSelect

noncomputable section

/-- The loop of fit.go:55-57, after `n` steps. -/
def dotLoop (rnd : ℝ → ℝ) (x coeff : Nat → ℝ) : Nat → ℝ
  | 0 => 0
  | n + 1 => rnd (dotLoop rnd x coeff n + rnd (x n * coeff n))

/-- fit.go:52-59 `PredictOne`; `none` when `coeff` is shorter than `x`. -/
def predictOneRnd (rnd : ℝ → ℝ) (x coeff : List ℝ) : Option ℝ :=
  if coeff.length < x.length then none
  else some (dotLoop rnd (x.getD · 0) (coeff.getD · 0) x.length)

/-- The loop of fit.go:83-85, after `n` steps.  `math.Pow(x, 2)` is the rounded square. -/
def rssLoop (rnd : ℝ → ℝ) (pred data : Nat → ℝ) : Nat → ℝ
  | 0 => 0
  | n + 1 => rnd (rssLoop rnd pred data n + rnd (rnd (pred n - data n) * rnd (pred n - data n)))

/-- fit.go:75-87 `Rss`.  `dot n x c` is the inner product of two vectors of length `n` as gonum computes it. -/
def rssRnd (rnd : ℝ → ℝ) (dot : Nat → (Nat → ℝ) → (Nat → ℝ) → ℝ) (X : Mat ℝ) (coeff data : List ℝ) : Option ℝ :=
  if coeff.length ≠ X.nc then none
  else if data.length ≠ X.nr then none
  else some (rssLoop rnd (fun i => dot X.nc (X.get i) (coeff.getD · 0)) (data.getD · 0) data.length)

/-- `GetDesignMatrix` and `Rss` with the computed coefficients `coeff` (criteria.go:50-52, 58-60; optimize.go:224-226).
Where the code panics the value is arbitrary. -/
def rssOfModel (rnd : ℝ → ℝ) (dot : Nat → (Nat → ℝ) → (Nat → ℝ) → ℝ) (fit : List Bool → List ℝ) (X : Mat ℝ) (y : List ℝ)
    (m : List Bool) : ℝ :=
  ((getDesignMatrix m X).bind (fun D => rssRnd rnd dot D (fit m) y)).getD 0

end

end GoSelect
