import Verif.Model.Select
import Verif.Model.Criteria

/-!
# The search problem of a data set

What `SelectModel(X, y, ...)` and `BruteForceSelect(X, y)` observe of their data, in terms of the
models of `GetDesignMatrix`, `Fit`, `Rss`, `Aicc` and `BoundsAICC`.
-/

namespace GoSelect

/-- optimize.go:224-227, 185-188: fit, RSS and criterion.  Where the Go code panics
(`fitModel = none`: no feature, or wrong dimensions) the value is arbitrary; the callers fit only
models with features (optimize.go:184, 223). -/
noncomputable def regressionProblem (svd : Mat ℝ → SVD ℝ) (X : Mat ℝ) (y : List ℝ) : Problem ℝ where
  nrows := X.nr
  ncols := X.nc
  fit m := ((fitModel svd X y m).map (·.1)).getD []
  rss m := ((fitModel svd X y m).map (·.2)).getD 0
  aicc := aicc

/-- The inputs of `SelectModel` for data `X`, `y` (optimize.go:71-90, 237-256, 291-298). -/
noncomputable def regressionSearch (svd : Mat ℝ → SVD ℝ) (X : Mat ℝ) (y : List ℝ)
    (root : List Bool) (maxQueue : Int) (cutoff : ℝ) : Search ℝ where
  toProblem := regressionProblem svd X y
  root := root
  maxQueue := maxQueue
  cutoff := cutoff
  bounds m l := (boundsAICC svd m l X y).getD (0, 0)
  huge := 10 ^ 100
  maxFloat := maxFloat64
  mean ls := ls.sum / ls.length

end GoSelect
