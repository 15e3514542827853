import Verif.Model.Criteria
import Verif.Model.CrdDescPath
import Verif.Model.Lars
import Verif.Model.NestedLasso
import Verif.Model.Sorting
import Verif.Model.ThresholdSearch
import Verif.Model.Weights

/-!
# The lasso command

Model of cmd/lasso.go:69-123 and of the table it prints (util.go:340-355).  Reading the CSV file is in `Model.Csv`;
the data set is a parameter.  Arithmetic is exact, except that `math.Log` of 0 is minus infinity.  Not modelled: a
constant response, which becomes NaN (`finValues`); formatting; errors of the file system.
-/

namespace GoSelect

/-- A row of the table: rank, regularisation, number of coefficients, AICc and BIC. -/
structure HighscoreRow (K α : Type) where
  rank : Nat
  lamb : K
  numCoeff : Nat
  aicc : α
  bic : α
  deriving DecidableEq, Repr

/-- util.go:340-355 `PrintHighscore`: the rows printed.  `none`: index out of range.  `sort` is `sort.Sort`. -/
def printHighscore {K α : Type} (sort : List (α × Nat) → List (α × Nat)) (nodes : List (LassoLarsNode K))
    (aicc bic : List α) (num : Int) : Option (List (HighscoreRow K α)) :=
  let num := if (aicc.length : Int) < num then (aicc.length : Int) else num
  let srt := argsort sort aicc
  (List.range num.toNat).mapM (fun i => do
    let v ← srt[i]?
    let node ← nodes[v]?
    let a ← aicc[v]?
    let b ← bic[v]?
    return ⟨i + 1, node.lamb, node.selection.length, a, b⟩)

noncomputable section

open Classical in
/-- A criterion whose logarithm is minus infinity for `rss = 0` (criteria.go:17-35 with `numData > 0`); for `rss < 0`
the logarithm is NaN. -/
def withLog (crit : Nat → Nat → ℝ → ℝ) (numFeat numData : Nat) (rss : ℝ) : Fl ℝ :=
  if 0 < rss then .fin (crit numFeat numData rss) else if rss = 0 then .negInf else .nan

/-- lassoPlot.go:18-23 `LassoLarsPath`, as the command fills it. -/
structure LassoFile where
  dset : Dataset ℝ
  nodes : List (LassoLarsNode ℝ)
  aicc : List (Fl ℝ)
  bic : List (Fl ℝ)

/-- The flags of the command. -/
structure LassoFlags where
  lambMin : ℝ
  lambMax : ℝ
  num : Int
  lassoType : String
  covType : String
  tol : ℝ

/-- cmd/lasso.go:82-90: the covariance matrix that every worker gets from `cov`; the threshold of
covarianceMatrix.go:49-57 depends on the shuffles. -/
def LassoCov (covType : String) (X C : Mat ℝ) : Prop :=
  if covType = "empirical" then C = empiricalCov X
  else if covType = "identity" then C = identityCov X
  else if covType = "threshold" then
    ∃ shuffle op, CovSearch X 1000 1 1 shuffle op ∧ sparseThresholdedGet X op X = some C
  else False

/-- lassoCrdDesc.go:180-256 `LassoCrdDescPath` returns `path` under some schedule. -/
def CrdPathReturns (problem : ℝ → CDProblem ℝ Unit) (nFeat : Nat) (lambs : List ℝ) (maxIter : Nat)
    (path : List (LassoLarsNode ℝ)) : Prop :=
  ∃ s, PathReach lambs.length nFeat (crdSolve problem lambs maxIter) s ∧ PathDone lambs.length nFeat s ∧
    pathResult s.main = some (path.map some)

/-- cmd/lasso.go:75-97: `path` may be the path before `Path2Unnormalized`.  An unknown algorithm gives an empty path.  The grid of
`cd` must consist of numbers: both ends positive, or at most one value. -/
def LassoRawPath (svd : Mat ℝ → SVD ℝ) (f : LassoFlags) (X : Mat ℝ) (y : List ℝ) (path : List (LassoLarsNode ℝ)) :
    Prop :=
  if f.lassoType = "lars" then LarsReturns X (fun r => y.getD r 0) lassoTol f.lambMin (morseEst svd X y) path
  else if f.lassoType = "cd" then
    ∃ C lambs, LassoCov f.covType X C ∧ logspace f.lambMin f.lambMax f.num = some lambs ∧
      CrdPathReturns (fun lamb => ⟨X.nr, X.nc, C, xTy X (fun r => y.getD r 0), lamb, f.tol, pureLasso⟩) X.nc lambs
        100000 path
  else path = []

/-- A value that `encoding/json` accepts. -/
def Fl.isFin {K : Type} : Fl K → Bool
  | .fin _ => true
  | _ => false

/-- cmd/lasso.go:69-123 `lassoFit` ends without panic.  `nodes` is the path after `Path2Unnormalized`, `rows` the table
that is printed and `out` what is written, `none` when there is no file: an unknown covariance (lines 88-91), or an
error of `json.Marshal` (line 112).  The matrix and the response are copied before they are normalised (lines
71-73). -/
def LassoFit (svd : Mat ℝ → SVD ℝ) (sort : List (Fl ℝ × Nat) → List (Fl ℝ × Nat)) (f : LassoFlags) (dset : Dataset ℝ)
    (nodes : List (LassoLarsNode ℝ)) (rows : List (HighscoreRow ℝ (Fl ℝ))) (out : Option LassoFile) : Prop :=
  ∃ n y, newNormalizedData dset.X dset.Y = some n ∧ finValues n.y = some y ∧
    ((f.lassoType = "cd" ∧ f.covType ∉ ["empirical", "identity", "threshold"] ∧ nodes = [] ∧ rows = [] ∧ out = none) ∨
    ∃ raw aic bic', LassoRawPath svd f n.X y raw ∧ path2Unnormalized n raw = some nodes ∧
      getCriteria dset.X dset.Y nodes (withLog aicc) = some aic ∧
      getCriteria dset.X dset.Y nodes (withLog bic) = some bic' ∧
      printHighscore sort nodes aic bic' 20 = some rows ∧
      out = if (aic ++ bic').all Fl.isFin then some ⟨dset, nodes, aic, bic'⟩ else none)

end

end GoSelect
