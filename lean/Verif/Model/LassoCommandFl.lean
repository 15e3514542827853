import Verif.Model.CrdDescFl
import Verif.Model.CrdDescPath
import Verif.Model.LassoCommand
import Verif.Model.LogspaceFl

/-!
# The lasso command with regularisations that are not numbers

cmd/lasso.go:80-122 for `--type cd`, with the grid of `Model.LogspaceFl` and the coordinate descent of `Model.CrdDescFl`.
-/

namespace GoSelect

noncomputable section

/-- lassoCrdDesc.go:162-171: the node of the coefficients. -/
def crdNodeFl (nFeat : Nat) (coeff : Nat → Fl ℝ) (lamb : Fl ℝ) : LassoLarsNode (Fl ℝ) :=
  let selection := selectionFl nFeat coeff
  ⟨selection.map coeff, lamb, selection⟩

/-- `LassoCrdDesc` in a worker.  (The start vector is overwritten, C56.) -/
def crdSolveFl (problem : Fl ℝ → CDProblem (Fl ℝ) Unit) (lambs : List (Fl ℝ)) (maxIter : Nat) (k : Nat) (_x0 : List (Fl ℝ))
    (node : LassoLarsNode (Fl ℝ)) : Prop :=
  ∃ lamb, lambs[k]? = some lamb ∧
    node = crdNodeFl (problem lamb).nFeat (lassoCrdDescFl (problem lamb) () maxIter).1 lamb

/-- lassoCrdDesc.go:180-256 `LassoCrdDescPath` returns `path` under some schedule. -/
def CrdPathReturnsFl (problem : Fl ℝ → CDProblem (Fl ℝ) Unit) (nFeat : Nat) (lambs : List (Fl ℝ)) (maxIter : Nat)
    (path : List (LassoLarsNode (Fl ℝ))) : Prop :=
  ∃ s, PathReach lambs.length nFeat (crdSolveFl problem lambs maxIter) s ∧ PathDone lambs.length nFeat s ∧
    pathResult s.main = some (path.map some)

/-- `encoding/json` accepts the numbers of the node. -/
def nodeJsonFl (n : LassoLarsNode (Fl ℝ)) : Bool := n.lamb.isFin && n.coeff.all Fl.isFin

/-- cmd/lasso.go:80-122 with `--type cd` on normalised data `X`, `y`: the path after `Path2Unnormalized`, and whether
`json.Marshal` accepts its nodes (otherwise no file is written, line 114).  `cov` is the covariance matrix; `unnorm` is what
lasso_lars.go:251-271 does to a node. -/
def LassoCdFl (rnd logf expf : ℝ → ℝ) (dot : Nat → (Nat → Fl ℝ) → (Nat → Fl ℝ) → Fl ℝ)
    (unnorm : LassoLarsNode (Fl ℝ) → Option (LassoLarsNode (Fl ℝ))) (lambMin lambMax : Fl ℝ) (num : Int) (tol : Fl ℝ)
    (X : Mat (Fl ℝ)) (cov : Mat (Fl ℝ)) (y : Nat → Fl ℝ) (nodes : List (LassoLarsNode (Fl ℝ))) (accepted : Bool) : Prop :=
  ∃ lambs raw, logspaceFl rnd logf expf lambMin lambMax num = some lambs ∧
    CrdPathReturnsFl (fun lamb => ⟨X.nr, X.nc, cov, xTyFl dot X y, lamb, tol, pureLassoFl⟩) X.nc lambs 100000 raw ∧
    raw.mapM unnorm = some nodes ∧ accepted = nodes.all nodeJsonFl

end

end GoSelect
