import Verif.Model.Selection
import Verif.Model.Normalize
import Verif.Model.Weights

/-!
# Averages along a regularisation path

Model of lasso_lars.go:21-33 and 275-282.  Selections of nodes hold natural numbers.
-/

namespace GoSelect

/-- lasso_lars.go:21-33 `NewLassoLarsNode`; both slices are copied.  `none`: different lengths. -/
def newLassoLarsNode {K : Type} (coeff : List K) (lamb : K) (selection : List Nat) : Option (LassoLarsNode K) :=
  if coeff.length ≠ selection.length then none else some ⟨coeff, lamb, selection⟩

/-- lasso_lars.go:275-282 `LassoNodesSlice2SparsCoeff`. -/
def lassoNodesToSparse {K : Type} (nodes : List (LassoLarsNode K)) : List (SparseCoeff K) :=
  nodes.map (fun n => ⟨n.coeff, n.selection.map Int.ofNat⟩)

end GoSelect
