import Verif.Model.Dataset

/-! When a data set is well formed: a name per column and the target, a target value per row. -/

namespace GoSelect.Spec

/-- A well-formed data set. -/
structure WellFormed {K : Type} (d : Dataset K) : Prop where
  names : d.names.length = d.X.nc + 1
  distinct : d.names.Nodup
  target0 : 0 ≤ d.targetCol
  target1 : d.targetCol ≤ d.X.nc
  y : d.Y.length = d.X.nr

end GoSelect.Spec
