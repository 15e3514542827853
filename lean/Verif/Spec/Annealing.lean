import Verif.Model.Annealing
import Verif.Spec.Fit

/-! What a simulated-annealing search is about. -/

namespace GoSelect.Spec

/-- `c` is the fit of model `m` and `σ` its cost: the criterion for its number of features, the
number of data points and its RSS (at least `RssTol`). -/
def IsFit (P : SaInput) (m : List Bool) (c : List ℝ) (σ : ℝ) : Prop :=
  ∃ r, fit (P.svd (designOf P.X m)) (designOf P.X m) P.y = some c ∧
    rss (designOf P.X m) c P.y = some r ∧ σ = P.cost (card m) P.X.nr (max r rssTol)

/-- Data for which no cost overflows. -/
structure SaData (P : SaInput) : Prop where
  cols : 0 < P.X.nc
  rows : P.y.length = P.X.nr
  finite : ∀ m c σ, m.length = P.X.nc → 0 < card m → IsFit P m c σ → σ ≤ maxFloat64

end GoSelect.Spec
