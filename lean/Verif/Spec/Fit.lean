import Verif.Model.Fit
import Verif.Spec.LeastSquares
import Verif.Spec.Models

/-! When the fits of the package are exact least-squares fits. -/

namespace GoSelect.Spec

variable {K : Type} [Field K] [LinearOrder K]

/-- `d` is a singular value decomposition of `X` and no singular value is truncated by the
threshold `1e-6` of `Fit`. -/
def Untruncated (d : SVD K) (X : Mat K) : Prop :=
  d.Of X ∧ ∀ k, k < d.p → d.s k = 0 ∨ 1 / 10 ^ 6 < d.s k

/-- The columns of `X` that the model `m` selects. -/
def designOf (X : Mat K) (m : List Bool) : Mat K :=
  ⟨X.nr, card m, fun j k => X.get j ((features m).getD k 0)⟩

/-- The fit of model `m` is not affected by the truncation. -/
def ExactFit (svd : Mat K → SVD K) (X : Mat K) (m : List Bool) : Prop :=
  Untruncated (svd (designOf X m)) (designOf X m)

end GoSelect.Spec
