import Verif.Model.Mat
import Mathlib.Data.Matrix.Mul

/-! The Moore-Penrose inverse, in terms of Mathlib's matrices. -/

namespace GoSelect.Spec

open Matrix

variable {K : Type}

/-- A matrix of the model as a Mathlib matrix. -/
def toMatrix (X : Mat K) (m n : Nat) : Matrix (Fin m) (Fin n) K := of fun i j => X.get i j

/-- The four Moore-Penrose equations. -/
structure IsMoorePenrose [CommRing K] {m n : Type} [Fintype m] [Fintype n] (A : Matrix m n K)
    (P : Matrix n m K) : Prop where
  apa : A * P * A = A
  pap : P * A * P = P
  ap : (A * P)ᵀ = A * P
  pa : (P * A)ᵀ = P * A

end GoSelect.Spec
