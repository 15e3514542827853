import Verif.Model.Mat
import Mathlib.Algebra.Ring.Defs

/-! Least squares, independent of any algorithm. -/

namespace GoSelect.Spec

open Finset

variable {K : Type} [CommRing K]

/-- Value predicted for row `i` with coefficients `b`. -/
def lin (X : Mat K) (b : Nat → K) (i : Nat) : K := ∑ j ∈ range X.nc, X.get i j * b j

/-- Sum of squared errors of the coefficients `b`. -/
def sse (X : Mat K) (b y : Nat → K) : K := ∑ i ∈ range X.nr, (lin X b i - y i) ^ 2

/-- `c` is a least-squares solution: no coefficients have a smaller sum of squared errors. -/
def IsLeastSquares [LE K] (X : Mat K) (c y : Nat → K) : Prop := ∀ b, sse X c y ≤ sse X b y

/-- A list as a function, 0 beyond its end. -/
def vec (l : List K) (i : Nat) : K := l.getD i 0

end GoSelect.Spec
