import Verif.Model.Highscore
import Verif.Model.Dataset
import Verif.Model.Float
import Mathlib.Algebra.Order.Field.Basic

/-!
# Equality tests

Model of node.go:40-64 `NodesEqual`, highscore.go:112-123 `Equal`, csvIO.go:74-91 `IsEqual`, over
numbers with infinities and NaN.  `floats.EqualApprox` and `mat.EqualApprox` follow gonum:
`EqualWithinAbsOrRel(a, b, tol, tol)` entry by entry.
-/

namespace GoSelect

variable {K : Type} [Field K] [LinearOrder K]

/-- The literal `1e-10`. -/
def eqTol : K := 1 / 10 ^ 10

/-- `math.Abs(a - b) > tol` in IEEE arithmetic: a difference that is NaN is not larger. -/
def absDiffGt (tol : K) : Fl K → Fl K → Bool
  | .nan, _ => false
  | _, .nan => false
  | .posInf, .posInf => false
  | .negInf, .negInf => false
  | .fin a, .fin b => decide (tol < |a - b|)
  | _, _ => true

/-- gonum `floats.EqualWithinAbsOrRel(a, b, tol, tol)`: `a == b`, or the difference is at most `tol`,
or at most `tol` times the larger magnitude.  With one infinite argument the quotient is NaN and the
test fails, as it does with NaN.  (The special treatment of differences below the smallest normal
number never decides: such differences are below `tol` already.) -/
def eqWithin (tol : K) : Fl K → Fl K → Bool
  | .fin a, .fin b =>
    decide (a = b) || decide (|a - b| ≤ tol) || decide (|a - b| / max |a| |b| ≤ tol)
  | .posInf, .posInf => true
  | .negInf, .negInf => true
  | _, _ => false

/-- gonum `floats.EqualApprox`. -/
def equalApprox (tol : K) (s1 s2 : List (Fl K)) : Bool :=
  if s1.length ≠ s2.length then false
  else (List.range s1.length).all (fun i => eqWithin tol (s1.getD i (.fin 0)) (s2.getD i (.fin 0)))

/-- node.go:40-64 `NodesEqual`.  The loop of lines 49-53 stays inside both slices because of the
length check. -/
def nodesEqual (node1 node2 : Node (Fl K)) : Bool :=
  if node1.model.length ≠ node2.model.length then false
  else if node1.level ≠ node2.level then false
  else if (List.range node1.model.length).any (fun i =>
      node1.model.getD i false != node2.model.getD i false) then false
  else if absDiffGt eqTol node1.lower node2.lower || absDiffGt eqTol node1.upper node2.upper ||
      absDiffGt eqTol node1.score node2.score then false
  else if !equalApprox eqTol node1.coeff node2.coeff then false
  else true

/-- The loop of highscore.go:117-121; `none`: `e2` is nil. -/
def highscoreEqualLoop : List (Node (Fl K)) → List (Node (Fl K)) → Option Bool
  | [], _ => some true
  | _ :: _, [] => none
  | a :: l1, b :: l2 => if !nodesEqual a b then some false else highscoreEqualLoop l1 l2

/-- highscore.go:112-123 `Equal`. -/
def highscoreEqual (h h2 : Highscore (Fl K)) : Option Bool :=
  if h.maxItems ≠ h2.maxItems ∨ h.len ≠ h2.len then some false
  else highscoreEqualLoop h.items h2.items

/-- csvIO.go:74-91 `IsEqual`. -/
def isEqual (d o : Dataset (Fl K)) : Bool :=
  if d.X.nr ≠ o.X.nr ∨ d.X.nc ≠ o.X.nc ∨ d.Y.length ≠ o.Y.length ∨
      d.names.length ≠ o.names.length ∨ d.targetCol ≠ o.targetCol then false
  else if !equalApprox eqTol d.Y o.Y then false
  else if !(List.range d.X.nr).all (fun r => (List.range d.X.nc).all (fun c =>
      eqWithin eqTol (d.X.get r c) (o.X.get r c))) then false
  else true

end GoSelect
