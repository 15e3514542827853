import Verif.Model.IterProduct
import Verif.Model.IntUtil
import Verif.Model.Mat
import Mathlib.Algebra.BigOperators.Group.List.Basic
import Mathlib.Algebra.Field.Defs

/-!
# `LazyPowerMatrix`

Model of lazyPowerMat.go:11-99.  A `map[int]int` of powers is a list of (column, exponent) pairs
with different columns; Go multiplies in an unspecified order, which does not matter for exact
arithmetic.  `math.Pow` with a natural exponent is `x ^ n`.
-/

namespace GoSelect

/-- lazyPowerMat.go:11-14 `LazyPowerMatrix`. -/
structure LazyMat (K : Type) where
  X : Mat K
  powers : List (List (Nat × Nat))

variable {K : Type}

/-- lazyPowerMat.go:16-19, 22-25 `NumCols`. -/
def LazyMat.numCols (m : LazyMat K) : Nat := m.X.nc + m.powers.length

/-- lazyPowerMat.go:42-45: one entry of a power column. -/
def powerEntry [CommMonoid K] (X : Mat K) (row : Nat) (p : List (Nat × Nat)) : K :=
  p.foldl (fun r cp => r * X.get row cp.1 ^ cp.2) 1

/-- lazyPowerMat.go:27-30, 33-49 `GetCol` for `col ≥ 0`; `none`: index out of range. -/
def LazyMat.getCol [CommMonoid K] (m : LazyMat K) (col : Nat) : Option (List K) :=
  if col < m.X.nc then some ((List.range m.X.nr).map (fun i => m.X.get i col))
  else if m.X.nr = 0 then some []
  else
    match m.powers[col - m.X.nc]? with
    | none => none
    | some p =>
      if p.any (fun cp => m.X.nc ≤ cp.1) then none
      else some ((List.range m.X.nr).map (fun row => powerEntry m.X row p))

/-- lazyPowerMat.go:52-54 `AddPower`. -/
def LazyMat.addPower (m : LazyMat K) (p : List (Nat × Nat)) : LazyMat K :=
  { m with powers := m.powers ++ [p] }

/-- `p[col] = e` on a map. -/
def mapPut (p : List (Nat × Nat)) (col e : Nat) : List (Nat × Nat) :=
  p.filter (fun cp => cp.1 ≠ col) ++ [(col, e)]

/-- lazyPowerMat.go:82-87: the map of one exponent row `pow`. -/
def powerMap (cols : List Nat) (pow : List Int) : List (Nat × Nat) :=
  (cols.zip pow).foldl (fun p ce => if 0 < ce.2 then mapPut p ce.1 ce.2.toNat else p) []

/-- lazyPowerMat.go:72-90 `AddPowerSequence`; `none`: `make` with a negative length. -/
def LazyMat.addPowerSequence (grow : Nat → Nat) (m : LazyMat K) (cols : List Nat) (maxPower : Int) :
    Option (LazyMat K) :=
  if maxPower + 1 < 0 then none
  else
    let powers := (List.range (maxPower + 1).toNat).map Int.ofNat
    some ((iterProduct grow powers cols.length).foldl (fun m pow =>
      if sumInt pow ≤ 1 ∨ sumInt pow > maxPower then m else m.addPower (powerMap cols pow)) m)

/-- lazyPowerMat.go:58-68 `NewLazyMatrix`. -/
def newLazyMatrix (grow : Nat → Nat) (X : Mat K) (maxPower : Int) : Option (LazyMat K) :=
  LazyMat.addPowerSequence grow ⟨X, []⟩ (List.range X.nc) maxPower

/-- lazyPowerMat.go:93-99 `FullMatrix`. -/
def LazyMat.fullMatrix [CommMonoid K] [Inhabited K] (m : LazyMat K) : Option (Mat K) :=
  match (List.range m.numCols).mapM m.getCol with
  | none => none
  | some cols => some ⟨m.X.nr, m.numCols, fun r c => (cols.getD c []).getD r default⟩

end GoSelect
