import Verif.Model.Mat
import Verif.Model.Selection

/-!
# Data sets

Model of csvIO.go:18-71, 94-103 (line numbers of the file csvIO.go).
-/

namespace GoSelect

/-- csvIO.go:18-23 `Dataset`. -/
structure Dataset (K : Type) where
  X : Mat K
  Y : List K
  names : List String
  targetCol : Int

/-- `a[i]` for an `int` index. -/
def goGetInt {β : Type} (a : List β) (i : Int) : Option β := if i < 0 then none else a[i.toNat]?

variable {K : Type}

/-- csvIO.go:26-31 `GetFeatName`. -/
def Dataset.getFeatName (d : Dataset K) (i : Int) : Option String :=
  if i < d.targetCol then goGetInt d.names i else goGetInt d.names (i + 1)

/-- csvIO.go:36-43: the loop, from position `i` on. -/
def featNoLoop (targetCol : Int) (name : String) : List String → Int → Option Int
  | [], _ => none
  | n :: names, i =>
    if n = name then (if i > targetCol then some (i - 1) else some i)
    else featNoLoop targetCol name names (i + 1)

/-- csvIO.go:35-45 `FeatNoByName`; `none` is the panic of line 44. -/
def Dataset.featNoByName (d : Dataset K) (name : String) : Option Int :=
  featNoLoop d.targetCol name d.names 0

/-- csvIO.go:49-71 `GetSubset`.  `none`: `NewDense` with a zero dimension, `At` or a slice out of
range.  `copy(subset.Y, d.Y)` fills `nr` values. -/
def Dataset.getSubset [Zero K] (d : Dataset K) (features : List Int) : Option (Dataset K) :=
  if d.X.nr = 0 ∨ features.length = 0 then none
  else if features.any (fun v => v < 0 || (d.X.nc : Int) ≤ v) then none
  else
    match features.mapM d.getFeatName, goGetInt d.names d.targetCol with
    | some fn, some t => some {
        X := ⟨d.X.nr, features.length, fun r c => d.X.get r (features.getD c 0).toNat⟩
        Y := goCopy (List.replicate d.X.nr 0) d.Y
        names := fn ++ [t]
        targetCol := features.length }
    | _, _ => none

/-- csvIO.go:94-103 `Copy`. -/
def Dataset.copy (d : Dataset K) : Dataset K := ⟨⟨d.X.nr, d.X.nc, d.X.get⟩, d.Y, d.names, d.targetCol⟩

end GoSelect
