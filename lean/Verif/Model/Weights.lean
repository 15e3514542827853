import Mathlib.Analysis.SpecialFunctions.Exp
import Mathlib.Analysis.SpecialFunctions.Log.Basic
import Verif.Model.Criteria

/-! util.go:215-224, 275-292 and 402-421 over the reals. -/

namespace GoSelect

/-- util.go:215-224 `MinFloat`. The start value is `math.MaxFloat64`. -/
noncomputable def minFloat (a : List ℝ) : ℝ :=
  a.foldl (fun min v => if v < min then v else min) maxFloat64

/-- util.go:275-292 `WeightsFromAIC`: the weights and the argument afterwards (lines 279-281 write
to it). -/
noncomputable def weightsFromAIC (aic : List ℝ) : List ℝ × List ℝ :=
  let min := minFloat aic
  let aic := aic.map (fun v => v - min)
  let sumW := aic.foldl (fun s v => s + Real.exp (-v)) 0
  (aic.map (fun v => Real.exp (-v) / sumW), aic)

open Classical in
/-- util.go:402-421 `Logspace`.  `none`: `make` panics for a negative count, or the grid has values that are not numbers, since
the logarithm of `min` or `max` is not a number (`Model.LogspaceFl`). -/
noncomputable def logspace (min max : ℝ) (num : Int) : Option (List ℝ) :=
  if num = 0 then some []
  else if num = 1 then some [min]
  else if num < 0 then none
  else if min ≤ 0 ∨ max ≤ 0 then none
  else
    let logMax := Real.log max
    let logMin := Real.log min
    let step := (logMax - logMin) / ((num - 1 : Int) : ℝ)
    some ((List.range num.toNat).map (fun i : Nat => Real.exp (logMin + step * (i : ℝ))))

end GoSelect
