import Mathlib.Analysis.SpecialFunctions.Log.Base
import Mathlib.Analysis.SpecialFunctions.Pow.Real

/-! util.go:73-76 over the real numbers (floating-point rounding is not modelled). -/

namespace GoSelect

/-- util.go:73-76 `NewLog2Pruned`. -/
noncomputable def newLog2Pruned (current : ℝ) (numPruned : Int) : ℝ :=
  let diff := (numPruned : ℝ) - current
  current + Real.logb 2 (1 + (2 : ℝ) ^ diff)

/-- The variable `log2Pruned` of `SelectModel` (optimize.go:94, 149) after the levels `levels`
(latest first) were received from `pruneCh`. -/
noncomputable def log2Pruned (ncols : Nat) : List Nat → ℝ
  | [] => 0
  | l :: ls => newLog2Pruned (log2Pruned ncols ls) ((ncols : Int) - l)

end GoSelect
