import Verif.Model.FloatArith
import Verif.Model.Log2Float
import Verif.Model.Weights

/-!
# Model weights in floating point

util.go:215-224 and 275-292 with a rounding after every operation, overflow at `2 ^ 1024`, infinities and NaN.  `rnd` rounds
the result of an operation; `expf x` is what `math.Exp(x)` returns for a number (before overflow).
-/

namespace GoSelect

noncomputable section

/-- The rounded result of an operation. -/
def roundFl (rnd : ℝ → ℝ) : Fl ℝ → Fl ℝ
  | .fin x => Log2Lib.ovf (rnd x)
  | z => z

/-- `math.Exp`. -/
def expFl (expf : ℝ → ℝ) : Fl ℝ → Fl ℝ
  | .nan => .nan
  | .posInf => .posInf
  | .negInf => .fin 0
  | .fin x => Log2Lib.ovf (expf x)

/-- util.go:215-224 `MinFloat`. -/
def minFloatFl (a : List (Fl ℝ)) : Fl ℝ :=
  a.foldl (fun min v => if v < min then v else min) (.fin maxFloat64)

/-- util.go:275-292 `WeightsFromAIC`: the weights and the argument afterwards. -/
def weightsFromAICFl (rnd expf : ℝ → ℝ) (aic : List (Fl ℝ)) : List (Fl ℝ) × List (Fl ℝ) :=
  let min := minFloatFl aic
  let aic := aic.map (fun v => roundFl rnd (Fl.sub v min))
  let sumW := aic.foldl (fun s v => roundFl rnd (Fl.add s (expFl expf (Fl.neg v)))) (.fin 0)
  (aic.map (fun v => roundFl rnd (Fl.div (expFl expf (Fl.neg v)) sumW)), aic)

end

end GoSelect
