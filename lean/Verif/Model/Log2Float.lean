import Verif.Model.FloatArith
import Verif.Model.Progress

/-!
# The number of pruned models in floating point

util.go:73-76 `NewLog2Pruned` with rounded operations that overflow to infinity at `2 ^ 1024`.  `rnd` rounds the result of
an operation, `pow2 d` and `log2f x` are what `math.Pow(2, d)` and `math.Log2(x)` return for numbers (before overflow).
-/

namespace GoSelect

/-- What the library makes of rounding, powers of two, and logarithms. -/
structure Log2Lib where
  rnd : ℝ → ℝ
  pow2 : ℝ → ℝ
  log2f : ℝ → ℝ

noncomputable section

namespace Log2Lib

variable (L : Log2Lib)

open Classical in
/-- Overflow. -/
def ovf (x : ℝ) : Fl ℝ := if 2 ^ 1024 ≤ x then .posInf else if x ≤ -2 ^ 1024 then .negInf else .fin x

/-- Addition. -/
def add : Fl ℝ → Fl ℝ → Fl ℝ
  | .fin a, .fin b => ovf (L.rnd (a + b))
  | a, b => Fl.add a b

/-- Subtraction. -/
def sub (a b : Fl ℝ) : Fl ℝ := L.add a (Fl.neg b)

/-- `math.Pow(2, x)`. -/
def pow : Fl ℝ → Fl ℝ
  | .nan => .nan
  | .posInf => .posInf
  | .negInf => .fin 0
  | .fin d => ovf (L.pow2 d)

open Classical in
/-- `math.Log2`. -/
def log : Fl ℝ → Fl ℝ
  | .nan => .nan
  | .posInf => .posInf
  | .negInf => .nan
  | .fin x => if x < 0 then .nan else if x = 0 then .negInf else .fin (L.log2f x)

/-- util.go:73-76 `NewLog2Pruned`. -/
def newLog2PrunedFl (current : Fl ℝ) (numPruned : Int) : Fl ℝ :=
  let diff := L.sub (.fin (L.rnd numPruned)) current
  L.add current (L.log (L.add (.fin 1) (L.pow diff)))

/-- As `log2Pruned`: the variable `log2Pruned` of `SelectModel` (optimize.go:94, 149) after the levels `levels` (latest first)
were received. -/
def log2PrunedFl (ncols : Nat) : List Nat → Fl ℝ
  | [] => .fin 0
  | l :: ls => newLog2PrunedFl L (log2PrunedFl ncols ls) ((ncols : Int) - l)

end Log2Lib

end

end GoSelect
