import Verif.Model.WeightsFl

/-!
# Grids in floating point

util.go:402-421 with a rounding after every operation, overflow at `2 ^ 1024`, infinities and NaN.  `rnd` rounds the result of an
operation; `logf x` and `expf x` are what `math.Log(x)` and `math.Exp(x)` return for numbers (before overflow).  (On some platforms,
not on amd64, the compiler fuses the multiplication and the addition of line 417; the model rounds both.)
-/

namespace GoSelect

noncomputable section

open Classical in
/-- `math.Log`. -/
def logFl (logf : ℝ → ℝ) : Fl ℝ → Fl ℝ
  | .nan => .nan
  | .posInf => .posInf
  | .negInf => .nan
  | .fin x => if x < 0 then .nan else if x = 0 then .negInf else .fin (logf x)

/-- util.go:402-421 `Logspace`; `none`: `make` panics. -/
def logspaceFl (rnd logf expf : ℝ → ℝ) (min max : Fl ℝ) (num : Int) : Option (List (Fl ℝ)) :=
  if num = 0 then some []
  else if num = 1 then some [min]
  else if num < 0 then none
  else
    let logMax := logFl logf max
    let logMin := logFl logf min
    let step := roundFl rnd (Fl.div (roundFl rnd (Fl.sub logMax logMin)) (.fin (rnd ((num - 1 : Int) : ℝ))))
    some ((List.range num.toNat).map (fun i : Nat =>
      let logVal := roundFl rnd (Fl.add logMin (roundFl rnd (Fl.mul step (.fin (rnd (i : ℝ))))))
      expFl expf logVal))

end

end GoSelect
