import Verif.Model.Normalize
import Mathlib.Data.Int.Log

/-!
# Rounding to binary64

The number that an arithmetic operation of Go on `float64` returns is the exact result rounded to the nearest number of
the format, to the one with the even significand if there are two (IEEE 754, round to nearest even).  Subnormal numbers
are modelled; overflow is not: the numbers of the model have no largest exponent.  Zeros have no sign.
-/

namespace GoSelect

noncomputable section

/-- The integer closest to `x`, the even one if there are two. -/
def roundEven (x : ℝ) : Int :=
  if x - ⌊x⌋ < 1 / 2 then ⌊x⌋
  else if 1 / 2 < x - ⌊x⌋ then ⌊x⌋ + 1
  else if ⌊x⌋ % 2 = 0 then ⌊x⌋ else ⌊x⌋ + 1

/-- The exponent of the last place of numbers of the size of `x`: 53 significant binary digits, but no digits below
`2 ^ (-1074)`. -/
def lastPlace (x : ℝ) : Int := max (Int.log 2 |x| - 52) (-1074)

/-- Rounding to binary64. -/
def rnd64 (x : ℝ) : ℝ := roundEven (x / 2 ^ lastPlace x) * 2 ^ lastPlace x

/-- Rounding to 53 binary digits, with exponents of any size: binary64 without underflow. -/
def rnd53 (x : ℝ) : ℝ := roundEven (x / 2 ^ (Int.log 2 |x| - 52)) * 2 ^ (Int.log 2 |x| - 52)

/-! ### Normalisation with rounding after every operation -/

/-- util.go:123-129 `Mean`. -/
def meanRnd (rnd : ℝ → ℝ) (v : List ℝ) : ℝ := rnd (v.foldl (fun mu x => rnd (mu + x)) 0 / rnd v.length)

/-- util.go:132-144 `Std`.  `math.Sqrt` is correctly rounded.  (On some platforms, not on amd64, the compiler fuses the
multiplication and the addition of line 141 into one operation; the model rounds both.) -/
def stdRnd (rnd : ℝ → ℝ) (v : List ℝ) : ℝ :=
  if v.length ≤ 1 then 0
  else
    let mu := meanRnd rnd v
    rnd (Real.sqrt (rnd (v.foldl (fun s x => rnd (s + rnd (rnd (x - mu) * rnd (x - mu)))) 0 / rnd (v.length - 1 : ℝ))))

open Classical in
/-- util.go:147-154 `NormalizeArray`. -/
def normalizeArrayRnd (rnd : ℝ → ℝ) (v : List ℝ) : List (Fl ℝ) :=
  let mu := meanRnd rnd v
  let std := stdRnd rnd v
  v.map (fun x => if std = 0 then Fl.divFin (rnd (x - mu)) std else .fin (rnd (rnd (x - mu) / std)))

open Classical in
/-- normalized_dataset.go:40-62: column `c`.  `none`: the panic of line 50.  `1e-10` in line 48 is the number of the
format closest to it. -/
def normColumnRnd (rnd : ℝ → ℝ) (d : NormalizedData) (c : Nat) : Option NormalizedData :=
  let tmp := colOf d.X c
  let std := stdRnd rnd tmp
  let mu := meanRnd rnd tmp
  if std < rnd (1 / 10 ^ 10) ∧ c ≠ 0 then none
  else
    let stdtmp := if std < rnd (1 / 10 ^ 10) then 1 else std
    some {
      d with
      std := d.std.set c std
      mu := d.mu.set c mu
      hasBias := if std < rnd (1 / 10 ^ 10) then true else d.hasBias
      X := ⟨d.X.nr, d.X.nc, fun r c' =>
        if c' = c ∧ r < d.X.nr then rnd (rnd (tmp.getD r 0 - mu) / stdtmp) else d.X.get r c'⟩ }

/-- normalized_dataset.go:23-64 `NewNormalizedData`. -/
def newNormalizedDataRnd (rnd : ℝ → ℝ) (X : Mat ℝ) (y : List ℝ) : Option NormalizedData :=
  (List.range X.nc).foldlM (normColumnRnd rnd) {
    X := X
    y := normalizeArrayRnd rnd y
    std := List.replicate X.nc 0
    mu := List.replicate X.nc 0
    stdY := stdRnd rnd y
    muY := meanRnd rnd y
    hasBias := false }

end

end GoSelect
