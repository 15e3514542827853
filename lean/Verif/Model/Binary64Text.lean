import Verif.Model.FloatText
import Verif.Model.Binary64
import Mathlib.Tactic.Linarith
import Mathlib.Tactic.FieldSimp
import Mathlib.Tactic.Positivity
import Mathlib.Tactic.Ring

/-!
# Decimal numbers and `float64`

`strconv.ParseFloat(·, 64)` (csvIO.go:138) converts a decimal number to the nearest number of binary64, to the one with
the even significand if there are two; a number that is rounded to `2 ^ 1024` or more is an error.  Subnormal numbers
are modelled.
-/

namespace GoSelect

/-- The exponent of the last place of numbers of the size of `z`. -/
def lastPlaceQ (z : ℚ) : Int := max (Int.log 2 z - 52) (-1074)

/-- `z ≥ 0` rounded to binary64, without regard to the largest number. -/
def round64Q (z : ℚ) : ℚ := roundHalfEven (z / 2 ^ lastPlaceQ z) * 2 ^ lastPlaceQ z

/-- The magnitudes of finite numbers of binary64. -/
def Rep64 (q : ℚ) : Prop := ∃ (m : Nat) (e : Int), m < 2 ^ 53 ∧ -1074 ≤ e ∧ e ≤ 971 ∧ q = m * 2 ^ e

open Classical in
/-- `float64`: the finite numbers, and the conversion of decimal numbers in `strconv.ParseFloat`. -/
noncomputable def binary64 : FloatFormat where
  rep := Rep64
  zero := ⟨0, 0, by norm_num, by norm_num, by norm_num, by norm_num⟩
  round z := if h : Rep64 (round64Q z) then some ⟨round64Q z, h⟩ else none

end GoSelect
