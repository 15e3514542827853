import Verif.Model.Csv
import Mathlib.Algebra.Order.Floor.Ring
import Mathlib.Data.Rat.Floor

/-!
# Numbers in CSV files

Model of `fmt.Sprintf("%f", ·)` (csvIO.go:190, 193) and `strconv.ParseFloat(·, 64)` (csvIO.go:138) for finite numbers in
decimal notation.  The words for infinities and NaN: `Model.FloatArith`.  Hexadecimal numbers and underscores between
digits are not modelled.
-/

namespace GoSelect

/-- A number format: the magnitudes it has, and the one that is used for a decimal number (`none`: too large). -/
structure FloatFormat where
  rep : ℚ → Prop
  zero : rep 0
  round : ℚ → Option { q : ℚ // rep q }

/-- A number of the format: sign bit and magnitude. -/
structure FinFloat (F : FloatFormat) where
  neg : Bool
  mag : { q : ℚ // F.rep q }

instance (F : FloatFormat) : Zero (FinFloat F) := ⟨⟨false, ⟨0, F.zero⟩⟩⟩

/-- The value of a number. -/
def FinFloat.val {F : FloatFormat} (x : FinFloat F) : ℚ := if x.neg then -x.mag.1 else x.mag.1

/-- The integer closest to `q ≥ 0`, the even one if there are two. -/
def roundHalfEven (q : ℚ) : Nat :=
  let n := ⌊q⌋₊
  if q - n < 1 / 2 then n
  else if 1 / 2 < q - n then n + 1
  else if n % 2 = 0 then n else n + 1

/-- Exactly `k` digits of `n < 10 ^ k`. -/
def padDigits (k n : Nat) : List Char :=
  let d := Nat.toDigits 10 n
  List.replicate (k - d.length) '0' ++ d

/-- `%f`: six decimals, correctly rounded. -/
def formatF {F : FloatFormat} (x : FinFloat F) : String :=
  let n := roundHalfEven (x.mag.1 * 10 ^ 6)
  String.ofList ((if x.neg then ['-'] else []) ++ Nat.toDigits 10 (n / 10 ^ 6) ++ '.' :: padDigits 6 (n % 10 ^ 6))

/-- The exponent of `readFloat` in strconv/atof.go, behind the letter `e`. -/
def parseExponent (s : List Char) : Option Int :=
  let value (t : List Char) : Option Nat :=
    if t ≠ [] ∧ t.all Char.isDigit then some (Nat.ofDigitChars 10 t 0) else none
  match s with
  | '+' :: t => (value t).map (fun n : Nat => (n : Int))
  | '-' :: t => (value t).map (fun n : Nat => -(n : Int))
  | t => (value t).map (fun n : Nat => (n : Int))

/-- `readFloat` in strconv/atof.go: digits, a point and digits, an exponent; at least one digit.  `none`: a syntax
error. -/
def parseDecimal (s : List Char) : Option ℚ :=
  let whole := s.takeWhile Char.isDigit
  let rest := s.dropWhile Char.isDigit
  let frac := match rest with | '.' :: t => t.takeWhile Char.isDigit | _ => []
  let rest := match rest with | '.' :: t => t.dropWhile Char.isDigit | r => r
  if whole = [] ∧ frac = [] then none
  else
    let m : ℚ := Nat.ofDigitChars 10 (whole ++ frac) 0 / 10 ^ frac.length
    match rest with
    | [] => some m
    | c :: t => if c = 'e' ∨ c = 'E' then (parseExponent t).map (fun e => m * 10 ^ e) else none

/-- `strconv.ParseFloat`: a sign and a decimal number.  `none`: an error. -/
def parseFloat (F : FloatFormat) (s : String) : Option (FinFloat F) :=
  match s.toList with
  | '-' :: t => ((parseDecimal t).bind F.round).map (FinFloat.mk true)
  | '+' :: t => ((parseDecimal t).bind F.round).map (FinFloat.mk false)
  | t => ((parseDecimal t).bind F.round).map (FinFloat.mk false)

end GoSelect
