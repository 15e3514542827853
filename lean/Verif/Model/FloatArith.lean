import Verif.Model.Criteria
import Verif.Model.FloatText
import Verif.Model.NestedLasso

/-!
# Arithmetic with infinities and NaN

The rules of IEEE 754 and of package math for NaN and infinities; finite numbers are exact, zeros have no sign.  What
the linear algebra of gonum makes of values that are not finite is a parameter (`Blas`).
-/

namespace GoSelect

namespace Fl

variable {K : Type}

def neg [Neg K] : Fl K → Fl K
  | nan => nan
  | posInf => negInf
  | negInf => posInf
  | fin a => fin (-a)

def sub [Add K] [Neg K] (a b : Fl K) : Fl K := add a (neg b)

/-- Infinity with the sign of `a`; NaN for 0. -/
def infOf [Zero K] [LT K] [DecidableLT K] (a : K) : Fl K := if 0 < a then posInf else if a < 0 then negInf else nan

/-- Multiplication: 0 times infinity is NaN. -/
def mul [Zero K] [Mul K] [Neg K] [LT K] [DecidableLT K] : Fl K → Fl K → Fl K
  | nan, _ => nan
  | _, nan => nan
  | fin a, fin b => fin (a * b)
  | posInf, posInf => posInf
  | negInf, negInf => posInf
  | posInf, negInf => negInf
  | negInf, posInf => negInf
  | posInf, fin b => infOf b
  | negInf, fin b => infOf (-b)
  | fin a, posInf => infOf a
  | fin a, negInf => infOf (-a)

/-- Division; a divisor 0 is positive. -/
def div [Zero K] [Div K] [LT K] [DecidableLT K] [DecidableEq K] : Fl K → Fl K → Fl K
  | nan, _ => nan
  | _, nan => nan
  | fin a, fin b => divFin a b
  | fin _, _ => fin 0
  | posInf, fin b => if b < 0 then negInf else posInf
  | negInf, fin b => if b < 0 then posInf else negInf
  | _, _ => nan

/-- `math.Abs`. -/
def abs [Neg K] [Zero K] [LT K] [DecidableLT K] : Fl K → Fl K
  | nan => nan
  | fin a => fin (if a < 0 then -a else a)
  | _ => posInf

/-- `math.Max`: plus infinity also beside NaN. -/
def max [LT K] [DecidableLT K] : Fl K → Fl K → Fl K
  | posInf, _ => posInf
  | _, posInf => posInf
  | nan, _ => nan
  | _, nan => nan
  | negInf, b => b
  | a, negInf => a
  | fin a, fin b => fin (if a < b then b else a)

/-- A sum in a loop. -/
def sum [Zero K] [Add K] (l : List (Fl K)) : Fl K := l.foldl add (fin 0)

noncomputable section

open Classical in
/-- `math.Log`. -/
def log : Fl ℝ → Fl ℝ
  | nan => nan
  | posInf => posInf
  | negInf => nan
  | fin a => if 0 < a then fin (Real.log a) else if a = 0 then negInf else nan

/-- `math.Exp`. -/
def exp : Fl ℝ → Fl ℝ
  | nan => nan
  | posInf => posInf
  | negInf => fin 0
  | fin a => fin (Real.exp a)

open Classical in
/-- `math.Sqrt`. -/
def sqrt : Fl ℝ → Fl ℝ
  | nan => nan
  | posInf => posInf
  | negInf => nan
  | fin a => if 0 ≤ a then fin (Real.sqrt a) else nan

end

end Fl

noncomputable section

/-- criteria.go:17-19 `Aic`. -/
def aicFl (numFeat numData : Nat) (logL : Fl ℝ) : Fl ℝ :=
  Fl.add (.fin (2 * numFeat)) (Fl.mul (.fin numData) (Fl.log logL))

/-- criteria.go:23-30 `Aicc`. -/
def aiccFl (numFeat numData : Nat) (logL : Fl ℝ) : Fl ℝ :=
  let denum : ℝ := ((numData : Int) - numFeat - 1 : Int)
  let denum : ℝ := if (numFeat : Int) ≥ (numData : Int) - 1 then 1 else denum
  Fl.add (aicFl numFeat numData logL) (.fin (((2 * numFeat * numFeat + 2 * numFeat : Nat) : ℝ) / denum))

/-- criteria.go:33-35 `Bic`. -/
def bicFl (numFeat numData : Nat) (logL : Fl ℝ) : Fl ℝ :=
  Fl.add (Fl.mul (.fin numFeat) (Fl.log (.fin numData))) (Fl.mul (.fin numData) (Fl.log logL))

/-- What gonum computes from values that are not all finite: the coefficients of fit.go:19-48 for a response, and the
product of a matrix and a vector (fit.go:66). -/
structure Blas where
  fit : Mat ℝ → List (Fl ℝ) → List (Fl ℝ)
  mulVec : Mat ℝ → List (Fl ℝ) → List (Fl ℝ)

/-- fit.go:11-49 `Fit`, for any response. -/
def fitFl (B : Blas) (d : SVD ℝ) (X : Mat ℝ) (y : List (Fl ℝ)) : Option (List (Fl ℝ)) :=
  if X.nr ≠ y.length then none
  else
    match finValues y with
    | some v => (fit d X v).map (List.map .fin)
    | none => some (B.fit X y)

/-- fit.go:63-68 `Predict`, for any coefficients. -/
def predictFl (B : Blas) (X : Mat ℝ) (coeff : List (Fl ℝ)) : Option (List (Fl ℝ)) :=
  if coeff.length ≠ X.nc then none
  else
    match finValues coeff with
    | some c => (predict X c).map (List.map .fin)
    | none => some (B.mulVec X coeff)

/-- fit.go:75-87 `Rss`, for any coefficients and response. -/
def rssFl (B : Blas) (X : Mat ℝ) (coeff data : List (Fl ℝ)) : Option (Fl ℝ) :=
  match predictFl B X coeff with
  | none => none
  | some pred =>
    if data.length ≠ pred.length then none
    else some (Fl.sum ((List.range data.length).map (fun i =>
      let r := Fl.sub (pred.getD i .nan) (data.getD i .nan)
      Fl.mul r r)))

/-- simmulatedAnnealing.go:46-48 `GetDesignMatrix`, `Fit`, `Rss`, for any response. -/
def fitModelFl (B : Blas) (svd : Mat ℝ → SVD ℝ) (X : Mat ℝ) (y : List (Fl ℝ)) (model : List Bool) :
    Option (List (Fl ℝ) × Fl ℝ) :=
  match getDesignMatrix model X with
  | none => none
  | some design =>
    match fitFl B (svd design) design y with
    | none => none
    | some coeff =>
      match rssFl B design coeff y with
      | none => none
      | some r => some (coeff, r)

end

/-! ## Words for numbers -/

/-- `special` in strconv/atof.go: `nan`, and `inf` or `infinity` with or without a sign, in any case. -/
def parseSpecial {K : Type} (s : List Char) : Option (Fl K) :=
  let inf (t : List Char) : Bool := t.map Char.toLower = "inf".toList ∨ t.map Char.toLower = "infinity".toList
  match s with
  | '-' :: t => if inf t then some .negInf else none
  | '+' :: t => if inf t then some .posInf else none
  | t => if inf t then some .posInf else if t.map Char.toLower = "nan".toList then some .nan else none

/-- `strconv.ParseFloat`: a word for a number, or a decimal number.  `none`: an error. -/
def parseFloatFl (F : FloatFormat) (s : String) : Option (Fl (FinFloat F)) :=
  match parseSpecial s.toList with
  | some v => some v
  | none => (parseFloat F s).map .fin

end GoSelect
