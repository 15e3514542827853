import Verif.Model.JsonText
import Verif.Model.LassoPlots

/-!
# Data sets, nodes, highscore lists and lasso paths as JSON texts

What `json.Marshal` and `json.Unmarshal` make of the structures csvIO.go:203-209 `JSONDataset`, node.go:78-86
`nodeJsonified`, highscore.go:85-91, 96-99 and lassoPlot.go:18-23 `LassoLarsPath` with lasso_lars.go:14-18
`LassoLarsNode`.  Slices that are nil are written as `null`; the model has no nil slices and writes `[]`; both are read
as no elements.  Integers have any size.  Names of members are compared without regard to the case of ASCII letters.  A
negative `level` and `null` for a node are not modelled.
-/

namespace GoSelect

/-! ## Numbers -/

/-- How numbers are written (`none`: `UnsupportedValueError`, for NaN and infinities) and read. -/
structure NumberText (α : Type) where
  write : α → Option (List Char)
  read : List Char → Option α

/-- The mantissa and exponent that `strconv.AppendFloat(·, ·, -1, 64)` chooses for the magnitudes of a format: digits that
are read as this number. -/
structure Digits (F : FloatFormat) where
  digits : { q : ℚ // F.rep q } → Nat
  exponent : { q : ℚ // F.rep q } → Int

/-- `%f` with all digits. -/
def plainNotation (d : Nat) (e : Int) : List Char :=
  let ds := Nat.toDigits 10 d
  let point : Int := ds.length + e
  if 0 ≤ e then ds ++ List.replicate e.toNat '0'
  else if 0 < point then ds.take point.toNat ++ '.' :: ds.drop point.toNat
  else '0' :: '.' :: (List.replicate (-point).toNat '0' ++ ds)

/-- `%e` with all digits and the exponent without superfluous zero. -/
def expNotation (d : Nat) (e : Int) : List Char :=
  let ds := Nat.toDigits 10 d
  let x : Int := ds.length + e - 1
  ds.take 1 ++ (if ds.length = 1 then [] else '.' :: ds.drop 1) ++
    'e' :: (if x < 0 then '-' else '+') :: Nat.toDigits 10 x.natAbs

/-- The constant `1e-6`, converted to the format. -/
def smallestPlain (F : FloatFormat) : ℚ := ((F.round (1 / 10 ^ 6)).map Subtype.val).getD (1 / 10 ^ 6)

/-- `floatEncoder` of encoding/json.  The constant `1e21` is a number of binary64. -/
def floatLiteral {F : FloatFormat} (D : Digits F) (x : FinFloat F) : List Char :=
  (if x.neg then ['-'] else []) ++
    (if x.mag.1 ≠ 0 ∧ (x.mag.1 < smallestPlain F ∨ 10 ^ 21 ≤ x.mag.1) then expNotation (D.digits x.mag) (D.exponent x.mag)
      else plainNotation (D.digits x.mag) (D.exponent x.mag))

/-- Finite numbers of a format. -/
def floatText {F : FloatFormat} (D : Digits F) : NumberText (FinFloat F) where
  write x := some (floatLiteral D x)
  read s := parseFloat F (String.ofList s)

/-- Other numbers, written and read through those of `N`; `none`: no number of `N` has this value. -/
def NumberText.via {α β : Type} (N : NumberText β) (conv : α → Option β) (back : β → α) : NumberText α where
  write x := (conv x).bind N.write
  read s := (N.read s).map back

/-- The values of a format, without distinction of the two zeros. -/
abbrev FloatValue (F : FloatFormat) : Type := { q : ℚ // F.rep |q| }

instance (F : FloatFormat) : Zero (FloatValue F) := ⟨⟨0, by rw [abs_zero]; exact F.zero⟩⟩

/-- The value of a number of the format. -/
def FinFloat.value {F : FloatFormat} (hF : ∀ q, F.rep q → 0 ≤ q) (x : FinFloat F) : FloatValue F :=
  ⟨x.val, by
    have h := x.mag.2
    unfold FinFloat.val
    split
    · rw [abs_neg, abs_of_nonneg (hF _ h)]; exact h
    · rw [abs_of_nonneg (hF _ h)]; exact h⟩

/-- Texts of values. -/
def valueText {F : FloatFormat} (hF : ∀ q, F.rep q → 0 ≤ q) (D : Digits F) : NumberText (FloatValue F) :=
  (floatText D).via (fun q => some ⟨decide (q.1 < 0), ⟨|q.1|, q.2⟩⟩) (FinFloat.value hF)

/-- Texts of real numbers; `near` is the number of the format that stands for a real number. -/
noncomputable def realText {F : FloatFormat} (near : ℝ → FinFloat F) (D : Digits F) : NumberText ℝ :=
  (floatText D).via (fun x => some (near x)) (fun f => (f.val : ℝ))

/-- `intEncoder`. -/
def intLiteral (n : Int) : List Char := (if n < 0 then ['-'] else []) ++ Nat.toDigits 10 n.natAbs

/-- `strconv.ParseInt`. -/
def parseInt (s : List Char) : Option Int :=
  let value (t : List Char) : Option Nat :=
    if t ≠ [] ∧ t.all Char.isDigit then some (Nat.ofDigitChars 10 t 0) else none
  match s with
  | '-' :: t => (value t).map (fun n : Nat => -(n : Int))
  | t => (value t).map (fun n : Nat => (n : Int))

/-! ## Values -/

section
variable {α : Type}

/-- A number. -/
def numberJson (N : NumberText α) (x : α) : Option Json := (N.write x).map .num

/-- Numbers. -/
def numbersJson (N : NumberText α) (l : List α) : Option Json := (l.mapM (numberJson N)).map .arr

def intJson (n : Int) : Json := .num (intLiteral n)

def intsJson (l : List Int) : Json := .arr (l.map intJson)

def stringJson (s : String) : Json := .str s.toList

/-- `null` leaves the number 0. -/
def numberOfJson [Zero α] (N : NumberText α) : Json → Option α
  | .num lit => N.read lit
  | .null => some 0
  | _ => none

def intOfJson : Json → Option Int
  | .num lit => parseInt lit
  | .null => some 0
  | _ => none

def stringOfJson : Json → Option String
  | .str s => some (String.ofList s)
  | .null => some ""
  | _ => none

/-- A slice; `null` is nil. -/
def listOfJson {β : Type} (f : Json → Option β) : Json → Option (List β)
  | .arr l => l.mapM f
  | .null => some []
  | _ => none

/-- A natural number. -/
def natOfJson (j : Json) : Option Nat := (intOfJson j).bind (fun n => if 0 ≤ n then some n.toNat else none)

/-- The name of a member without regard to case. -/
def foldName (k : List Char) : List Char := k.map Char.toLower

/-- The last member with this name; `null`, which changes nothing, if there is none. -/
def member (l : List (List Char × Json)) (name : String) : Json :=
  match l.reverse.find? (fun p => foldName p.1 == foldName name.toList) with
  | some p => p.2
  | none => .null

/-! ## Data sets (csvIO.go:203-209) -/

def datasetJson (N : NumberText α) (d : JSONDataset α) : Option Json := do
  let x ← numbersJson N d.X
  let y ← numbersJson N d.Y
  return .obj [("X".toList, x), ("Y".toList, y), ("TargetCol".toList, intJson d.targetCol),
    ("Names".toList, .arr (d.names.map stringJson)), ("Nr".toList, intJson d.nr), ("Nc".toList, intJson d.nc)]

def datasetOfJson [Zero α] (N : NumberText α) : Json → Option (JSONDataset α)
  | .obj l => do
    let x ← listOfJson (numberOfJson N) (member l "X")
    let y ← listOfJson (numberOfJson N) (member l "Y")
    let t ← intOfJson (member l "TargetCol")
    let names ← listOfJson stringOfJson (member l "Names")
    let nr ← natOfJson (member l "Nr")
    let nc ← natOfJson (member l "Nc")
    return ⟨x, y, t, names, nr, nc⟩
  | _ => none

/-! ## Nodes (node.go:78-86) and highscore lists (highscore.go:85-91, 96-99) -/

def nodeJson (N : NumberText α) (n : NodeJson α) : Option Json := do
  let lower ← numberJson N n.lower
  let upper ← numberJson N n.upper
  let score ← numberJson N n.score
  let coeff ← numbersJson N n.coeff
  return .obj [("selected".toList, intsJson n.selected), ("totNumFeatures".toList, intJson n.totNumFeatures),
    ("lower".toList, lower), ("upper".toList, upper), ("score".toList, score), ("level".toList, intJson n.level),
    ("coeff".toList, coeff)]

def nodeOfText [Zero α] (N : NumberText α) : Json → Option (NodeJson α)
  | .obj l => do
    let selected ← listOfJson intOfJson (member l "selected")
    let tot ← intOfJson (member l "totNumFeatures")
    let lower ← numberOfJson N (member l "lower")
    let upper ← numberOfJson N (member l "upper")
    let score ← numberOfJson N (member l "score")
    let level ← natOfJson (member l "level")
    let coeff ← listOfJson (numberOfJson N) (member l "coeff")
    return ⟨selected, tot, lower, upper, score, level, coeff⟩
  | _ => none

def highscoreJson (N : NumberText α) (h : HighscoreJson α) : Option Json := do
  let items ← h.items.mapM (nodeJson N)
  return .obj [("maxItems".toList, intJson h.maxItems), ("items".toList, .arr items)]

def highscoreOfText [Zero α] (N : NumberText α) : Json → Option (HighscoreJson α)
  | .obj l => do
    let m ← intOfJson (member l "maxItems")
    let items ← listOfJson (nodeOfText N) (member l "items")
    return ⟨m, items⟩
  | _ => none

/-- `json.Marshal` of something that becomes `v`. -/
def marshalText (v : Option Json) : Option String := v.map (fun j => String.ofList (jsonText j))

/-- `json.Unmarshal`. -/
def unmarshalText {β : Type} (f : Json → Option β) (text : String) : Option β := (jsonParse text.toList).bind f

end

/-! ## Lasso paths (lasso_lars.go:14-18, lassoPlot.go:18-23) -/

def larsNodeJson (N : NumberText ℝ) (n : LassoLarsNode ℝ) : Option Json := do
  let coeff ← numbersJson N n.coeff
  let lamb ← numberJson N n.lamb
  return .obj [("Coeff".toList, coeff), ("Lamb".toList, lamb), ("Selection".toList, intsJson (n.selection.map Int.ofNat))]

def larsNodeOfJson (N : NumberText ℝ) : Json → Option (LassoLarsNode ℝ)
  | .obj l => do
    let coeff ← listOfJson (numberOfJson N) (member l "Coeff")
    let lamb ← numberOfJson N (member l "Lamb")
    let sel ← listOfJson natOfJson (member l "Selection")
    return ⟨coeff, lamb, sel⟩
  | _ => none

def lassoFileJson (N : NumberText ℝ) (f : LassoFileJson) : Option Json := do
  let dset ← datasetJson N f.dset
  let nodes ← f.nodes.mapM (larsNodeJson N)
  let aicc ← numbersJson N f.aicc
  let bic ← numbersJson N f.bic
  return .obj [("Dset".toList, dset), ("LassoLarsNodes".toList, .arr nodes), ("Aicc".toList, aicc), ("Bic".toList, bic)]

def lassoFileOfJson (N : NumberText ℝ) : Json → Option LassoFileJson
  | .obj l => do
    let dset ← datasetOfJson N (member l "Dset")
    let nodes ← listOfJson (larsNodeOfJson N) (member l "LassoLarsNodes")
    let aicc ← listOfJson (numberOfJson N) (member l "Aicc")
    let bic ← listOfJson (numberOfJson N) (member l "Bic")
    return ⟨dset, nodes, aicc, bic⟩
  | _ => none

end GoSelect
