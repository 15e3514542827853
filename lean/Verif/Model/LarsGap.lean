import Verif.Model.CrdDescFl
import Verif.Model.Lars

/-!
# LARS on data with missing values

Model of the start of `LassoLars` (lasso_lars.go:50-106) in the lasso command (cmd/lasso.go:69-123, type lars) for data with
any values, with the rules of IEEE 754 for NaN and infinities (finite numbers are exact).  Inner products are computed by
gonum: `dot n a b`.  Only the first iteration is modelled.
-/

namespace GoSelect

noncomputable section

/-- `<=` of IEEE 754. -/
def Fl.le (a b : Fl ℝ) : Prop := a ≠ .nan ∧ b ≠ .nan ∧ ¬ b < a

open Classical in
/-- lasso_lars.go:190-207 in the first iteration, where `last.feat` is -1: the joining time from `num = Xy - XXeC` and
`b = XXeD`; `none`: the panic. -/
def joinTimeFl (lamb num b : Fl ℝ) : Option (Fl ℝ) :=
  let tpluss := Fl.div num (Fl.sub (.fin 1) b)
  let tminus := Fl.div num (Fl.sub (.fin (-1)) b)
  if Fl.le (.fin (-lassoTol)) tpluss ∧ Fl.le tpluss (Fl.add lamb (.fin lassoTol)) then some tpluss
  else if Fl.le (.fin (-lassoTol)) tminus ∧ Fl.le tminus (Fl.add lamb (.fin lassoTol)) then some tminus
  else none

/-- `Xe` times a vector (lasso_lars.go:174-175, 179-180), row `r`. -/
def larsFitFl (dot : Nat → (Nat → Fl ℝ) → (Nat → Fl ℝ) → Fl ℝ) (Z : Mat (Fl ℝ)) (active : List Nat) (v : List (Fl ℝ))
    (r : Nat) : Fl ℝ :=
  dot active.length (fun k => Z.get r (active.getD k 0)) (fun k => v.getD k (.fin 0))

/-- lasso_lars.go:165-210 `tJoin` in the first iteration. -/
def tJoinFl (dot : Nat → (Nat → Fl ℝ) → (Nat → Fl ℝ) → Fl ℝ) (Z : Mat (Fl ℝ)) (y : Nat → Fl ℝ) (lamb : Fl ℝ)
    (active : List Nat) (c d : List (Fl ℝ)) : Option (List (Fl ℝ)) :=
  (List.range Z.nc).mapM (fun i => joinTimeFl lamb
    (Fl.sub (xTyFl dot Z y i) (dot Z.nr (fun r => Z.get r i) (larsFitFl dot Z active c)))
    (dot Z.nr (fun r => Z.get r i) (larsFitFl dot Z active d)))

/-- lasso_lars.go:58-66: the largest time and its feature. -/
def larsFirstFl (f : Nat → Fl ℝ) (n : Nat) : Fl ℝ × Nat :=
  (List.range n).foldl (fun m i => if m.1 < Fl.abs (f i) then (Fl.abs (f i), i) else m) (.fin 0, 0)

/-- lasso_lars.go:84-106: the first iteration reaches its first node. -/
def larsFirstNode (dot : Nat → (Nat → Fl ℝ) → (Nat → Fl ℝ) → Fl ℝ)
    (est : List Nat → List (Fl ℝ) → Option (List (Fl ℝ) × List (Fl ℝ))) (Z : Mat (Fl ℝ)) (y : Nat → Fl ℝ) : Bool :=
  let m := larsFirstFl (xTyFl dot Z y) Z.nc
  let sign : Fl ℝ := if xTyFl dot Z y m.2 < .fin 0 then .fin (-1) else .fin 1
  match est [m.2] [sign] with
  | none => false
  | some (c, d) =>
    if c.length ≠ 1 ∨ d.length ≠ 1 then false
    else (tJoinFl dot Z y m.1 [m.2] c d).isSome

open Classical in
/-- cmd/lasso.go:69-78, 98-123 for data with any values.  Without nodes the criteria and the table are empty, and
`json.Marshal` (line 111) fails if and only if the data set has a value that is not finite. -/
def larsGapStart (dot : Nat → (Nat → Fl ℝ) → (Nat → Fl ℝ) → Fl ℝ)
    (est : List Nat → List (Fl ℝ) → Option (List (Fl ℝ) × List (Fl ℝ))) (X : Mat (Fl ℝ)) (y : List (Fl ℝ))
    (lambMin : ℝ) : LarsStart :=
  match normalizedMatrixFl X with
  | none => .panic
  | some Z =>
    if X.nr = 0 ∨ X.nc = 0 ∨ y.length ≠ X.nr then .panic
    else if Fl.fin lambMin < (larsFirstFl (xTyFl dot Z (fun r => (normalizedResponse y).getD r .nan)) Z.nc).1 then
      if larsFirstNode dot est Z (fun r => (normalizedResponse y).getD r .nan) then .iterates else .panic
    else .empty (decide ((∀ v ∈ y, v.isFin = true) ∧ ∀ c < X.nc, ∀ r < X.nr, (X.get r c).isFin = true))

end

end GoSelect
