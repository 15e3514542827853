import Verif.Model.Mat
import Verif.Model.Float
import Mathlib.Data.Real.Sqrt

/-!
# Normalised data

Model of util.go:123-178 and normalized_dataset.go.  Arithmetic is exact over the reals, division is
IEEE division where the divisor may vanish.
-/

namespace GoSelect

/-- util.go:123-129 `Mean`.  (An empty slice gives NaN in Go; callers below never use that value.) -/
noncomputable def goMean (v : List ℝ) : ℝ := v.foldl (fun mu x => mu + x) 0 / v.length

/-- util.go:132-144 `Std`. -/
noncomputable def goStd (v : List ℝ) : ℝ :=
  if v.length ≤ 1 then 0
  else
    let mu := goMean v
    Real.sqrt (v.foldl (fun s x => s + (x - mu) * (x - mu)) 0 / (v.length - 1 : ℝ))

open Classical in
/-- util.go:147-154 `NormalizeArray`. -/
noncomputable def normalizeArray (v : List ℝ) : List (Fl ℝ) :=
  let mu := goMean v
  let std := goStd v
  v.map (fun x => Fl.divFin (x - mu) std)

/-- Column `col` of a matrix, as copied to `tmp`. -/
def colOf {K : Type} (X : Mat K) (col : Nat) : List K := (List.range X.nr).map (fun r => X.get r col)

/-- util.go:165-178 `NormalizeCols`: columns one after the other, each read before it is written. -/
noncomputable def normalizeCols (X : Mat ℝ) : Mat (Fl ℝ) :=
  (List.range X.nc).foldl (fun M col =>
    let tmp := normalizeArray (colOf X col)
    ⟨M.nr, M.nc, fun r c => if c = col ∧ r < X.nr then tmp.getD r .nan else M.get r c⟩)
    ⟨X.nr, X.nc, fun r c => .fin (X.get r c)⟩

/-- util.go:157-162 `NormalizeRows`. -/
noncomputable def normalizeRows (X : Mat ℝ) : Mat (Fl ℝ) :=
  ⟨X.nr, X.nc, fun r c => (normalizeArray ((List.range X.nc).map (X.get r))).getD c .nan⟩

/-- normalized_dataset.go:11-19 `NormalizedData`. -/
structure NormalizedData where
  X : Mat ℝ
  y : List (Fl ℝ)
  std : List ℝ
  mu : List ℝ
  stdY : ℝ
  muY : ℝ
  hasBias : Bool

open Classical in
/-- normalized_dataset.go:40-62: column `c`.  `none`: the panic of line 50. -/
noncomputable def normColumn (d : NormalizedData) (c : Nat) : Option NormalizedData :=
  let tmp := colOf d.X c
  let std := goStd tmp
  let mu := goMean tmp
  if std < 1 / 10 ^ 10 ∧ c ≠ 0 then none
  else
    let stdtmp := if std < 1 / 10 ^ 10 then 1 else std
    some {
      d with
      std := d.std.set c std
      mu := d.mu.set c mu
      hasBias := if std < 1 / 10 ^ 10 then true else d.hasBias
      X := ⟨d.X.nr, d.X.nc, fun r c' =>
        if c' = c ∧ r < d.X.nr then (tmp.getD r 0 - mu) / stdtmp else d.X.get r c'⟩ }

open Classical in
/-- normalized_dataset.go:23-64 `NewNormalizedData`.  The result shares `X` and `y` with the caller:
both arguments are overwritten by the fields of the result. -/
noncomputable def newNormalizedData (X : Mat ℝ) (y : List ℝ) : Option NormalizedData :=
  let stdY := goStd y
  let muY := goMean y
  (List.range X.nc).foldlM normColumn {
    X := X
    y := y.map (fun v => Fl.divFin (v - muY) stdY)
    std := List.replicate X.nc 0
    mu := List.replicate X.nc 0
    stdY := stdY
    muY := muY
    hasBias := false }

/-- lasso_lars.go:14-18 `LassoLarsNode`. -/
structure LassoLarsNode (K : Type) where
  coeff : List K
  lamb : K
  selection : List Nat
  deriving DecidableEq, Repr

/-- normalized_dataset.go:69-74; `none`: the panic, or the index out of range. -/
noncomputable def linearNormalizationTransformation (n : NormalizedData) (idx : Nat) (value : ℝ) :
    Option ℝ :=
  if idx = 0 ∧ n.hasBias = true then none
  else
    match n.std[idx]? with
    | none => none
    | some s => some (value * n.stdY / s)

/-- The loop of normalized_dataset.go:79-81, from selection number `i` on. -/
noncomputable def biasLoop (n : NormalizedData) (coeff : List ℝ) : List Nat → Nat → ℝ → Option ℝ
  | [], _, sum => some sum
  | v :: sel, i, sum =>
    match coeff[i]?, n.mu[v]?, n.std[v]? with
    | some c, some mu, some s => biasLoop n coeff sel (i + 1) (sum + c * mu / s)
    | _, _, _ => none

/-- normalized_dataset.go:77-83 `LinearTransformationBias`. -/
noncomputable def linearTransformationBias (n : NormalizedData) (selected : List Nat)
    (coeff : List ℝ) : Option ℝ :=
  match biasLoop n coeff selected 0 0 with
  | none => none
  | some sumShift => some (n.muY - n.stdY * sumShift)

/-- The loop of lasso_lars.go:255-257, from position `i` on. -/
noncomputable def unnormLoop (n : NormalizedData) : List Nat → Nat → List ℝ → Option (List ℝ)
  | [], _, coeff => some coeff
  | v :: sel, i, coeff =>
    match coeff[i]? with
    | none => none
    | some c =>
      match linearNormalizationTransformation n v c with
      | none => none
      | some c' => unnormLoop n sel (i + 1) (coeff.set i c')

/-- lasso_lars.go:253-269, one node. -/
noncomputable def unnormalizeNode (n : NormalizedData) (node : LassoLarsNode ℝ) :
    Option (LassoLarsNode ℝ) :=
  match linearTransformationBias n node.selection node.coeff with
  | none => none
  | some bias =>
    match unnormLoop n node.selection 0 node.coeff with
    | none => none
    | some coeff =>
      if n.hasBias then some { node with
        selection := 0 :: node.selection
        coeff := bias :: coeff }
      else some { node with coeff := coeff }

/-- lasso_lars.go:251-271 `Path2Unnormalized`.  Nodes are values here: a node that occurs twice in
the path would be transformed twice in Go. -/
noncomputable def path2Unnormalized (n : NormalizedData) (path : List (LassoLarsNode ℝ)) :
    Option (List (LassoLarsNode ℝ)) :=
  path.mapM (unnormalizeNode n)

end GoSelect
