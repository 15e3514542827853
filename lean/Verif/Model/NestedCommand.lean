import Verif.Model.LassoCommand
import Verif.Model.NestedLasso

/-!
# The nested lasso command

Model of the criteria of nestedLasso.go:41-48 and of cmdDepreciated/goselect-nestedlasso/main.go:12-25.  Reading the CSV
file is in `Model.Csv`; the data set is a parameter.  Arithmetic is exact, except that `math.Log` of 0 is minus
infinity.  Not modelled: a constant response; formatting; errors of the file system.
-/

namespace GoSelect

noncomputable section

/-- nestedLasso.go:9-13 `PureLassoLarsPathWithCrit`. -/
structure NestedPath where
  nodes : List (LassoLarsNode ℝ)
  aicc : List (Fl ℝ)
  bic : List (Fl ℝ)

/-- nestedLasso.go:17-20 `NestedLassoLars`. -/
structure NestedFile where
  dset : Dataset ℝ
  paths : List NestedPath

/-- nestedLasso.go:41-48: the criteria of the path of a round, on the current data set.  `none`: a panic of
`GetCriteria` or `PrintHighscore`. -/
def roundCriteria (sort : List (Fl ℝ × Nat) → List (Fl ℝ × Nat)) (cur : Dataset ℝ) (path : List (LassoLarsNode ℝ)) :
    Option (List (Fl ℝ) × List (Fl ℝ)) := do
  let a ← getCriteria cur.X cur.Y path (withLog aicc)
  let b ← getCriteria cur.X cur.Y path (withLog bic)
  let _ ← printHighscore sort path a b 10
  return (a, b)

/-- nestedLasso.go:34-66, one round with its criteria. -/
def nestedCritBody (lars : Mat ℝ → List ℝ → Option (List (LassoLarsNode ℝ)))
    (sort : List (Fl ℝ × Nat) → List (Fl ℝ × Nat)) (keep : ℝ) (data : Dataset ℝ)
    (s : NestedState × List (List (Fl ℝ) × List (Fl ℝ))) :
    Outcome (NestedState × List (List (Fl ℝ) × List (Fl ℝ)))
      (List (List (LassoLarsNode ℝ)) × List (List (Fl ℝ) × List (Fl ℝ))) :=
  match (lars s.1.cur.X s.1.cur.Y).bind (roundCriteria sort s.1.cur) with
  | none => .panic
  | some c =>
    match nestedBody lars keep data s.1 with
    | .panic => .panic
    | .ret paths => .ret (paths, s.2 ++ [c])
    | .next s' => .next (s', s.2 ++ [c])

/-- nestedLasso.go:24-74 `NestedLasso` returns `res`, with the criteria. -/
def NestedCritReturns (lars : Mat ℝ → List ℝ → Option (List (LassoLarsNode ℝ)))
    (sort : List (Fl ℝ × Nat) → List (Fl ℝ × Nat)) (keep : ℝ) (data : Dataset ℝ) (res : NestedFile) : Prop :=
  ∃ n0 cur raw crits n paths, normalizeInPlace data.copy = some (n0, cur) ∧
    Runs (nestedCritBody lars sort keep data) (⟨cur, []⟩, []) (raw, crits) ∧
    normalizeInPlace data = some (n, res.dset) ∧ raw.mapM (path2Unnormalized n) = some paths ∧
    res.paths = List.zipWith (fun p (c : List (Fl ℝ) × List (Fl ℝ)) => ⟨p, c.1, c.2⟩) paths crits

open Classical in
/-- `LassoLars` with `MorsePenroseCD` (line 14 of the command): the path it returns, if it does. -/
def morseLars (svd : Mat ℝ → SVD ℝ) (lambMin : ℝ) (X : Mat ℝ) (y : List ℝ) : Option (List (LassoLarsNode ℝ)) :=
  if h : ∃ path, LarsReturns X (fun r => y.getD r 0) lassoTol lambMin (morseEst svd X y) path then some h.choose
  else none

/-- goselect-nestedlasso/main.go:12-25 ends without panic: `res` is the result of `NestedLasso`, `out` what is written;
`none`: the error of `json.Marshal` is printed (lines 18-21). -/
def NestedCommand (svd : Mat ℝ → SVD ℝ) (sort : List (Fl ℝ × Nat) → List (Fl ℝ × Nat)) (lambMin keep : ℝ)
    (dset : Dataset ℝ) (res : NestedFile) (out : Option NestedFile) : Prop :=
  NestedCritReturns (morseLars svd lambMin) sort keep dset res ∧
    out = if res.paths.all (fun p => (p.aicc ++ p.bic).all Fl.isFin) then some res else none

/-- goselect-nestedlasso/main.go:28-32: the defaults of `lambMin` and `keep`. -/
def nestedDefaults : ℝ × ℝ := (1 / 10 ^ 10, 4 / 5)

end

end GoSelect
