import Verif.Model.Loop
import Verif.Model.Normalize
import Verif.Model.PseudoInverse
import Mathlib.Algebra.Order.Field.Basic
import Mathlib.Algebra.Order.Group.Abs
import Mathlib.Data.List.Sort

/-!
# The LARS path

Model of lasso_lars.go:50-248.  `X` and `y` are the matrix and the response of the `NormalizedData`; the code
uses nothing else of it.  Arithmetic is exact; divisions are IEEE divisions.  `tol` is `lassoTol`.  The
`CDParam` estimator is a parameter: `est k active signs` are the vectors `C(y)` and `D(signs)` in iteration `k`.
-/

namespace GoSelect

open Finset

section
variable {K : Type} [Field K] [LinearOrder K]

/-- lasso_lars.go:11 `lassoTol`. -/
def lassoTol : K := 1 / 10 ^ 6

/-- `lambJoin` (lines 55-56), `Xy` (lines 170-171): `Xᵀ y`. -/
def larsXy (X : Mat K) (y : Nat → K) (i : Nat) : K := ∑ r ∈ range X.nr, X.get r i * y r

/-- `Xe` times a vector (lines 174-175, 179-180, 237-238), row `r`. -/
def larsFit (X : Mat K) (active : List Nat) (v : List K) (r : Nat) : K :=
  ∑ k ∈ range active.length, X.get r (active.getD k 0) * v.getD k 0

/-- `XXeC`, `XXeD` (lines 176-177, 181-182). -/
def larsXX (X : Mat K) (active : List Nat) (v : List K) (i : Nat) : K :=
  ∑ r ∈ range X.nr, X.get r i * larsFit X active v r

/-- A time that lies in the interval of lines 200 and 202; infinities and NaN fail the test. -/
def timeIn (lo hi : K) : Fl K → Option K
  | .fin t => if lo ≤ t ∧ t ≤ hi then some t else none
  | _ => none

/-- lasso_lars.go:190-207: the joining time of feature `i` from `num = Xy - XXeC` and `b = XXeD`; `none`: the
panic. -/
def joinTime (tol lamb : K) (last : Option (Nat × K)) (i : Nat) (num b : K) : Option K :=
  let tpluss := match last with
    | some (f, coeff) => if f = i ∧ coeff > 0 then .fin (-10) else Fl.divFin num (1 - b)
    | none => Fl.divFin num (1 - b)
  let tminus := match last with
    | some (f, coeff) => if f = i ∧ coeff < 0 then .fin (-10) else Fl.divFin num (-1 - b)
    | none => Fl.divFin num (-1 - b)
  match timeIn (-tol) (lamb + tol) tpluss with
  | some t => some t
  | none => timeIn (-tol) (lamb + tol) tminus

/-- lasso_lars.go:165-210 `tJoin`. -/
def tJoin (X : Mat K) (y : Nat → K) (tol lamb : K) (active : List Nat) (c d : List K) (last : Option (Nat × K)) :
    Option (List K) :=
  (List.range X.nc).mapM (fun i =>
    joinTime tol lamb last i (larsXy X y i - larsXX X active c i) (larsXX X active d i))

/-- lasso_lars.go:216-221: one crossing time; `none`: NaN or minus infinity, which are never larger than
`maxVal` in line 156. -/
def crossTime (tol lamb c d : K) : Option K :=
  match Fl.divFin c d with
  | .fin ratio => some (if ratio + tol > lamb then 0 else ratio)
  | .posInf => some 0
  | _ => none

/-- lasso_lars.go:213-224 `tCross`. -/
def tCross (tol lamb : K) (c d : List K) : List (Option K) :=
  (List.range c.length).map (fun i => crossTime tol lamb (c.getD i 0) (d.getD i 0))

/-- The loops of lines 141-148 and 153-160: value and index. -/
def maxTime (v : List (Option K)) : K × Nat :=
  v.zipIdx.foldl (fun s ti => match ti.1 with
    | some t => if t > s.1 then (t, ti.2) else s
    | none => s) (0, 0)

/-- lasso_lars.go:135-150 `maxJoinTime`. -/
def maxJoinTime (v : List K) (active : List Nat) : K × Nat :=
  maxTime ((active.foldl (fun v ind => v.set ind (-1)) v).map some)

/-- lasso_lars.go:227-234 `betaLARS`. -/
def betaLARS (c d : List K) (lamb : K) : List K :=
  (List.range c.length).map (fun i => c.getD i 0 - lamb * d.getD i 0)

/-- lasso_lars.go:236-248 `joinFeatSign`. -/
def joinFeatSign (X : Mat K) (y : Nat → K) (jFeat : Nat) (active : List Nat) (coeff : List K) : K :=
  if ∑ r ∈ range X.nr, X.get r jFeat * (y r - larsFit X active coeff r) > 0 then 1 else -1

/-- The columns `active` (`NewIndexedColView`, lasso_cd.go:80). -/
def activeCols (X : Mat K) (active : List Nat) : Mat K :=
  ⟨X.nr, active.length, fun r k => X.get r (active.getD k 0)⟩

/-- lasso_cd.go:39-83: `MorsePenroseCD` as an estimator; `svd` are the decompositions that gonum computes. -/
def morseEst (svd : Mat K → SVD K) (X : Mat K) (y : List K) (_ : Nat) (active : List Nat) (signs : List K) :
    Option (List K × List K) :=
  let Xe := activeCols X active
  (morsePenroseC (svd Xe) Xe y).bind (fun c => (morsePenroseD (svd Xe) Xe signs).map (fun d => (c, d)))

/-- The variables of the loop; `last` is `none` when `last.feat` is -1. -/
structure LarsState (K : Type) where
  lamb : K
  activeSet : List Nat
  allSigns : Nat → K
  last : Option (Nat × K)
  res : List (LassoLarsNode K)

/-- lasso_lars.go:51-81; `none`: a vector of length 0. -/
def larsInit (X : Mat K) (y : Nat → K) : Option (LarsState K) :=
  if X.nr = 0 ∨ X.nc = 0 then none
  else
    let m := maxTime ((List.range X.nc).map (fun i => some |larsXy X y i|))
    some {
      lamb := m.1
      activeSet := [m.2]
      allSigns := fun i => if i = m.2 then (if larsXy X y m.2 < 0 then -1 else 1) else 0
      last := none
      res := [] }

/-- lasso_lars.go:108-130: the end of an iteration.  `active` is sorted. -/
def larsMove (X : Mat K) (y : Nat → K) (s : LarsState K) (active : List Nat) (c d : List K)
    (jt : K × Nat) (ct : K × Nat) : Outcome (LarsState K) (List (LassoLarsNode K)) :=
  let res := s.res ++ [⟨betaLARS c d s.lamb, s.lamb, active⟩]
  if jt.1 > ct.1 then
    if jt.1 > s.lamb then .ret res
    else .next {
      lamb := jt.1
      activeSet := active ++ [jt.2]
      allSigns := fun i => if i = jt.2 then joinFeatSign X y jt.2 active (betaLARS c d jt.1) else s.allSigns i
      last := none
      res := res }
  else
    if ct.1 > s.lamb then .ret res
    else .next {
      lamb := ct.1
      activeSet := (active.set ct.2 (active.getLastD 0)).dropLast
      allSigns := s.allSigns
      last := some (active.getD ct.2 0, (betaLARS c d s.lamb).getD ct.2 0)
      res := res }

/-- lasso_lars.go:83-131, one iteration. -/
def larsBody (X : Mat K) (y : Nat → K) (tol lambMin : K)
    (est : Nat → List Nat → List K → Option (List K × List K)) (s : LarsState K) :
    Outcome (LarsState K) (List (LassoLarsNode K)) :=
  if ¬ s.lamb > lambMin then .ret s.res
  else if s.activeSet = [] then .panic
  else
    let active := s.activeSet.insertionSort (· ≤ ·)
    match est s.res.length active (active.map s.allSigns) with
    | none => .panic
    | some (c, d) =>
      if c.length ≠ active.length ∨ d.length ≠ active.length then .panic
      else
        match tJoin X y tol s.lamb active c d s.last with
        | none => .panic
        | some joinTimes =>
          larsMove X y s active c d (maxJoinTime joinTimes active) (maxTime (tCross tol s.lamb c d))

/-- lasso_lars.go:50-133 `LassoLars` returns `path`. -/
def LarsReturns (X : Mat K) (y : Nat → K) (tol lambMin : K)
    (est : Nat → List Nat → List K → Option (List K × List K)) (path : List (LassoLarsNode K)) : Prop :=
  ∃ s, larsInit X y = some s ∧ Runs (larsBody X y tol lambMin est) s path

end

end GoSelect
