import Verif.Model.AnnealingGap
import Verif.Model.Omp

/-!
# Orthogonal matching pursuit on features with gaps

Model of `Omp` (orthogonalMatchingPursuit.go:32-94) for a matrix with NaN or infinite values and a finite response.  What gonum makes
of such values is a parameter.
-/

namespace GoSelect

/-- Data and gonum: `dot n a b` is the inner product of vectors of length `n`; `gapFit` and `mulVec` as in `SaInputGap`. -/
structure OmpInputGap where
  svd : Mat ℝ → SVD ℝ
  dot : Nat → (Nat → Fl ℝ) → (Nat → Fl ℝ) → Fl ℝ
  gapFit : Mat (Fl ℝ) → List ℝ → Option (List (Fl ℝ))
  mulVec : Mat (Fl ℝ) → List (Fl ℝ) → List (Fl ℝ)
  X : Mat (Fl ℝ)
  y : List ℝ
  tol : ℝ

/-- As `OmpState`. -/
structure OmpStateGap where
  residuals : List (Fl ℝ)
  model : List Bool
  coeff : List (Fl ℝ)
  order : List Int

/-- As `OmpResult`. -/
structure OmpResultGap where
  coeff : List (Fl ℝ)
  order : List Int

noncomputable section

/-- `mat.Norm(v, 2)`. -/
def norm2Gap (v : List (Fl ℝ)) : Fl ℝ := Fl.sqrt (Fl.sum (v.map (fun a => Fl.mul a a)))

open Classical in
/-- orthogonalMatchingPursuit.go:43-48, 51-55 `proj`. -/
def ompProjGap (P : OmpInputGap) (residuals : List (Fl ℝ)) : List (Fl ℝ) :=
  (List.range P.X.nc).map (fun i =>
    flAbs (Fl.div (P.dot P.X.nr (fun r => P.X.get r i) (fun r => residuals.getD r .nan))
      (Fl.mul (norm2Gap residuals) (Fl.sqrt (P.dot P.X.nr (fun r => P.X.get r i) (fun r => P.X.get r i))))))

open Classical in
/-- orthogonalMatchingPursuit.go:61-62, 69: the coefficients and the predictions of a design matrix; `none`: a panic. -/
def ompFitGap (P : OmpInputGap) (design : Mat (Fl ℝ)) : Option (List (Fl ℝ) × List (Fl ℝ)) :=
  if allNumbers design then do
    let coeff ← fit (P.svd (numbers design)) (numbers design) P.y
    let ypred ← predict (numbers design) coeff
    return (coeff.map .fin, ypred.map .fin)
  else if design.nr ≠ P.y.length then none
  else (P.gapFit design P.y).map (fun coeff => (coeff, P.mulVec design coeff))

open Classical in
/-- orthogonalMatchingPursuit.go:51-74: the body of the loop.  The second component is the root mean square error. -/
def ompStepGap (P : OmpInputGap) (current : Nat) (st : OmpStateGap) : Option (OmpStateGap × Fl ℝ) := do
  let imax ← argmax (ompProjGap P st.residuals)
  let model ← goSet st.model imax true
  let order ← goSet st.order current (imax : Int)
  let design ← getDesignMatrix model P.X
  let (coeff, ypred) ← ompFitGap P design
  let selected ← selectedFeatures model
  let full ← fullCoeffLoop coeff (selected.map Int.ofNat) 0 st.coeff
  return (⟨List.zipWith Fl.sub ypred (P.y.map .fin), model, full, order⟩,
    Fl.sqrt (Fl.div (Fl.sum ((List.range ypred.length).map (fun i =>
      let d := Fl.sub (.fin (P.y.getD i 0)) (ypred.getD i .nan)
      Fl.mul d d))) (.fin P.y.length)))

open Classical in
/-- orthogonalMatchingPursuit.go:50-78; `fuel = ncols - current`. -/
def ompLoopGap (P : OmpInputGap) : Nat → Nat → OmpStateGap → Option OmpStateGap
  | 0, _, st => some st
  | fuel + 1, current, st =>
    match ompStepGap P current st with
    | none => none
    | some (st', rmse) => if rmse < .fin P.tol then some st' else ompLoopGap P fuel (current + 1) st'

/-- orthogonalMatchingPursuit.go:20-29, 32-94 `Omp`; `none` as in `omp`. -/
def ompGap (P : OmpInputGap) : Option OmpResultGap :=
  if P.y.length = 0 ∨ P.X.nc = 0 ∨ P.X.nr ≠ P.y.length then none
  else
    match ompLoopGap P P.X.nc 0
        ⟨P.y.map .fin, List.replicate P.X.nc false, List.replicate P.X.nc (.fin 0), List.replicate P.X.nc (-1)⟩ with
    | none => none
    | some st =>
      match trimLoop st.order st.order 0 (List.replicate st.order.length false) with
      | none => none
      | some order => some ⟨st.coeff, order⟩

end

end GoSelect
