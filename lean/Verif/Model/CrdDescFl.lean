import Verif.Model.CrdDesc
import Verif.Model.NonFinite

/-!
# Lasso by coordinate descent on data with missing values

As `Model.CrdDesc`, with the rules of IEEE 754 for NaN and infinities (`Model.FloatArith`: finite numbers are exact).
Inner products of columns are computed by gonum: `dot n a b` for vectors of length `n`.
-/

namespace GoSelect

noncomputable section

variable {S : Type}

/-- normalized_dataset.go:33-60: the matrix after `NewNormalizedData`; `none`: a panic (line 48). -/
def normalizedMatrixFl (X : Mat (Fl ℝ)) : Option (Mat (Fl ℝ)) :=
  if ∃ c < X.nc, c ≠ 0 ∧ stdFl (colOf X c) < .fin (1 / 10 ^ 10) then none
  else some ⟨X.nr, X.nc, fun r c =>
    let std := stdFl (colOf X c)
    Fl.div (Fl.sub (X.get r c) (meanFl (colOf X c))) (if std < .fin (1 / 10 ^ 10) then .fin 1 else std)⟩

/-- lassoCrdDesc.go:95-102 `SoftThreshold`. -/
def softThresholdFl (x threshold : Fl ℝ) : Fl ℝ :=
  if x < Fl.neg threshold then Fl.add x threshold
  else if x > threshold then Fl.sub x threshold
  else .fin 0

/-- lassoCrdDesc.go:118-131 `MulSlice`. -/
def mulSliceFl (X : Mat (Fl ℝ)) (v : Nat → Fl ℝ) : Nat → Fl ℝ :=
  fun i => Fl.sum ((List.range X.nc).map (fun j => Fl.mul (X.get i j) (v j)))

/-- lassoCrdDesc.go:134-139 `UpdateCovDotBeta`. -/
def updateCovDotBetaFl (cov : Mat (Fl ℝ)) (covDotBeta : Nat → Fl ℝ) (coeffNo : Nat) (oldCoeff newCoeff : Fl ℝ) :
    Nat → Fl ℝ :=
  fun i => Fl.add (covDotBeta i) (Fl.mul (cov.get i coeffNo) (Fl.sub newCoeff oldCoeff))

/-- lassoCrdDesc.go:69, 110 and 166: a coefficient counts as nonzero. -/
def nonzeroFl (x : Fl ℝ) : Bool := decide (Fl.abs x > .fin lassoCrdDescZero)

/-- lassoCrdDesc.go:105-115 `UnsatisfiedKKTConditions`. -/
def unsatisfiedKKTFl (nFeat : Nat) (Xy covDotBeta coeff : Nat → Fl ℝ) (lamb : Fl ℝ)
    (corr : LassoCorrection (Fl ℝ) S) (s : S) : List Nat :=
  (List.range nFeat).filter (fun i => decide (1 ≤ i) &&
    (decide (Fl.abs (Fl.sub (Fl.sub (Xy i) (Fl.mul (covDotBeta i) (.fin nFeat))) (corr.deriv s coeff i)) < lamb) &&
      nonzeroFl (coeff i)))

/-- lassoCrdDesc.go:41-48: the update of coordinate `j`. -/
def cdCoordFl (p : CDProblem (Fl ℝ) S) (st : CDState (Fl ℝ) S) (j : Nat) : CDState (Fl ℝ) S :=
  let covDiag := p.cov.get j j
  let oldCoeff := st.betaOld j
  let covDotBetaNoDiag := Fl.sub (st.covDotBeta j) (Fl.mul (st.betaOld j) covDiag)
  let newCoeff := Fl.sub (Fl.sub (Fl.div (p.XTy j) (.fin p.nr)) covDotBetaNoDiag)
    (p.corr.deriv st.corrState st.betaOld j)
  let newCoeff := Fl.div (softThresholdFl newCoeff p.lamb) covDiag
  { st with
    covDotBeta := updateCovDotBetaFl p.cov st.covDotBeta j oldCoeff newCoeff
    beta := Function.update st.beta j newCoeff }

/-- lassoCrdDesc.go:40-49: one sweep. -/
def cdSweepFl (p : CDProblem (Fl ℝ) S) (st : CDState (Fl ℝ) S) : CDState (Fl ℝ) S :=
  st.iterIndices.foldl (cdCoordFl p) st

/-- Running maximum of lassoCrdDesc.go:52-63. -/
def runMaxFl (f : Nat → Fl ℝ) (l : List Nat) : Fl ℝ := l.foldl (fun m j => if f j > m then f j else m) (.fin 0)

/-- lassoCrdDesc.go:40-85: the body of the outer loop; `true` when the loop is left (line 81). -/
def cdIterFl (p : CDProblem (Fl ℝ) S) (st : CDState (Fl ℝ) S) : CDState (Fl ℝ) S × Bool :=
  let st := cdSweepFl p st
  let cs := p.corr.update st.corrState st.beta
  let maxChange := runMaxFl (fun j => Fl.abs (Fl.sub (st.beta j) (st.betaOld j))) st.iterIndices
  let maxCoeff := runMaxFl (fun j => Fl.abs (st.beta j)) st.iterIndices
  let converged := decide (Fl.div maxChange maxCoeff < p.tol)
  let active := st.iterIndices.filter (fun j => nonzeroFl (st.beta j))
  let st' : CDState (Fl ℝ) S :=
    { beta := st.beta
      betaOld := st.beta
      covDotBeta := st.covDotBeta
      iterIndices := active
      converged := converged
      corrState := cs }
  if converged then
    let unsatisfied := unsatisfiedKKTFl p.nFeat p.XTy st.covDotBeta st.beta p.lamb p.corr cs
    if unsatisfied.length = 0 then (st', true)
    else ({ st' with iterIndices := unionNat active unsatisfied }, false)
  else (st', false)

/-- lassoCrdDesc.go:39-86: at most `maxIter` iterations, and whether the loop was left through the `break` of line 81. -/
def cdLoopFl (p : CDProblem (Fl ℝ) S) : Nat → CDState (Fl ℝ) S → CDState (Fl ℝ) S × Bool
  | 0, st => (st, false)
  | n + 1, st =>
    match cdIterFl p st with
    | (st', true) => (st', true)
    | (st', false) => cdLoopFl p n st'

/-- lassoCrdDesc.go:29-38: the state before the loop. -/
def cdInitFl (p : CDProblem (Fl ℝ) S) (s : S) : CDState (Fl ℝ) S :=
  { beta := fun _ => .fin 0
    betaOld := fun _ => .fin 0
    covDotBeta := mulSliceFl p.cov (fun _ => .fin 0)
    iterIndices := (List.range (p.nFeat - 1)).map (· + 1)
    converged := false
    corrState := s }

/-- What lassoCrdDesc.go:16-92 `LassoCrdDesc` returns, and whether the warning of line 89 is printed. -/
def lassoCrdDescFl (p : CDProblem (Fl ℝ) S) (s : S) (maxIter : Nat) : (Nat → Fl ℝ) × Bool :=
  let r := cdLoopFl p maxIter (cdInitFl p s)
  (r.1.beta, !r.1.converged)

/-- lassoCrdDesc.go:163-170: the features of the node for the coefficients. -/
def selectionFl (nFeat : Nat) (coeff : Nat → Fl ℝ) : List Nat := (List.range nFeat).filter (fun j => nonzeroFl (coeff j))

/-- covarianceMatrix.go:18-24 `Empirical.Get`. -/
def empiricalCovFl (dot : Nat → (Nat → Fl ℝ) → (Nat → Fl ℝ) → Fl ℝ) (X : Mat (Fl ℝ)) : Mat (Fl ℝ) :=
  ⟨X.nc, X.nc, fun i j => Fl.mul (Fl.div (.fin 1) (.fin X.nr)) (dot X.nr (fun r => X.get r i) (fun r => X.get r j))⟩

/-- covarianceMatrix.go:30-38 `Identity.Get`. -/
def identityCovFl (X : Mat (Fl ℝ)) : Mat (Fl ℝ) := ⟨X.nc, X.nc, fun i j => if i = j then .fin 1 else .fin 0⟩

/-- lassoCrdDesc.go:24-27: `XTy`. -/
def xTyFl (dot : Nat → (Nat → Fl ℝ) → (Nat → Fl ℝ) → Fl ℝ) (X : Mat (Fl ℝ)) (y : Nat → Fl ℝ) : Nat → Fl ℝ :=
  fun j => dot X.nr (fun r => X.get r j) y

/-- lassoCorrections.go:16-24 `PureLasso`. -/
def pureLassoFl : LassoCorrection (Fl ℝ) Unit := ⟨fun _ _ _ => .fin 0, fun _ _ => ()⟩

/-- normalized_dataset.go:23-62 and lassoCrdDesc.go:16-92, 163-170: the features that are found in raw data, with the
covariance matrix `cov`; `none`: a panic. -/
def lassoFeaturesFl (dot : Nat → (Nat → Fl ℝ) → (Nat → Fl ℝ) → Fl ℝ) (cov : Mat (Fl ℝ) → Mat (Fl ℝ)) (lamb tol : ℝ)
    (maxIter : Nat) (X : Mat (Fl ℝ)) (y : List (Fl ℝ)) : Option (List Nat) :=
  (normalizedMatrixFl X).map (fun Z => selectionFl Z.nc (lassoCrdDescFl
    ⟨Z.nr, Z.nc, cov Z, xTyFl dot Z (fun r => (normalizedResponse y).getD r .nan), .fin lamb, .fin tol, pureLassoFl⟩ ()
    maxIter).1)

end

end GoSelect
