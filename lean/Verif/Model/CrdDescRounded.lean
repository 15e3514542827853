import Verif.Model.CrdDesc
import Verif.Model.RoundedFit

/-!
# Lasso by coordinate descent, with rounding

As `Model.CrdDesc`, with rounding after every operation.  (On some platforms, not on amd64, the compiler fuses the
multiplications and additions of lines 42 and 136 into one operation; the model rounds both.)  The covariance matrix and
`XTy` are fields of `CDProblem`: they hold the numbers that gonum has computed.  `Deriv` of the correction is a field as
well.
-/

namespace GoSelect

noncomputable section

variable {S : Type}

/-- lassoCrdDesc.go:95-102 `SoftThreshold`. -/
def softThresholdRnd (rnd : ℝ → ℝ) (x threshold : ℝ) : ℝ :=
  if x < -threshold then rnd (x + threshold)
  else if x > threshold then rnd (x - threshold)
  else 0

/-- lassoCrdDesc.go:118-131 `MulSlice`. -/
def mulSliceRnd (rnd : ℝ → ℝ) (X : Mat ℝ) (v : Nat → ℝ) : Nat → ℝ := fun i => dotLoop rnd (X.get i) v X.nc

/-- lassoCrdDesc.go:134-139 `UpdateCovDotBeta`. -/
def updateCovDotBetaRnd (rnd : ℝ → ℝ) (cov : Mat ℝ) (covDotBeta : Nat → ℝ) (coeffNo : Nat) (oldCoeff newCoeff : ℝ) :
    Nat → ℝ :=
  fun i => rnd (covDotBeta i + rnd (cov.get i coeffNo * rnd (newCoeff - oldCoeff)))

/-- lassoCrdDesc.go:105-115 `UnsatisfiedKKTConditions`. -/
def unsatisfiedKKTRnd (rnd : ℝ → ℝ) (nFeat : Nat) (Xy covDotBeta coeff : Nat → ℝ) (lamb : ℝ)
    (corr : LassoCorrection ℝ S) (s : S) : List Nat :=
  (List.range nFeat).filter (fun i => decide (1 ≤ i) &&
    (decide (|rnd (rnd (Xy i - rnd (covDotBeta i * rnd nFeat)) - corr.deriv s coeff i)| < lamb) &&
      decide (|coeff i| > rnd (1 / 10 ^ 16))))

/-- lassoCrdDesc.go:41-48: the update of coordinate `j`. -/
def cdCoordRnd (rnd : ℝ → ℝ) (p : CDProblem ℝ S) (st : CDState ℝ S) (j : Nat) : CDState ℝ S :=
  let covDiag := p.cov.get j j
  let oldCoeff := st.betaOld j
  let covDotBetaNoDiag := rnd (st.covDotBeta j - rnd (st.betaOld j * covDiag))
  let newCoeff := rnd (rnd (rnd (p.XTy j / rnd p.nr) - covDotBetaNoDiag) - p.corr.deriv st.corrState st.betaOld j)
  let newCoeff := rnd (softThresholdRnd rnd newCoeff p.lamb / covDiag)
  { st with
    covDotBeta := updateCovDotBetaRnd rnd p.cov st.covDotBeta j oldCoeff newCoeff
    beta := Function.update st.beta j newCoeff }

/-- lassoCrdDesc.go:40-49: one sweep. -/
def cdSweepRnd (rnd : ℝ → ℝ) (p : CDProblem ℝ S) (st : CDState ℝ S) : CDState ℝ S :=
  st.iterIndices.foldl (cdCoordRnd rnd p) st

/-- lassoCrdDesc.go:40-85: the body of the outer loop; `true` when the loop is left (line 81). -/
def cdIterRnd (rnd : ℝ → ℝ) (p : CDProblem ℝ S) (st : CDState ℝ S) : CDState ℝ S × Bool :=
  let st := cdSweepRnd rnd p st
  let cs := p.corr.update st.corrState st.beta
  let maxChange := runMax (fun j => |rnd (st.beta j - st.betaOld j)|) st.iterIndices
  let maxCoeff := runMax (fun j => |st.beta j|) st.iterIndices
  let converged := decide (maxCoeff ≠ 0) && decide (rnd (maxChange / maxCoeff) < p.tol)
  let active := st.iterIndices.filter (fun j => decide (|st.beta j| > rnd (1 / 10 ^ 16)))
  let st' : CDState ℝ S :=
    { beta := st.beta
      betaOld := st.beta
      covDotBeta := st.covDotBeta
      iterIndices := active
      converged := converged
      corrState := cs }
  if converged then
    let unsatisfied := unsatisfiedKKTRnd rnd p.nFeat p.XTy st.covDotBeta st.beta p.lamb p.corr cs
    if unsatisfied.length = 0 then (st', true)
    else ({ st' with iterIndices := unionNat active unsatisfied }, false)
  else (st', false)

/-- lassoCrdDesc.go:39-86: at most `maxIter` iterations, and whether the loop was left through the `break` of line 81. -/
def cdLoopRnd (rnd : ℝ → ℝ) (p : CDProblem ℝ S) : Nat → CDState ℝ S → CDState ℝ S × Bool
  | 0, st => (st, false)
  | n + 1, st =>
    match cdIterRnd rnd p st with
    | (st', true) => (st', true)
    | (st', false) => cdLoopRnd rnd p n st'

/-- lassoCrdDesc.go:29-38: the state before the loop. -/
def cdInitRnd (rnd : ℝ → ℝ) (p : CDProblem ℝ S) (s : S) : CDState ℝ S :=
  { beta := fun _ => 0
    betaOld := fun _ => 0
    covDotBeta := mulSliceRnd rnd p.cov (fun _ => 0)
    iterIndices := (List.range (p.nFeat - 1)).map (· + 1)
    converged := false
    corrState := s }

/-- The coefficients that `LassoCrdDesc` returns (lassoCrdDesc.go:91), and whether the loop was left through the `break`. -/
def lassoCrdDescRnd (rnd : ℝ → ℝ) (p : CDProblem ℝ S) (s : S) (maxIter : Nat) : (Nat → ℝ) × Bool :=
  let r := cdLoopRnd rnd p maxIter (cdInitRnd rnd p s)
  (r.1.beta, r.2)

/-- The numbers that `LassoCrdDesc` works with, for the empirical covariance matrix (covarianceMatrix.go:18-24 and
lassoCrdDesc.go:22-27).  `dot n x z` is the inner product of two vectors of length `n` as gonum computes it. -/
def lassoProblemRnd (rnd : ℝ → ℝ) (dot : Nat → (Nat → ℝ) → (Nat → ℝ) → ℝ) (X : Mat ℝ) (y : Nat → ℝ) (lamb tol : ℝ)
    (corr : LassoCorrection ℝ S) : CDProblem ℝ S where
  nr := X.nr
  nFeat := X.nc
  cov := ⟨X.nc, X.nc, fun i j => rnd (rnd (1 / rnd X.nr) * dot X.nr (fun r => X.get r i) (fun r => X.get r j))⟩
  XTy := fun j => dot X.nr (fun r => X.get r j) y
  lamb := lamb
  tol := tol
  corr := corr

end

end GoSelect
