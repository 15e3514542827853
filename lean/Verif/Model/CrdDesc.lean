import Verif.Model.Mat
import Verif.Model.IntUtil
import Mathlib.Algebra.Order.Field.Basic
import Mathlib.Algebra.Order.Group.Abs

/-!
# Lasso by coordinate descent

Model of lassoCrdDesc.go:10-139 and lassoCorrections.go.

Slices of length `nFeat` (`XTy`, `beta`, `betaOld`, `covDotBeta`) are functions of the index; the
indices used are those of `iterIndices`, which stay below `nFeat` (`C53_indices`), so that no index
panic is lost.  Arithmetic is exact.
-/

namespace GoSelect

open Finset

variable {K : Type} [Field K] [LinearOrder K]

/-- lassoCrdDesc.go:10 `lassoCrdDescZero`. -/
def lassoCrdDescZero : K := 1 / 10 ^ 16

/-- lassoCrdDesc.go:95-102 `SoftThreshold`. -/
def softThreshold (x threshold : K) : K :=
  if x < -threshold then x + threshold
  else if x > threshold then x - threshold
  else 0

/-- lassoCorrections.go:7-13 `LassoCorrection`: the state of the receiver, `Deriv` and `Update`. -/
structure LassoCorrection (K S : Type) where
  deriv : S → (Nat → K) → Nat → K
  update : S → (Nat → K) → S

/-- lassoCorrections.go:16-24 `PureLasso`. -/
def pureLasso : LassoCorrection K Unit := ⟨fun _ _ _ => 0, fun _ _ => ()⟩

/-- lassoCorrections.go:63-73 `ElasticNet`. -/
def elasticNet (lamb : K) : LassoCorrection K Unit := ⟨fun _ beta j => lamb * beta j, fun _ _ => ()⟩

/-- lassoCorrections.go:28-60 `CLasso` for `numFeat` features; the state is the slice `beta`. -/
def cLasso (numFeat : Nat) (eta : K) : LassoCorrection K (Nat → K) where
  deriv clBeta beta featNo :=
    let normSq := ∑ i ∈ range numFeat, clBeta i * clBeta i
    let inner := ∑ i ∈ range numFeat, clBeta i * beta i
    if |normSq| < 1 / 10 ^ 10 then 0 else eta * clBeta featNo * inner / normSq
  update _ beta := beta

/-- lassoCorrections.go:34-39 `NewCLasso`: the slice starts as zeros. -/
def newCLassoBeta : Nat → K := fun _ => 0

/-- lassoCrdDesc.go:118-131 `MulSlice`. -/
def mulSlice (X : Mat K) (v : Nat → K) : Nat → K := fun i => ∑ j ∈ range X.nc, X.get i j * v j

/-- lassoCrdDesc.go:134-139 `UpdateCovDotBeta`. -/
def updateCovDotBeta (cov : Mat K) (covDotBeta : Nat → K) (coeffNo : Nat) (oldCoeff newCoeff : K) :
    Nat → K :=
  fun i => covDotBeta i + cov.get i coeffNo * (newCoeff - oldCoeff)

/-- lassoCrdDesc.go:105-115 `UnsatisfiedKKTConditions`.  `nr` is the length of `Xy`, that is, the
number of features. -/
def unsatisfiedKKT {S : Type} (nFeat : Nat) (Xy covDotBeta coeff : Nat → K) (lamb : K)
    (corr : LassoCorrection K S) (s : S) : List Nat :=
  (List.range nFeat).filter (fun i => decide (1 ≤ i) &&
    (decide (|Xy i - covDotBeta i * nFeat - corr.deriv s coeff i| < lamb) &&
      decide (|coeff i| > lassoCrdDescZero)))

/-- util.go:425-432 `UnionInt` on indices. -/
def unionNat (s1 s2 : List Nat) : List Nat :=
  s2.foldl (fun s v => if s.contains v then s else s ++ [v]) s1

/-- What does not change during a call of `LassoCrdDesc`. -/
structure CDProblem (K S : Type) where
  nr : Nat
  nFeat : Nat
  cov : Mat K
  XTy : Nat → K
  lamb : K
  tol : K
  corr : LassoCorrection K S

/-- Local variables of `LassoCrdDesc`. -/
structure CDState (K S : Type) where
  beta : Nat → K
  betaOld : Nat → K
  covDotBeta : Nat → K
  iterIndices : List Nat
  converged : Bool
  corrState : S

variable {S : Type}

/-- lassoCrdDesc.go:41-48: the update of coordinate `j`. -/
def cdCoord (p : CDProblem K S) (st : CDState K S) (j : Nat) : CDState K S :=
  let covDiag := p.cov.get j j
  let oldCoeff := st.betaOld j
  let covDotBetaNoDiag := st.covDotBeta j - st.betaOld j * covDiag
  let newCoeff := p.XTy j / p.nr - covDotBetaNoDiag - p.corr.deriv st.corrState st.betaOld j
  let newCoeff := softThreshold newCoeff p.lamb / covDiag
  { st with
    covDotBeta := updateCovDotBeta p.cov st.covDotBeta j oldCoeff newCoeff
    beta := Function.update st.beta j newCoeff }

/-- lassoCrdDesc.go:40-49: one sweep. -/
def cdSweep (p : CDProblem K S) (st : CDState K S) : CDState K S :=
  st.iterIndices.foldl (cdCoord p) st

/-- Running maximum of lassoCrdDesc.go:52-63, started at 0. -/
def runMax (f : Nat → K) (l : List Nat) : K := l.foldl (fun m j => if f j > m then f j else m) 0

/-- lassoCrdDesc.go:40-85: the body of the outer loop; `true` when the loop is left (line 81).
The quotient in line 65 is NaN or infinite for `maxCoeff = 0` and the comparison false. -/
def cdIter (p : CDProblem K S) (st : CDState K S) : CDState K S × Bool :=
  let st := cdSweep p st
  let cs := p.corr.update st.corrState st.beta
  let maxChange := runMax (fun j => |st.beta j - st.betaOld j|) st.iterIndices
  let maxCoeff := runMax (fun j => |st.beta j|) st.iterIndices
  let converged := decide (maxCoeff ≠ 0) && decide (maxChange / maxCoeff < p.tol)
  let active := st.iterIndices.filter (fun j => decide (|st.beta j| > lassoCrdDescZero))
  let st' : CDState K S :=
    { beta := st.beta
      betaOld := st.beta
      covDotBeta := st.covDotBeta
      iterIndices := active
      converged := converged
      corrState := cs }
  if converged then
    let unsatisfied := unsatisfiedKKT p.nFeat p.XTy st.covDotBeta st.beta p.lamb p.corr cs
    if unsatisfied.length = 0 then (st', true)
    else ({ st' with iterIndices := unionNat active unsatisfied }, false)
  else (st', false)

/-- lassoCrdDesc.go:39-86: at most `maxIter` iterations.  The second component tells whether the loop
was left through the `break` of line 81. -/
def cdLoop (p : CDProblem K S) : Nat → CDState K S → CDState K S × Bool
  | 0, st => (st, false)
  | n + 1, st =>
    match cdIter p st with
    | (st', true) => (st', true)
    | (st', false) => cdLoop p n st'

/-- lassoCrdDesc.go:29-38: the state before the loop. -/
def cdInit (p : CDProblem K S) (s : S) : CDState K S :=
  { beta := fun _ => 0
    betaOld := fun _ => 0
    covDotBeta := mulSlice p.cov (fun _ => 0)
    iterIndices := (List.range (p.nFeat - 1)).map (· + 1)
    converged := false
    corrState := s }

/-- lassoCrdDesc.go:16-92 `LassoCrdDesc`.  `x0 = none` is a nil slice.  Result: the coefficients and
the contents of the caller's `x0` afterwards (`copy(x0, betaOld)`, line 35, copies zeros *into* `x0`).
`none`: `nFeat = 0` (`make` with a negative length) or a covariance matrix of the wrong size. -/
def lassoCrdDesc (p : CDProblem K S) (s : S) (x0 : Option (List K)) (maxIter : Nat) :
    Option ((Nat → K) × Option (List K)) :=
  if p.nFeat = 0 ∨ p.cov.nc ≠ p.nFeat ∨ p.cov.nr ≠ p.nFeat then none
  else some ((cdLoop p maxIter (cdInit p s)).1.beta,
    x0.map (fun x => goCopy x (List.replicate p.nFeat 0)))

/-- lassoCrdDesc.go:88-90: whether the warning about missing convergence is printed. -/
def lassoWarns (p : CDProblem K S) (s : S) (maxIter : Nat) : Bool :=
  !(cdLoop p maxIter (cdInit p s)).1.converged

/-- covarianceMatrix.go:18-24 `Empirical.Get`. -/
def empiricalCov (X : Mat K) : Mat K :=
  ⟨X.nc, X.nc, fun i j => (1 / (X.nr : K)) * ∑ r ∈ range X.nr, X.get r i * X.get r j⟩

/-- lassoCrdDesc.go:25-27: `XTy`. -/
def xTy (X : Mat K) (y : Nat → K) : Nat → K := fun j => ∑ r ∈ range X.nr, X.get r j * y r

/-- `LassoCrdDesc` with the empirical covariance matrix. -/
def lassoProblem (X : Mat K) (y : Nat → K) (lamb tol : K) (corr : LassoCorrection K S) :
    CDProblem K S :=
  ⟨X.nr, X.nc, empiricalCov X, xTy X y, lamb, tol, corr⟩

end GoSelect
