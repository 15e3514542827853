import Verif.Model.CrdDesc
import Verif.Model.Covariance
import Verif.Model.NestedLasso

/-!
# The lasso as a target of Cohen's kappa

Model of lassoCrdDesc.go:259-346, `pureLassoCohen` and `cLassoCohen`.  Arithmetic is exact.  A thresholded
covariance matrix is assumed to have no zero on its diagonal.
-/

namespace GoSelect

/-- The implementations of `CovMat` (covarianceMatrix.go:11-69). -/
inductive CovKind where
  | empirical
  | identity
  | thresholded (X0 : Mat ℝ) (t : ℝ)

/-- `CovMat.Get`. -/
noncomputable def CovKind.get : CovKind → Mat ℝ → Option (Mat ℝ)
  | .empirical, X => some (empiricalCov X)
  | .identity, X => some (identityCov X)
  | .thresholded X0 t, X => sparseThresholdedGet X0 t X

/-- lassoCrdDesc.go:259-268 `pureLassoCohen` without `x0`; `X` and `y` are those of `Dset`. -/
structure CohenTarget (S : Type) where
  X : Mat ℝ
  y : List ℝ
  lamb : ℝ
  cov : CovKind
  maxIter : Nat
  tol : ℝ
  corr : LassoCorrection ℝ S

/-- What a call leaves behind: the field `x0` and the state of the correction. -/
structure CohenMemory (S : Type) where
  x0 : List ℝ
  corrState : S

/-- lassoCrdDesc.go:287, 294-299: the rows `indices`. -/
def subRows {K : Type} (X : Mat K) (indices : List Nat) : Mat K :=
  ⟨indices.length, X.nc, fun i j => X.get (indices.getD i 0) j⟩

open Classical in
/-- lassoCrdDesc.go:285-312 `GetSelection`: the selection and the memory afterwards.  `none`: a panic.  When the
response of the sample is constant, `y` and `XTy` are NaN, `SoftThreshold` gives 0 and no feature is selected. -/
noncomputable def CohenTarget.getSelection {S : Type} (t : CohenTarget S) (m : CohenMemory S) (indices : List Nat) :
    Option (List Nat × CohenMemory S) :=
  if indices = [] ∨ t.X.nc = 0 ∨ ∃ i ∈ indices, t.X.nr ≤ i ∨ t.y.length ≤ i then none
  else
    let x0 := if m.x0.length ≠ t.X.nc then List.replicate t.X.nc 0 else m.x0
    (newNormalizedData (subRows t.X indices) (indices.map (fun i => t.y.getD i 0))).bind (fun normD =>
      (t.cov.get normD.X).bind (fun cov =>
        match finValues normD.y with
        | none => some ([], ⟨List.replicate t.X.nc 0, (fun s => t.corr.update s (fun _ => 0))^[t.maxIter] m.corrState⟩)
        | some y =>
          let p : CDProblem ℝ S :=
            ⟨normD.X.nr, normD.X.nc, cov, xTy normD.X (fun r => y.getD r 0), t.lamb, t.tol, t.corr⟩
          (lassoCrdDesc p m.corrState (some x0) t.maxIter).map (fun r =>
            ((List.range t.X.nc).filter (fun i => decide (|r.1 i| > lassoCrdDescZero)),
              ⟨(List.range t.X.nc).map r.1, (cdLoop p t.maxIter (cdInit p m.corrState)).1.corrState⟩))))

end GoSelect
