import Verif.Model.CohenCommand

/-!
# The targets of Cohen's kappa as the user sets them up

Model of lassoCrdDesc.go:259-356: the structs with their pointers and interfaces, which are nil until they are set, and
what they report about themselves.  The format `%5.3e` is a parameter.
-/

namespace GoSelect

/-- lassoCrdDesc.go:259-268 `pureLassoCohen` without `x0` and `lasso` (always `LassoCrdDesc`).  `none` is nil; `dset`
holds the fields `X` and `y` of the normalised data. -/
structure PureCohen (S : Type) where
  dset : Option (Mat ℝ × List ℝ)
  lamb : ℝ
  cov : Option CovKind
  maxIter : Int
  tol : ℝ
  corr : Option (LassoCorrection ℝ S)

/-- lassoCrdDesc.go:272-276 `NewPureLassoCohen`. -/
def newPureLassoCohen {S : Type} : PureCohen S := ⟨none, 0, none, 0, 0, none⟩

/-- lassoCrdDesc.go:279-281 `GetX`; `none`: a panic. -/
def PureCohen.getX {S : Type} (p : PureCohen S) : Option (Mat ℝ) := p.dset.map Prod.fst

/-- lassoCrdDesc.go:285-312 `GetSelection`.  `none`: a panic.  The covariance is used in line 22, the correction only
inside the loop of line 39, of which the first round always reaches line 50. -/
noncomputable def PureCohen.getSelection {S : Type} (p : PureCohen S) (m : CohenMemory S) (indices : List Nat) :
    Option (List Nat × CohenMemory S) :=
  p.dset.bind (fun d =>
    p.cov.bind (fun cov =>
      match p.corr with
      | some corr => CohenTarget.getSelection ⟨d.1, d.2, p.lamb, cov, p.maxIter.toNat, p.tol, corr⟩ m indices
      | none =>
        if 0 < p.maxIter then none
        else CohenTarget.getSelection ⟨d.1, d.2, p.lamb, cov, 0, p.tol, ⟨fun _ _ _ => 0, fun s _ => s⟩⟩ m indices))

/-- lassoCrdDesc.go:315-319 `HyperParameters`: the map, by its keys. -/
def PureCohen.hyperParameters {S : Type} (p : PureCohen S) (key : String) : Option ℝ :=
  if key = "lamb" then some p.lamb else none

/-- lassoCrdDesc.go:322-324 `StringRep`. -/
def PureCohen.stringRep {S : Type} (format : ℝ → String) (p : PureCohen S) : String := "Lambda: " ++ format p.lamb

/-- lassoCrdDesc.go:327-330 `cLassoCohen`. -/
structure CLassoCohen (S : Type) where
  pLasso : PureCohen S
  eta : ℝ

/-- lassoCrdDesc.go:333-337 `NewCLassoCohen`. -/
def newCLassoCohen {S : Type} : CLassoCohen S := ⟨newPureLassoCohen, 0⟩

/-- lassoCrdDesc.go:339-341 `GetX`. -/
def CLassoCohen.getX {S : Type} (c : CLassoCohen S) : Option (Mat ℝ) := c.pLasso.getX

/-- lassoCrdDesc.go:343-345 `GetSelection`. -/
noncomputable def CLassoCohen.getSelection {S : Type} (c : CLassoCohen S) (m : CohenMemory S) (indices : List Nat) :
    Option (List Nat × CohenMemory S) := c.pLasso.getSelection m indices

/-- lassoCrdDesc.go:347-352 `HyperParameters`. -/
def CLassoCohen.hyperParameters {S : Type} (c : CLassoCohen S) (key : String) : Option ℝ :=
  if key = "eta" then some c.eta else if key = "lamb" then some c.pLasso.lamb else none

/-- lassoCrdDesc.go:354-356 `StringRep`. -/
def CLassoCohen.stringRep {S : Type} (format : ℝ → String) (c : CLassoCohen S) : String :=
  "Lambda: " ++ format c.pLasso.lamb ++ " Eta: " ++ format c.eta

end GoSelect
