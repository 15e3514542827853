import Verif.Model.CohenCommand
import Verif.Model.CrdDescFl
import Verif.Model.KappaFl
import Verif.Model.LogspaceFl

/-!
# The command `goselect-cohenlasso` in floating point

As `Model.CohenCommand`, for any ends of the grid of regularisations.  The grid (`Model.LogspaceFl`) and Cohen's kappa
(`Model.KappaFl`) are rounded; the coordinate descent has exact finite numbers, NaN and infinities (`Model.CrdDescFl`).
-/

namespace GoSelect

/-- The flags of goselect-cohenlasso/main.go:30-37 that are numbers, as `flag` parses them (also `NaN` and `Inf`). -/
structure CohenFlagsFl where
  lambMin : Fl ℝ
  lambMax : Fl ℝ
  numLamb : Int
  numSamples : Nat
  tol : Fl ℝ

/-- As `CohenTarget`, with the fields that main.go:19-24 sets: `Empirical`, `PureLasso` and 100000 iterations. -/
structure CohenTargetFl where
  X : Mat (Fl ℝ)
  y : List (Fl ℝ)
  lamb : Fl ℝ
  tol : Fl ℝ

noncomputable section

open Classical in
/-- lassoCrdDesc.go:285-312 `GetSelection`; `none`: a panic.  The start values `x0` are not used by the coordinate descent. -/
def CohenTargetFl.selection (dot : Nat → (Nat → Fl ℝ) → (Nat → Fl ℝ) → Fl ℝ) (t : CohenTargetFl) (indices : List Nat) :
    Option (List Nat) :=
  if indices = [] ∨ t.X.nc = 0 ∨ ∃ i ∈ indices, t.X.nr ≤ i ∨ t.y.length ≤ i then none
  else (normalizedMatrixFl (subRows t.X indices)).map (fun Z => selectionFl Z.nc (lassoCrdDescFl
    ⟨Z.nr, Z.nc, empiricalCovFl dot Z,
      xTyFl dot Z (fun r => (normalizedResponse (indices.map (fun i => t.y.getD i .nan))).getD r .nan),
      t.lamb, t.tol, pureLassoFl⟩ () 100000).1)

/-- cohens_kappa.go:36-40: the two selections for the slice `indices` after a shuffle. -/
def CohenTargetFl.sample (dot : Nat → (Nat → Fl ℝ) → (Nat → Fl ℝ) → Fl ℝ) (t : CohenTargetFl) (indices : List Nat) :
    Option (List Int × List Int) :=
  (t.selection dot (kappaHalves t.X.nr indices).1).bind (fun a =>
    (t.selection dot (kappaHalves t.X.nr indices).2).map (fun b => (a.map Int.ofNat, b.map Int.ofNat)))

/-- cohens_kappa.go:26-44 `GetCohensKappa`; `none`: a panic. -/
def CohenTargetFl.kappa (rnd : ℝ → ℝ) (dot : Nat → (Nat → Fl ℝ) → (Nat → Fl ℝ) → Fl ℝ) (t : CohenTargetFl)
    (shuffles : List (List Nat)) : Option (Fl ℝ) :=
  (shuffles.mapM (t.sample dot)).map (getCohensKappaFl rnd t.X.nc)

/-- goselect-cohenlasso/main.go:10-25: the targets; `none`: a panic. -/
def cohenTargetsFl (rnd logf expf : ℝ → ℝ) (f : CohenFlagsFl) (X : Mat (Fl ℝ)) (y : List (Fl ℝ)) : Option (List CohenTargetFl) :=
  (normalizedMatrixFl X).bind (fun Z =>
    if f.numLamb < 0 then none
    else (logspaceFl rnd logf expf f.lambMin f.lambMax f.numLamb).bind (fun lambs =>
      (List.range f.numLamb.toNat).mapM (fun i =>
        (lambs[lambs.length - i - 1]?).map (fun lamb => ⟨Z, normalizedResponse y, lamb, f.tol⟩))))

end

/-- cohens_kappa.go:54-59: what a worker may return for target number `w`. -/
def cohenKappaOfFl (rnd : ℝ → ℝ) (dot : Nat → (Nat → Fl ℝ) → (Nat → Fl ℝ) → Fl ℝ) (targets : List CohenTargetFl)
    (numSamples : Nat) (w : Nat) (res : Nat × Fl ℝ) : Prop :=
  res.1 = w ∧ ∃ t shuffles, targets[w]? = some t ∧ Shuffles t.X.nr numSamples shuffles ∧ t.kappa rnd dot shuffles = some res.2

/-- goselect-cohenlasso/main.go:26: the states of the call of `CalculateCohenSequence`. -/
abbrev CohenRunFl (rnd : ℝ → ℝ) (dot : Nat → (Nat → Fl ℝ) → (Nat → Fl ℝ) → Fl ℝ) (targets : List CohenTargetFl)
    (numSamples : Nat) (s : Pool (CohenMain ℝ) Nat (Nat × Fl ℝ)) : Prop :=
  PoolReach (cohenAct cohenWorkers targets.length) (cohenKappaOfFl rnd dot targets numSamples) cohenInit s

/-- cohens_kappa.go:93-99, 120: the regularisation that is returned; `none` is a nil map. -/
def cohenResultFl (targets : List CohenTargetFl) (s : Pool (CohenMain ℝ) Nat (Nat × Fl ℝ)) : Option (Fl ℝ) :=
  s.main.bestHyper.bind (fun w => (targets[w]?).map (fun t => t.lamb))

end GoSelect
