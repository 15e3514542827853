import Verif.Model.CohenSample
import Verif.Model.CohenSequence
import Verif.Model.CohenTarget
import Verif.Model.Sorting
import Verif.Model.Weights

/-!
# The command `goselect-cohenlasso`

Model of cmdDepreciated/goselect-cohenlasso/main.go, with the part of cohens_kappa.go that depends on the targets.
Arithmetic is exact.  The data set is as read by `ReadCSV`; its normalised response is finite.
-/

namespace GoSelect

open scoped List

/-- The flags of goselect-cohenlasso/main.go:30-37 that are numbers. -/
structure CohenFlags where
  lambMin : ℝ
  lambMax : ℝ
  numLamb : Int
  numSamples : Nat
  tol : ℝ

/-- cohens_kappa.go:35-42: the loop of `GetCohensKappa` on a target that keeps the memory `m`.  `none`: a panic. -/
noncomputable def CohenTarget.kappaLoop {S : Type} (t : CohenTarget S) :
    List (List Nat) → Fl ℝ → CohenMemory S → Option (Fl ℝ)
  | [], kappa, _ => some kappa
  | indices :: rest, kappa, m =>
    (t.getSelection m (kappaHalves t.X.nr indices).1).bind (fun r1 =>
      (t.getSelection r1.2 (kappaHalves t.X.nr indices).2).bind (fun r2 =>
        t.kappaLoop rest (Fl.add kappa (cohenKappa (r1.1.map Int.ofNat) (r2.1.map Int.ofNat) t.X.nc)) r2.2))

/-- cohens_kappa.go:26-44 `GetCohensKappa` on such a target. -/
noncomputable def CohenTarget.kappa {S : Type} (t : CohenTarget S) (m : CohenMemory S) (shuffles : List (List Nat)) :
    Option (Fl ℝ) :=
  (t.kappaLoop shuffles (.fin 0) m).map (fun k => k.divNat shuffles.length)

/-- cohens_kappa.go:31-36: the slice `indices` after each of the shuffles. -/
def Shuffles (nr numSamples : Nat) (shuffles : List (List Nat)) : Prop :=
  shuffles.length = numSamples ∧ ∀ indices ∈ shuffles, indices ~ List.range nr

/-- goselect-cohenlasso/main.go:10-25: the targets.  `none`: a panic, or regularisations that are not numbers since an end of the grid
is not positive (then the numbers of this model do not apply). -/
noncomputable def cohenTargets (f : CohenFlags) (d : Dataset ℝ) : Option (List (CohenTarget Unit)) :=
  (normalizeInPlace d).bind (fun nd =>
    if f.numLamb < 0 then none
    else (logspace f.lambMin f.lambMax f.numLamb).bind (fun lambs =>
      (List.range f.numLamb.toNat).mapM (fun i =>
        (lambs[lambs.length - i - 1]?).map (fun lamb =>
          ⟨nd.2.X, nd.2.Y, lamb, .empirical, 100000, f.tol, pureLasso⟩))))

/-- cohens_kappa.go:54-59: what a worker may return for target number `w`; `x0` of a new target is nil. -/
def cohenKappaOf (targets : List (CohenTarget Unit)) (numSamples : Nat) (w : Nat) (res : Nat × Fl ℝ) : Prop :=
  res.1 = w ∧ ∃ t shuffles, targets[w]? = some t ∧ Shuffles t.X.nr numSamples shuffles ∧
    t.kappa ⟨[], ()⟩ shuffles = some res.2

/-- goselect-cohenlasso/main.go:26: the states of the call of `CalculateCohenSequence`. -/
abbrev CohenRun (targets : List (CohenTarget Unit)) (numSamples : Nat) (s : Pool (CohenMain ℝ) Nat (Nat × Fl ℝ)) : Prop :=
  PoolReach (cohenAct cohenWorkers targets.length) (cohenKappaOf targets numSamples) cohenInit s

/-- In the state `s` some shuffles make a worker panic (and with it the program). -/
def CohenMayPanic (targets : List (CohenTarget Unit)) (numSamples : Nat) (s : Pool (CohenMain ℝ) Nat (Nat × Fl ℝ)) :
    Prop :=
  ∃ (i w : Nat) (t : CohenTarget Unit) (shuffles : List (List Nat)), s.workers[i]? = some (.computing w) ∧
    targets[w]? = some t ∧ Shuffles t.X.nr numSamples shuffles ∧ t.kappa ⟨[], ()⟩ shuffles = none

/-- cohens_kappa.go:84-91, 112-119: the rows of the summary, as hyper parameter and kappa.  Results are kept in the order
in which they arrive. -/
def cohenSummary (sort : List (Fl ℝ × Nat) → List (Fl ℝ × Nat)) (targets : List (CohenTarget Unit))
    (s : Pool (CohenMain ℝ) Nat (Nat × Fl ℝ)) : Option (List (ℝ × Fl ℝ)) :=
  let allKappas := s.got.map (fun p => p.2.2)
  (argsort sort allKappas).mapM (fun k =>
    (s.got[k]?).bind (fun p => (targets[p.2.1]?).map (fun t => (t.lamb, p.2.2))))

/-- cohens_kappa.go:93-99, 120: the hyper parameter that is returned; `none` is a nil map. -/
def cohenResult (targets : List (CohenTarget Unit)) (s : Pool (CohenMain ℝ) Nat (Nat × Fl ℝ)) : Option ℝ :=
  s.main.bestHyper.bind (fun w => (targets[w]?).map (fun t => t.lamb))

end GoSelect
