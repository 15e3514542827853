import Verif.Model.Pool
import Verif.Model.Covariance
import Verif.Model.Sorting
import Mathlib.Analysis.SpecialFunctions.Log.Basic
import Mathlib.Data.Real.Sqrt

/-!
# Search for the threshold

Model of thresholdCov.go:53-128, the search of `L2ConsistentCovTO` on a grid, as a worker pool (`Model.Pool`).
The ticker of lines 87 and 115-116 prints only and is left out.  A workload is the index of its partition
and its grid point: the covariance matrices are new objects for every partition (lines 104-106), so a
workload keeps those of its own partition.
-/

namespace GoSelect

/-- Where the main goroutine is. -/
inductive CovPhase where
  /-- head of the loop of line 73 -/
  | spawning (i : Nat)
  /-- line 80 -/
  | sendFirst (i : Nat)
  /-- line 88-90 -/
  | receiving
  /-- line 113 with `work` -/
  | sendNext (work : Nat × Nat)
  /-- index out of range in line 91 -/
  | failed

/-- The variables of the main goroutine; `part` counts the partitions made before the current one. -/
structure CovMain (K : Type) where
  phase : CovPhase
  part : Nat
  gridPt : Nat
  numReceives : Nat
  meanNormDiff : List K

section
variable {K : Type} [Field K]

/-- thresholdCov.go:69-73, 84-86. -/
def covInit (numGrid : Nat) : CovMain K := ⟨.spawning 0, 0, 0, 0, List.replicate numGrid 0⟩

/-- thresholdCov.go:63-67 `numSim`. -/
def covSim (numGrid : Nat) : Nat := if numGrid < 10 then numGrid else 10

/-- thresholdCov.go:90-114: a result has arrived. -/
def covReceive (numGrid numSamples : Nat) (m : CovMain K) (res : K × Nat) : CovMain K :=
  if res.2 < m.meanNormDiff.length then
    let mean := m.meanNormDiff.set res.2 (m.meanNormDiff.getD res.2 0 + res.1 / (numSamples : K))
    if (m.numReceives + 1) % numGrid = 0 then
      if 1 ≤ numGrid then ⟨.sendNext (m.part + 1, 0), m.part + 1, 1, m.numReceives + 1, mean⟩
      else ⟨.receiving, m.part + 1, 1, m.numReceives + 1, mean⟩
    else if m.gridPt + 1 ≤ numGrid then
      ⟨.sendNext (m.part, m.gridPt), m.part, m.gridPt + 1, m.numReceives + 1, mean⟩
    else ⟨.receiving, m.part, m.gridPt + 1, m.numReceives + 1, mean⟩
  else { m with phase := .failed }

/-- thresholdCov.go:73-118, the main goroutine. -/
def covAct (numGrid numSamples : Nat) (m : CovMain K) : Act (CovMain K) (Nat × Nat) (K × Nat) :=
  match m.phase with
  | .spawning i =>
    if i < covSim numGrid then .spawn { m with phase := .sendFirst i } else .tau { m with phase := .receiving }
  | .sendFirst i => .send (m.part, m.gridPt) { m with phase := .spawning (i + 1), gridPt := m.gridPt + 1 }
  | .receiving =>
    if m.numReceives < numSamples * numGrid then .recv (covReceive numGrid numSamples m) else .done
  | .sendNext work => .send work { m with phase := .receiving }
  | .failed => .panic

/-- thresholdCov.go:161-178, 204-208: a worker sends the value of its grid point; `diff k g` is the value for
partition `k` and grid point `g`. -/
def covComp (diff : Nat → Nat → K) (w : Nat × Nat) (r : K × Nat) : Prop := r = (diff w.1 w.2, w.2)

/-- States of the search under some schedule. -/
abbrev CovReach (numGrid numSamples : Nat) (diff : Nat → Nat → K) :=
  PoolReach (covAct numGrid numSamples) (covComp diff) (covInit numGrid)

abbrev CovStep (numGrid numSamples : Nat) (diff : Nat → Nat → K) :=
  PoolStep (covAct (K := K) numGrid numSamples) (covComp diff)

/-- The loop of lines 88-118 has ended. -/
def CovDone (numGrid numSamples : Nat) (s : Pool (CovMain K) (Nat × Nat) (K × Nat)) : Prop :=
  covAct numGrid numSamples s.main = .done

end

section
noncomputable section

/-- Conversion of a real number to `int`: towards zero. -/
def goInt (x : ℝ) : Int := if 0 ≤ x then ⌊x⌋ else ⌈x⌉

/-- thresholdCov.go:56 `n1`. -/
def covRows (nr : Nat) : Int := goInt ((nr : ℝ) * (1 - 1 / Real.log nr))

/-- thresholdCov.go:58 `numGrid`. -/
def covGrid (step : ℝ) : Int := goInt (9 / step)

/-- thresholdCov.go:126-128 `getThreshold`. -/
def getThreshold (idx : Nat) (step : ℝ) : ℝ := Real.exp (-10 + (idx : ℝ) * step)

/-- thresholdCov.go:161-178: the value a worker sends for a partition into two matrices. -/
def fNormDiff (parts : Mat ℝ × Mat ℝ) (g : Nat) (step : ℝ) : ℝ :=
  Real.sqrt (fNormDiffSq (getThreshold g step) (covarianceMatrix parts.1) (covarianceMatrix parts.2))

/-- thresholdCov.go:53-124 `L2ConsistentCovTO`: `op` may be the threshold returned, when the shuffles of the
row indices are `shuffle 0`, `shuffle 1`, ….  The parameter `maxThreshold` is not used by the code. -/
def CovSearch (X : Mat ℝ) (numSamples : Nat) (_maxThreshold step : ℝ) (shuffle : Nat → List Nat) (op : ℝ) : Prop :=
  ∃ (parts : Nat → Mat ℝ × Mat ℝ) (s : Pool (CovMain ℝ) (Nat × Nat) (ℝ × Nat)) (idx : Nat),
    0 ≤ covGrid step ∧
    (∀ k, randomRowSplit X (covRows X.nr) (shuffle k) = some (parts k)) ∧
    CovReach (covGrid step).toNat numSamples (fun k g => fNormDiff (parts k) g step) s ∧
    CovDone (covGrid step).toNat numSamples s ∧
    argmin s.main.meanNormDiff = some idx ∧
    op = getThreshold idx step

end
end

end GoSelect
