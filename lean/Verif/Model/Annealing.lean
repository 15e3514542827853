import Verif.Model.Criteria
import Verif.Model.SaScore
import Verif.Model.Loop
import Mathlib.Analysis.SpecialFunctions.Exp

/-!
# `SelectModelSA`

Model of simmulatedAnnealing.go:12-105 over the reals.  One iteration of the loop is a function of
the state, the index drawn by `rand.Intn(nc)` and the number drawn by `rand.Float64()` (which Go
draws only if it needs it).  A run may draw any indices below `nc` and any numbers in `[0, 1)`.
-/

namespace GoSelect

/-- Arguments of `SelectModelSA`, with gonum's decomposition. -/
structure SaInput where
  svd : Mat ℝ → SVD ℝ
  X : Mat ℝ
  y : List ℝ
  nSweeps : Int
  cost : Nat → Nat → ℝ → ℝ

/-- The local variables (simmulatedAnnealing.go:21-32).  `acc` is a ghost: the items passed to
`res.Scores.Insert` so far; item number `k` is allocated at address `k`. -/
structure SaState where
  current : List Bool
  currentScore : ℝ
  coeff : List ℝ
  temp : ℝ
  numAccept : Nat
  numSteps : Nat
  has50 : Bool
  scores : SAScore ℝ
  acc : List (SAItem ℝ)

/-- simmulatedAnnealing.go:12-16 `SARes`, and the ghost `acc`. -/
structure SaRes where
  selected : List Nat
  coeff : List ℝ
  scores : SAScore ℝ
  acc : List (SAItem ℝ)

/-- simmulatedAnnealing.go:20-32.  `none`: `current[0]` panics without columns. -/
noncomputable def saInit (P : SaInput) : Option SaState :=
  match goSet (List.replicate P.X.nc false) 0 true with
  | none => none
  | some current => some {
      current := current
      currentScore := maxFloat64
      coeff := List.replicate P.X.nc 0
      temp := 500
      numAccept := 0
      numSteps := 0
      has50 := false
      scores := newSAScore 10 (fun _ => ⟨[], [], 0⟩)
      acc := [] }

/-- `current[index] = !current[index]` (simmulatedAnnealing.go:36, 39, 42, 61). -/
def saFlip (m : List Bool) (i : Nat) : List Bool := m.set i (!(m.getD i false))

/-- simmulatedAnnealing.go:95-104. -/
def saResult (s : SaState) : SaRes where
  selected := selectedFrom 0 s.current
  coeff := s.coeff.take (numFeatures s.current)
  scores := s.scores
  acc := s.acc

open Classical in
/-- simmulatedAnnealing.go:63-92: the end of an iteration. -/
noncomputable def saSweep (P : SaInput) (s : SaState) : Outcome SaState SaRes :=
  let numSteps := s.numSteps + 1
  let boundary : Bool := numSteps % P.X.nc = 0
  let has50 : Bool := if boundary then
      s.has50 || decide ((s.numAccept : ℝ) / (numSteps : ℝ) > 0.5) else s.has50
  let temp : ℝ := if boundary = true ∧ has50 = false then s.temp * 2 else s.temp
  if (numSteps : Int) ≥ (P.X.nc : Int) * P.nSweeps then
    if s.numAccept = 0 ∧ has50 = true then
      .ret (saResult { s with numSteps := numSteps, has50 := has50, temp := temp })
    else
      let temp' : ℝ := if has50 = true then temp * 0.5 else temp
      let s' := { s with numAccept := 0, numSteps := 0, has50 := has50, temp := temp' }
      if temp' < 1e-12 then .ret (saResult s') else .next s'
  else .next { s with numSteps := numSteps, has50 := has50, temp := temp }

open Classical in
/-- simmulatedAnnealing.go:46-62: evaluate the model `cur` with `N` features.  `none` of `fitModel`
or `Insert` is a panic. -/
noncomputable def saEval (P : SaInput) (s : SaState) (index : Nat) (cur : List Bool) (N : Nat)
    (u : ℝ) : Outcome SaState SaRes :=
  match fitModel P.svd P.X P.y cur with
  | none => .panic
  | some (coeffTemp, r) =>
    let score := P.cost N P.y.length (max r rssTol)
    if score < s.currentScore ∨ Real.exp (-(score - s.currentScore) / s.temp) > u then
      let item : SAItem ℝ := { (newSAItem cur : SAItem ℝ) with
        score := -score
        coeff := goCopy (newSAItem cur : SAItem ℝ).coeff coeffTemp }
      match s.scores.insertNew s.acc.length item with
      | none => .panic
      | some scores =>
        saSweep P { s with
          current := cur
          currentScore := score
          coeff := goCopy s.coeff coeffTemp
          numAccept := s.numAccept + 1
          scores := scores
          acc := s.acc ++ [item] }
    else saSweep P { s with current := saFlip cur index }

/-- simmulatedAnnealing.go:34-93: one iteration. -/
noncomputable def saBody (P : SaInput) (s : SaState) (index : Nat) (u : ℝ) : Outcome SaState SaRes :=
  let cur := saFlip s.current index
  let N := numFeatures cur
  if N = 0 then saEval P s index (saFlip cur index) 1 u
  else if N ≥ P.X.nr / 2 then .next { s with current := saFlip cur index }
  else saEval P s index cur N u

/-- States at the head of the loop that some random numbers lead to. -/
inductive SaReach (P : SaInput) : SaState → Prop
  | init {s} (h : saInit P = some s) : SaReach P s
  | step {s s'} (index : Nat) (u : ℝ) (h : SaReach P s) (hi : index < P.X.nc) (h0 : 0 ≤ u)
      (h1 : u < 1) (h' : saBody P s index u = .next s') : SaReach P s'

/-- Some random numbers lead to the result `r`. -/
def SaReturns (P : SaInput) (r : SaRes) : Prop :=
  ∃ s index u, SaReach P s ∧ index < P.X.nc ∧ 0 ≤ u ∧ u < 1 ∧ saBody P s index u = .ret r

/-- The loop of simmulatedAnnealing.go:34-93 with given random numbers: iteration `k` draws `index k` and `u k`. -/
noncomputable def saStream (P : SaInput) (index : Nat → Nat) (u : Nat → ℝ) (s : Nat × SaState) :
    Outcome (Nat × SaState) SaRes :=
  match saBody P s.2 (index s.1) (u s.1) with
  | .next s' => .next (s.1 + 1, s')
  | .ret r => .ret r
  | .panic => .panic

end GoSelect
