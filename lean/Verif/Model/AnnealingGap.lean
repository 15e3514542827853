import Verif.Model.NonFinite

/-!
# Simulated annealing on features with gaps

Model of `SelectModelSA` (simmulatedAnnealing.go:12-105) for a matrix with NaN or infinite values and a finite response.
What gonum makes of a matrix with such values is a parameter.
-/

namespace GoSelect

/-- As `SaInput`; the matrix may have any values.  `gapFit` and `mulVec`: what fit.go:19-48 returns for a design matrix with
gaps (`none`: a panic), and the product of such a matrix and a vector (fit.go:66). -/
structure SaInputGap where
  svd : Mat ℝ → SVD ℝ
  gapFit : Mat (Fl ℝ) → List ℝ → Option (List (Fl ℝ))
  mulVec : Mat (Fl ℝ) → List (Fl ℝ) → List (Fl ℝ)
  X : Mat (Fl ℝ)
  y : List ℝ
  nSweeps : Int
  cost : Nat → Nat → Fl ℝ → Fl ℝ

noncomputable section

/-- The number, 0 for other values. -/
def Fl.number : Fl ℝ → ℝ
  | .fin a => a
  | _ => 0

/-- The numbers of a matrix. -/
def numbers (X : Mat (Fl ℝ)) : Mat ℝ := ⟨X.nr, X.nc, fun r c => (X.get r c).number⟩

/-- All entries are numbers. -/
def allNumbers (X : Mat (Fl ℝ)) : Prop := ∀ r < X.nr, ∀ c < X.nc, (X.get r c).isFin = true

open Classical in
/-- simmulatedAnnealing.go:46-48 `GetDesignMatrix`, `Fit`, `Rss` (fit.go:11-49, 63-87), for any matrix. -/
def fitModelGap (P : SaInputGap) (model : List Bool) : Option (List (Fl ℝ) × Fl ℝ) :=
  match getDesignMatrix model P.X with
  | none => none
  | some design =>
    if allNumbers design then
      (fitModel P.svd (numbers P.X) P.y model).map (fun r => (r.1.map .fin, .fin r.2))
    else if design.nr ≠ P.y.length then none
    else
      match P.gapFit design P.y with
      | none => none
      | some coeff =>
        let pred := P.mulVec design coeff
        some (coeff, Fl.sum ((List.range P.y.length).map (fun i =>
          let r := Fl.sub (pred.getD i .nan) (.fin (P.y.getD i 0))
          Fl.mul r r)))

/-- simmulatedAnnealing.go:20-32. -/
def saInitGap (P : SaInputGap) : Option SaStateFl :=
  match goSet (List.replicate P.X.nc false) 0 true with
  | none => none
  | some current => some {
      current := current
      currentScore := .fin maxFloat64
      coeff := List.replicate P.X.nc 0
      temp := 500
      numAccept := 0
      numSteps := 0
      has50 := false
      scores := newSAScore 10 (fun _ => ⟨[], [], 0⟩)
      acc := [] }

open Classical in
/-- simmulatedAnnealing.go:63-92. -/
def saSweepGap (P : SaInputGap) (s : SaStateFl) : Outcome SaStateFl SaResFl :=
  let numSteps := s.numSteps + 1
  let boundary : Bool := numSteps % P.X.nc = 0
  let has50 : Bool := if boundary then
      s.has50 || decide ((s.numAccept : ℝ) / (numSteps : ℝ) > 0.5) else s.has50
  let temp : ℝ := if boundary = true ∧ has50 = false then s.temp * 2 else s.temp
  if (numSteps : Int) ≥ (P.X.nc : Int) * P.nSweeps then
    if s.numAccept = 0 ∧ has50 = true then
      .ret (saResultFl { s with numSteps := numSteps, has50 := has50, temp := temp })
    else
      let temp' : ℝ := if has50 = true then temp * 0.5 else temp
      let s' := { s with numAccept := 0, numSteps := 0, has50 := has50, temp := temp' }
      if temp' < 1e-12 then .ret (saResultFl s') else .next s'
  else .next { s with numSteps := numSteps, has50 := has50, temp := temp }

open Classical in
/-- simmulatedAnnealing.go:46-62. -/
def saEvalGap (P : SaInputGap) (s : SaStateFl) (index : Nat) (cur : List Bool) (N : Nat) (u : ℝ) :
    Outcome SaStateFl SaResFl :=
  match fitModelGap P cur with
  | none => .panic
  | some (coeffTemp, r) =>
    let score := P.cost N P.y.length (Fl.max r (.fin rssTol))
    if saAcceptFl score s.currentScore s.temp u then
      let item : SAItem (Fl ℝ) := { (newSAItem cur : SAItem (Fl ℝ)) with
        score := Fl.neg score
        coeff := goCopy (newSAItem cur : SAItem (Fl ℝ)).coeff coeffTemp }
      match s.scores.insertNew s.acc.length item with
      | none => .panic
      | some scores =>
        saSweepGap P { s with
          current := cur
          currentScore := score
          coeff := goCopy s.coeff coeffTemp
          numAccept := s.numAccept + 1
          scores := scores
          acc := s.acc ++ [item] }
    else saSweepGap P { s with current := saFlip cur index }

/-- simmulatedAnnealing.go:34-93: one iteration. -/
def saBodyGap (P : SaInputGap) (s : SaStateFl) (index : Nat) (u : ℝ) : Outcome SaStateFl SaResFl :=
  let cur := saFlip s.current index
  let N := numFeatures cur
  if N = 0 then saEvalGap P s index (saFlip cur index) 1 u
  else if N ≥ P.X.nr / 2 then .next { s with current := saFlip cur index }
  else saEvalGap P s index cur N u

/-- The loop of simmulatedAnnealing.go:34-93 with given random numbers. -/
def saStreamGap (P : SaInputGap) (index : Nat → Nat) (u : Nat → ℝ) (s : Nat × SaStateFl) :
    Outcome (Nat × SaStateFl) SaResFl :=
  match saBodyGap P s.2 (index s.1) (u s.1) with
  | .next s' => .next (s.1 + 1, s')
  | .ret r => .ret r
  | .panic => .panic

end

end GoSelect
