import Verif.Model.Annealing
import Verif.Model.FloatArith
import Verif.Model.LassoCommand

/-!
# Responses that are not finite

Model of `SelectModelSA` (simmulatedAnnealing.go:12-105) and of the lasso command (cmd/lasso.go:69-123, type lars) for a
response with NaN or infinite values.  The matrix is finite.  The temperature is exact: it has no upper limit.
-/

namespace GoSelect

/-- As `SaInput`; the response may have any values. -/
structure SaInputFl where
  svd : Mat ℝ → SVD ℝ
  blas : Blas
  X : Mat ℝ
  y : List (Fl ℝ)
  nSweeps : Int
  cost : Nat → Nat → Fl ℝ → Fl ℝ

/-- As `SaState`. -/
structure SaStateFl where
  current : List Bool
  currentScore : Fl ℝ
  coeff : List (Fl ℝ)
  temp : ℝ
  numAccept : Nat
  numSteps : Nat
  has50 : Bool
  scores : SAScore (Fl ℝ)
  acc : List (SAItem (Fl ℝ))

/-- As `SaRes`. -/
structure SaResFl where
  selected : List Nat
  coeff : List (Fl ℝ)
  scores : SAScore (Fl ℝ)
  acc : List (SAItem (Fl ℝ))

noncomputable section

/-- simmulatedAnnealing.go:20-32. -/
def saInitFl (P : SaInputFl) : Option SaStateFl :=
  match goSet (List.replicate P.X.nc false) 0 true with
  | none => none
  | some current => some {
      current := current
      currentScore := .fin maxFloat64
      coeff := List.replicate P.X.nc 0
      temp := 500
      numAccept := 0
      numSteps := 0
      has50 := false
      scores := newSAScore 10 (fun _ => ⟨[], [], 0⟩)
      acc := [] }

/-- simmulatedAnnealing.go:95-104. -/
def saResultFl (s : SaStateFl) : SaResFl where
  selected := selectedFrom 0 s.current
  coeff := s.coeff.take (numFeatures s.current)
  scores := s.scores
  acc := s.acc

open Classical in
/-- simmulatedAnnealing.go:63-92. -/
def saSweepFl (P : SaInputFl) (s : SaStateFl) : Outcome SaStateFl SaResFl :=
  let numSteps := s.numSteps + 1
  let boundary : Bool := numSteps % P.X.nc = 0
  let has50 : Bool := if boundary then
      s.has50 || decide ((s.numAccept : ℝ) / (numSteps : ℝ) > 0.5) else s.has50
  let temp : ℝ := if boundary = true ∧ has50 = false then s.temp * 2 else s.temp
  if (numSteps : Int) ≥ (P.X.nc : Int) * P.nSweeps then
    if s.numAccept = 0 ∧ has50 = true then
      .ret (saResultFl { s with numSteps := numSteps, has50 := has50, temp := temp })
    else
      let temp' : ℝ := if has50 = true then temp * 0.5 else temp
      let s' := { s with numAccept := 0, numSteps := 0, has50 := has50, temp := temp' }
      if temp' < 1e-12 then .ret (saResultFl s') else .next s'
  else .next { s with numSteps := numSteps, has50 := has50, temp := temp }

/-- simmulatedAnnealing.go:50, with the comparisons of IEEE 754. -/
def saAcceptFl (score currentScore : Fl ℝ) (temp u : ℝ) : Prop :=
  score < currentScore ∨ Fl.exp (Fl.div (Fl.neg (Fl.sub score currentScore)) (.fin temp)) > .fin u

open Classical in
/-- simmulatedAnnealing.go:46-62. -/
def saEvalFl (P : SaInputFl) (s : SaStateFl) (index : Nat) (cur : List Bool) (N : Nat) (u : ℝ) :
    Outcome SaStateFl SaResFl :=
  match fitModelFl P.blas P.svd P.X P.y cur with
  | none => .panic
  | some (coeffTemp, r) =>
    let score := P.cost N P.y.length (Fl.max r (.fin rssTol))
    if saAcceptFl score s.currentScore s.temp u then
      let item : SAItem (Fl ℝ) := { (newSAItem cur : SAItem (Fl ℝ)) with
        score := Fl.neg score
        coeff := goCopy (newSAItem cur : SAItem (Fl ℝ)).coeff coeffTemp }
      match s.scores.insertNew s.acc.length item with
      | none => .panic
      | some scores =>
        saSweepFl P { s with
          current := cur
          currentScore := score
          coeff := goCopy s.coeff coeffTemp
          numAccept := s.numAccept + 1
          scores := scores
          acc := s.acc ++ [item] }
    else saSweepFl P { s with current := saFlip cur index }

/-- simmulatedAnnealing.go:34-93: one iteration. -/
def saBodyFl (P : SaInputFl) (s : SaStateFl) (index : Nat) (u : ℝ) : Outcome SaStateFl SaResFl :=
  let cur := saFlip s.current index
  let N := numFeatures cur
  if N = 0 then saEvalFl P s index (saFlip cur index) 1 u
  else if N ≥ P.X.nr / 2 then .next { s with current := saFlip cur index }
  else saEvalFl P s index cur N u

/-- The loop of simmulatedAnnealing.go:34-93 with given random numbers. -/
def saStreamFl (P : SaInputFl) (index : Nat → Nat) (u : Nat → ℝ) (s : Nat × SaStateFl) :
    Outcome (Nat × SaStateFl) SaResFl :=
  match saBodyFl P s.2 (index s.1) (u s.1) with
  | .next s' => .next (s.1 + 1, s')
  | .ret r => .ret r
  | .panic => .panic

/-! ## The lasso command -/

/-- util.go:123-129 `Mean`. -/
def meanFl (v : List (Fl ℝ)) : Fl ℝ := Fl.div (Fl.sum v) (.fin v.length)

/-- util.go:132-144 `Std`. -/
def stdFl (v : List (Fl ℝ)) : Fl ℝ :=
  if v.length ≤ 1 then .fin 0
  else
    let mu := meanFl v
    Fl.sqrt (Fl.div (Fl.sum (v.map (fun x => Fl.mul (Fl.sub x mu) (Fl.sub x mu)))) (.fin (v.length - 1)))

/-- normalized_dataset.go:25-31: the response after `NewNormalizedData`. -/
def normalizedResponse (y : List (Fl ℝ)) : List (Fl ℝ) :=
  let stdY := stdFl y
  let muY := meanFl y
  y.map (fun v => Fl.div (Fl.sub v muY) stdY)

/-- lasso_lars.go:55-56: `Xᵀ y`. -/
def larsXyFl (X : Mat ℝ) (y : List (Fl ℝ)) (i : Nat) : Fl ℝ :=
  Fl.sum ((List.range X.nr).map (fun r => Fl.mul (.fin (X.get r i)) (y.getD r .nan)))

/-- lasso_lars.go:58-66 and 75: the first `lamb`. -/
def larsFirstLamb (X : Mat ℝ) (y : List (Fl ℝ)) : Fl ℝ :=
  (List.range X.nc).foldl (fun maxTime i =>
    let v := Fl.abs (larsXyFl X y i)
    if maxTime < v then v else maxTime) (.fin 0)

/-- What cmd/lasso.go:69-123 does with type lars: a panic, a path without nodes that is written or not (line 112), or
iterations of the loop of lasso_lars.go:83 (`Model.LassoCommand`, for finite normalised data). -/
inductive LarsStart where
  | panic
  | empty (written : Bool)
  | iterates
  deriving DecidableEq, Repr

/-- cmd/lasso.go:69-77, 98-123.  Without nodes the criteria and the table are empty, and `json.Marshal` fails if and
only if the data set has a value that is not finite.  The columns do not depend on the response. -/
def larsStart (X : Mat ℝ) (y : List (Fl ℝ)) (lambMin : ℝ) : LarsStart :=
  match newNormalizedData X [] with
  | none => .panic
  | some n =>
    if X.nr = 0 ∨ X.nc = 0 then .panic
    else if Fl.fin lambMin < larsFirstLamb n.X (normalizedResponse y) then .iterates
    else .empty (y.all Fl.isFin)

end

end GoSelect
