import Verif.Model.Highscore
import Verif.Model.Loop

/-!
# `BruteForceSelect`

Model of optimize.go:174-199.  The data enter only through a `Problem`: the coefficients that
`Fit` returns for the design matrix of a model, the RSS of that fit, and the criterion.
`Verif/Model/Regression.lean` defines the `Problem` of a concrete data set.
-/

namespace GoSelect

/-- What the search algorithms observe of `X`, `y`. `α` stands for `float64`. -/
structure Problem (α : Type) where
  /-- number of rows of `X`, equal to `len(y)` (`Fit` panics otherwise) -/
  nrows : Nat
  /-- number of columns of `X` -/
  ncols : Nat
  /-- `Fit(GetDesignMatrix(model, X), y)` for a model with at least one feature -/
  fit : List Bool → List α
  /-- `Rss(design, Fit(design, y), y)` for a model with at least one feature -/
  rss : List Bool → α
  /-- `Aicc(numFeat, numData, rss)` -/
  aicc : Nat → Nat → α → α

/-- optimize.go:185-188 and 224-227: fit a node and store coefficients and score in it. -/
def scoreNode {α : Type} [Neg α] (P : Problem α) (n : Node α) : Node α :=
  { n with
    coeff := P.fit n.model
    score := -P.aicc (numFeatures n.model) P.nrows (P.rss n.model) }

/-- Body of the loop optimize.go:182-197.  State: the queue and the highscore list. -/
def bruteBody {α : Type} [Zero α] [Neg α] [LT α] [DecidableLT α] (P : Problem α) :
    List (Node α) × Highscore α → Outcome (List (Node α) × Highscore α) (Highscore α)
  | ([], h) => .ret h
  | (cur :: rest, h) =>
    let ins : Option (Highscore α) :=
      if 0 < numFeatures cur.model ∧ isNewNode cur = true then h.insert (scoreNode P cur)
      else some h
    match ins with
    | none => .panic
    | some h' =>
      if cur.level < P.ncols then
        match getChildNode cur false, getChildNode cur true with
        | some c1, some c2 => .next (rest ++ [c1, c2], h')
        | _, _ => .panic
      else .next (rest, h')

/-- optimize.go:174-180: the state before the loop.  `1 << uint(ncols)` is `2 ^ ncols`
(no overflow, i.e. at most 62 columns). -/
def bruteInit {α : Type} [Zero α] (P : Problem α) : List (Node α) × Highscore α :=
  ([newNode 0 (List.replicate P.ncols false)], newHighscore (2 ^ P.ncols))

/-- `BruteForceSelect` returns `h`. -/
def BruteForceReturns {α : Type} [Zero α] [Neg α] [LT α] [DecidableLT α] (P : Problem α)
    (h : Highscore α) : Prop :=
  Runs (bruteBody P) (bruteInit P) h

end GoSelect
