import Verif.Model.Regression

/-!
# The search with computed numbers

As `Model.Regression`, but coefficients, residual sums of squares and criterion are what floating point arithmetic makes
of them: any functions of the model, of the numbers of features and rows, and of the residual sum of squares.
-/

namespace GoSelect

noncomputable section

/-- criteria.go:41-66 `bounds`: `rss m` is what lines 50-52 and 58-60 compute for the model `m`.  Where `Gcs` or `Lcs`
panic (`start` beyond the end, models.go) the value is arbitrary. -/
def computedBounds (rss : List Bool → ℝ) (criteria : Nat → Nat → ℝ → ℝ) (nr : Nat) (model : List Bool) (start : Nat) :
    ℝ × ℝ :=
  match gcs model start, lcs model start with
  | some gcsMod, some lcsMod =>
    let rssLcs := if 0 < numFeatures lcsMod then rss lcsMod else maxFloat64
    let rssGcs := if numFeatures gcsMod < nr then rss gcsMod else rssTol
    (criteria (numFeatures lcsMod) nr rssGcs, criteria (numFeatures gcsMod) nr rssLcs)
  | _, _ => (0, 0)

/-- As `regressionSearch` (optimize.go:71-90, 185-188, 224-227, 237-256, 291-298), with the computed functions `fit`,
`rss` and `criteria`. -/
def computedSearch (nr nc : Nat) (fit : List Bool → List ℝ) (rss : List Bool → ℝ) (criteria : Nat → Nat → ℝ → ℝ)
    (root : List Bool) (maxQueue : Int) (cutoff : ℝ) : Search ℝ where
  nrows := nr
  ncols := nc
  fit := fit
  rss := rss
  aicc := criteria
  root := root
  maxQueue := maxQueue
  cutoff := cutoff
  bounds := computedBounds rss criteria nr
  huge := 10 ^ 100
  maxFloat := maxFloat64
  mean ls := ls.sum / ls.length

/-- criteria.go:17-19 `Aic` with rounding after every operation; `ln` is `math.Log`. -/
def aicRnd (rnd ln : ℝ → ℝ) (numFeat numData : Nat) (logL : ℝ) : ℝ :=
  rnd (rnd (2 * rnd numFeat) + rnd (rnd numData * ln logL))

/-- criteria.go:23-30 `Aicc` with rounding after every operation. -/
def aiccRnd (rnd ln : ℝ → ℝ) (numFeat numData : Nat) (logL : ℝ) : ℝ :=
  let denum : ℝ := rnd ((numData : Int) - numFeat - 1 : Int)
  let denum : ℝ := if (numFeat : Int) ≥ (numData : Int) - 1 then 1 else denum
  rnd (aicRnd rnd ln numFeat numData logL + rnd (rnd ((2 * numFeat * numFeat + 2 * numFeat : Nat) : ℝ) / denum))

end

end GoSelect
