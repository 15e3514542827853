import Verif.Model.FloatArith
import Verif.Model.Regression

/-!
# The search problem of a data set whose response may have NaN or infinite values

As `Model.Regression`, with the arithmetic of `Model.FloatArith`.
-/

namespace GoSelect

instance {K : Type} [Neg K] : Neg (Fl K) := ⟨Fl.neg⟩

noncomputable section

/-- criteria.go:48-53, for any response. -/
def boundsRssLcsFl (B : Blas) (svd : Mat ℝ → SVD ℝ) (lcsMod : List Bool) (X : Mat ℝ) (y : List (Fl ℝ)) : Option (Fl ℝ) :=
  if 0 < numFeatures lcsMod then (fitModelFl B svd X y lcsMod).map (·.2) else some (.fin maxFloat64)

/-- criteria.go:55-61, for any response. -/
def boundsRssGcsFl (B : Blas) (svd : Mat ℝ → SVD ℝ) (gcsMod : List Bool) (X : Mat ℝ) (y : List (Fl ℝ)) : Option (Fl ℝ) :=
  if numFeatures gcsMod < X.nr then (fitModelFl B svd X y gcsMod).map (·.2) else some (.fin rssTol)

/-- criteria.go:41-66 `bounds` with `Aicc` (74-76 `BoundsAICC`), for any response. -/
def boundsAICCFl (B : Blas) (svd : Mat ℝ → SVD ℝ) (model : List Bool) (start : Nat) (X : Mat ℝ) (y : List (Fl ℝ)) :
    Option (Fl ℝ × Fl ℝ) :=
  match gcs model start, lcs model start with
  | some gcsMod, some lcsMod =>
    match boundsRssLcsFl B svd lcsMod X y, boundsRssGcsFl B svd gcsMod X y with
    | some rssLcs, some rssGcs =>
      some (aiccFl (numFeatures lcsMod) y.length rssGcs, aiccFl (numFeatures gcsMod) y.length rssLcs)
    | _, _ => none
  | _, _ => none

/-- The inputs of `SelectModel` for data `X`, `y` (optimize.go:71-90, 185-188, 224-227, 237-256, 291-298), for any
response. -/
def flSearch (B : Blas) (svd : Mat ℝ → SVD ℝ) (X : Mat ℝ) (y : List (Fl ℝ)) (root : List Bool) (maxQueue : Int)
    (cutoff : ℝ) : Search (Fl ℝ) where
  nrows := X.nr
  ncols := X.nc
  fit m := ((fitModelFl B svd X y m).map (·.1)).getD []
  rss m := ((fitModelFl B svd X y m).map (·.2)).getD .nan
  aicc := aiccFl
  root := root
  maxQueue := maxQueue
  cutoff := .fin cutoff
  bounds m l := (boundsAICCFl B svd m l X y).getD (.nan, .nan)
  huge := .fin (10 ^ 100)
  maxFloat := .fin maxFloat64
  mean ls := Fl.div (Fl.sum ls) (.fin ls.length)

end

end GoSelect
