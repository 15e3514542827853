import Verif.Model.Json
import Verif.Model.Regression
import Mathlib.Data.EReal.Inv

/-!
# The search problem of a data set with exact fits, and the file of the branch-and-bound command

As `Model.Regression`, but `math.Log(0)` is minus infinity: scores and bounds are extended reals.  Model of
cmd/bnb.go:66-72 on top of it.
-/

namespace GoSelect

noncomputable section

/-- criteria.go:23-30 `Aicc` with `math.Log(0) = -Inf`, for at least one row and an RSS that is not negative. -/
def aiccExt (numFeat numData : Nat) (rss : ℝ) : EReal :=
  if rss = 0 then ⊥ else (aicc numFeat numData rss : ℝ)

/-- As `regressionSearch`, with exact fits (optimize.go:71-90, 185-188, 224-227, 237-256, 291-298). -/
def extendedSearch (svd : Mat ℝ → SVD ℝ) (X : Mat ℝ) (y : List ℝ) (root : List Bool) (maxQueue : Int) (cutoff : ℝ) :
    Search EReal where
  nrows := X.nr
  ncols := X.nc
  fit m := (((fitModel svd X y m).map (·.1)).getD []).map (fun c : ℝ => (c : EReal))
  rss m := ((((fitModel svd X y m).map (·.2)).getD 0 : ℝ) : EReal)
  aicc k n r := aiccExt k n r.toReal
  root := root
  maxQueue := maxQueue
  cutoff := (cutoff : ℝ)
  bounds m l := (bounds svd m l X y aiccExt).getD (0, 0)
  huge := ((10 ^ 100 : ℝ) : EReal)
  maxFloat := (maxFloat64 : ℝ)
  mean ls := ls.sum / (ls.length : EReal)

/-- cmd/bnb.go:66-72 `saveHighscoreList`: the contents of the file after the call.  The error of `json.Marshal` is
ignored, and the text is then the empty one.  Texts are values of any type `T`, as there are more reals than strings.
Writing the file does not fail. -/
def saveHighscoreList {T : Type} (empty : T) (marshal : HighscoreJson EReal → Option T) (h : Highscore EReal) : T :=
  ((highscoreToJson h).bind marshal).getD empty

end

end GoSelect
