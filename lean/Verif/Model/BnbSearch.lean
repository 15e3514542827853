import Verif.Model.Annealing
import Verif.Model.Dataset
import Verif.Model.Regression

/-!
# The search of the branch-and-bound command

Model of cmd/bnb.go:78-106: the data set is read (a parameter here), simulated annealing gives a first model, and the
branch-and-bound search starts from that model with an empty highscore list of length 10.  The final save, and the main
loop, are in `Model.BnbCommand`.
-/

namespace GoSelect

/-- The first search of the command (cmd/bnb.go:97). -/
noncomputable def bnbFirst (svd : Mat ℝ → SVD ℝ) (dset : Dataset ℝ) : SaInput := ⟨svd, dset.X, dset.Y, 100, aicc⟩

/-- cmd/bnb.go:97-106: `r` is a result of simulated annealing, and `s` a state in which the call of `SelectModel` that
follows has returned.  The list that the command saves (lines 69-74, 122) is `s.hs`. -/
def BnbSearches (svd : Mat ℝ → SVD ℝ) (dset : Dataset ℝ) (cutoff : ℝ) (maxQueue : Int) (r : SaRes) (s : SState ℝ) :
    Prop :=
  SaReturns (bnbFirst svd dset) r ∧
    ∃ root, selected2Model (r.selected.map Int.ofNat) dset.X.nc = some root ∧
      SelectReaches (regressionSearch svd dset.X dset.Y root maxQueue cutoff) 10 [] s ∧ s.main = .done

end GoSelect
