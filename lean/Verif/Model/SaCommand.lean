import Verif.Model.Annealing
import Verif.Model.Dataset

/-!
# The simulated-annealing command

Model of cmd/sasearch.go:66-78.  Reading the CSV file is in `Model.Csv`; the data set is a parameter.  The scores of
the list are finite (they are computed from an RSS of at least `RssTol`), so `json.Marshal` succeeds; the text format
and the file system are not modelled.
-/

namespace GoSelect

/-- What `json.Marshal(res.Scores)` writes: the exported fields of `SAScore` (saScore.go:32-37), with the pointers
followed. -/
structure SaFile where
  cap : Int
  items : List (SAItem ℝ)
  best : Option (SAItem ℝ)
  worst : Option (SAItem ℝ)

/-- cmd/sasearch.go:73 -/
def saFile (s : SAScore ℝ) : SaFile where
  cap := s.cap
  items := s.entries
  best := s.best.map s.heap
  worst := s.worst.map s.heap

/-- The search that the command runs (cmd/sasearch.go:69): the criterion is `Aicc`. -/
noncomputable def saCommandInput (svd : Mat ℝ → SVD ℝ) (dset : Dataset ℝ) (sweeps : Int) : SaInput :=
  ⟨svd, dset.X, dset.Y, sweeps, aicc⟩

/-- cmd/sasearch.go:66-78 `saSearch`: some random numbers lead to the result `r`, and `out` is what is written. -/
def SaCommand (svd : Mat ℝ → SVD ℝ) (dset : Dataset ℝ) (sweeps : Int) (r : SaRes) (out : SaFile) : Prop :=
  SaReturns (saCommandInput svd dset sweeps) r ∧ out = saFile r.scores

end GoSelect
