import Verif.Model.Basic

/-!
# The command that sizes the queue

Model of cmdDepreciated/goselect-mem/main.go.  `int` does not overflow, that is `mem < 2^63 / 10^9`.
-/

namespace GoSelect

/-- goselect-mem/main.go:15-18: the model with all features. -/
def allFeatures (nfeat : Nat) : List Bool := List.replicate nfeat true

/-- goselect-mem/main.go:15-24: the buffer size printed.  `none`: `make` panics for a negative number of features.
Go divides towards zero. -/
def bufferSize (mem nfeat : Int) : Option Int :=
  if nfeat < 0 then none
  else
    let n : Node Int := newNode 0 (allFeatures nfeat.toNat)
    let size := estimateMemory n
    some ((mem * 1000000000).tdiv size)

end GoSelect
