import Verif.Model.CohenSample

/-!
# Random shuffles

`rand.Shuffle` of the standard library, with the swap function that the code passes to it.
-/

namespace GoSelect

/-- cohens_kappa.go:36, thresholdCov.go:143: `indices[i], indices[j] = indices[j], indices[i]`. -/
def swapAt (l : List Nat) (i j : Nat) : List Nat :=
  (l.set i (l.getD j 0)).set j (l.getD i 0)

/-- `rand.Shuffle` calls swap with `i` and a random number `j` in `[0, i]`, where `i` goes from the last index down to 1.
`draw i` is the random number for `i`. -/
def shuffleLoop (draw : Nat → Nat) : Nat → List Nat → List Nat
  | 0, l => l
  | i + 1, l => shuffleLoop draw i (swapAt l (i + 1) (draw (i + 1)))

/-- cohens_kappa.go:36, thresholdCov.go:143: `rand.Shuffle(len(indices), …)`. -/
def goShuffle (draw : Nat → Nat) (l : List Nat) : List Nat := shuffleLoop draw (l.length - 1) l

/-- cohens_kappa.go:31-36: the slice `indices` after the given number of samples.  It is not reset between samples. -/
def shuffledIndices (draw : Nat → Nat → Nat) (nr : Nat) : Nat → List Nat
  | 0 => List.range nr
  | k + 1 => goShuffle (draw k) (shuffledIndices draw nr k)

variable {K : Type} [Field K] [LinearOrder K]

/-- cohens_kappa.go:26-44 `GetCohensKappa` with the random numbers `draw k` in sample `k`. -/
def sampledKappa (nr nc : Nat) (sel : List Nat → List Int) (numSamples : Nat) (draw : Nat → Nat → Nat) : Fl K :=
  getCohensKappa nr nc sel ((List.range numSamples).map (fun k => shuffledIndices draw nr (k + 1)))

/-- thresholdCov.go:132-157 `RandomRowSplit`: the row of `X` that each row of the two results is taken from. -/
def splitIndices (draw : Nat → Nat) (nr : Nat) : List Nat := goShuffle draw (List.range nr)

end GoSelect
