import Verif.Model.Kappa

/-!
# Expected kappa under random partitioning

Model of cohens_kappa.go:26-44 `GetCohensKappa`, with exact arithmetic for finite numbers.
-/

namespace GoSelect

variable {K : Type} [Field K] [LinearOrder K]

/-- IEEE division by `float64(n)`. -/
def Fl.divNat (x : Fl K) (n : Nat) : Fl K :=
  match x with
  | .fin a => Fl.divFin a (n : K)
  | x => x

/-- cohens_kappa.go:38-40: the arguments of the two calls of `GetSelection` for the shuffled slice
`indices`. -/
def kappaHalves (nr : Nat) (indices : List Nat) : List Nat × List Nat :=
  (indices.take (nr / 2), indices.drop (nr / 2))

/-- cohens_kappa.go:26-44 `GetCohensKappa`.  `sel` is the target's `GetSelection`, which is taken to depend
on the indices only; `shuffles` lists the slice `indices` after each of the `numSamples` shuffles. -/
def getCohensKappa (nr nc : Nat) (sel : List Nat → List Int) (shuffles : List (List Nat)) : Fl K :=
  (shuffles.foldl (fun kappa indices =>
    Fl.add kappa (cohenKappa (sel (kappaHalves nr indices).1) (sel (kappaHalves nr indices).2) nc))
    (.fin 0)).divNat shuffles.length

end GoSelect
