/-!
# `Argsort`, `Argmin`, `Argmax`

Model of util.go:295-337 and orthogonalMatchingPursuit.go:105-115.  Comparisons are Go's `<` and
`>`, so the model needs only a decidable `<`.
-/

namespace GoSelect

variable {α : Type}

/-- util.go:326-337 `Argmin`; `none`: `a[0]` panics on an empty slice.  The pair is
`(minIdx, minVal)`. -/
def argmin [LT α] [DecidableLT α] (a : List α) : Option Nat :=
  match a with
  | [] => none
  | a0 :: _ =>
    some (a.zipIdx.foldl (fun s vi => if vi.1 < s.2 then (vi.2, vi.1) else s) (0, a0)).1

/-- orthogonalMatchingPursuit.go:105-115 `Argmax`. -/
def argmax [LT α] [DecidableLT α] (v : List α) : Option Nat :=
  match v with
  | [] => none
  | v0 :: _ =>
    some (v.zipIdx.foldl (fun s vi => if s.2 < vi.1 then (vi.2, vi.1) else s) (0, v0)).1

/-- What `sort.Sort` promises for `ByValue` (util.go:301-305): a permutation without an inversion
with respect to `Less`. -/
structure SortsByValue [LT α] (sort : List (α × Nat) → List (α × Nat)) : Prop where
  perm : ∀ l, (sort l).Perm l
  sorted : ∀ l, (sort l).Pairwise (fun a b => ¬ b.1 < a.1)

/-- util.go:308-323 `Argsort`; `sort` stands for `sort.Sort`. -/
def argsort (sort : List (α × Nat) → List (α × Nat)) (a : List α) : List Nat :=
  (sort a.zipIdx).map (·.2)

end GoSelect
