import Mathlib.Data.List.Basic

/-! Cartesian powers. -/

namespace GoSelect.Spec

/-- All tuples of length `r` over `values` in lexicographic order (the first entry varies
slowest). -/
def tuples (values : List Int) : Nat → List (List Int)
  | 0 => [[]]
  | r + 1 => values.flatMap (fun v => (tuples values r).map (v :: ·))

end GoSelect.Spec
