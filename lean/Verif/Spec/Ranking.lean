import Verif.Model.Basic
import Mathlib.Order.Defs.LinearOrder

/-!
# Specification vocabulary for rankings

The reference ranking is the library's stable merge sort, largest score first.
-/

namespace GoSelect.Spec

variable {α : Type} [LinearOrder α]

/-- Stable sort of a history of nodes, largest score first. -/
def ranking (history : List (Node α)) : List (Node α) :=
  history.mergeSort (fun a b => decide (b.score ≤ a.score))

end GoSelect.Spec
