import Verif.Spec.Annealing
import Mathlib.Analysis.SpecialFunctions.Exp
import Mathlib.LinearAlgebra.Matrix.Notation
import Mathlib.Data.Set.Finite.List
import Mathlib.Data.Fintype.EquivFin

/-! The Metropolis chain on the models of a search, and the Boltzmann distribution. -/

namespace GoSelect.Spec

/-- The models simulated annealing moves between: at least one feature, fewer features than half the number of data
points (rounded down). -/
def SaModel (nc nr : Nat) : Type := {m : List Bool // m.length = nc ∧ 0 < card m ∧ card m < nr / 2}

noncomputable instance (nc nr : Nat) : Fintype (SaModel nc nr) :=
  have : Finite (SaModel nc nr) := ((List.finite_length_eq Bool nc).subset (t := {m | m.length = nc ∧ 0 < card m ∧
    card m < nr / 2}) fun _ h => h.1).to_subtype
  Fintype.ofFinite _

instance (nc nr : Nat) : DecidableEq (SaModel nc nr) :=
  inferInstanceAs (DecidableEq {m : List Bool // m.length = nc ∧ 0 < card m ∧ card m < nr / 2})

/-- The models differ in exactly one feature. -/
def Neighbours {nc nr : Nat} (a b : SaModel nc nr) : Prop := ∃! i : Nat, a.1[i]? ≠ b.1[i]?

/-- The probability with which Metropolis' rule accepts a step from cost `e` to cost `e'`. -/
noncomputable def acceptance (T e e' : ℝ) : ℝ := min 1 (Real.exp (-(e' - e) / T))

open Classical in
/-- The Metropolis chain: each of the `nc` features is proposed with the same probability, and what is not accepted
stays. -/
noncomputable def metropolis {nc nr : Nat} (E : SaModel nc nr → ℝ) (T : ℝ) :
    Matrix (SaModel nc nr) (SaModel nc nr) ℝ := fun a b =>
  if a = b then 1 - ∑ c, (if Neighbours a c then acceptance T (E a) (E c) / nc else 0)
  else if Neighbours a b then acceptance T (E a) (E b) / nc else 0

/-- The Boltzmann distribution. -/
noncomputable def boltzmann {nc nr : Nat} (E : SaModel nc nr → ℝ) (T : ℝ) (a : SaModel nc nr) : ℝ :=
  Real.exp (-E a / T) / ∑ b, Real.exp (-E b / T)

/-- The model held after an iteration: the current one, or the one returned. -/
def modelAfter (nc : Nat) : Outcome SaState SaRes → Option (List Bool)
  | .next s => some s.current
  | .ret r => some ((List.range nc).map fun i => decide (i ∈ r.selected))
  | .panic => none

end GoSelect.Spec
