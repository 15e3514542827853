/-!
# Specification vocabulary for feature models

A model is a list of flags; feature `i` is in the model when flag `i` is set.
-/

namespace GoSelect.Spec

/-- Feature `i` is selected by `m`. -/
def HasFeature (m : List Bool) (i : Nat) : Prop := m[i]? = some true

instance (m : List Bool) (i : Nat) : Decidable (HasFeature m i) := by
  unfold HasFeature; infer_instance

/-- `b` selects every feature that `a` selects. -/
def ContainedIn (a b : List Bool) : Prop := ∀ i, HasFeature a i → HasFeature b i

/-- `a` and `b` have the same length and the same first `k` flags. -/
def SamePrefix (k : Nat) (a b : List Bool) : Prop :=
  a.length = b.length ∧ ∀ i, i < k → a[i]? = b[i]?

/-- The features of a model in increasing order. -/
def features (m : List Bool) : List Nat := (List.range m.length).filter (fun i => m[i]? == some true)

/-- Number of selected features. -/
def card (m : List Bool) : Nat := (features m).length

end GoSelect.Spec
