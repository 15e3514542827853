import Verif.Proofs.Models

/-! C01: `Gcs`/`Lcs` are the extreme models of a subtree. -/

namespace GoSelect

open Spec

/-- `NumFeatures` is the number of selected features. -/
theorem C01_numFeatures (m : List Bool) : numFeatures m = card m := numFeatures_eq_card m

/-- `Gcs(model, start)` does not panic for `start ≤ len(model)`; it shares the first `start`
flags with `model` and contains every model that does. -/
theorem C01_gcs_greatest (model : List Bool) (start : Nat) (h : start ≤ model.length) :
    ∃ g, gcs model start = some g ∧ SamePrefix start model g ∧
      ∀ m, SamePrefix start model m → ContainedIn m g := by
  refine ⟨_, gcs_eq_some h, ⟨(length_extreme _ _ _).symm, fun i hi => ?_⟩, fun m hm i hi => ?_⟩
  · rw [extreme_spec _ _ _ h, if_neg (by omega)]
  · unfold HasFeature at *
    rw [extreme_spec _ _ _ h]
    by_cases hc : start ≤ i ∧ i < model.length
    · simp [hc]
    · rw [if_neg hc]
      have hlt : i < m.length := (List.getElem?_eq_some_iff.1 hi).1
      have := hm.1
      rw [hm.2 i (by omega), hi]

/-- `Lcs(model, start)` shares the first `start` flags with `model` and is contained in every
model that does. -/
theorem C01_lcs_least (model : List Bool) (start : Nat) (h : start ≤ model.length) :
    ∃ l, lcs model start = some l ∧ SamePrefix start model l ∧
      ∀ m, SamePrefix start model m → ContainedIn l m := by
  refine ⟨_, lcs_eq_some h, ⟨(length_extreme _ _ _).symm, fun i hi => ?_⟩, fun m hm i hi => ?_⟩
  · rw [extreme_spec _ _ _ h, if_neg (by omega)]
  · unfold HasFeature at *
    rw [extreme_spec _ _ _ h] at hi
    by_cases hc : start ≤ i ∧ i < model.length
    · simp [hc] at hi
    · rw [if_neg hc] at hi
      have hlt : i < model.length := (List.getElem?_eq_some_iff.1 hi).1
      rw [← hm.2 i (by omega), hi]

/-- The feature counts of the two extremes bracket that of every model with the prefix. -/
theorem C01_card_between (model m g l : List Bool) (start : Nat)
    (hg : gcs model start = some g) (hl : lcs model start = some l)
    (hm : SamePrefix start model m) :
    numFeatures l ≤ numFeatures m ∧ numFeatures m ≤ numFeatures g := by
  have h : start ≤ model.length := by
    by_contra hc
    rw [gcs_eq_none (by omega)] at hg
    cases hg
  obtain ⟨g', hg', -, hg2⟩ := C01_gcs_greatest model start h
  obtain ⟨l', hl', -, hl2⟩ := C01_lcs_least model start h
  rw [hg] at hg'; rw [hl] at hl'
  cases hg'; cases hl'
  simp only [numFeatures_eq_card]
  exact ⟨card_le_of_contained (hl2 m hm), card_le_of_contained (hg2 m hm)⟩

/-- Both functions panic exactly when `start` is beyond the end of the model. -/
theorem C01_panic_iff (model : List Bool) (start : Nat) :
    (gcs model start = none ↔ model.length < start) ∧
    (lcs model start = none ↔ model.length < start) := by
  by_cases h : model.length < start
  · simp [gcs_eq_none h, lcs_eq_none h, h]
  · simp [gcs_eq_some (Nat.le_of_not_lt h), lcs_eq_some (Nat.le_of_not_lt h), h]

example : gcs [true, false, true, false] 2 = some [true, false, true, true] ∧
    lcs [true, false, true, false] 2 = some [true, false, false, false] ∧
    SamePrefix 2 [true, false, true, false] [true, false, false, true] := by
  refine ⟨rfl, rfl, rfl, fun i hi => ?_⟩
  match i, hi with
  | 0, _ => rfl
  | 1, _ => rfl

end GoSelect
