import Verif.Model.IntUtil
import Mathlib.Data.List.Basic
import Mathlib.Tactic.Linarith

/-! Integer helpers. -/

namespace GoSelect

theorem existInt_iff {a : List Int} {v : Int} : existInt a v = true ↔ v ∈ a := by
  induction a with
  | nil => simp [existInt]
  | cons x a ih =>
    rw [existInt]
    split
    · rename_i h; simp [h]
    · rename_i h; rw [ih]; simp [Ne.symm h]

theorem equalInt_iff {a b : List Int} : equalInt a b = true ↔ a = b := by
  unfold equalInt
  by_cases h : a.length = b.length
  · simp only [h, ne_eq, not_true, if_false, List.all_eq_true, List.mem_range, beq_iff_eq]
    constructor
    · intro h'
      refine List.ext_getElem? fun i => ?_
      by_cases hi : i < b.length
      · exact h' i hi
      · rw [List.getElem?_eq_none (by omega), List.getElem?_eq_none (by omega)]
    · rintro rfl; simp
  · simp only [h, ne_eq, not_false_eq_true, if_true, Bool.false_eq_true, false_iff]
    rintro rfl
    exact h rfl

end GoSelect
