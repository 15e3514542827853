import Verif.Model.IntUtil
import Verif.Proofs.IntUtil
import Mathlib.Algebra.BigOperators.Group.List.Basic

/-! C74: helpers on integer slices. -/

namespace GoSelect

/-- `All`: every entry is the value. -/
theorem C74_all (a : List Int) (v : Int) : allEq a v = true ↔ ∀ x ∈ a, x = v := by
  induction a with
  | nil => simp [allEq]
  | cons y a ih =>
    rw [allEq]
    by_cases h : y = v <;> simp [h, ih]

/-- `ExistInt`: some entry is the value. -/
theorem C74_exist (a : List Int) (v : Int) : existInt a v = true ↔ ∃ x ∈ a, x = v := by
  rw [existInt_iff]; simp

/-- `EqualInt`: the same list. -/
theorem C74_equal (a b : List Int) : equalInt a b = true ↔ a = b := equalInt_iff

theorem foldl_add_int (a : List Int) (s : Int) : a.foldl (fun s v => s + v) s = s + a.sum := by
  induction a generalizing s with
  | nil => simp
  | cons x a ih => rw [List.foldl_cons, ih, List.sum_cons]; omega

/-- `Sum`: the sum of the entries. -/
theorem C74_sum (a : List Int) : sumInt a = a.sum := by
  rw [sumInt, foldl_add_int]; omega

theorem foldl_max_int (a : List Int) (s : Int) :
    let m := a.foldl (fun max v => if v > max then v else max) s
    (m = s ∨ m ∈ a) ∧ s ≤ m ∧ ∀ x ∈ a, x ≤ m := by
  induction a generalizing s with
  | nil => simp
  | cons x a ih =>
    simp only [List.foldl_cons]
    by_cases h : x > s
    · rw [if_pos h]
      obtain ⟨h1, h2, h3⟩ := ih x
      refine ⟨.inr ?_, by omega, ?_⟩
      · rcases h1 with h1 | h1
        · rw [h1]; simp
        · exact List.mem_cons_of_mem _ h1
      · intro y hy
        rcases List.mem_cons.1 hy with rfl | hy
        · exact h2
        · exact h3 y hy
    · rw [if_neg h]
      obtain ⟨h1, h2, h3⟩ := ih s
      refine ⟨?_, h2, ?_⟩
      · rcases h1 with h1 | h1
        · exact .inl h1
        · exact .inr (List.mem_cons_of_mem _ h1)
      · intro y hy
        rcases List.mem_cons.1 hy with rfl | hy
        · omega
        · exact h3 y hy

theorem foldl_min_int (a : List Int) (s : Int) :
    let m := a.foldl (fun min v => if v < min then v else min) s
    (m = s ∨ m ∈ a) ∧ m ≤ s ∧ ∀ x ∈ a, m ≤ x := by
  induction a generalizing s with
  | nil => simp
  | cons x a ih =>
    simp only [List.foldl_cons]
    by_cases h : x < s
    · rw [if_pos h]
      obtain ⟨h1, h2, h3⟩ := ih x
      refine ⟨.inr ?_, by omega, ?_⟩
      · rcases h1 with h1 | h1
        · rw [h1]; simp
        · exact List.mem_cons_of_mem _ h1
      · intro y hy
        rcases List.mem_cons.1 hy with rfl | hy
        · exact h2
        · exact h3 y hy
    · rw [if_neg h]
      obtain ⟨h1, h2, h3⟩ := ih s
      refine ⟨?_, h2, ?_⟩
      · rcases h1 with h1 | h1
        · exact .inl h1
        · exact .inr (List.mem_cons_of_mem _ h1)
      · intro y hy
        rcases List.mem_cons.1 hy with rfl | hy
        · omega
        · exact h3 y hy

/-- `MaxInt`: the largest entry, if some entry is at least `-2^31`; `-2^31` for the empty slice. -/
theorem C74_max (a : List Int) :
    (a ≠ [] → (∀ x ∈ a, -2 ^ 31 ≤ x) → maxInt a ∈ a ∧ ∀ x ∈ a, x ≤ maxInt a) ∧
    maxInt [] = -2 ^ 31 := by
  refine ⟨?_, rfl⟩
  intro hne h32
  obtain ⟨h1, h2, h3⟩ := foldl_max_int a (-2147483648)
  refine ⟨?_, h3⟩
  rcases h1 with h1 | h1
  · obtain ⟨x, hx⟩ := List.exists_mem_of_ne_nil a hne
    have g1 := h3 x hx
    have g2 := h32 x hx
    have : x = maxInt a := by unfold maxInt; omega
    rw [← this]; exact hx
  · exact h1

/-- `MinInt`: the smallest entry of 32-bit values; `2^31 - 1` for the empty slice. -/
theorem C74_min (a : List Int) :
    (a ≠ [] → (∀ x ∈ a, x ≤ 2 ^ 31 - 1) → minInt a ∈ a ∧ ∀ x ∈ a, minInt a ≤ x) ∧
    minInt [] = 2 ^ 31 - 1 := by
  refine ⟨?_, rfl⟩
  intro hne h32
  obtain ⟨h1, h2, h3⟩ := foldl_min_int a 2147483647
  refine ⟨?_, h3⟩
  rcases h1 with h1 | h1
  · obtain ⟨x, hx⟩ := List.exists_mem_of_ne_nil a hne
    have g1 := h3 x hx
    have g2 := h32 x hx
    have : x = minInt a := by unfold minInt; omega
    rw [← this]; exact hx
  · exact h1

/-- Outside the 32-bit range the start value shows. -/
theorem C74_max_64bit : maxInt [-2 ^ 40] = -2 ^ 31 := by decide

example : maxInt [3, -7, 5, 5] = 5 ∧ minInt [3, -7, 5] = -7 ∧ allEq [2, 2] 2 = true ∧
    allEq [2, 3] 2 = false ∧ sumInt [1, 2, -5] = -2 ∧ existInt [1, 2] 3 = false := by decide

end GoSelect
