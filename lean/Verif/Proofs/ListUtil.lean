import Mathlib.Data.List.Count
import Mathlib.Data.List.Basic

/-! Lists: counting and updating. -/

namespace GoSelect

theorem countP_set {β : Type} (p : β → Bool) {l : List β} {i : Nat} {a b : β} (h : l[i]? = some a) :
    (l.set i b).countP p + (if p a then 1 else 0) = l.countP p + (if p b then 1 else 0) := by
  induction l generalizing i with
  | nil => simp at h
  | cons x l ih =>
    cases i with
    | zero =>
      simp only [List.getElem?_cons_zero, Option.some.injEq] at h
      subst h
      simp only [List.set_cons_zero, List.countP_cons]
      omega
    | succ i =>
      simp only [List.getElem?_cons_succ] at h
      have := ih h
      simp only [List.set_cons_succ, List.countP_cons]
      omega

theorem mem_set_cases {β : Type} {l : List β} {i : Nat} {b x : β} (h : x ∈ l.set i b) :
    x = b ∨ ∃ j, j ≠ i ∧ l[j]? = some x := by
  obtain ⟨j, hj⟩ := List.mem_iff_getElem?.1 h
  by_cases hij : i = j
  · subst hij
    rw [List.getElem?_set] at hj
    simp only [if_true] at hj
    split at hj
    · exact Or.inl (Option.some.inj hj).symm
    · cases hj
  · rw [List.getElem?_set_ne hij] at hj
    exact Or.inr ⟨j, Ne.symm hij, hj⟩

theorem countP_pos_of {β : Type} {p : β → Bool} {l : List β} {i : Nat} {a : β} (h : l[i]? = some a)
    (hp : p a = true) : 0 < l.countP p :=
  List.countP_pos_iff.2 ⟨a, List.mem_of_getElem? h, hp⟩

/-- Two different positions with `p`. -/
theorem countP_two {β : Type} {p : β → Bool} {l : List β} {i j : Nat} {a b : β} (h : l[i]? = some a)
    (h' : l[j]? = some b) (hij : j ≠ i) (hp : p a = true) (hp' : p b = true) : 2 ≤ l.countP p := by
  induction l generalizing i j with
  | nil => simp at h
  | cons x l ih =>
    rw [List.countP_cons]
    cases i with
    | zero =>
      cases j with
      | zero => exact absurd rfl hij
      | succ j =>
        simp only [List.getElem?_cons_zero, Option.some.injEq] at h
        subst h
        have := countP_pos_of (p := p) (List.getElem?_cons_succ ▸ h') hp'
        simp only [hp, if_true]
        omega
    | succ i =>
      cases j with
      | zero =>
        simp only [List.getElem?_cons_zero, Option.some.injEq] at h'
        subst h'
        have := countP_pos_of (p := p) (List.getElem?_cons_succ ▸ h) hp
        simp only [hp', if_true]
        omega
      | succ j =>
        simp only [List.getElem?_cons_succ] at h h'
        have := ih h h' (by omega)
        omega

theorem not_of_countP_zero {β : Type} {p : β → Bool} {l : List β} (h : l.countP p = 0) {x : β}
    (hx : x ∈ l) : p x = false := by
  have := List.countP_eq_zero.1 h x hx
  simpa using this

end GoSelect
