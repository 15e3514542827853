import Verif.Proofs.Models
import Mathlib.Data.List.Nodup
import Mathlib.Data.List.Perm.Basic

/-! The binary tree of models that `GetChildNode` spans. -/

namespace GoSelect

open Spec

/-- Flip flag `l`. -/
def flipAt (m : List Bool) (l : Nat) : List Bool := m.modify l (!·)

theorem flipAt_length (m : List Bool) (l : Nat) : (flipAt m l).length = m.length := by
  simp [flipAt]

theorem flipAt_getElem? (m : List Bool) (l i : Nat) :
    (flipAt m l)[i]? = if l = i then m[i]?.map (!·) else m[i]? := by
  simp only [flipAt, List.getElem?_modify]
  split <;> simp

theorem getChildNode_false {α : Type} [Zero α] (n : Node α) :
    getChildNode n false = some ⟨n.model, [], n.level + 1, 0, 0, 0, false⟩ := by
  simp [getChildNode, goCopy_replicate]

theorem getChildNode_true {α : Type} [Zero α] (n : Node α) (h : n.level < n.model.length) :
    getChildNode n true = some ⟨flipAt n.model n.level, [], n.level + 1, 0, 0, 0, true⟩ := by
  have : n.model.set n.level (!n.model[n.level]) = flipAt n.model n.level := by
    apply List.ext_getElem?
    intro i
    rw [flipAt_getElem?, List.getElem?_set]
    by_cases hi : n.level = i
    · subst hi; simp [h]
    · simp [hi]
  simp [getChildNode, goCopy_replicate, List.getElem?_eq_getElem h, goSet, h, this]

/-- The models that occur strictly below a node with model `m` at level `l` when `k` levels are
left, each listed where its last flag is flipped. -/
def descend (m : List Bool) (l : Nat) : Nat → List (List Bool)
  | 0 => []
  | k + 1 => descend m (l + 1) k ++ flipAt m l :: descend (flipAt m l) (l + 1) k

theorem descend_length (m : List Bool) (l k : Nat) : (descend m l k).length + 1 = 2 ^ k := by
  induction k generalizing m l with
  | zero => rfl
  | succ k ih =>
    have h1 := ih m (l + 1)
    have h2 := ih (flipAt m l) (l + 1)
    simp only [descend, List.length_append, List.length_cons, Nat.pow_succ]
    omega

theorem samePrefix_refl (k : Nat) (m : List Bool) : SamePrefix k m m := ⟨rfl, fun _ _ => rfl⟩

theorem samePrefix_flip (m : List Bool) (l : Nat) : SamePrefix l m (flipAt m l) :=
  ⟨(flipAt_length m l).symm, fun i hi => by
    rw [flipAt_getElem?, if_neg (by omega)]⟩

theorem Spec.SamePrefix.trans {k : Nat} {a b c : List Bool} (h : SamePrefix k a b)
    (h' : SamePrefix k b c) : SamePrefix k a c :=
  ⟨h.1.trans h'.1, fun i hi => (h.2 i hi).trans (h'.2 i hi)⟩

theorem Spec.SamePrefix.symm {k : Nat} {a b : List Bool} (h : SamePrefix k a b) : SamePrefix k b a :=
  ⟨h.1.symm, fun i hi => (h.2 i hi).symm⟩

theorem Spec.SamePrefix.mono {k l : Nat} {a b : List Bool} (h : SamePrefix l a b) (hk : k ≤ l) :
    SamePrefix k a b := ⟨h.1, fun i hi => h.2 i (by omega)⟩

theorem samePrefix_succ {l : Nat} {m m' : List Bool} (hl : l < m.length) (h : SamePrefix l m m') :
    SamePrefix (l + 1) m m' ∨ SamePrefix (l + 1) (flipAt m l) m' := by
  have hl' : l < m'.length := h.1 ▸ hl
  by_cases he : m[l]? = m'[l]?
  · left
    refine ⟨h.1, fun i hi => ?_⟩
    by_cases hc : i = l
    · subst hc; exact he
    · exact h.2 i (by omega)
  · right
    refine ⟨by rw [flipAt_length, h.1], fun i hi => ?_⟩
    rw [flipAt_getElem?]
    by_cases hc : l = i
    · subst hc
      rw [List.getElem?_eq_getElem hl, List.getElem?_eq_getElem hl'] at he ⊢
      simp at he ⊢
      revert he
      cases m[l] <;> cases m'[l] <;> simp
    · rw [if_neg hc]; exact h.2 i (by omega)

theorem flipAt_ne {l : Nat} {m m' : List Bool} (hl : l < m.length)
    (h : SamePrefix (l + 1) (flipAt m l) m') : m' ≠ m := by
  rintro rfl
  have := h.2 l (by omega)
  rw [flipAt_getElem?, if_pos rfl, List.getElem?_eq_getElem hl] at this
  simp at this

theorem not_both {l : Nat} {m m' : List Bool} (hl : l < m.length)
    (h : SamePrefix (l + 1) m m') (h' : SamePrefix (l + 1) (flipAt m l) m') : False := by
  have h1 := h.2 l (by omega)
  have h2 := h'.2 l (by omega)
  rw [flipAt_getElem?, if_pos rfl, ← h1, List.getElem?_eq_getElem hl] at h2
  simp at h2

theorem samePrefix_length {m m' : List Bool} (h : SamePrefix m.length m m') : m' = m := by
  apply List.ext_getElem?
  intro i
  by_cases hi : i < m.length
  · exact (h.2 i hi).symm
  · rw [List.getElem?_eq_none (by have := h.1; omega), List.getElem?_eq_none (by omega)]

/-- Below a node exactly the other models with its prefix occur. -/
theorem mem_descend {m m' : List Bool} {l k : Nat} (hk : l + k = m.length) :
    m' ∈ descend m l k ↔ SamePrefix l m m' ∧ m' ≠ m := by
  induction k generalizing m l with
  | zero =>
    simp only [descend, List.not_mem_nil, false_iff, not_and, not_not]
    intro h
    rw [Nat.add_zero] at hk
    rw [hk] at h
    exact samePrefix_length h
  | succ k ih =>
    have hl : l < m.length := by omega
    rw [descend, List.mem_append, List.mem_cons, ih (by omega),
      ih (m := flipAt m l) (by rw [flipAt_length]; omega)]
    constructor
    · rintro (⟨h1, h2⟩ | rfl | ⟨h1, h2⟩)
      · exact ⟨h1.mono (by omega), h2⟩
      · exact ⟨samePrefix_flip m l, flipAt_ne hl (samePrefix_refl _ _)⟩
      · exact ⟨(samePrefix_flip m l).trans (h1.mono (by omega)), flipAt_ne hl h1⟩
    · rintro ⟨h1, h2⟩
      rcases samePrefix_succ hl h1 with h | h
      · exact Or.inl ⟨h, h2⟩
      · by_cases hc : m' = flipAt m l
        · exact Or.inr (Or.inl hc)
        · exact Or.inr (Or.inr ⟨h, hc⟩)

theorem descend_nodup {m : List Bool} {l k : Nat} (hk : l + k = m.length) :
    (descend m l k).Nodup := by
  induction k generalizing m l with
  | zero => simp [descend]
  | succ k ih =>
    have hl : l < m.length := by omega
    have hk1 : l + 1 + k = m.length := by omega
    have hk2 : l + 1 + k = (flipAt m l).length := by rw [flipAt_length]; omega
    rw [descend, List.nodup_append, List.nodup_cons]
    refine ⟨ih hk1, ⟨?_, ih hk2⟩, ?_⟩
    · rw [mem_descend hk2]; simp
    · rintro a ha b hb rfl
      rw [mem_descend hk1] at ha
      rcases List.mem_cons.1 hb with rfl | hb
      · exact not_both hl ha.1 (samePrefix_refl _ _)
      · exact not_both hl ha.1 ((mem_descend hk2).1 hb).1

end GoSelect
