import Verif.Proofs.SaSteps
import Mathlib.Logic.Relation

/-! Models that simulated annealing can be led to. -/

namespace GoSelect

open Spec

theorem getD_saFlip {m : List Bool} {i : Nat} (hi : i < m.length) (j : Nat) :
    (saFlip m i).getD j false = if j = i then !(m.getD i false) else m.getD j false := by
  unfold saFlip
  rw [List.getD_eq_getElem?_getD, List.getElem?_set]
  split
  · rename_i h
    subst h
    simp [hi]
  · rename_i h
    rw [if_neg (fun h' => h h'.symm), List.getD_eq_getElem?_getD]

theorem card_saFlip_add {m : List Bool} {i : Nat} (hi : i < m.length) (h : m.getD i false = false) :
    card (saFlip m i) = card m + 1 := by
  have h' : m[i]? = some false := by
    rw [List.getElem?_eq_getElem hi] at *
    rw [List.getD_eq_getElem?_getD, List.getElem?_eq_getElem hi] at h
    simpa using h
  have := countP_set (fun b => b == true) (l := m) (i := i) (a := false) (b := true) h'
  rw [card_eq_count, card_eq_count, saFlip, h, List.count_eq_countP, List.count_eq_countP]
  simp at this ⊢
  omega

theorem card_saFlip_remove {m : List Bool} {i : Nat} (hi : i < m.length) (h : m.getD i false = true) :
    card (saFlip m i) + 1 = card m := by
  have h' : m[i]? = some true := by
    rw [List.getD_eq_getElem?_getD, List.getElem?_eq_getElem hi] at h
    rw [List.getElem?_eq_getElem hi]
    simpa using h
  have := countP_set (fun b => b == true) (l := m) (i := i) (a := true) (b := false) h'
  rw [card_eq_count, card_eq_count, saFlip, h, List.count_eq_countP, List.count_eq_countP]
  simp at this ⊢
  omega

/-- No draw of the sequence is skipped. -/
def Legal (nr : Nat) (m : List Bool) : List Nat → Prop
  | [] => True
  | i :: is => (card (saFlip m i) = 0 ∨ card (saFlip m i) < nr / 2) ∧ Legal nr (proposal m i) is

/-- Features can be added one after the other. -/
theorem legal_add {nr : Nat} (l : List Nat) (hl : l.Nodup) (m : List Bool)
    (hm : ∀ i ∈ l, i < m.length ∧ m.getD i false = false) (hc : card m + l.length < nr / 2) :
    Legal nr m l ∧ (l.foldl proposal m).length = m.length ∧
      ∀ j, (l.foldl proposal m).getD j false = (m.getD j false || decide (j ∈ l)) := by
  induction l generalizing m with
  | nil => exact ⟨trivial, rfl, fun j => by simp⟩
  | cons i l ih =>
    obtain ⟨hi, hf⟩ := hm i List.mem_cons_self
    rw [List.nodup_cons] at hl
    have hcard := card_saFlip_add hi hf
    have hp : proposal m i = saFlip m i := by unfold proposal; rw [if_neg (by omega)]
    rw [List.length_cons] at hc
    obtain ⟨h1, h2, h3⟩ := ih hl.2 (saFlip m i) (fun j hj => by
      obtain ⟨h4, h5⟩ := hm j (List.mem_cons_of_mem _ hj)
      refine ⟨by rw [saFlip_length]; exact h4, ?_⟩
      rw [getD_saFlip hi, if_neg (by rintro rfl; exact hl.1 hj)]
      exact h5) (by omega)
    refine ⟨⟨Or.inr (by omega), by rw [hp]; exact h1⟩, ?_, fun j => ?_⟩
    · rw [List.foldl_cons, hp, h2, saFlip_length]
    · rw [List.foldl_cons, hp, h3, getD_saFlip hi]
      by_cases hj : j = i
      · subst hj
        rw [if_pos rfl, hf]
        simp
      · rw [if_neg hj]
        simp [hj]

theorem ext_getD {a b : List Bool} (hl : a.length = b.length) (h : ∀ j, a.getD j false = b.getD j false) : a = b := by
  apply List.ext_getElem hl
  intro i h1 h2
  have := h i
  rwa [List.getD_eq_getElem?_getD, List.getD_eq_getElem?_getD, List.getElem?_eq_getElem h1,
    List.getElem?_eq_getElem h2] at this

theorem mem_features_getD {m : List Bool} {i : Nat} : i ∈ features m ↔ m.getD i false = true := by
  rw [mem_features, HasFeature, List.getD_eq_getElem?_getD]
  cases m[i]? <;> simp

/-- The model the search starts from. -/
def startModel (nc : Nat) : List Bool := (List.replicate nc false).set 0 true

theorem getD_startModel {nc : Nat} (h : 0 < nc) (j : Nat) : (startModel nc).getD j false = decide (j = 0) := by
  unfold startModel
  rw [List.getD_eq_getElem?_getD, List.getElem?_set]
  by_cases hj : j = 0
  · subst hj
    simp [h]
  · rw [if_neg (fun h => hj h.symm), List.getElem?_replicate]
    simp only [hj, decide_false]
    split <;> rfl

theorem length_startModel (nc : Nat) : (startModel nc).length = nc := by
  unfold startModel; simp

theorem card_startModel {nc : Nat} (h : 0 < nc) : card (startModel nc) = 1 := by
  have := countP_set (fun b => b == true) (l := List.replicate nc false) (i := 0) (a := false)
    (b := true) (by rw [List.getElem?_replicate, if_pos h])
  rw [card_eq_count, startModel, List.count_eq_countP]
  simp [List.countP_replicate] at this
  simpa using this

/-- From the first model every model with few features is reached by at most `nc` draws. -/
theorem path_exists {nr nc : Nat} (h6 : 6 ≤ nr) {m : List Bool} (hm : m.length = nc) (h0 : 0 < card m)
    (h1 : card m < nr / 2) :
    ∃ ds : List Nat, ds ≠ [] ∧ ds.length ≤ nc ∧ (∀ i ∈ ds, i < nc) ∧ Legal nr (startModel nc) ds ∧
      ds.foldl proposal (startModel nc) = m := by
  have hcl : card m ≤ nc := by rw [← hm]; exact card_le_length m
  have hnc : 0 < nc := by omega
  have hlt : ∀ i ∈ features m, i < nc := by
    intro i hi
    rw [mem_features] at hi
    rw [← hm]
    exact (List.getElem?_eq_some_iff.1 hi).1
  have hlen : (features m).length = card m := rfl
  by_cases hz : 0 ∈ features m
  · have hel : ((features m).erase 0).length + 1 = card m := by
      rw [List.length_erase_of_mem hz, hlen]; omega
    have hnd := (features_nodup m).erase 0
    obtain ⟨h2, h3, h4⟩ := legal_add (nr := nr) ((features m).erase 0) hnd (startModel nc) (fun i hi => by
      rw [(features_nodup m).mem_erase_iff] at hi
      exact ⟨by rw [length_startModel]; exact hlt i hi.2, by rw [getD_startModel hnc]; simpa using hi.1⟩)
      (by rw [card_startModel hnc]; omega)
    have heq : ((features m).erase 0).foldl proposal (startModel nc) = m := by
      apply ext_getD (by rw [h3, length_startModel, hm])
      intro j
      rw [h4, getD_startModel hnc]
      by_cases hj : j = 0
      · subst hj
        rw [mem_features_getD.1 hz]
        rfl
      · simp only [hj, decide_false, Bool.false_or, (features_nodup m).mem_erase_iff, mem_features_getD, ne_eq,
          not_false_eq_true, true_and, Bool.decide_eq_true]
    by_cases hone : (features m).erase 0 = []
    · rw [hone] at heq
      have hst : startModel nc = m := heq
      have hfl : card (saFlip (startModel nc) 0) = 0 := by
        have := card_saFlip_remove (m := startModel nc) (i := 0) (by rw [length_startModel]; exact hnc)
          (by rw [getD_startModel hnc]; rfl)
        rw [card_startModel hnc] at this
        omega
      refine ⟨[0], by simp, hnc, by simpa using hnc, ⟨Or.inl hfl, trivial⟩, ?_⟩
      rw [List.foldl_cons, List.foldl_nil, proposal, if_pos hfl, hst]
    · exact ⟨_, hone, by omega, fun i hi => hlt i (List.mem_of_mem_erase hi), h2, heq⟩
  · cases hfe : features m with
    | nil => rw [hfe] at hlen; simp at hlen; omega
    | cons a rest =>
      rw [hfe] at hlt hlen hz
      have hnd := features_nodup m
      rw [hfe, List.nodup_cons] at hnd
      have ha0 : a ≠ 0 := fun h => hz (h ▸ List.mem_cons_self)
      have hr0 : 0 ∉ rest := fun h => hz (List.mem_cons_of_mem _ h)
      have ha := hlt a List.mem_cons_self
      have hal : a < (startModel nc).length := by rw [length_startModel]; exact ha
      have hga : (startModel nc).getD a false = false := by rw [getD_startModel hnc]; simpa using ha0
      have hca := card_saFlip_add hal hga
      rw [card_startModel hnc] at hca
      have hl0 : 0 < (saFlip (startModel nc) a).length := by rw [saFlip_length, length_startModel]; exact hnc
      have hg0 : (saFlip (startModel nc) a).getD 0 false = true := by
        rw [getD_saFlip hal, if_neg (fun h => ha0 h.symm), getD_startModel hnc]; rfl
      have hc0 := card_saFlip_remove hl0 hg0
      rw [hca] at hc0
      have hc0' : card (saFlip (saFlip (startModel nc) a) 0) = 1 := by omega
      have hp1 : proposal (startModel nc) a = saFlip (startModel nc) a := by
        unfold proposal; rw [if_neg (by omega)]
      have hp2 : proposal (saFlip (startModel nc) a) 0 = saFlip (saFlip (startModel nc) a) 0 := by
        unfold proposal; rw [if_neg (by omega)]
      have hget : ∀ j, (saFlip (saFlip (startModel nc) a) 0).getD j false = decide (j = a) := by
        intro j
        rw [getD_saFlip hl0, hg0, getD_saFlip hal, hga, getD_startModel hnc]
        by_cases hj : j = 0
        · subst hj
          simp [ha0.symm]
        · rw [if_neg hj]
          by_cases hja : j = a <;> simp [hja, hj]
      obtain ⟨h2, h3, h4⟩ := legal_add (nr := nr) rest hnd.2 (saFlip (saFlip (startModel nc) a) 0) (fun i hi => by
        refine ⟨by rw [saFlip_length, saFlip_length, length_startModel]; exact hlt i (List.mem_cons_of_mem _ hi), ?_⟩
        rw [hget]
        simp only [decide_eq_false_iff_not]
        rintro rfl
        exact hnd.1 hi) (by rw [hc0']; simp at hlen; omega)
      have hcard : card m + 1 ≤ nc := by
        -- `0` is not among the features
        have hnd' : (0 :: features m).Nodup := by
          rw [List.nodup_cons, hfe]
          exact ⟨hz, by rw [List.nodup_cons]; exact hnd⟩
        have hsub : 0 :: features m ⊆ List.range nc := by
          intro i hi
          rw [List.mem_range]
          rcases List.mem_cons.1 hi with rfl | hi
          · exact hnc
          · rw [hfe] at hi; exact hlt i hi
        have := (hnd'.subperm hsub).length_le
        rw [List.length_range, List.length_cons] at this
        exact this
      refine ⟨a :: 0 :: rest, by simp, ?_, ?_, ⟨Or.inr (by omega), ?_⟩, ?_⟩
      · simp at hlen ⊢; omega
      · intro i hi
        rcases List.mem_cons.1 hi with rfl | hi
        · exact ha
        · rcases List.mem_cons.1 hi with rfl | hi
          · exact hnc
          · exact hlt i (List.mem_cons_of_mem _ hi)
      · rw [hp1]
        exact ⟨Or.inr (by omega), by rw [hp2]; exact h2⟩
      · rw [List.foldl_cons, List.foldl_cons, hp1, hp2]
        apply ext_getD (by rw [h3, saFlip_length, saFlip_length, length_startModel, hm])
        intro j
        rw [h4, hget]
        have : j ∈ features m ↔ j = a ∨ j ∈ rest := by rw [hfe]; exact List.mem_cons
        rw [mem_features_getD] at this
        rw [Bool.eq_iff_iff, this, Bool.or_eq_true, decide_eq_true_eq, decide_eq_true_eq]

end GoSelect
