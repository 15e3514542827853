import Verif.Proofs.IterProduct

/-!
C33: `IterProduct` and the Cartesian power.

The claim fails from `repeat = 4` on: `append` then writes into spare capacity that rows share.
-/

namespace GoSelect

open Spec

/-- The capacities that Go's `append` gives to full slices of lengths 0, 1, 2. -/
structure GoGrowth (grow : Nat → Nat) : Prop where
  grows : ∀ n, n < grow n
  g0 : grow 0 = 1
  g1 : grow 1 = 2
  g2 : grow 2 = 4

/-- Doubling, as the Go runtime does below 256 elements. -/
def doubling (n : Nat) : Nat := if n = 0 then 1 else 2 * n

theorem doubling_growth : GoGrowth doubling :=
  ⟨fun n => by unfold doubling; split <;> omega, rfl, rfl, rfl⟩

theorem tuples_count (values : List Int) (r : Nat) : (tuples values r).length = values.length ^ r := by
  induction r with
  | zero => rfl
  | succ r ih =>
    rw [tuples, List.length_flatMap]
    simp only [List.length_map, ih]
    rw [List.map_const', List.sum_replicate_nat, Nat.pow_succ, Nat.mul_comm]

theorem mem_tuples {values : List Int} {r : Nat} {t : List Int} :
    t ∈ tuples values r ↔ t.length = r ∧ ∀ v ∈ t, v ∈ values := by
  induction r generalizing t with
  | zero => cases t <;> simp [tuples]
  | succ r ih =>
    rw [tuples, List.mem_flatMap]
    constructor
    · rintro ⟨v, hv, h⟩
      obtain ⟨u, hu, rfl⟩ := List.mem_map.1 h
      obtain ⟨h1, h2⟩ := ih.1 hu
      refine ⟨by simp [h1], ?_⟩
      intro x hx
      rcases List.mem_cons.1 hx with rfl | hx
      · exact hv
      · exact h2 x hx
    · rintro ⟨h1, h2⟩
      cases t with
      | nil => simp at h1
      | cons v u =>
        exact ⟨v, h2 v (by simp), List.mem_map.2 ⟨u, ih.2 ⟨by simpa using h1, fun x hx => h2 x (by simp [hx])⟩, rfl⟩⟩

/-- **C33 (partial).** Up to three factors `IterProduct` returns the Cartesian power in
lexicographic order.  Missing: four or more factors, where the claim is false (`C33_refuted`). -/
theorem C33_product_partial {grow : Nat → Nat} (hg : GoGrowth grow) (values : List Int) (r : Nat)
    (hr : r ≤ 3) : iterProduct grow values r = tuples values r := by
  rw [iterProduct_eq hg.grows]
  have h1 : capSeq grow 1 = 1 := by simp [capSeq, hg.g0]
  have h2 : capSeq grow 2 = 2 := by rw [capSeq, h1]; simp [hg.g1]
  have hcap : ∀ s, s < 3 → ¬ s < capSeq grow s := by
    intro s hs
    have : s = 0 ∨ s = 1 ∨ s = 2 := by omega
    rcases this with rfl | rfl | rfl
    · simp [capSeq]
    · omega
    · omega
  conv_rhs => rw [← List.map_id (tuples values r)]
  apply List.map_congr_left
  intro t ht
  have hl := tuples_length ht
  rw [id, blur]
  apply List.ext_getElem
  · simp
  · intro i h1 h2
    rw [List.getElem_mapIdx, if_neg (hcap i (by simp at h1; omega))]

/-- With at most one value the claim holds for any number of factors. -/
theorem C33_single_partial {grow : Nat → Nat} (hg : GoGrowth grow) (values : List Int) (r : Nat)
    (hv : values.length ≤ 1) : iterProduct grow values r = tuples values r := by
  rw [iterProduct_eq hg.grows]
  conv_rhs => rw [← List.map_id (tuples values r)]
  apply List.map_congr_left
  intro t ht
  obtain ⟨-, hm⟩ := mem_tuples.1 ht
  rw [id, blur]
  apply List.ext_getElem
  · simp
  · intro i h1 h2
    rw [List.getElem_mapIdx]
    split
    · have := hm t[i] (List.getElem_mem h2)
      match values, hv, this with
      | [a], _, this => exact (List.mem_singleton.1 this).symm
    · rfl

/-- The number of rows is always `len(values) ^ r`. -/
theorem C33_count {grow : Nat → Nat} (hg : GoGrowth grow) (values : List Int) (r : Nat) :
    (iterProduct grow values r).length = values.length ^ r := by
  rw [iterProduct_eq hg.grows, List.length_map, tuples_count]

/-- Every row is a tuple of values. -/
theorem C33_rows {grow : Nat → Nat} (hg : GoGrowth grow) (values : List Int) (r : Nat) :
    ∀ t ∈ iterProduct grow values r, t.length = r ∧ ∀ v ∈ t, v ∈ values := by
  intro t ht
  rw [iterProduct_eq hg.grows] at ht
  obtain ⟨u, hu, rfl⟩ := List.mem_map.1 ht
  obtain ⟨h1, h2⟩ := mem_tuples.1 hu
  refine ⟨by simp [blur, h1], ?_⟩
  intro v hv
  rw [blur, List.mem_mapIdx] at hv
  obtain ⟨i, hi, rfl⟩ := hv
  split
  · have hne : values ≠ [] := List.ne_nil_of_mem (h2 _ (List.getElem_mem hi))
    rw [List.getLastD_eq_getLast?, List.getLast?_eq_getLast_of_ne_nil hne, Option.getD_some]
    exact List.getLast_mem hne
  · exact h2 _ (List.getElem_mem hi)

/-- From four factors on, every row has the last value at position 3. -/
theorem C33_position_three {grow : Nat → Nat} (hg : GoGrowth grow) (values : List Int) (r : Nat)
    (hr : 4 ≤ r) (t : List Int) (ht : t ∈ iterProduct grow values r) :
    t[3]? = some (values.getLastD 0) := by
  rw [iterProduct_eq hg.grows] at ht
  obtain ⟨u, hu, rfl⟩ := List.mem_map.1 ht
  have h1 : capSeq grow 1 = 1 := by simp [capSeq, hg.g0]
  have h2 : capSeq grow 2 = 2 := by rw [capSeq, h1]; simp [hg.g1]
  have h3 : capSeq grow 3 = 4 := by rw [capSeq, h2]; simp [hg.g2]
  have hl := tuples_length hu
  rw [blur, List.getElem?_mapIdx, List.getElem?_eq_getElem (by omega)]
  simp [h3]

/-- **C33 is false** for four or more factors and two different values, one of them last. -/
theorem C33_refuted {grow : Nat → Nat} (hg : GoGrowth grow) (values : List Int) (r : Nat)
    (hr : 4 ≤ r) (v : Int) (hv : v ∈ values) (hne : v ≠ values.getLastD 0) :
    List.replicate r v ∈ tuples values r ∧ List.replicate r v ∉ iterProduct grow values r := by
  constructor
  · rw [mem_tuples]
    exact ⟨by simp, fun x hx => by rw [List.eq_of_mem_replicate hx]; exact hv⟩
  · intro h
    have := C33_position_three hg values r hr _ h
    rw [List.getElem?_replicate, if_pos (by omega)] at this
    exact hne (Option.some.inj this)

/-- With doubling, the capacity of a row of length `i` is the least power of two that holds it. -/
theorem capSeq_doubling {grow : Nat → Nat} (hg : ∀ n < 256, grow n = doubling n) (i : Nat) (hi : 0 < i)
    (hi2 : i ≤ 256) : ∃ k, capSeq grow i = 2 ^ k ∧ i ≤ 2 ^ k ∧ 2 ^ k < 2 * i := by
  induction i with
  | zero => omega
  | succ r ih =>
    rw [capSeq]
    by_cases hr : r = 0
    · subst hr
      exact ⟨0, by simp [capSeq, hg 0 (by omega), doubling], by omega, by omega⟩
    · obtain ⟨k, h1, h2, h3⟩ := ih (by omega) (by omega)
      rw [h1]
      split
      · exact ⟨k, rfl, by omega, by omega⟩
      · have e : r = 2 ^ k := by omega
        refine ⟨k + 1, ?_, ?_, ?_⟩
        · rw [hg r (by omega), doubling, if_neg hr, e, Nat.pow_succ, Nat.mul_comm]
        · rw [Nat.pow_succ]; omega
        · rw [Nat.pow_succ]; omega

open Classical in
/-- What `IterProduct` returns for up to 257 factors: the Cartesian power, in which all positions other than 0 and the
powers of two are overwritten by the last value. -/
theorem C33_exact {grow : Nat → Nat} (hg : ∀ n, n < grow n) (hd : ∀ n < 256, grow n = doubling n) (values : List Int)
    (r : Nat) (hr : r ≤ 257) :
    iterProduct grow values r = (tuples values r).map (fun t => t.mapIdx (fun i v =>
      if i = 0 ∨ ∃ k, i = 2 ^ k then v else values.getLastD 0)) := by
  rw [iterProduct_eq hg]
  apply List.map_congr_left
  intro t ht
  have hl := tuples_length ht
  rw [blur]
  apply List.ext_getElem
  · simp
  · intro i h1 h2
    rw [List.getElem_mapIdx, List.getElem_mapIdx]
    have hi : i < r := by simpa [hl] using h1
    by_cases h0 : i = 0
    · subst h0
      simp [capSeq]
    · obtain ⟨k, k1, k2, k3⟩ := capSeq_doubling hd i (by omega) (by omega)
      rw [k1]
      by_cases hp : i = 2 ^ k
      · rw [if_neg (by omega), if_pos (.inr ⟨k, hp⟩)]
      · rw [if_pos (by omega), if_neg]
        rintro (h | ⟨j, hj⟩)
        · exact h0 h
        · have h4 : 2 ^ j < 2 ^ k := by omega
          have h5 : 2 ^ k < 2 ^ (j + 1) := by rw [Nat.pow_succ]; omega
          have := (Nat.pow_lt_pow_iff_right (by omega)).1 h4
          have := (Nat.pow_lt_pow_iff_right (by omega)).1 h5
          omega

/-- The hypotheses of `C33_exact`. -/
example : (∀ n, n < doubling n) ∧ ∀ n < 256, doubling n = doubling n := ⟨doubling_growth.grows, fun _ _ => rfl⟩

example : iterProduct doubling [0, 1] 3 =
    [[0,0,0],[0,0,1],[0,1,0],[0,1,1],[1,0,0],[1,0,1],[1,1,0],[1,1,1]] := by decide +kernel

example : (iterProduct doubling [0, 1] 4).take 4 = [[0,0,0,1],[0,0,0,1],[0,0,1,1],[0,0,1,1]] := by
  decide +kernel

example : List.replicate 4 0 ∉ iterProduct doubling [0, 1] 4 :=
  (C33_refuted doubling_growth [0, 1] 4 (Nat.le_refl 4) 0 (by simp) (by decide)).2

end GoSelect
