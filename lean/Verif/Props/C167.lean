import Verif.Props.C39_C40
import Mathlib.Data.Finset.Sort
import Mathlib.Data.Finset.Powerset
import Mathlib.Algebra.Order.BigOperators.Group.Finset
import Mathlib.Algebra.Order.BigOperators.Ring.Finset
import Mathlib.Algebra.BigOperators.Field
import Mathlib.Tactic.FieldSimp
import Mathlib.Tactic.LinearCombination
import Mathlib.Tactic.Positivity

/-!
# C167: Cohen's kappa measures the agreement beyond chance
-/

namespace GoSelect

open Finset Spec

namespace Spec

/-- The number of features that both selections contain. -/
def overlap (s1 s2 : List Int) : Nat := (s1.filter (fun v => decide (v ∈ s2))).length

/-- The features of a set in ascending order. -/
def ascending (S : Finset Nat) : List Int := (S.sort (· ≤ ·)).map (fun i : Nat => (i : Int))

end Spec

theorem mem_ascending (S : Finset Nat) (v : Int) : v ∈ ascending S ↔ ∃ i ∈ S, (i : Int) = v := by
  simp [ascending]

theorem length_ascending (S : Finset Nat) : (ascending S).length = #S := by simp [ascending]

theorem ascending_selection {S : Finset Nat} {tot : Nat} (h : S ⊆ range tot) : IsSelection (ascending S) tot := by
  refine ⟨(Finset.sort_nodup S _).map (fun a b h => by simpa using h), fun v hv => ?_⟩
  obtain ⟨i, hi, rfl⟩ := (mem_ascending S v).1 hv
  have := mem_range.1 (h hi)
  omega

section
variable {K : Type} [Field K] [LinearOrder K] [IsStrictOrderedRing K]

/-- Kappa from the sizes of the selections and of their overlap. -/
theorem kappa_overlap {s1 s2 : List Int} {tot : Nat} (h1 : IsSelection s1 tot) (h2 : IsSelection s2 tot)
    (hne : ¬ (s1 = [] ∧ s2 = [])) (hfull : ¬ BothFull s1 s2 tot) :
    let S : K := (s1.length : K) * (tot - s2.length) + s2.length * (tot - s1.length)
    0 < S ∧ cohenKappa s1 s2 tot =
      .fin (2 * ((tot : K) * overlap s1 s2 - s1.length * s2.length) / S) := by
  have hsum := kappaCounts_sum h1 h2
  have l1 : (kappaCounts s1 s2 tot).n11 + (kappaCounts s1 s2 tot).n12 = s1.length := by
    have := countP_notin (s := s1) (t := s2)
    simp only [kappaCounts]; omega
  have l2 : (kappaCounts s1 s2 tot).n11 + (kappaCounts s1 s2 tot).n21 = s2.length := by
    have := countP_notin (s := s2) (t := s1)
    have := countP_inter h1.1 h2.1
    simp only [kappaCounts]; omega
  have ho : (kappaCounts s1 s2 tot).n11 = overlap s1 s2 := by
    unfold overlap
    rw [← List.countP_eq_length_filter]
    simp only [kappaCounts]
    refine List.countP_congr (fun v _ => ?_)
    rw [existInt_iff, decide_eq_true_iff]
  have hpos : 0 < tot := by
    rcases Nat.eq_zero_or_pos tot with h0 | h0
    · exfalso
      subst h0
      refine hne ⟨?_, ?_⟩
      · cases s1 with
        | nil => rfl
        | cons v s => have := h1.2 v (by simp); omega
      · cases s2 with
        | nil => rfl
        | cons v s => have := h2.2 v (by simp); omega
    · exact h0
  rw [← ho]
  obtain ⟨a, ha⟩ : ∃ a, (kappaCounts s1 s2 tot).n11 = a := ⟨_, rfl⟩
  obtain ⟨b, hb⟩ : ∃ b, (kappaCounts s1 s2 tot).n12 = b := ⟨_, rfl⟩
  obtain ⟨c, hc⟩ : ∃ c, (kappaCounts s1 s2 tot).n21 = c := ⟨_, rfl⟩
  obtain ⟨d, hd⟩ : ∃ d, (kappaCounts s1 s2 tot).n22 = d := ⟨_, rfl⟩
  rw [ha, hb, hc, hd] at hsum
  rw [ha, hb] at l1
  rw [ha, hc] at l2
  have hn : (0 : K) < (tot : K) := by exact_mod_cast hpos
  have hs : (a : K) + b + c + d = tot := by exact_mod_cast hsum
  obtain ⟨e1, e2⟩ := kappa_formula (a : K) b c d tot hn hs
  have hA : (prA (kappaCounts s1 s2 tot) tot : K) = ((a : K) + d) / tot := by
    unfold prA; rw [ha, hd]; push_cast; rfl
  have hE : (prE (kappaCounts s1 s2 tot) tot : K) =
      ((a : K) + b) * (a + c) / (tot * tot) + ((b : K) + d) * (c + d) / (tot * tot) := by
    unfold prE; rw [ha, hb, hc, hd]; push_cast; rfl
  have hden : 0 < (a + b) * (b + d) + (a + c) * (c + d) := by
    by_contra h0
    have h0 : (a + b) * (b + d) + (a + c) * (c + d) = 0 := by omega
    obtain ⟨p, q⟩ := Nat.add_eq_zero_iff.1 h0
    rw [Nat.mul_eq_zero] at p q
    rcases p with p | p
    · rcases q with q | q
      · refine hne ⟨List.eq_nil_of_length_eq_zero (by omega), List.eq_nil_of_length_eq_zero (by omega)⟩
      · exact absurd hsum (by omega)
    · rcases q with q | q
      · exact absurd hsum (by omega)
      · exact hfull ⟨by omega, by omega⟩
  have hdenK : (0 : K) < ((a : K) + b) * (b + d) + (a + c) * (c + d) := by exact_mod_cast hden
  have l1' : (s1.length : K) = a + b := by rw [← l1]; push_cast; ring
  have l2' : (s2.length : K) = a + c := by rw [← l2]; push_cast; ring
  have hS : (s1.length : K) * (tot - s2.length) + s2.length * (tot - s1.length) =
      ((a : K) + b) * (b + d) + (a + c) * (c + d) := by
    rw [l1', l2', ← hs]; ring
  intro S
  have hS' : S = ((a : K) + b) * (b + d) + (a + c) * (c + d) := hS
  rw [hS']
  refine ⟨hdenK, ?_⟩
  unfold cohenKappa
  rw [if_neg (by simpa [List.length_eq_zero_iff] using hne), if_neg (by omega)]
  simp only [hA, hE]
  rw [e1, e2, Fl.divFin, if_neg]
  · congr 1
    have : ((tot : K) * tot) ≠ 0 := by positivity
    rw [div_div_div_cancel_right₀ this, ha, l1', l2', ← hs]
    congr 1
    ring
  · have : (0 : K) < (tot : K) * tot := by positivity
    exact (div_pos hdenK this).ne'

/-- **C167.** For selections of given sizes kappa is larger exactly when more features are in common. -/
theorem C167_monotone {s1 s2 t1 t2 : List Int} {tot : Nat} (h1 : IsSelection s1 tot) (h2 : IsSelection s2 tot)
    (g1 : IsSelection t1 tot) (g2 : IsSelection t2 tot) (e1 : s1.length = t1.length) (e2 : s2.length = t2.length)
    (hne : ¬ (s1 = [] ∧ s2 = [])) (hfull : ¬ (s1.length = tot ∧ s2.length = tot)) :
    ∃ x z : K, cohenKappa s1 s2 tot = .fin x ∧ cohenKappa t1 t2 tot = .fin z ∧
      (x < z ↔ overlap s1 s2 < overlap t1 t2) := by
  have hne' : ¬ (t1 = [] ∧ t2 = []) := by
    rintro ⟨rfl, rfl⟩
    exact hne ⟨List.eq_nil_of_length_eq_zero e1, List.eq_nil_of_length_eq_zero e2⟩
  obtain ⟨hS, hk⟩ := kappa_overlap (K := K) h1 h2 hne hfull
  obtain ⟨-, hk'⟩ := kappa_overlap (K := K) g1 g2 hne' (fun h => hfull ⟨e1.trans h.1, e2.trans h.2⟩)
  refine ⟨_, _, hk, hk', ?_⟩
  rw [← e1, ← e2, div_lt_div_iff_of_pos_right hS]
  have hpos : (0 : K) < tot := by
    rcases Nat.eq_zero_or_pos tot with h0 | h0
    · exfalso
      subst h0
      refine hne ⟨?_, ?_⟩
      · cases s1 with
        | nil => rfl
        | cons v s => have := h1.2 v (by simp); omega
      · cases s2 with
        | nil => rfl
        | cons v s => have := h2.2 v (by simp); omega
    · exact_mod_cast h0
  constructor
  · intro h
    have : (tot : K) * overlap s1 s2 < tot * overlap t1 t2 := by linarith
    exact_mod_cast lt_of_mul_lt_mul_left this hpos.le
  · intro h
    have h' : (overlap s1 s2 : K) < overlap t1 t2 := by exact_mod_cast h
    have := mul_lt_mul_of_pos_left h' hpos
    linarith

end

/-! ## Counting the sets that contain given features -/

theorem card_containing {tot b : Nat} (T : Finset Nat) (hT : T ⊆ range tot) :
    #{S ∈ powersetCard b (range tot) | T ⊆ S} = if #T ≤ b then (tot - #T).choose (b - #T) else 0 := by
  split
  · rename_i hb
    have e : (tot - #T).choose (b - #T) = #(powersetCard (b - #T) (range tot \ T)) := by
      rw [card_powersetCard, card_sdiff_of_subset hT, card_range]
    rw [e]
    refine card_nbij' (· \ T) (· ∪ T) ?_ ?_ ?_ ?_
    · intro S hS
      simp only [coe_filter, mem_powersetCard, Set.mem_setOf_eq, mem_coe] at hS ⊢
      exact ⟨sdiff_subset_sdiff hS.1.1 (subset_refl _), by rw [card_sdiff_of_subset hS.2, hS.1.2]⟩
    · intro S hS
      simp only [coe_filter, mem_powersetCard, Set.mem_setOf_eq, mem_coe] at hS ⊢
      have hd : Disjoint S T := disjoint_of_subset_left hS.1 sdiff_disjoint
      refine ⟨⟨union_subset (hS.1.trans sdiff_subset) hT, ?_⟩, subset_union_right⟩
      rw [card_union_of_disjoint hd, hS.2]
      omega
    · intro S hS
      simp only [coe_filter, mem_powersetCard, Set.mem_setOf_eq] at hS
      exact sdiff_union_of_subset hS.2
    · intro S hS
      simp only [mem_powersetCard, mem_coe] at hS
      have hd : Disjoint S T := disjoint_of_subset_left hS.1 sdiff_disjoint
      exact union_sdiff_cancel_right hd
  · rename_i hb
    rw [card_eq_zero, filter_eq_empty_iff]
    intro S hS hTS
    rw [mem_powersetCard] at hS
    have := card_le_card hTS
    omega

/-- Each feature is in the same fraction `b / tot` of the sets. -/
theorem card_with_one {tot b i : Nat} (hi : i < tot) :
    tot * #{S ∈ powersetCard b (range tot) | {i} ⊆ S} = b * #(powersetCard b (range tot)) := by
  rw [card_containing {i} (by simpa using hi), card_powersetCard, card_range, card_singleton]
  rcases b with _ | b
  · simp
  · rw [if_pos (by omega)]
    obtain ⟨t, rfl⟩ : ∃ t, tot = t + 1 := ⟨tot - 1, by omega⟩
    have := Nat.add_one_mul_choose_eq t b
    simp only [Nat.add_sub_cancel]
    rw [this, mul_comm]

/-- Each pair of features is in the same fraction. -/
theorem card_with_two {tot b i j : Nat} (hi : i < tot) (hj : j < tot) (hij : i ≠ j) :
    tot * (tot - 1) * #{S ∈ powersetCard b (range tot) | {i, j} ⊆ S} = b * (b - 1) * #(powersetCard b (range tot)) := by
  rw [card_containing {i, j} (by
    intro k hk
    simp only [mem_insert, mem_singleton] at hk
    rcases hk with rfl | rfl
    · exact mem_range.2 hi
    · exact mem_range.2 hj), card_powersetCard, card_range, card_pair hij]
  rcases b with _ | _ | b
  · simp
  · simp
  · rw [if_pos (by omega)]
    obtain ⟨t, rfl⟩ : ∃ t, tot = t + 2 := ⟨tot - 2, by omega⟩
    have h1 := Nat.add_one_mul_choose_eq t b
    have h2 := Nat.add_one_mul_choose_eq (t + 1) (b + 1)
    simp only [Nat.add_sub_cancel, show t + 2 - 1 = t + 1 from rfl, show b + 1 + 1 - 1 = b + 1 from rfl,
      show b + 1 + 1 - 2 = b from rfl]
    calc (t + 2) * (t + 1) * t.choose b = (t + 2) * ((t + 1) * t.choose b) := by ring
      _ = (t + 1 + 1) * (t + 1).choose (b + 1) * (b + 1) := by rw [h1]; ring
      _ = _ := by rw [h2]; ring

/-- The features of a selection. -/
def chosen (s1 : List Int) (tot : Nat) : Finset Nat := (range tot).filter (fun i : Nat => (i : Int) ∈ s1)

/-- The overlap with an ascending selection counts features. -/
theorem overlap_ascending {s1 : List Int} {tot : Nat} (h1 : IsSelection s1 tot) (S : Finset Nat) :
    overlap s1 (ascending S) = #{i ∈ chosen s1 tot | {i} ⊆ S} := by
  unfold overlap
  rw [← List.toFinset_card_of_nodup (h1.1.filter _)]
  symm
  refine card_bij (fun i _ => (i : Int)) ?_ ?_ ?_
  · intro i hi
    simp only [chosen, mem_filter, mem_range, singleton_subset_iff] at hi
    simp only [List.mem_toFinset, List.mem_filter, decide_eq_true_iff, mem_ascending]
    exact ⟨hi.1.2, i, hi.2, rfl⟩
  · intro i _ j _ h
    exact_mod_cast h
  · intro v hv
    simp only [List.mem_toFinset, List.mem_filter, decide_eq_true_iff, mem_ascending] at hv
    obtain ⟨hv, i, hi, rfl⟩ := hv
    refine ⟨i, ?_, rfl⟩
    simp only [chosen, mem_filter, mem_range, singleton_subset_iff]
    have := (h1.2 _ hv).2
    exact ⟨⟨by omega, hv⟩, hi⟩

theorem card_members {s1 : List Int} {tot : Nat} (h1 : IsSelection s1 tot) :
    #(chosen s1 tot) = s1.length := by
  rw [← List.toFinset_card_of_nodup h1.1]
  refine card_bij (fun i _ => (i : Int)) ?_ ?_ ?_
  · intro i hi
    simp only [chosen, mem_filter, mem_range] at hi
    simpa using hi.2
  · intro i _ j _ h
    exact_mod_cast h
  · intro v hv
    rw [List.mem_toFinset] at hv
    have := h1.2 v hv
    refine ⟨v.toNat, ?_, by omega⟩
    simp only [chosen, mem_filter, mem_range]
    rw [Int.toNat_of_nonneg this.1]
    exact ⟨by omega, hv⟩

/-- The sum of the overlaps with all selections of size `b`. -/
theorem sum_overlap {s1 : List Int} {tot b : Nat} (h1 : IsSelection s1 tot) :
    tot * ∑ S ∈ powersetCard b (range tot), overlap s1 (ascending S) = s1.length * b * #(powersetCard b (range tot)) := by
  rw [sum_congr rfl (fun S _ => overlap_ascending h1 S)]
  simp only [card_filter _ (chosen s1 tot)]
  rw [sum_comm, mul_sum]
  have : ∀ i ∈ chosen s1 tot,
      tot * (∑ S ∈ powersetCard b (range tot), if {i} ⊆ S then 1 else 0) = b * #(powersetCard b (range tot)) := by
    intro i hi
    rw [← card_filter]
    exact card_with_one (mem_range.1 (mem_filter.1 hi).1)
  rw [sum_congr rfl this, sum_const, card_members h1, smul_eq_mul]
  ring

/-- The sum of the squares of the overlaps. -/
theorem sum_overlap_sq {s1 : List Int} {tot b : Nat} (h1 : IsSelection s1 tot) :
    tot * (tot - 1) * ∑ S ∈ powersetCard b (range tot), overlap s1 (ascending S) ^ 2 =
      (s1.length * b * (tot - 1) + s1.length * (s1.length - 1) * (b * (b - 1))) * #(powersetCard b (range tot)) := by
  set A := chosen s1 tot with hA
  set P := powersetCard b (range tot) with hP
  have hAt : ∀ i ∈ A, i < tot := fun i hi => mem_range.1 (mem_filter.1 hi).1
  have e : ∀ S, overlap s1 (ascending S) ^ 2 = ∑ i ∈ A, ∑ j ∈ A, if {i, j} ⊆ S then 1 else 0 := by
    intro S
    rw [overlap_ascending h1 S, card_filter, sq, sum_mul_sum]
    refine sum_congr rfl (fun i _ => sum_congr rfl (fun j _ => ?_))
    by_cases h : i ∈ S <;> by_cases h' : j ∈ S <;> simp [h, h', insert_subset_iff]
  rw [sum_congr rfl (fun S _ => e S), sum_comm, mul_sum]
  have key : ∀ i ∈ A, tot * (tot - 1) * ∑ S ∈ P, ∑ j ∈ A, (if {i, j} ⊆ S then 1 else 0) =
      (b * (tot - 1) + (s1.length - 1) * (b * (b - 1))) * #P := by
    intro i hi
    rw [sum_comm, mul_sum, ← add_sum_erase A _ hi]
    have h2 : ∀ j ∈ A.erase i, tot * (tot - 1) * (∑ S ∈ P, if {i, j} ⊆ S then 1 else 0) = b * (b - 1) * #P := by
      intro j hj
      rw [← card_filter]
      exact card_with_two (hAt i hi) (hAt j (mem_of_mem_erase hj)) (ne_of_mem_erase hj).symm
    rw [sum_congr rfl h2, sum_const, card_erase_of_mem hi, card_members h1, smul_eq_mul, ← card_filter, pair_eq_singleton]
    have h3 := card_with_one (b := b) (hAt i hi)
    rw [← hP] at h3
    calc tot * (tot - 1) * #{S ∈ P | {i} ⊆ S} + (s1.length - 1) * (b * (b - 1) * #P)
        = (tot - 1) * (tot * #{S ∈ P | {i} ⊆ S}) + (s1.length - 1) * (b * (b - 1) * #P) := by ring
      _ = _ := by rw [h3]; ring
  rw [sum_congr rfl key, sum_const, card_members h1, smul_eq_mul]
  ring

section
variable {K : Type} [Field K] [LinearOrder K] [IsStrictOrderedRing K]

/-- **C167.** Agreement by chance is worth nothing: if one of two selections is any of those of size `b`, all equally likely, kappa
has mean 0 and a variance of at most `1 / (tot - 1)`. -/
theorem C167_chance (s1 : List Int) (tot b : Nat) (h1 : IsSelection s1 tot)
    (hne : ¬ (s1 = [] ∧ b = 0)) (hfull : ¬ (s1.length = tot ∧ b = tot)) :
    ∃ k : Finset Nat → K, (∀ S ∈ powersetCard b (range tot), cohenKappa s1 (ascending S) tot = .fin (k S)) ∧
      ∑ S ∈ powersetCard b (range tot), k S = 0 ∧
      ((tot : K) - 1) * ∑ S ∈ powersetCard b (range tot), k S ^ 2 ≤ #(powersetCard b (range tot)) := by
  rcases Nat.eq_zero_or_pos #(powersetCard b (range tot)) with h0 | hcard
  · rw [card_eq_zero.1 h0]
    exact ⟨fun _ => 0, by simp, by simp, by simp⟩
  have hb : b ≤ tot := by
    obtain ⟨S, hS⟩ := card_pos.1 hcard
    rw [mem_powersetCard] at hS
    have := card_le_card hS.1
    rw [card_range] at this
    omega
  have ha : s1.length ≤ tot := by
    rw [← card_members h1]
    unfold chosen
    exact (card_filter_le _ _).trans (by simp)
  have htot : 0 < tot := by
    rcases Nat.eq_zero_or_pos tot with h | h
    · exact absurd ⟨by omega, by omega⟩ hfull
    · exact h
  set P := powersetCard b (range tot) with hP
  set a := s1.length with haeq
  set D : K := (a : K) * (tot - b) + b * (tot - a) with hD
  have hform : ∀ S ∈ P, 0 < D ∧ cohenKappa s1 (ascending S) tot =
      .fin (2 * ((tot : K) * overlap s1 (ascending S) - a * b) / D) := by
    intro S hS
    rw [hP, mem_powersetCard] at hS
    have hl : (ascending S).length = b := by rw [length_ascending, hS.2]
    have := kappa_overlap (K := K) h1 (ascending_selection hS.1) (fun h => hne ⟨h.1, by rw [← hl, h.2]; rfl⟩)
      (fun h => hfull ⟨h.1, hl.symm.trans h.2⟩)
    simp only [hl] at this
    exact this
  have hDpos : 0 < D := by
    obtain ⟨S, hS⟩ := card_pos.1 hcard
    exact (hform S hS).1
  have hm : (tot : K) * ∑ S ∈ P, (overlap s1 (ascending S) : K) = a * b * #P := by
    exact_mod_cast sum_overlap (b := b) h1
  refine ⟨fun S => 2 * ((tot : K) * overlap s1 (ascending S) - a * b) / D, fun S hS => (hform S hS).2, ?_, ?_⟩
  · rw [← sum_div, ← mul_sum, sum_sub_distrib, ← mul_sum, hm, sum_const, nsmul_eq_mul]
    rw [div_eq_zero_iff]
    left
    ring
  · have hsq : (tot : K) * (tot - 1) * ∑ S ∈ P, (overlap s1 (ascending S) : K) ^ 2 =
        (a * b * (tot - 1) + a * (a - 1) * (b * (b - 1))) * #P := by
      have h := sum_overlap_sq (b := b) h1
      have hc : ((tot * (tot - 1) * ∑ S ∈ P, overlap s1 (ascending S) ^ 2 : Nat) : K) =
        ((a * b * (tot - 1) + a * (a - 1) * (b * (b - 1))) * #P : Nat) := by rw [h]
      have c1 : ((tot - 1 : Nat) : K) = tot - 1 := by rw [Nat.cast_sub htot, Nat.cast_one]
      have c2 : ∀ n : Nat, ((n * (n - 1) : Nat) : K) = n * (n - 1) := by
        intro n
        rcases n with _ | n
        · simp
        · push_cast; simp
      have c3 : ((a * b * (tot - 1) + a * (a - 1) * (b * (b - 1)) : Nat) : K) =
          a * b * (tot - 1) + a * (a - 1) * (b * (b - 1)) := by
        rw [Nat.cast_add, Nat.cast_mul (a * (a - 1)), c2, c2, Nat.cast_mul, c1, Nat.cast_mul]
      rw [Nat.cast_mul, Nat.cast_mul _ #P, c2, c3] at hc
      rw [← hc]
      push_cast
      rfl
    have htK : (0 : K) < tot := by exact_mod_cast htot
    have e1 : ∑ S ∈ P, (2 * ((tot : K) * overlap s1 (ascending S) - a * b) / D) ^ 2 =
        4 / D ^ 2 * (tot ^ 2 * ∑ S ∈ P, (overlap s1 (ascending S) : K) ^ 2 -
          2 * (a * b) * (tot * ∑ S ∈ P, (overlap s1 (ascending S) : K)) + (a * b) ^ 2 * #P) := by
      rw [mul_sum, mul_sum, mul_sum, ← nsmul_eq_mul' (_ : K) #P, ← sum_const, ← sum_sub_distrib, ← sum_add_distrib, mul_sum]
      refine sum_congr rfl (fun S _ => ?_)
      field_simp
      ring
    rw [e1, hm]
    have e2 : ((tot : K) - 1) * (4 / D ^ 2 * (tot ^ 2 * ∑ S ∈ P, (overlap s1 (ascending S) : K) ^ 2 -
          2 * (a * b) * (a * b * #P) + (a * b) ^ 2 * #P)) =
        4 * ((a * (tot - b)) * (b * (tot - a))) / D ^ 2 * #P := by
      have : (tot : K) * (tot * (tot - 1) * ∑ S ∈ P, (overlap s1 (ascending S) : K) ^ 2) =
        tot * ((a * b * (tot - 1) + a * (a - 1) * (b * (b - 1))) * #P) := by rw [hsq]
      field_simp
      linear_combination this
    rw [e2]
    have h4 : 4 * (((a : K) * (tot - b)) * (b * (tot - a))) / D ^ 2 ≤ 1 := by
      rw [div_le_one (by positivity), hD]
      nlinarith [sq_nonneg ((a : K) * (tot - b) - b * (tot - a))]
    calc _ ≤ 1 * (#P : K) := mul_le_mul_of_nonneg_right h4 (Nat.cast_nonneg _)
      _ = _ := one_mul _

/-- **C167.** So at most a fraction `1 / ((tot - 1) ε²)` of the selections of size `b` has a kappa of `ε` or more with a given one. -/
theorem C167_tail (s1 : List Int) (tot b : Nat) (h1 : IsSelection s1 tot) (hne : ¬ (s1 = [] ∧ b = 0))
    (hfull : ¬ (s1.length = tot ∧ b = tot)) (ε : K) (hε : 0 < ε) (Q : Finset (Finset Nat))
    (hQ : ∀ S ∈ Q, S ⊆ range tot ∧ #S = b ∧ ∃ x : K, cohenKappa s1 (ascending S) tot = .fin x ∧ ε ≤ x) :
    ((tot : K) - 1) * ε ^ 2 * #Q ≤ tot.choose b := by
  obtain ⟨k, hk, -, hv⟩ := C167_chance (K := K) s1 tot b h1 hne hfull
  rw [card_powersetCard, card_range] at hv
  refine le_trans ?_ hv
  rcases Nat.eq_zero_or_pos tot with h0 | htot
  · subst h0
    have : Q = ∅ := by
      rw [eq_empty_iff_forall_notMem]
      intro S hS
      obtain ⟨h, hc, -⟩ := hQ S hS
      rw [range_zero, subset_empty] at h
      subst h
      have : s1 = [] := by
        cases s1 with
        | nil => rfl
        | cons v s => have := h1.2 v (by simp); omega
      exact hne ⟨this, by simpa using hc.symm⟩
    subst this
    rcases b with _ | b
    · refine absurd ⟨?_, rfl⟩ hne
      cases s1 with
      | nil => rfl
      | cons v s => have := h1.2 v (by simp); omega
    · rw [powersetCard_eq_empty.2 (show #(range 0) < b + 1 by simp)]
      simp
  have h1' : (0 : K) ≤ (tot : K) - 1 := by
    have : (1 : K) ≤ tot := by exact_mod_cast htot
    linarith
  rw [mul_assoc]
  refine mul_le_mul_of_nonneg_left ?_ h1'
  have hsub : Q ⊆ powersetCard b (range tot) := fun S hS => mem_powersetCard.2 ⟨(hQ S hS).1, (hQ S hS).2.1⟩
  calc ε ^ 2 * #Q = ∑ _S ∈ Q, ε ^ 2 := by rw [sum_const, nsmul_eq_mul, mul_comm]
    _ ≤ ∑ S ∈ Q, k S ^ 2 := by
        refine sum_le_sum (fun S hS => ?_)
        obtain ⟨x, hx, hle⟩ := (hQ S hS).2.2
        have : k S = x := by
          have := (hk S (hsub hS)).symm.trans hx
          simpa using this
        rw [this]
        exact pow_le_pow_left₀ hε.le hle 2
    _ ≤ _ := sum_le_sum_of_subset_of_nonneg hsub (fun _ _ _ => sq_nonneg _)

end

/-- Two of five features: the hypotheses hold, kappa is 1 for one selection, 1 / 6 for six and -2 / 3 for three of the ten. -/
example : IsSelection [0, 3] 5 ∧ ¬ (([0, 3] : List Int) = [] ∧ 2 = 0) ∧ ¬ (([0, 3] : List Int).length = 5 ∧ 2 = 5) ∧
    (cohenKappa [0, 3] [0, 3] 5 : Fl ℚ) = .fin 1 ∧ (cohenKappa [0, 3] [1, 3] 5 : Fl ℚ) = .fin (1 / 6) ∧
    (cohenKappa [0, 3] [1, 2] 5 : Fl ℚ) = .fin (-2 / 3) ∧ #(powersetCard 2 (range 5)) = 10 ∧
    (1 : ℚ) + 6 * (1 / 6) + 3 * (-2 / 3) = 0 := by
  refine ⟨⟨by decide, by decide⟩, by decide, by decide, by decide +kernel, by decide +kernel, by decide +kernel, by decide +kernel,
    by norm_num⟩

/-- Among 100 features no two selections of 10 that agree by chance are likely to have a kappa of 1 / 2: at most one in 24. -/
example (s1 : List Int) (h1 : IsSelection s1 100) (hl : s1.length = 10) (Q : Finset (Finset Nat))
    (hQ : ∀ S ∈ Q, S ⊆ range 100 ∧ #S = 10 ∧ ∃ x : ℚ, cohenKappa s1 (ascending S) 100 = .fin x ∧ 1 / 2 ≤ x) :
    24 * #Q ≤ Nat.choose 100 10 := by
  have h := C167_tail s1 100 10 h1 (by simp) (by omega) (1 / 2 : ℚ) (by norm_num) Q hQ
  have h2 : (24 : ℚ) * #Q ≤ (Nat.choose 100 10 : Nat) := by
    refine le_trans ?_ h
    have : (0 : ℚ) ≤ #Q := Nat.cast_nonneg _
    push_cast
    linarith
  exact_mod_cast h2

end GoSelect
