import Verif.Model.Kappa
import Verif.Proofs.IntUtil
import Mathlib.Tactic.Ring
import Mathlib.Tactic.FieldSimp
import Mathlib.Tactic.Positivity
import Mathlib.Algebra.Order.Ring.Rat
import Mathlib.Data.List.Dedup
import Mathlib.Data.List.Perm.Lattice
import Mathlib.Data.Finset.Card
import Mathlib.Tactic.NormNum

/-! C39: UnionInt.  C40: CohenKappa. -/

namespace GoSelect

/-! ## C39 -/

/-- The union starts with `s1`; what is added are members of `s2` in the order of `s2`, not in `s1`
and without repetitions; together all members of both. -/
theorem C39_union (s1 s2 : List Int) :
    ∃ t, unionInt s1 s2 = s1 ++ t ∧ t.Nodup ∧ (∀ v ∈ t, v ∉ s1) ∧ t.Sublist s2 ∧
      ∀ v, v ∈ unionInt s1 s2 ↔ v ∈ s1 ∨ v ∈ s2 := by
  unfold unionInt
  induction s2 generalizing s1 with
  | nil => exact ⟨[], by simp, by simp, by simp, by simp, by simp⟩
  | cons x s2 ih =>
    rw [List.foldl_cons]
    by_cases hx : existInt s1 x = true
    · obtain ⟨t, h1, h2, h3, h4, h5⟩ := ih s1
      rw [if_pos hx]
      refine ⟨t, h1, h2, h3, h4.cons x, fun v => ?_⟩
      have := existInt_iff.1 hx
      rw [h5]
      constructor
      · rintro (h | h) <;> simp [h]
      · rintro (h | h)
        · exact Or.inl h
        · rcases List.mem_cons.1 h with rfl | h
          · exact Or.inl this
          · exact Or.inr h
    · obtain ⟨t, h1, h2, h3, h4, h5⟩ := ih (s1 ++ [x])
      rw [if_neg hx]
      have hx' : x ∉ s1 := fun h => hx (existInt_iff.2 h)
      refine ⟨x :: t, by rw [h1]; simp, ?_, ?_, h4.cons_cons x, fun v => ?_⟩
      · rw [List.nodup_cons]
        exact ⟨fun h => h3 x h (by simp), h2⟩
      · intro v hv
        rcases List.mem_cons.1 hv with rfl | hv
        · exact hx'
        · exact fun h => h3 v hv (by simp [h])
      · rw [h5]
        simp [or_assoc]

/-- If `s1` has no repetitions, neither has the union. -/
theorem C39_nodup (s1 s2 : List Int) (h : s1.Nodup) : (unionInt s1 s2).Nodup := by
  obtain ⟨t, h1, h2, h3, -⟩ := C39_union s1 s2
  rw [h1, List.nodup_append]
  exact ⟨h, h2, fun a ha b hb e => h3 b hb (e ▸ ha)⟩

/-- A union with common and repeated members. -/
example : unionInt [4, 1] [2, 1, 2, 7] = [4, 1, 2, 7] ∧ ([4, 1] : List Int).Nodup := by decide

/-! ## C40 -/

namespace Spec

/-- A selection of some of `tot` features, without repetitions. -/
def IsSelection (s : List Int) (tot : Nat) : Prop := s.Nodup ∧ ∀ v ∈ s, 0 ≤ v ∧ v < tot

end Spec

open Spec

theorem countP_notin {s t : List Int} : s.countP (fun v => !existInt t v) + s.countP (fun v => existInt t v) = s.length := by
  have := List.length_eq_countP_add_countP (fun v => existInt t v) (l := s)
  simp only [Bool.not_eq_true, Bool.decide_eq_false] at this
  omega

theorem countP_inter {s t : List Int} (hs : s.Nodup) (ht : t.Nodup) :
    s.countP (fun v => existInt t v) = t.countP (fun v => existInt s v) := by
  rw [List.countP_eq_length_filter, List.countP_eq_length_filter]
  apply List.Perm.length_eq
  rw [List.perm_ext_iff_of_nodup (hs.filter _) (ht.filter _)]
  intro v
  simp only [List.mem_filter, existInt_iff]
  exact And.comm

/-- The four classes cover all features. -/
theorem kappaCounts_sum {s1 s2 : List Int} {tot : Nat} (h1 : IsSelection s1 tot)
    (h2 : IsSelection s2 tot) :
    (kappaCounts s1 s2 tot).n11 + (kappaCounts s1 s2 tot).n12 + (kappaCounts s1 s2 tot).n21 +
      (kappaCounts s1 s2 tot).n22 = tot := by
  have hall : ((List.range tot).map Int.ofNat).Nodup :=
    List.nodup_range.map fun _ _ => Int.ofNat.inj
  have key : ∀ {s : List Int}, IsSelection s tot → ∀ p : Int → Bool,
      s.countP p = ((List.range tot).map Int.ofNat).countP (fun v => p v && existInt s v) := by
    intro s hs p
    rw [List.countP_eq_length_filter, List.countP_eq_length_filter]
    apply List.Perm.length_eq
    rw [List.perm_ext_iff_of_nodup (hs.1.filter _) (hall.filter _)]
    intro v
    simp only [List.mem_filter, List.mem_map, List.mem_range, Bool.and_eq_true, existInt_iff]
    constructor
    · rintro ⟨hv, hp⟩
      refine ⟨⟨v.toNat, ?_, ?_⟩, hp, hv⟩
      · have := hs.2 v hv; omega
      · have := hs.2 v hv
        exact Int.toNat_of_nonneg this.1
    · rintro ⟨-, hp, hv⟩; exact ⟨hv, hp⟩
  have e22 : (List.range tot).countP (fun i : Nat => !existInt s1 (i : Int) && !existInt s2 (i : Int)) =
      ((List.range tot).map Int.ofNat).countP (fun v => !existInt s1 v && !existInt s2 v) := by
    rw [List.countP_map]; rfl
  unfold kappaCounts
  simp only
  rw [key h1, key h1, key h2, e22]
  have hl : ((List.range tot).map Int.ofNat).length = tot := by simp
  generalize (List.range tot).map Int.ofNat = l at hl ⊢
  rw [← hl]
  clear hl hall key e22 h1 h2
  induction l with
  | nil => simp
  | cons v l ih =>
    simp only [List.countP_cons, List.length_cons]
    cases existInt s1 v <;> cases existInt s2 v <;> simp_all <;> omega

theorem kappaCounts_symm {s1 s2 : List Int} (tot : Nat) (h1 : s1.Nodup) (h2 : s2.Nodup) :
    kappaCounts s2 s1 tot = ⟨(kappaCounts s1 s2 tot).n11, (kappaCounts s1 s2 tot).n21,
      (kappaCounts s1 s2 tot).n12, (kappaCounts s1 s2 tot).n22⟩ := by
  unfold kappaCounts
  simp only [Counts.mk.injEq, true_and]
  refine ⟨countP_inter h2 h1, ?_⟩
  congr 1
  funext i
  exact Bool.and_comm _ _

variable {K : Type} [Field K] [LinearOrder K] [IsStrictOrderedRing K]

/-- Kappa is symmetric. -/
theorem C40_symmetric (s1 s2 : List Int) (tot : Nat) (h1 : s1.Nodup) (h2 : s2.Nodup) :
    (cohenKappa s1 s2 tot : Fl K) = cohenKappa s2 s1 tot := by
  have hc := kappaCounts_symm tot h1 h2
  unfold cohenKappa
  simp only [hc, and_comm (a := s2.length = 0)]
  have e1 : (prA ⟨(kappaCounts s1 s2 tot).n11, (kappaCounts s1 s2 tot).n21,
      (kappaCounts s1 s2 tot).n12, (kappaCounts s1 s2 tot).n22⟩ tot : K) =
      prA (kappaCounts s1 s2 tot) tot := rfl
  have e2 : (prE ⟨(kappaCounts s1 s2 tot).n11, (kappaCounts s1 s2 tot).n21,
      (kappaCounts s1 s2 tot).n12, (kappaCounts s1 s2 tot).n22⟩ tot : K) =
      prE (kappaCounts s1 s2 tot) tot := by
    unfold prE
    simp only
    rw [Nat.mul_comm ((kappaCounts s1 s2 tot).n11 + (kappaCounts s1 s2 tot).n21),
      Nat.mul_comm ((kappaCounts s1 s2 tot).n21 + (kappaCounts s1 s2 tot).n22)]
  rw [e1, e2]

/-- Kappa in terms of the counts: `2 (n11 n22 - n12 n21) / (...)`. -/
theorem kappa_formula (a b c d n : K) (hn : 0 < n) (h : a + b + c + d = n) :
    (a + d) / n - ((a + b) * (a + c) / (n * n) + (b + d) * (c + d) / (n * n)) =
      2 * (a * d - b * c) / (n * n) ∧
    1 - ((a + b) * (a + c) / (n * n) + (b + d) * (c + d) / (n * n)) =
      ((a + b) * (b + d) + (a + c) * (c + d)) / (n * n) := by
  have h0 := hn.ne'
  constructor
  · field_simp
    rw [← h]
    ring
  · field_simp
    rw [← h]
    ring

/-- All features selected twice. -/
def BothFull (s1 s2 : List Int) (tot : Nat) : Prop := s1.length = tot ∧ s2.length = tot

theorem kappa_cases {s1 s2 : List Int} {tot : Nat} (h1 : IsSelection s1 tot) (h2 : IsSelection s2 tot)
    (hne : ¬ (s1 = [] ∧ s2 = [])) (hfull : ¬ BothFull s1 s2 tot) :
    ∃ num den : K, 0 < den ∧ (cohenKappa s1 s2 tot : Fl K) = .fin (num / den) ∧
      (num ≤ den ∧ -den ≤ num) ∧
      (num = den ↔ (kappaCounts s1 s2 tot).n12 = 0 ∧ (kappaCounts s1 s2 tot).n21 = 0) := by
  have hsum := kappaCounts_sum h1 h2
  have l1 : (kappaCounts s1 s2 tot).n11 + (kappaCounts s1 s2 tot).n12 = s1.length := by
    have := countP_notin (s := s1) (t := s2)
    simp only [kappaCounts]; omega
  have l2 : (kappaCounts s1 s2 tot).n11 + (kappaCounts s1 s2 tot).n21 = s2.length := by
    have := countP_notin (s := s2) (t := s1)
    have := countP_inter h1.1 h2.1
    simp only [kappaCounts]; omega
  have hpos : 0 < tot := by
    rcases Nat.eq_zero_or_pos tot with h0 | h0
    · exfalso
      subst h0
      apply hfull
      constructor
      · cases s1 with
        | nil => rfl
        | cons v s => have := h1.2 v (by simp); omega
      · cases s2 with
        | nil => rfl
        | cons v s => have := h2.2 v (by simp); omega
    · exact h0
  obtain ⟨a, ha⟩ : ∃ a, (kappaCounts s1 s2 tot).n11 = a := ⟨_, rfl⟩
  obtain ⟨b, hb⟩ : ∃ b, (kappaCounts s1 s2 tot).n12 = b := ⟨_, rfl⟩
  obtain ⟨c, hc⟩ : ∃ c, (kappaCounts s1 s2 tot).n21 = c := ⟨_, rfl⟩
  obtain ⟨d, hd⟩ : ∃ d, (kappaCounts s1 s2 tot).n22 = d := ⟨_, rfl⟩
  rw [ha, hb, hc, hd] at hsum
  rw [ha, hb] at l1
  rw [ha, hc] at l2
  have hn : (0 : K) < (tot : K) := by exact_mod_cast hpos
  have hs : (a : K) + b + c + d = tot := by exact_mod_cast hsum
  obtain ⟨e1, e2⟩ := kappa_formula (a : K) b c d tot hn hs
  have hA : (prA (kappaCounts s1 s2 tot) tot : K) = ((a : K) + d) / tot := by
    unfold prA; rw [ha, hd]; push_cast; rfl
  have hE : (prE (kappaCounts s1 s2 tot) tot : K) =
      ((a : K) + b) * (a + c) / (tot * tot) + ((b : K) + d) * (c + d) / (tot * tot) := by
    unfold prE; rw [ha, hb, hc, hd]; push_cast; rfl
  have hden : 0 < (a + b) * (b + d) + (a + c) * (c + d) := by
    by_contra h0
    have h0 : (a + b) * (b + d) + (a + c) * (c + d) = 0 := by omega
    obtain ⟨p, q⟩ := Nat.add_eq_zero_iff.1 h0
    rw [Nat.mul_eq_zero] at p q
    rcases p with p | p
    · rcases q with q | q
      · refine hne ⟨List.eq_nil_of_length_eq_zero (by omega), List.eq_nil_of_length_eq_zero (by omega)⟩
      · exact absurd hsum (by omega)
    · rcases q with q | q
      · exact absurd hsum (by omega)
      · exact hfull ⟨by omega, by omega⟩
  have hdenK : (0 : K) < ((a : K) + b) * (b + d) + (a + c) * (c + d) := by exact_mod_cast hden
  have a0 : (0 : K) ≤ a := Nat.cast_nonneg a
  have b0 : (0 : K) ≤ b := Nat.cast_nonneg b
  have c0 : (0 : K) ≤ c := Nat.cast_nonneg c
  have d0 : (0 : K) ≤ d := Nat.cast_nonneg d
  refine ⟨2 * ((a : K) * d - b * c), ((a : K) + b) * (b + d) + (a + c) * (c + d), hdenK, ?_, ⟨?_, ?_⟩, ?_⟩
  · unfold cohenKappa
    rw [if_neg (by simpa [List.length_eq_zero_iff] using hne), if_neg (by omega)]
    simp only [hA, hE]
    rw [e1, e2, Fl.divFin, if_neg]
    · congr 1
      have : ((tot : K) * tot) ≠ 0 := by positivity
      rw [div_div_div_cancel_right₀ this]
    · have : (0 : K) < (tot : K) * tot := by positivity
      exact (div_pos hdenK this).ne'
  · have : (0 : K) ≤ a * b + b * b + b * d + a * c + c * c + c * d + 2 * (b * c) := by positivity
    nlinarith
  · have h3 : (0 : K) ≤ a * b + b * d + a * c + c * d + 4 * (a * d) := by positivity
    have h4 : (0 : K) ≤ ((b : K) - c) ^ 2 := sq_nonneg _
    nlinarith
  · rw [hb, hc]
    have key : ((a : K) + b) * (b + d) + (a + c) * (c + d) - 2 * ((a : K) * d - b * c) =
        (b + c) * tot := by rw [← hs]; ring
    constructor
    · intro h
      have : ((b : K) + c) * tot = 0 := by rw [← key, h]; ring
      rcases mul_eq_zero.1 this with h | h
      · have : b + c = 0 := by exact_mod_cast h
        omega
      · exact absurd h hn.ne'
    · rintro ⟨h, h'⟩
      have e : ((b : K) + c) * tot = 0 := by rw [h, h']; simp
      rw [e] at key
      linarith

theorem same_iff {s1 s2 : List Int} (tot : Nat) :
    ((kappaCounts s1 s2 tot).n12 = 0 ∧ (kappaCounts s1 s2 tot).n21 = 0) ↔ ∀ v, v ∈ s1 ↔ v ∈ s2 := by
  unfold kappaCounts
  simp only [List.countP_eq_zero, Bool.not_eq_true', Bool.not_eq_false, existInt_iff]
  constructor
  · rintro ⟨h, h'⟩ v; exact ⟨h v, h' v⟩
  · intro h; exact ⟨fun v hv => (h v).1 hv, fun v hv => (h v).2 hv⟩

/-- Unless both selections contain all features, kappa lies in [-1, 1] and is 1 exactly for equal
selections.  Missing: the case of two full selections, see `C40_full_refuted`. -/
theorem C40_range_partial (s1 s2 : List Int) (tot : Nat) (h1 : IsSelection s1 tot)
    (h2 : IsSelection s2 tot) (hfull : ¬ (0 < tot ∧ s1.length = tot ∧ s2.length = tot)) :
    ∃ x : K, cohenKappa s1 s2 tot = .fin x ∧ -1 ≤ x ∧ x ≤ 1 ∧ (x = 1 ↔ ∀ v, v ∈ s1 ↔ v ∈ s2) := by
  by_cases hne : s1 = [] ∧ s2 = []
  · obtain ⟨rfl, rfl⟩ := hne
    refine ⟨1, by simp [cohenKappa], by linarith [zero_lt_one (α := K)], le_rfl, by simp⟩
  · have hfull' : ¬ BothFull s1 s2 tot := by
      rintro ⟨h, h'⟩
      refine hfull ⟨?_, h, h'⟩
      rcases Nat.eq_zero_or_pos tot with h0 | h0
      · exact absurd ⟨List.eq_nil_of_length_eq_zero (by omega),
          List.eq_nil_of_length_eq_zero (by omega)⟩ hne
      · exact h0
    obtain ⟨num, den, hd, hk, ⟨hu, hl⟩, heq⟩ := kappa_cases (K := K) h1 h2 hne hfull'
    refine ⟨num / den, hk, ?_, ?_, ?_⟩
    · rw [le_div_iff₀ hd]; linarith
    · rw [div_le_one hd]; exact hu
    · rw [div_eq_one_iff_eq hd.ne', heq, same_iff]

/-- Two full selections are equal but their kappa is NaN. -/
theorem C40_full_refuted (s1 s2 : List Int) (tot : Nat) (hpos : 0 < tot) (h1 : IsSelection s1 tot)
    (h2 : IsSelection s2 tot) (hf1 : s1.length = tot) (hf2 : s2.length = tot) :
    (∀ v, v ∈ s1 ↔ v ∈ s2) ∧ (cohenKappa s1 s2 tot : Fl K) = .nan := by
  have hsum := kappaCounts_sum h1 h2
  have l1 : (kappaCounts s1 s2 tot).n11 + (kappaCounts s1 s2 tot).n12 = s1.length := by
    have := countP_notin (s := s1) (t := s2)
    simp only [kappaCounts]; omega
  have l2 : (kappaCounts s1 s2 tot).n11 + (kappaCounts s1 s2 tot).n21 = s2.length := by
    have := countP_notin (s := s2) (t := s1)
    have := countP_inter h1.1 h2.1
    simp only [kappaCounts]; omega
  have hall : ∀ s : List Int, IsSelection s tot → s.length = tot → ∀ v, v ∈ s ↔ 0 ≤ v ∧ v < tot := by
    intro s hs hl v
    refine ⟨hs.2 v, fun hv => ?_⟩
    have hsub : s ⊆ (List.range tot).map Int.ofNat := fun x hx => by
      have := hs.2 x hx
      refine List.mem_map.2 ⟨x.toNat, List.mem_range.2 (by omega), Int.toNat_of_nonneg this.1⟩
    have hp : s.Perm ((List.range tot).map Int.ofNat) :=
      (List.subperm_of_subset hs.1 hsub).perm_of_length_le (by simp [hl])
    rw [hp.mem_iff]
    exact List.mem_map.2 ⟨v.toNat, List.mem_range.2 (by omega), Int.toNat_of_nonneg hv.1⟩
  have hsame : ∀ v, v ∈ s1 ↔ v ∈ s2 := fun v => (hall s1 h1 hf1 v).trans (hall s2 h2 hf2 v).symm
  refine ⟨hsame, ?_⟩
  obtain ⟨h12, h21⟩ := (same_iff tot).2 hsame
  have hn : (tot : K) ≠ 0 := by exact_mod_cast hpos.ne'
  have h11 : (kappaCounts s1 s2 tot).n11 = tot := by omega
  have h22 : (kappaCounts s1 s2 tot).n22 = 0 := by omega
  have hA : (prA (kappaCounts s1 s2 tot) tot : K) = 1 := by
    unfold prA; rw [h11, h22, Nat.add_zero, div_self hn]
  have hE : (prE (kappaCounts s1 s2 tot) tot : K) = 1 := by
    unfold prE
    rw [h11, h22, h12, h21]
    push_cast
    simp [hn]
  unfold cohenKappa
  rw [if_neg (by omega), if_neg (by omega)]
  simp only [hA, hE, sub_self, Fl.divFin, if_true]

/-- Two selections of five features that agree on one, and two full ones. -/
example : IsSelection [0, 3] 5 ∧ IsSelection [3, 4, 1] 5 ∧ IsSelection [1, 0] 2 ∧
    (cohenKappa [0, 3] [3, 4, 1] 5 : Fl ℚ) = .fin (-2 / 13) := by
  refine ⟨⟨by decide, by decide⟩, ⟨by decide, by decide⟩, ⟨by decide, by decide⟩, ?_⟩
  have : kappaCounts [0, 3] [3, 4, 1] 5 = ⟨1, 1, 2, 1⟩ := by decide
  unfold cohenKappa
  simp only [this, prA, prE, Fl.divFin]
  norm_num

end GoSelect
