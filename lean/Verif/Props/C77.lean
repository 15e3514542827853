import Verif.Model.CohenSample
import Verif.Props.C39_C40

/-!
# C77: expected kappa
-/

namespace GoSelect

open Spec

variable {K : Type} [Field K] [LinearOrder K] [IsStrictOrderedRing K]

/-- C77: for every outcome of the shuffle the two halves are complementary sets of rows that differ in size
by at most one. -/
theorem C77_halves (nr : Nat) (indices : List Nat) (hs : List.Perm indices (List.range nr)) :
    (kappaHalves nr indices).1.length = nr / 2 ∧ (kappaHalves nr indices).2.length = nr - nr / 2 ∧
      (kappaHalves nr indices).1.Nodup ∧ (kappaHalves nr indices).2.Nodup ∧
      ∀ r, r < nr → (r ∈ (kappaHalves nr indices).1 ↔ r ∉ (kappaHalves nr indices).2) := by
  have hlen : indices.length = nr := by rw [hs.length_eq, List.length_range]
  have hnd : indices.Nodup := hs.nodup_iff.2 List.nodup_range
  have hsplit : indices.take (nr / 2) ++ indices.drop (nr / 2) = indices := List.take_append_drop _ _
  rw [← hsplit, List.nodup_append] at hnd
  refine ⟨by simp [kappaHalves, hlen]; omega, by simp [kappaHalves, hlen], hnd.1, hnd.2.1, ?_⟩
  intro r hr
  constructor
  · intro h1 h2
    exact hnd.2.2 r h1 r h2 rfl
  · intro h2
    have : r ∈ indices := hs.mem_iff.2 (List.mem_range.2 hr)
    rw [← hsplit] at this
    exact (List.mem_append.1 this).resolve_right h2

/-- Kappa of one sample. -/
def kappaOf (nr nc : Nat) (sel : List Nat → List Int) (indices : List Nat) : Fl K :=
  cohenKappa (sel (indices.take (nr / 2))) (sel (indices.drop (nr / 2))) nc

omit [IsStrictOrderedRing K] in
theorem fold_fin (nr nc : Nat) (sel : List Nat → List Int) (l : List (List Nat)) (a : K) (f : List Nat → K)
    (h : ∀ i ∈ l, (kappaOf nr nc sel i : Fl K) = .fin (f i)) :
    l.foldl (fun kappa indices => Fl.add kappa
      (cohenKappa (sel (kappaHalves nr indices).1) (sel (kappaHalves nr indices).2) nc)) (.fin a) =
      .fin (a + (l.map f).sum) := by
  induction l generalizing a with
  | nil => simp
  | cons i l ih =>
    rw [List.foldl_cons]
    have := h i (by simp)
    unfold kappaOf at this
    simp only [kappaHalves] at *
    rw [this]
    rw [show ∀ b : K, Fl.add (.fin a) (.fin b) = .fin (a + b) from fun _ => rfl]
    rw [ih _ (fun j hj => h j (by simp [hj]))]
    simp [add_assoc]

omit [IsStrictOrderedRing K] in
theorem fold_nan (nr nc : Nat) (sel : List Nat → List Int) (l : List (List Nat)) :
    l.foldl (fun kappa indices => Fl.add kappa
      (cohenKappa (sel (kappaHalves nr indices).1) (sel (kappaHalves nr indices).2) nc)) (.nan : Fl K) =
      .nan := by
  induction l with
  | nil => rfl
  | cons i l ih => rw [List.foldl_cons]; exact ih

omit [IsStrictOrderedRing K] in
theorem fold_nan_mem (nr nc : Nat) (sel : List Nat → List Int) (l : List (List Nat)) (a : Fl K)
    (h : ∃ i ∈ l, (kappaOf nr nc sel i : Fl K) = .nan) :
    l.foldl (fun kappa indices => Fl.add kappa
      (cohenKappa (sel (kappaHalves nr indices).1) (sel (kappaHalves nr indices).2) nc)) a = .nan := by
  induction l generalizing a with
  | nil => simp at h
  | cons j l ih =>
    obtain ⟨i, hi, hk⟩ := h
    rw [List.foldl_cons]
    rcases List.mem_cons.1 hi with rfl | hi
    · unfold kappaOf at hk
      simp only [kappaHalves] at *
      rw [hk]
      have : ∀ x : Fl K, Fl.add x .nan = .nan := by intro x; cases x <;> rfl
      rw [this]
      exact fold_nan nr nc sel l
    · exact ih _ ⟨i, hi, hk⟩

omit [IsStrictOrderedRing K] in
/-- C77: without samples the result is NaN. -/
theorem C77_no_samples (nr nc : Nat) (sel : List Nat → List Int) :
    (getCohensKappa nr nc sel [] : Fl K) = .nan := by
  simp [getCohensKappa, Fl.divNat, Fl.divFin]

/-- C77: if one of the samples selects all features in both halves the result is NaN. -/
theorem C77_full (nr nc : Nat) (sel : List Nat → List Int) (shuffles : List (List Nat)) (hpos : 0 < nc)
    (hsel : ∀ l, IsSelection (sel l) nc)
    (h : ∃ i ∈ shuffles, (sel (i.take (nr / 2))).length = nc ∧ (sel (i.drop (nr / 2))).length = nc) :
    (getCohensKappa nr nc sel shuffles : Fl K) = .nan := by
  obtain ⟨i, hi, h1, h2⟩ := h
  have := (C40_full_refuted (K := K) _ _ nc hpos (hsel _) (hsel _) h1 h2).2
  unfold getCohensKappa
  rw [fold_nan_mem nr nc sel shuffles _ ⟨i, hi, this⟩]
  rfl

theorem sum_le_length (l : List K) (h : ∀ x ∈ l, x ≤ 1) :
    l.sum ≤ l.length ∧ (l.sum = l.length ↔ ∀ x ∈ l, x = 1) := by
  induction l with
  | nil => simp
  | cons a l ih =>
    obtain ⟨h1, h2⟩ := ih (fun x hx => h x (by simp [hx]))
    have ha := h a (by simp)
    simp only [List.sum_cons, List.length_cons, Nat.cast_add, Nat.cast_one, List.mem_cons, forall_eq_or_imp]
    refine ⟨by linarith, ?_⟩
    rw [← h2]
    constructor
    · intro he; exact ⟨by linarith, by linarith⟩
    · rintro ⟨e1, e2⟩; rw [e1, e2, add_comm]

/-- C77: otherwise the result is the mean of the kappas of the samples, lies in [-1, 1], and is 1 exactly
when in every sample both halves select the same features. -/
theorem C77_mean (nr nc : Nat) (sel : List Nat → List Int) (shuffles : List (List Nat))
    (hne : shuffles ≠ []) (hsel : ∀ l, IsSelection (sel l) nc)
    (h : ∀ i ∈ shuffles, ¬ (0 < nc ∧ (sel (i.take (nr / 2))).length = nc ∧ (sel (i.drop (nr / 2))).length = nc)) :
    ∃ (x : K) (f : List Nat → K), getCohensKappa nr nc sel shuffles = .fin x ∧
      (∀ i ∈ shuffles, cohenKappa (sel (i.take (nr / 2))) (sel (i.drop (nr / 2))) nc = .fin (f i)) ∧
      x = (shuffles.map f).sum / shuffles.length ∧ -1 ≤ x ∧ x ≤ 1 ∧
      (x = 1 ↔ ∀ i ∈ shuffles, ∀ v, v ∈ sel (i.take (nr / 2)) ↔ v ∈ sel (i.drop (nr / 2))) := by
  have hk : ∀ i ∈ shuffles, ∃ x : K, cohenKappa (sel (i.take (nr / 2))) (sel (i.drop (nr / 2))) nc = .fin x ∧
      -1 ≤ x ∧ x ≤ 1 ∧ (x = 1 ↔ ∀ v, v ∈ sel (i.take (nr / 2)) ↔ v ∈ sel (i.drop (nr / 2))) :=
    fun i hi => C40_range_partial _ _ nc (hsel _) (hsel _) (h i hi)
  classical
  let f : List Nat → K := fun i => if hi : i ∈ shuffles then (hk i hi).choose else 0
  have hf : ∀ i (hi : i ∈ shuffles), f i = (hk i hi).choose := fun i hi => dif_pos hi
  have hf1 : ∀ i ∈ shuffles, cohenKappa (sel (i.take (nr / 2))) (sel (i.drop (nr / 2))) nc = .fin (f i) := by
    intro i hi; rw [hf i hi]; exact (hk i hi).choose_spec.1
  have hn : (0 : K) < shuffles.length := by
    have := List.length_pos_of_ne_nil hne
    exact_mod_cast this
  refine ⟨(shuffles.map f).sum / shuffles.length, f, ?_, hf1, rfl, ?_, ?_, ?_⟩
  · unfold getCohensKappa
    rw [fold_fin nr nc sel shuffles 0 f hf1, zero_add]
    simp only [Fl.divNat, Fl.divFin, if_neg hn.ne']
  · rw [le_div_iff₀ hn]
    have := (sum_le_length ((shuffles.map f).map (fun x => -x)) (by
      intro x hx
      simp only [List.mem_map, exists_exists_and_eq_and] at hx
      obtain ⟨i, hi, rfl⟩ := hx
      rw [hf i hi]
      linarith [(hk i hi).choose_spec.2.1])).1
    have e : ∀ l : List K, (l.map (fun x => -x)).sum = - l.sum := by
      intro l
      induction l with
      | nil => simp
      | cons a l ih => simp [ih]; ring
    rw [e] at this
    simp only [List.length_map] at this
    linarith
  · rw [div_le_one hn]
    have := (sum_le_length (shuffles.map f) (by
      intro x hx
      obtain ⟨i, hi, rfl⟩ := List.mem_map.1 hx
      rw [hf i hi]
      exact (hk i hi).choose_spec.2.2.1)).1
    simpa using this
  · rw [div_eq_one_iff_eq hn.ne']
    have := (sum_le_length (shuffles.map f) (by
      intro x hx
      obtain ⟨i, hi, rfl⟩ := List.mem_map.1 hx
      rw [hf i hi]
      exact (hk i hi).choose_spec.2.2.1)).2
    rw [List.length_map] at this
    rw [this]
    simp only [List.mem_map, forall_exists_index, and_imp, forall_apply_eq_imp_iff₂]
    refine forall₂_congr (fun i hi => ?_)
    rw [hf i hi]
    exact (hk i hi).choose_spec.2.2.2

/-- A target that selects feature 0 if row 0 is among the data points and feature 1 otherwise. -/
def exSel (l : List Nat) : List Int := if 0 ∈ l then [0] else [1]

example : List.Perm [2, 0, 1] (List.range 3) ∧ (∀ l, IsSelection (exSel l) 3) ∧
    (∀ i ∈ [[2, 0, 1], [0, 1, 2]],
      ¬ (0 < 3 ∧ (exSel (i.take (3 / 2))).length = 3 ∧ (exSel (i.drop (3 / 2))).length = 3)) ∧
    (getCohensKappa 3 3 exSel [[2, 0, 1], [0, 1, 2]] : Fl ℚ) = .fin (-1 / 2) := by
  refine ⟨by decide, ?_, by decide, by decide +kernel⟩
  intro l
  unfold exSel
  split <;> (unfold IsSelection; decide)

end GoSelect
