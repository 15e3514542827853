import Verif.Model.Basic
import Verif.Spec.Models
import Mathlib.Data.List.Basic
import Mathlib.Data.List.Count
import Mathlib.Data.List.Perm.Subperm

/-! Lemmas about boolean models, `NumFeatures`, `Gcs` and `Lcs`. -/

namespace GoSelect

open Spec

theorem goCopy_replicate {α : Type} (a : List α) (d : α) :
    goCopy (List.replicate a.length d) a = a := by
  simp [goCopy]

theorem goCopy_length {α : Type} (d s : List α) : (goCopy d s).length = d.length := by
  simp [goCopy]; omega

theorem goCopy_getElem? {α : Type} (d s : List α) (i : Nat) :
    (goCopy d s)[i]? = if i < s.length ∧ i < d.length then s[i]? else d[i]? := by
  unfold goCopy
  by_cases h : i < s.length
  · by_cases h2 : i < d.length
    · rw [List.getElem?_append_left (by simp; omega), List.getElem?_take]
      simp [h, h2]
    · rw [List.getElem?_eq_none (by simp; omega)]
      simp [h2]
  · by_cases h2 : i < d.length
    · rw [List.getElem?_append_right (by simp; omega)]
      simp only [List.getElem?_drop, h, false_and, if_false, List.length_take]
      congr 1
      omega
    · rw [List.getElem?_eq_none (by simp; omega)]
      simp [h2]

theorem numFeatures_foldl (m : List Bool) (k : Nat) :
    m.foldl (fun num flag => if flag then num + 1 else num) k = k + m.count true := by
  induction m generalizing k with
  | nil => simp
  | cons b m ih =>
    simp only [List.foldl_cons]
    rw [ih]
    cases b <;> simp; omega

theorem numFeatures_eq_count (m : List Bool) : numFeatures m = m.count true := by
  simp [numFeatures, numFeatures_foldl]

theorem features_cons (b : Bool) (m : List Bool) :
    features (b :: m) = (if b then [0] else []) ++ (features m).map (· + 1) := by
  simp only [features, List.length_cons, List.range_succ_eq_map, List.filter_cons,
    List.filter_map, Function.comp_def, List.getElem?_cons_succ, List.getElem?_cons_zero]
  cases b <;> simp

theorem card_eq_count (m : List Bool) : card m = m.count true := by
  induction m with
  | nil => simp [card, features]
  | cons b m ih =>
    unfold card at *
    rw [features_cons]
    cases b <;> simp [ih]

theorem numFeatures_eq_card (m : List Bool) : numFeatures m = card m := by
  rw [numFeatures_eq_count, card_eq_count]

theorem mem_features (m : List Bool) (i : Nat) : i ∈ features m ↔ HasFeature m i := by
  simp only [features, List.mem_filter, List.mem_range, beq_iff_eq, HasFeature, and_iff_right_iff_imp]
  intro h
  exact (List.getElem?_eq_some_iff.1 h).1

theorem features_nodup (m : List Bool) : (features m).Nodup :=
  List.nodup_range.filter _

theorem features_sorted (m : List Bool) : (features m).Pairwise (· < ·) :=
  List.pairwise_lt_range.filter _

theorem card_le_of_contained {a b : List Bool} (h : ContainedIn a b) : card a ≤ card b := by
  have hs : features a ⊆ features b := by
    intro i hi
    rw [mem_features] at *
    exact h i hi
  exact (List.subperm_of_subset (features_nodup a) hs).length_le

theorem foldl_set_getElem? (m : List Bool) (v : Bool) (s n i : Nat) :
    ((List.range' s n).foldl (fun acc i => acc.set i v) m)[i]? =
      if s ≤ i ∧ i < s + n ∧ i < m.length then some v else m[i]? := by
  induction n generalizing s m with
  | zero => simp; omega
  | succ n ih =>
    rw [List.range'_succ, List.foldl_cons, ih]
    simp only [List.length_set, List.getElem?_set]
    by_cases h1 : s + 1 ≤ i ∧ i < s + 1 + n ∧ i < m.length
    · have : s ≤ i ∧ i < s + (n + 1) ∧ i < m.length := by omega
      simp [h1, this]
    · rw [if_neg h1]
      by_cases h2 : s = i
      · subst h2
        by_cases h3 : s < m.length
        · simp [h3]
        · simp [h3]
      · have : ¬ (s ≤ i ∧ i < s + (n + 1) ∧ i < m.length) := by omega
        simp [h2, this]

theorem foldl_set_length (m : List Bool) (v : Bool) (l : List Nat) :
    (l.foldl (fun acc i => acc.set i v) m).length = m.length := by
  induction l generalizing m with
  | nil => rfl
  | cons a l ih => simp [ih]

theorem fillFrom_getElem? (m : List Bool) (s i : Nat) (v : Bool) :
    (fillFrom m s v)[i]? = if s ≤ i ∧ i < m.length then some v else m[i]? := by
  rw [fillFrom, foldl_set_getElem?]
  congr 1
  simp; omega

theorem fillFrom_length (m : List Bool) (s : Nat) (v : Bool) :
    (fillFrom m s v).length = m.length := foldl_set_length _ _ _

/-- Common form of `Gcs` and `Lcs`. -/
theorem extreme_spec (m : List Bool) (k : Nat) (v : Bool) (hk : k ≤ m.length) (i : Nat) :
    (fillFrom (goCopy (List.replicate m.length false) (m.take k)) k v)[i]? =
      if k ≤ i ∧ i < m.length then some v else m[i]? := by
  rw [fillFrom_getElem?, goCopy_length, List.length_replicate, goCopy_getElem?]
  by_cases h : k ≤ i ∧ i < m.length
  · simp [h]
  · rw [if_neg h, if_neg h]
    by_cases h2 : i < k
    · have : i < m.length := by omega
      rw [if_pos (by simp; omega), List.getElem?_take, if_pos h2]
    · have : ¬ i < m.length := by omega
      simp [this]

theorem gcs_eq_some {m : List Bool} {k : Nat} (hk : k ≤ m.length) :
    gcs m k = some (fillFrom (goCopy (List.replicate m.length false) (m.take k)) k true) := by
  simp [gcs, goSliceTo, hk]

theorem lcs_eq_some {m : List Bool} {k : Nat} (hk : k ≤ m.length) :
    lcs m k = some (fillFrom (goCopy (List.replicate m.length false) (m.take k)) k false) := by
  simp [lcs, goSliceTo, hk]

theorem gcs_eq_none {m : List Bool} {k : Nat} (hk : m.length < k) : gcs m k = none := by
  simp [gcs, goSliceTo]; omega

theorem lcs_eq_none {m : List Bool} {k : Nat} (hk : m.length < k) : lcs m k = none := by
  simp [lcs, goSliceTo]; omega

theorem length_extreme (m : List Bool) (k : Nat) (v : Bool) :
    (fillFrom (goCopy (List.replicate m.length false) (m.take k)) k v).length = m.length := by
  rw [fillFrom_length, goCopy_length, List.length_replicate]

end GoSelect
