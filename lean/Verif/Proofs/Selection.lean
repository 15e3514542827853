import Verif.Model.Selection
import Verif.Proofs.Design

/-! Selections: the counting loop, `Selected2Model`, zero extension. -/

namespace GoSelect

open Spec

theorem collectLoop_eq (model : List Bool) (i : Nat) (pre suf : List Nat)
    (h : suf.length = numFeatures model) :
    collectLoop model i (pre ++ suf, pre.length) =
      some (pre ++ selectedFrom i model, pre.length + numFeatures model) := by
  induction model generalizing i pre suf with
  | nil =>
    have : suf = [] := List.eq_nil_of_length_eq_zero h
    subst this
    rfl
  | cons b model ih =>
    have hn : numFeatures (b :: model) = (if b then 1 else 0) + numFeatures model := by
      rw [numFeatures_eq_count, numFeatures_eq_count, List.count_cons]
      cases b <;> simp [Nat.add_comm]
    cases b with
    | false =>
      simp only [Bool.false_eq_true, if_false, Nat.zero_add] at hn
      rw [hn] at h ⊢
      exact ih (i + 1) pre suf h
    | true =>
      simp only [if_true] at hn
      rw [hn] at h ⊢
      match suf, h with
      | [], h => exact absurd h (by rw [List.length_nil]; omega)
      | x :: suf, h =>
        simp only [collectLoop, if_true]
        have hs : goSet (pre ++ x :: suf) pre.length i = some (pre ++ i :: suf) := by
          unfold goSet
          rw [if_pos (by simp)]
          simp
        rw [hs]
        have := ih (i + 1) (pre ++ [i]) suf (by simp at h; omega)
        simp only [List.append_assoc, List.cons_append, List.nil_append, List.length_append,
          List.length_cons, List.length_nil, Nat.zero_add] at this
        simp only [this, selectedFrom, Option.some.injEq, Prod.mk.injEq, true_and]
        omega

/-- The counting loop never leaves the slice and lists the features. -/
theorem selectedFeatures_eq (model : List Bool) :
    selectedFeatures model = some (features model) := by
  have := collectLoop_eq model 0 [] (List.replicate (numFeatures model) 0) (by simp)
  simp only [List.nil_append, List.length_nil] at this
  rw [selectedFeatures, this, selectedFrom_zero]
  rfl

theorem goSetInt_some {β : Type} {a : List β} {i : Nat} (h : i < a.length) (x : β) :
    goSetInt a (i : Int) x = some (a.set i x) := by
  unfold goSetInt goSet
  rw [if_neg (by omega), Int.toNat_natCast, if_pos h]

theorem goSetInt_none {β : Type} {a : List β} {v : Int} {x : β} :
    goSetInt a v x = none ↔ v < 0 ∨ (a.length : Int) ≤ v := by
  unfold goSetInt goSet
  split
  · simp; omega
  · split
    · simp; omega
    · simp; omega

theorem goSetInt_length {β : Type} {a a' : List β} {v : Int} {x : β} (h : goSetInt a v x = some a') :
    a'.length = a.length ∧ ∃ i : Nat, v = i ∧ i < a.length ∧ a' = a.set i x := by
  unfold goSetInt goSet at h
  split at h
  · cases h
  · split at h
    · rename_i h1 h2
      cases h
      exact ⟨by simp, v.toNat, by omega, h2, rfl⟩
    · cases h

theorem selectLoop_spec (sel : List Int) (a b : List Bool)
    (h : sel.foldlM (fun model v => goSetInt model v true) a = some b) :
    b.length = a.length ∧ (∀ v ∈ sel, 0 ≤ v ∧ v < a.length) ∧
      ∀ i, HasFeature b i ↔ HasFeature a i ∨ (i : Int) ∈ sel := by
  induction sel generalizing a with
  | nil =>
    cases h
    simp
  | cons v sel ih =>
    rw [List.foldlM_cons] at h
    cases hv : goSetInt a v true with
    | none => rw [hv] at h; cases h
    | some a' =>
      rw [hv] at h
      obtain ⟨hl, k, rfl, hk, rfl⟩ := goSetInt_length hv
      obtain ⟨h1, h2, h3⟩ := ih _ h
      refine ⟨h1.trans hl, ?_, ?_⟩
      · intro w hw
        rcases List.mem_cons.1 hw with rfl | hw
        · omega
        · have := h2 w hw
          rw [hl] at this
          exact this
      · intro i
        rw [h3 i]
        unfold HasFeature
        rw [List.getElem?_set]
        by_cases hik : k = i
        · subst hik; simp [hk]
        · have : ¬ (i : Int) = k := by omega
          simp [hik, this]

theorem selectLoop_none (sel : List Int) (a : List Bool) :
    sel.foldlM (fun model v => goSetInt model v true) a = none ↔
      ∃ v ∈ sel, v < 0 ∨ (a.length : Int) ≤ v := by
  induction sel generalizing a with
  | nil => simp
  | cons v sel ih =>
    rw [List.foldlM_cons]
    cases hv : goSetInt a v true with
    | none =>
      have := goSetInt_none.1 hv
      simp only [Option.bind_eq_bind, Option.bind_none, true_iff]
      exact ⟨v, by simp, this⟩
    | some a' =>
      obtain ⟨hl, k, rfl, hk, rfl⟩ := goSetInt_length hv
      simp only [Option.bind_eq_bind, Option.bind_some]
      rw [ih, hl]
      constructor
      · rintro ⟨w, hw, h⟩; exact ⟨w, by simp [hw], h⟩
      · rintro ⟨w, hw, h⟩
        rcases List.mem_cons.1 hw with rfl | hw
        · omega
        · exact ⟨w, hw, h⟩

theorem model_ext {a b : List Bool} (hl : a.length = b.length)
    (h : ∀ i, HasFeature a i ↔ HasFeature b i) : a = b := by
  apply List.ext_getElem hl
  intro i h1 h2
  have := h i
  unfold HasFeature at this
  rw [List.getElem?_eq_getElem h1, List.getElem?_eq_getElem h2] at this
  simpa using this

theorem features_eq_of {m : List Bool} {l : List Nat} (hl : l.Pairwise (· < ·))
    (h : ∀ i, HasFeature m i ↔ i ∈ l) : features m = l := by
  apply List.Perm.eq_of_pairwise (le := fun a b => a ≤ b)
  · intro a b _ _; omega
  · exact (features_sorted m).imp fun h => Nat.le_of_lt h
  · exact hl.imp fun h => Nat.le_of_lt h
  · rw [List.perm_ext_iff_of_nodup (features_sorted m).nodup hl.nodup]
    intro i
    rw [mem_features, h]

/-- `FullCoeffVector` extends by zero. -/
theorem fullCoeffLoop_spec {K : Type} (coeff : List K) (L : List Nat) (i : Nat) (res : List K)
    (hlt : ∀ v ∈ L, v < res.length) (hc : i + L.length ≤ coeff.length) (hn : L.Nodup) :
    ∃ out, fullCoeffLoop coeff (L.map Int.ofNat) i res = some out ∧ out.length = res.length ∧
      (∀ j, j ∉ L → out[j]? = res[j]?) ∧ ∀ k, k < L.length → out[L.getD k 0]? = coeff[i + k]? := by
  induction L generalizing i res with
  | nil => exact ⟨res, rfl, rfl, fun _ _ => rfl, fun k hk => by simp at hk⟩
  | cons v L ih =>
    rw [List.length_cons] at hc
    have hi : i < coeff.length := by omega
    have hv : v < res.length := hlt v (by simp)
    have hs : goSetInt res (Int.ofNat v) coeff[i] = some (res.set v coeff[i]) := goSetInt_some hv _
    obtain ⟨out, h1, h2, h3, h4⟩ := ih (i + 1) (res.set v coeff[i])
      (fun w hw => by rw [List.length_set]; exact hlt w (by simp [hw])) (by omega)
      (List.nodup_cons.1 hn).2
    refine ⟨out, ?_, by rw [h2, List.length_set], ?_, ?_⟩
    · rw [List.map_cons, fullCoeffLoop, List.getElem?_eq_getElem hi]
      simp only [hs]
      exact h1
    · intro j hj
      rw [List.mem_cons, not_or] at hj
      rw [h3 j hj.2, List.getElem?_set_ne (Ne.symm hj.1)]
    · intro k hk
      cases k with
      | zero =>
        rw [List.getD_cons_zero, h3 v (List.nodup_cons.1 hn).1, List.getElem?_set_self hv,
          Nat.add_zero, List.getElem?_eq_getElem hi]
      | succ k =>
        rw [List.getD_cons_succ, h4 k (by simpa using hk)]
        congr 1
        omega

theorem fullCoeffVector_some {K : Type} [Zero K] {n : Nat} {L : List Nat} {coeff : List K}
    (hn : L.Nodup) (hlt : ∀ v ∈ L, v < n) (hc : L.length ≤ coeff.length) :
    ∃ full, fullCoeffVector n (L.map Int.ofNat) coeff = some full ∧ full.length = n ∧
      ∀ i < n, full.getD i 0 = extend L (fun k => coeff.getD k 0) i := by
  obtain ⟨out, h1, h2, h3, h4⟩ := fullCoeffLoop_spec coeff L 0 (List.replicate n 0)
    (by simpa using hlt) (by omega) hn
  refine ⟨out, h1, by simpa using h2, fun i hi => ?_⟩
  unfold extend
  split
  · rename_i hm
    have hk := List.idxOf_lt_length_of_mem hm
    have := h4 (L.idxOf i) hk
    rw [List.getD_eq_getElem?_getD (l := L), List.getElem?_eq_getElem hk, Option.getD_some,
      List.getElem_idxOf] at this
    rw [List.getD_eq_getElem?_getD, this, Nat.zero_add, ← List.getD_eq_getElem?_getD]
  · rename_i hm
    rw [List.getD_eq_getElem?_getD, h3 i hm, List.getElem?_replicate, if_pos hi, Option.getD_some]

end GoSelect
