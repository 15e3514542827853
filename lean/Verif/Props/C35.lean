import Verif.Model.Rearrange
import Verif.Proofs.Selection

/-! C35: rearranging columns. -/

namespace GoSelect

open Spec

theorem rearrangeLoop1_cols {K : Type} (X : Mat K) (L : List Nat) (tail : List Int) (i : Nat)
    (s : RearrangeState K) (hlt : ∀ c ∈ L, c < X.nc) (hi : i + L.length ≤ X.nc)
    (hins : s.inserted.length = X.nc) :
    ∃ s', rearrangeLoop1 X (L.map Int.ofNat ++ tail) i s = rearrangeLoop1 X tail (i + L.length) s' ∧
      s'.inserted.length = X.nc ∧ s'.numInserted = s.numInserted + L.length ∧
      (∀ c, HasFeature s'.inserted c ↔ HasFeature s.inserted c ∨ c ∈ L) ∧
      (∀ r c, c < i → s'.get r c = s.get r c) ∧
      ∀ r k (hk : k < L.length), s'.get r (i + k) = X.get r L[k] := by
  induction L generalizing i s with
  | nil => exact ⟨s, by simp, hins, by simp, by simp, by simp, fun r k hk => by simp at hk⟩
  | cons c L ih =>
    have hc : c < X.nc := hlt c (by simp)
    rw [List.length_cons] at hi
    have hset := goSetInt_some (a := s.inserted) (i := c) (by omega) true
    obtain ⟨s', h1, h2, h3, h4, h5, h6⟩ := ih (i + 1)
      ⟨setCol X s.get i c, s.inserted.set c true, s.numInserted + 1⟩
      (fun d hd => hlt d (by simp [hd])) (by omega) (by simpa using hins)
    refine ⟨s', ?_, h2, by rw [h3, List.length_cons]; simp only; omega, ?_, ?_, ?_⟩
    · rw [List.map_cons, List.cons_append, rearrangeLoop1, if_pos (by simp), if_neg]
      · have e : Int.ofNat c = (c : Int) := rfl
        rw [e, hset]
        simp only [Int.toNat_natCast]
        rw [h1, List.length_cons, show i + 1 + L.length = i + (L.length + 1) by omega]
      · rintro ⟨-, h⟩
        have e : Int.ofNat c = (c : Int) := rfl
        exact h ⟨by omega, by omega, by omega⟩
    · intro d
      rw [h4 d]
      have : HasFeature (s.inserted.set c true) d ↔ HasFeature s.inserted d ∨ d = c := by
        unfold HasFeature
        rw [List.getElem?_set]
        by_cases hcd : c = d
        · subst hcd; simp [hins, hc]
        · simp [hcd, Ne.symm hcd]
      rw [this]
      simp [or_assoc]
    · intro r d hd
      rw [h5 r d (by omega)]
      simp [setCol, Nat.ne_of_lt hd]
    · intro r k hk
      cases k with
      | zero =>
        rw [Nat.add_zero, h5 r i (by omega)]
        simp [setCol]
      | succ k =>
        have := h6 r k (by simpa using hk)
        rw [show i + 1 + k = i + (k + 1) by omega] at this
        rw [this]
        rfl

theorem rearrangeLoop1_skip {K : Type} (X : Mat K) (n i : Nat) (s : RearrangeState K) :
    rearrangeLoop1 X (List.replicate n (-1)) i s = some s := by
  induction n generalizing i with
  | zero => rfl
  | succ n ih =>
    rw [List.replicate_succ, rearrangeLoop1, if_neg (by simp)]
    exact ih (i + 1)

/-- Positions of the false flags. -/
def restFrom (i : Nat) (flags : List Bool) : List Nat := selectedFrom i (flags.map (!·))

theorem rearrangeLoop2_spec {K : Type} (X : Mat K) (flags : List Bool) (i : Nat)
    (get : Nat → Nat → K) (n : Nat) (hn : n + (restFrom i flags).length ≤ X.nc) :
    ∃ get', rearrangeLoop2 X flags i (get, n) = some (get', n + (restFrom i flags).length) ∧
      (∀ r c, c < n → get' r c = get r c) ∧
      ∀ r k (hk : k < (restFrom i flags).length), get' r (n + k) = X.get r (restFrom i flags)[k] := by
  induction flags generalizing i get n with
  | nil => exact ⟨get, rfl, fun _ _ _ => rfl, fun r k hk => by simp [restFrom, selectedFrom] at hk⟩
  | cons f flags ih =>
    cases f with
    | true =>
      have e : restFrom i (true :: flags) = restFrom (i + 1) flags := rfl
      rw [e] at hn ⊢
      obtain ⟨get', h1, h2, h3⟩ := ih (i + 1) get n hn
      exact ⟨get', by rw [rearrangeLoop2, if_neg (by simp)]; exact h1, h2, h3⟩
    | false =>
      have e : restFrom i (false :: flags) = i :: restFrom (i + 1) flags := rfl
      rw [e] at hn
      rw [List.length_cons] at hn
      obtain ⟨get', h1, h2, h3⟩ := ih (i + 1) (setCol X get n i) (n + 1) (by omega)
      refine ⟨get', ?_, ?_, ?_⟩
      · rw [rearrangeLoop2, if_pos rfl, if_neg (by omega), h1, e, List.length_cons,
          show n + 1 + (restFrom (i + 1) flags).length = n + ((restFrom (i + 1) flags).length + 1) by omega]
      · intro r c hc
        rw [h2 r c (by omega)]
        simp [setCol, Nat.ne_of_lt hc]
      · intro r k hk
        simp only [e] at hk ⊢
        cases k with
        | zero =>
          rw [Nat.add_zero, h2 r n (by omega)]
          simp [setCol]
        | succ k =>
          have := h3 r k (by simpa using hk)
          rw [show n + 1 + k = n + (k + 1) by omega] at this
          rw [this]
          rfl

theorem mem_restFrom (flags : List Bool) (c : Nat) :
    c ∈ restFrom 0 flags ↔ c < flags.length ∧ ¬ HasFeature flags c := by
  rw [restFrom, selectedFrom_zero, mem_features]
  unfold HasFeature
  rw [List.getElem?_map]
  by_cases h : c < flags.length
  · rw [List.getElem?_eq_getElem h]
    simp [h]
  · rw [List.getElem?_eq_none (by omega)]
    simp [h]

/-- Requested columns first, then the others: a permutation of the columns. -/
theorem C35_permutation {K : Type} [Zero K] (X : Mat K) (cols : List Nat) (n : Nat)
    (hnd : cols.Nodup) (hlt : ∀ c ∈ cols, c < X.nc) :
    ∃ M σ, rearrangeDense X (cols.map Int.ofNat ++ List.replicate n (-1)) = some M ∧
      M.nr = X.nr ∧ M.nc = X.nc ∧ σ.Perm (List.range X.nc) ∧ cols <+: σ ∧
      ∀ r k (hk : k < σ.length), M.get r k = X.get r σ[k] := by
  have hle : cols.length ≤ X.nc := by
    have hsub : cols ⊆ List.range X.nc := fun c hc => List.mem_range.2 (hlt c hc)
    have := (List.subperm_of_subset hnd hsub).length_le
    simpa using this
  obtain ⟨s, h1, h2, h3, h4, -, h6⟩ := rearrangeLoop1_cols X cols (List.replicate n (-1)) 0
    ⟨fun _ _ => 0, List.replicate X.nc false, 0⟩ hlt (by omega) (by simp)
  rw [Nat.zero_add, rearrangeLoop1_skip] at h1
  have hins : ∀ c, HasFeature s.inserted c ↔ c ∈ cols := by
    intro c
    rw [h4 c]
    simp [HasFeature, List.getElem?_replicate]
  have hrest : ∀ c, c ∈ restFrom 0 s.inserted ↔ c < X.nc ∧ c ∉ cols := by
    intro c
    rw [mem_restFrom, h2, hins]
  have hperm : (cols ++ restFrom 0 s.inserted).Perm (List.range X.nc) := by
    rw [List.perm_ext_iff_of_nodup _ List.nodup_range]
    · intro c
      rw [List.mem_append, hrest, List.mem_range]
      constructor
      · rintro (h | h)
        · exact hlt c h
        · exact h.1
      · intro h
        by_cases hc : c ∈ cols
        · exact Or.inl hc
        · exact Or.inr ⟨h, hc⟩
    · rw [List.nodup_append]
      refine ⟨hnd, ?_, fun a ha b hb e => ((hrest b).1 hb).2 (e ▸ ha)⟩
      rw [restFrom, selectedFrom_zero]
      exact (features_sorted _).nodup
  have hlen : cols.length + (restFrom 0 s.inserted).length = X.nc := by
    have := hperm.length_eq
    simpa using this
  have hnum : s.numInserted = cols.length := by rw [h3]; simp
  obtain ⟨get', g1, g2, g3⟩ := rearrangeLoop2_spec X s.inserted 0 s.get s.numInserted (by omega)
  refine ⟨⟨X.nr, X.nc, get'⟩, cols ++ restFrom 0 s.inserted, ?_, rfl, rfl, hperm,
    List.prefix_append _ _, fun r k hk => ?_⟩
  · unfold rearrangeDense
    rw [h1]
    simp only
    rw [g1]
  · by_cases hkc : k < cols.length
    · rw [List.getElem_append_left hkc]
      show get' r k = _
      rw [g2 r k (by omega)]
      have := h6 r k hkc
      rwa [Nat.zero_add] at this
    · rw [List.getElem_append_right (by omega)]
      rw [List.length_append] at hk
      have := g3 r (k - cols.length) (by omega)
      rw [hnum, show cols.length + (k - cols.length) = k by omega] at this
      exact this

/-- Outside the domain of the claim: an interior -1 leaves a zero column and loses another. -/
theorem C35_interior_gap : ∃ M, rearrangeDense (⟨1, 2, fun _ c => c + 1⟩ : Mat Nat) [-1, 0] = some M ∧
    M.get 0 0 = 0 ∧ M.get 0 1 = 2 := ⟨_, rfl, rfl, rfl⟩

/-- The hypotheses hold for two of four columns. -/
example : ([2, 0] : List Nat).Nodup ∧ (∀ c ∈ [2, 0], c < 4) ∧
    ∃ M, rearrangeDense (⟨1, 4, fun _ c => c + 1⟩ : Mat Nat) [2, 0, -1, -1] = some M ∧
      (List.range 4).map (M.get 0) = [3, 1, 2, 4] := ⟨by decide, by decide, _, rfl, rfl⟩

end GoSelect
