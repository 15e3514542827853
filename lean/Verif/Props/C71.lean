import Verif.Proofs.Selection
import Mathlib.Tactic.Ring

/-! C71: weighted averages of sparse coefficients. -/

namespace GoSelect

open Spec

variable {K : Type} [CommRing K]

namespace Spec

/-- A selection without repetitions that fits `n` features and has a coefficient for each entry. -/
def GoodSparse (n : Nat) (c : SparseCoeff K) : Prop :=
  c.selection.Nodup ∧ (∀ v ∈ c.selection, 0 ≤ v ∧ v < n) ∧ c.selection.length ≤ c.coeff.length

end Spec

theorem addSparse_spec (w : K) (coeff : List K) (L : List Nat) (j : Nat) (avg : List K)
    (hlt : ∀ v ∈ L, v < avg.length) (hc : j + L.length ≤ coeff.length) (hn : L.Nodup) :
    ∃ out, addSparse w coeff (L.map Int.ofNat) j avg = some out ∧ out.length = avg.length ∧
      (∀ i, i ∉ L → out[i]? = avg[i]?) ∧
      ∀ k, k < L.length → out.getD (L.getD k 0) 0 = avg.getD (L.getD k 0) 0 + w * coeff.getD (j + k) 0 := by
  induction L generalizing j avg with
  | nil => exact ⟨avg, rfl, rfl, fun _ _ => rfl, fun k hk => by simp at hk⟩
  | cons v L ih =>
    rw [List.length_cons] at hc
    have hj : j < coeff.length := by omega
    have hv : v < avg.length := hlt v (by simp)
    obtain ⟨out, h1, h2, h3, h4⟩ := ih (j + 1) (avg.set v (avg[v] + w * coeff[j]))
      (fun u hu => by rw [List.length_set]; exact hlt u (by simp [hu])) (by omega)
      (List.nodup_cons.1 hn).2
    refine ⟨out, ?_, by rw [h2, List.length_set], ?_, ?_⟩
    · have e : (Int.ofNat v).toNat = v := rfl
      rw [List.map_cons, addSparse, if_neg (by simp), e, List.getElem?_eq_getElem hj,
        List.getElem?_eq_getElem hv]
      exact h1
    · intro i hi
      rw [List.mem_cons, not_or] at hi
      rw [h3 i hi.2, List.getElem?_set_ne (Ne.symm hi.1)]
    · intro k hk
      cases k with
      | zero =>
        simp only [List.getD_cons_zero, Nat.add_zero]
        rw [List.getD_eq_getElem?_getD, h3 v (List.nodup_cons.1 hn).1, List.getElem?_set_self hv,
          Option.getD_some, List.getD_eq_getElem?_getD, List.getElem?_eq_getElem hv,
          List.getD_eq_getElem?_getD, List.getElem?_eq_getElem hj]
        rfl
      | succ k =>
        have hk' : k < L.length := by simpa using hk
        have hmem : L.getD k 0 ∈ L := by
          rw [List.getD_eq_getElem?_getD, List.getElem?_eq_getElem hk']
          exact List.getElem_mem hk'
        have hne : v ≠ L.getD k 0 := fun e => (List.nodup_cons.1 hn).1 (e ▸ hmem)
        rw [List.getD_cons_succ, h4 k hk', List.getD_eq_getElem?_getD, List.getElem?_set_ne hne,
          ← List.getD_eq_getElem?_getD, show j + 1 + k = j + (k + 1) by omega]

theorem addSparse_full (w : K) {n : Nat} {c : SparseCoeff K} (hg : GoodSparse n c) {avg : List K}
    (ha : avg.length = n) :
    ∃ out full, addSparse w c.coeff c.selection 0 avg = some out ∧
      fullCoeffVector n c.selection c.coeff = some full ∧ out.length = n ∧
      ∀ i < n, out.getD i 0 = avg.getD i 0 + w * full.getD i 0 := by
  obtain ⟨hn, hr, hc⟩ := hg
  obtain ⟨L, hL⟩ : ∃ L : List Nat, c.selection = L.map Int.ofNat := by
    refine ⟨c.selection.map Int.toNat, ?_⟩
    rw [List.map_map]
    conv_lhs => rw [← List.map_id c.selection]
    apply List.map_congr_left
    intro v hv
    have := (hr v hv).1
    simp [this]
  rw [hL] at hn hr hc ⊢
  have hn' : L.Nodup := hn.of_map _
  have hlt : ∀ v ∈ L, v < n := fun v hv => by
    have := (hr (Int.ofNat v) (List.mem_map.2 ⟨v, hv, rfl⟩)).2
    simpa using this
  rw [List.length_map] at hc
  obtain ⟨out, h1, h2, h3, h4⟩ := addSparse_spec w c.coeff L 0 avg (by rw [ha]; exact hlt) (by omega) hn'
  obtain ⟨full, g1, g2, g3⟩ := fullCoeffVector_some (coeff := c.coeff) hn' hlt hc
  refine ⟨out, full, h1, g1, h2.trans ha, fun i hi => ?_⟩
  rw [g3 i hi, extend]
  split
  · rename_i hm
    have hk := List.idxOf_lt_length_of_mem hm
    have := h4 (L.idxOf i) hk
    rw [List.getD_eq_getElem?_getD (l := L), List.getElem?_eq_getElem hk, Option.getD_some,
      List.getElem_idxOf, Nat.zero_add] at this
    exact this
  · rename_i hm
    rw [List.getD_eq_getElem?_getD, h3 i hm, mul_zero, add_zero, List.getD_eq_getElem?_getD]

/-- The result is the weighted sum of the full coefficient vectors. -/
theorem C71_average (n : Nat) (weights : List K) (coeffs : List (SparseCoeff K))
    (hlen : weights.length = coeffs.length) (hg : ∀ c ∈ coeffs, GoodSparse n c) :
    ∃ out fulls, weightedAveragedCoeff n weights coeffs = some out ∧
      coeffs.mapM (fun c => fullCoeffVector n c.selection c.coeff) = some fulls ∧ out.length = n ∧
      ∀ i < n, out.getD i 0 = ((weights.zip fulls).map (fun p => p.1 * p.2.getD i 0)).sum := by
  unfold weightedAveragedCoeff
  rw [if_neg (by simpa using hlen)]
  have key : ∀ (weights : List K) (coeffs : List (SparseCoeff K)) (avg : List K),
      weights.length = coeffs.length → (∀ c ∈ coeffs, GoodSparse n c) → avg.length = n →
      ∃ out fulls, (weights.zip coeffs).foldlM
          (fun avg wc => addSparse wc.1 wc.2.coeff wc.2.selection 0 avg) avg = some out ∧
        coeffs.mapM (fun c => fullCoeffVector n c.selection c.coeff) = some fulls ∧ out.length = n ∧
        ∀ i < n, out.getD i 0 =
          avg.getD i 0 + ((weights.zip fulls).map (fun p => p.1 * p.2.getD i 0)).sum := by
    intro weights
    induction weights with
    | nil =>
      intro coeffs avg hl _ ha
      have : coeffs = [] := List.eq_nil_of_length_eq_zero hl.symm
      subst this
      exact ⟨avg, [], rfl, rfl, ha, fun i _ => by simp⟩
    | cons w weights ih =>
      intro coeffs avg hl hg ha
      match coeffs, hl, hg with
      | c :: coeffs, hl, hg =>
        obtain ⟨o, full, h1, h2, h3, h4⟩ := addSparse_full w (hg c (by simp)) ha
        obtain ⟨out, fulls, g1, g2, g3, g4⟩ := ih coeffs o (by simpa using hl)
          (fun d hd => hg d (by simp [hd])) h3
        refine ⟨out, full :: fulls, ?_, ?_, g3, fun i hi => ?_⟩
        · rw [List.zip_cons_cons, List.foldlM_cons]
          simp only [h1]
          exact g1
        · rw [List.mapM_cons, h2, g2]
          rfl
        · rw [g4 i hi, h4 i hi]
          simp only [List.zip_cons_cons, List.map_cons, List.sum_cons]
          ring
  obtain ⟨out, fulls, h1, h2, h3, h4⟩ := key weights coeffs (List.replicate n 0) hlen hg (by simp)
  refine ⟨out, fulls, h1, h2, h3, fun i hi => ?_⟩
  rw [h4 i hi, List.getD_eq_getElem?_getD, List.getElem?_replicate, if_pos hi, Option.getD_some,
    zero_add]

/-- Different lengths panic. -/
theorem C71_panic (n : Nat) (weights : List K) (coeffs : List (SparseCoeff K))
    (h : weights.length ≠ coeffs.length) : weightedAveragedCoeff n weights coeffs = none := by
  simp [weightedAveragedCoeff, h]

/-- Two models over three features. -/
example : GoodSparse 3 (⟨[5, 7], [2, 0]⟩ : SparseCoeff Int) ∧
    weightedAveragedCoeff 3 [2, 3] [⟨[5, 7], [2, 0]⟩, (⟨[1], [2]⟩ : SparseCoeff Int)] =
      some [14, 0, 13] := by
  refine ⟨⟨by decide, by decide, by decide⟩, by decide⟩

end GoSelect
