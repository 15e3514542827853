import Verif.Model.LassoPath
import Verif.Proofs.IntUtil
import Verif.Proofs.MapM
import Verif.Proofs.Design
import Verif.Proofs.LeastSquares
import Verif.Props.C31_C32
import Mathlib.Data.List.Infix
import Mathlib.Algebra.Order.Field.Rat

/-! # C67: most relevant features. C68: criteria and coefficients along a path. -/

namespace GoSelect

open Finset Spec

/-! ### C67 -/

/-- The features of a path, in the order of the nodes. -/
def Spec.pathFeatures {K : Type} (nodes : List (LassoLarsNode K)) : List Nat := nodes.flatMap (·.selection)

theorem addRelevant_append (acc : List Int) (a b : List Nat) :
    addRelevant acc (a ++ b) = addRelevant (addRelevant acc a) b := by
  unfold addRelevant
  rw [List.foldl_append]

theorem addRelevant_spec (l : List Nat) : ∃ d : List Nat, addRelevant [] l = d.map Int.ofNat ∧ d.Nodup ∧
    (∀ v, v ∈ d ↔ v ∈ l) ∧ d.Pairwise (fun a b => l.idxOf a < l.idxOf b) := by
  induction l using List.reverseRecOn with
  | nil => exact ⟨[], rfl, by simp, by simp, by simp⟩
  | append_singleton l v ih =>
    obtain ⟨d, h1, h2, h3, h4⟩ := ih
    have hpw : d.Pairwise (fun a b => (l ++ [v]).idxOf a < (l ++ [v]).idxOf b) := by
      refine h4.imp_of_mem (fun {a b} ha hb hab => ?_)
      rw [List.idxOf_append_of_mem ((h3 a).1 ha), List.idxOf_append_of_mem ((h3 b).1 hb)]
      exact hab
    have hstep : addRelevant [] (l ++ [v]) = if existInt (d.map Int.ofNat) v then d.map Int.ofNat
        else d.map Int.ofNat ++ [(v : Int)] := by
      rw [addRelevant_append, h1]
      rfl
    have hex : existInt (d.map Int.ofNat) v = true ↔ v ∈ l := by
      rw [existInt_iff, ← h3]
      simp
    by_cases hv : v ∈ l
    · refine ⟨d, ?_, h2, fun w => ?_, hpw⟩
      · rw [hstep, if_pos (hex.2 hv)]
      · rw [h3, List.mem_append, List.mem_singleton]
        exact ⟨.inl, fun h => h.elim id (fun e => e ▸ hv)⟩
    · refine ⟨d ++ [v], ?_, ?_, fun w => ?_, ?_⟩
      · rw [hstep, if_neg (fun h => hv (hex.1 h))]
        simp
      · rw [List.nodup_append]
        refine ⟨h2, by simp, fun a ha b hb e => ?_⟩
        rw [List.mem_singleton] at hb
        exact hv ((h3 v).1 (hb ▸ e ▸ ha))
      · simp [h3]
      · rw [List.pairwise_append]
        refine ⟨hpw, by simp, fun a ha b hb => ?_⟩
        rw [List.mem_singleton] at hb
        subst hb
        have ha' := (h3 a).1 ha
        rw [List.idxOf_append_of_mem ha', List.idxOf_append_of_notMem hv]
        have := List.idxOf_lt_length_of_mem ha'
        omega

theorem addRelevant_length (l : List Nat) : (addRelevant [] l).length = l.toFinset.card := by
  obtain ⟨d, h1, h2, h3, -⟩ := addRelevant_spec l
  rw [h1, List.length_map, ← List.toFinset_card_of_nodup h2]
  congr 1
  ext v
  simp [h3]

/-- The number of nodes that are read. -/
theorem pickLoop_spec {K : Type} (numFeat : Int) (nodes done : List (LassoLarsNode K)) :
    ∃ k, k ≤ nodes.length ∧
      pickLoop numFeat nodes (addRelevant [] (pathFeatures done)) =
        addRelevant [] (pathFeatures (done ++ nodes.take k)) ∧
      (k = nodes.length ∨ (0 < k ∧ numFeat ≤ (pathFeatures (done ++ nodes.take k)).toFinset.card)) ∧
      ∀ k', 0 < k' → k' < k → ((pathFeatures (done ++ nodes.take k')).toFinset.card : Int) < numFeat := by
  induction nodes generalizing done with
  | nil => exact ⟨0, le_refl _, by simp [pickLoop], .inl rfl, fun k' h1 h2 => by omega⟩
  | cons n nodes ih =>
    have hacc : addRelevant (addRelevant [] (pathFeatures done)) n.selection =
        addRelevant [] (pathFeatures (done ++ [n])) := by
      rw [← addRelevant_append]
      simp [pathFeatures, List.flatMap_append]
    rw [pickLoop]
    simp only [hacc]
    by_cases h : ((addRelevant [] (pathFeatures (done ++ [n]))).length : Int) ≥ numFeat
    · rw [if_pos h]
      refine ⟨1, by simp, by simp, .inr ⟨by omega, ?_⟩, fun k' h1 h2 => by omega⟩
      rw [addRelevant_length] at h
      simpa using h
    · rw [if_neg h]
      obtain ⟨k, h1, h2, h3, h4⟩ := ih (done ++ [n])
      have e : ∀ j, done ++ [n] ++ nodes.take j = done ++ (n :: nodes).take (j + 1) := by intro j; simp
      refine ⟨k + 1, by simpa using h1, by rw [h2, e], ?_, fun k' h5 h6 => ?_⟩
      · rcases h3 with h3 | ⟨h3, h5⟩
        · exact .inl (by simp [h3])
        · exact .inr ⟨by omega, by rw [← e]; exact h5⟩
      · by_cases hk : k' = 1
        · subst hk
          rw [addRelevant_length] at h
          simpa using h
        · obtain ⟨j, rfl⟩ : ∃ j, k' = j + 1 := ⟨k' - 1, by omega⟩
          rw [← e]
          exact h4 j (by omega) (by omega)

/-- C67: `PickMostRelevantFeatures` returns the distinct features of the first `k` nodes in the order of their
first appearance along the path; `k` is the first number of nodes (at least one) that has `numFeat` distinct
features, or the length of the path. -/
theorem C67_features {K : Type} (nodes : List (LassoLarsNode K)) (numFeat : Int) :
    ∃ (k : Nat) (d : List Nat), k ≤ nodes.length ∧
      pickMostRelevantFeatures nodes numFeat = d.map Int.ofNat ∧ d.Nodup ∧
      (∀ v, v ∈ d ↔ v ∈ pathFeatures (nodes.take k)) ∧
      d.Pairwise (fun a b => (pathFeatures nodes).idxOf a < (pathFeatures nodes).idxOf b) ∧
      (k = nodes.length ∨ (0 < k ∧ numFeat ≤ d.length)) ∧
      ∀ k', 0 < k' → k' < k → ((pathFeatures (nodes.take k')).toFinset.card : Int) < numFeat := by
  obtain ⟨k, h1, h2, h3, h4⟩ := pickLoop_spec numFeat nodes []
  have h2' : pickMostRelevantFeatures nodes numFeat = addRelevant [] (pathFeatures (nodes.take k)) := h2
  obtain ⟨d, d1, d2, d3, d4⟩ := addRelevant_spec (pathFeatures (nodes.take k))
  refine ⟨k, d, h1, by rw [h2', d1], d2, d3, ?_, ?_, h4⟩
  · refine d4.imp_of_mem (fun {a b} ha hb hab => ?_)
    have e : pathFeatures nodes = pathFeatures (nodes.take k) ++ pathFeatures (nodes.drop k) := by
      unfold pathFeatures
      rw [← List.flatMap_append, List.take_append_drop]
    rw [e, List.idxOf_append_of_mem ((d3 a).1 ha), List.idxOf_append_of_mem ((d3 b).1 hb)]
    exact hab
  · refine h3.imp id (fun h => ⟨h.1, ?_⟩)
    have := addRelevant_length (pathFeatures (nodes.take k))
    rw [d1, List.length_map] at this
    rw [this]
    exact h.2

/-- C67: at least `numFeat` features are returned if the path has so many, otherwise all of them. -/
theorem C67_enough {K : Type} (nodes : List (LassoLarsNode K)) (numFeat : Int) :
    (numFeat ≤ (pathFeatures nodes).toFinset.card → numFeat ≤ (pickMostRelevantFeatures nodes numFeat).length) ∧
    (((pathFeatures nodes).toFinset.card : Int) < numFeat →
      ∀ v : Nat, (v : Int) ∈ pickMostRelevantFeatures nodes numFeat ↔ v ∈ pathFeatures nodes) := by
  obtain ⟨k, d, h1, h2, h3, h4, h5, h6, h7⟩ := C67_features nodes numFeat
  have hsub : d.toFinset ⊆ (pathFeatures nodes).toFinset := by
    intro v hv
    rw [List.mem_toFinset, h4] at hv
    rw [List.mem_toFinset]
    unfold pathFeatures at *
    obtain ⟨n, hn, hv⟩ := List.mem_flatMap.1 hv
    exact List.mem_flatMap.2 ⟨n, List.mem_of_mem_take hn, hv⟩
  have hcard := Finset.card_le_card hsub
  rw [List.toFinset_card_of_nodup h3] at hcard
  rw [h2, List.length_map]
  constructor
  · intro h
    rcases h6 with rfl | ⟨-, h6⟩
    · have : d.toFinset = (pathFeatures nodes).toFinset := by
        ext v
        simp [h4]
      rw [← this, List.toFinset_card_of_nodup h3] at h
      exact h
    · exact h6
  · intro h v
    have hk : k = nodes.length := by
      rcases h6 with h6 | ⟨-, h6⟩
      · exact h6
      · omega
    subst hk
    simp only [List.take_length] at h4
    rw [← h4]
    simp

/-- More than the requested number of features can be returned; 0 and negative numbers give the first node. -/
example : pickMostRelevantFeatures ([⟨[1], 3, [4]⟩, ⟨[1, 1], 2, [2, 4]⟩, ⟨[1, 1, 1], 1, [0, 2, 7]⟩] :
      List (LassoLarsNode ℚ)) 3 = [4, 2, 0, 7] ∧
    pickMostRelevantFeatures ([⟨[1], 3, [4]⟩, ⟨[1, 1], 2, [2, 4]⟩] : List (LassoLarsNode ℚ)) 2 = [4, 2] ∧
    pickMostRelevantFeatures ([⟨[1], 3, [4]⟩, ⟨[1, 1], 2, [2, 4]⟩] : List (LassoLarsNode ℚ)) 5 = [4, 2] ∧
    pickMostRelevantFeatures ([⟨[1], 3, [4]⟩, ⟨[1, 1], 2, [2, 4]⟩] : List (LassoLarsNode ℚ)) (-1) = [4] := by
  decide

/-! ### C68 -/

/-- The coefficient of feature `i` at a node, 0 when it is not selected. -/
def Spec.coeffOf {K : Type} [Zero K] (n : LassoLarsNode K) (i : Nat) : K :=
  if i ∈ n.selection then n.coeff.getD (n.selection.idxOf i) 0 else 0

theorem pathCoeff_spec {K : Type} [Zero K] (coeff : List K) (f : Nat) (sel : List Nat) (j : Nat)
    (h : j + sel.length ≤ coeff.length) :
    pathCoeff coeff f sel j = some (if f ∈ sel then coeff.getD (j + sel.idxOf f) 0 else 0) := by
  induction sel generalizing j with
  | nil => rfl
  | cons v sel ih =>
    rw [List.length_cons] at h
    rw [pathCoeff]
    by_cases hv : v = f
    · subst hv
      have hj : j < coeff.length := by omega
      simp [List.getD_eq_getElem?_getD, hj]
    · rw [if_neg hv, ih (j + 1) (by omega)]
      have e1 : (f ∈ v :: sel) ↔ f ∈ sel := by simp [Ne.symm hv]
      have e2 : (v :: sel).idxOf f = sel.idxOf f + 1 := List.idxOf_cons_ne sel hv
      simp only [e1, e2]
      rw [show j + 1 + sel.idxOf f = j + (sel.idxOf f + 1) by omega]

/-- C68: `ExtractPath` pairs the regularisation of each node with the coefficient of the feature there, or 0. -/
theorem C68_extract {K β : Type} [Zero K] (log10 : K → β) (nodes : List (LassoLarsNode K)) (featNo : Nat)
    (h : ∀ n ∈ nodes, n.selection.length ≤ n.coeff.length) :
    extractPath log10 nodes featNo = some (nodes.map (fun n => (log10 n.lamb, coeffOf n featNo))) := by
  refine mapM_of_forall (fun n hn => ?_)
  rw [pathCoeff_spec n.coeff featNo n.selection 0 (by simpa using h n hn)]
  simp [coeffOf]

section
variable {K : Type} [CommRing K]

/-- Full C68: `GetCriteria` evaluates the criterion at the sum of squared errors of the node's coefficients.
False: `C68_refuted`. -/
def Spec.CriteriaAlongPath (K : Type) [CommRing K] : Prop :=
  ∀ (X : Mat K) (y : List K) (nodes : List (LassoLarsNode K)) (criteria : Nat → Nat → K → K),
    y.length = X.nr →
    (∀ n ∈ nodes, n.selection ≠ [] ∧ n.selection.Nodup ∧ (∀ v ∈ n.selection, v < X.nc) ∧
      n.coeff.length = n.selection.length) →
    getCriteria X y nodes criteria =
      some (nodes.map (fun n => criteria n.selection.length X.nr (sse X (coeffOf n) (vec y))))

/-- C68 for nodes with ascending selections.  Missing: other orders, where it is false. -/
theorem C68_criteria_partial {β : Type} (X : Mat K) (y : List K) (nodes : List (LassoLarsNode K))
    (criteria : Nat → Nat → K → β) (hy : y.length = X.nr)
    (h : ∀ n ∈ nodes, n.selection ≠ [] ∧ n.selection.Pairwise (· < ·) ∧ (∀ v ∈ n.selection, v < X.nc) ∧
      n.coeff.length = n.selection.length) :
    getCriteria X y nodes criteria =
      some (nodes.map (fun n => criteria n.selection.length X.nr (sse X (coeffOf n) (vec y)))) := by
  refine mapM_of_forall (fun n hn => ?_)
  obtain ⟨h1, h2, h3, h4⟩ := h n hn
  have hnd : n.selection.Nodup := h2.imp (fun h => Nat.ne_of_lt h)
  obtain ⟨m, hm⟩ : ∃ m, selected2Model (n.selection.map Int.ofNat) X.nc = some m := by
    rw [← Option.ne_none_iff_exists']
    intro h
    rw [C31_panic] at h
    rcases h with h | ⟨v, hv, h⟩
    · omega
    · obtain ⟨w, hw, rfl⟩ := List.mem_map.1 hv
      have := h3 w hw
      simp at h
      omega
  obtain ⟨hl, -⟩ := C31_model _ _ _ hm
  have hf : features m = n.selection := by
    have := C31_inverse' n.selection X.nc m h2 hm
    rw [selectedFeatures_eq] at this
    exact Option.some.inj this
  have hcard : card m = n.selection.length := by rw [← hf]; rfl
  have hpos : 0 < card m := by rw [hcard]; exact List.length_pos_iff.2 h1
  have hd := getDesignMatrix_some (X := X) hpos (by omega)
  rw [hf, hcard] at hd
  have hr := rss_eq_some (X := (colsOf X n.selection)) (c := n.coeff) (y := y) h4 hy
  have hs : sse (colsOf X n.selection) (vec n.coeff) (vec y) = sse X (coeffOf n) (vec y) := by
    unfold sse
    refine Finset.sum_congr rfl (fun i _ => ?_)
    rw [lin_cols hnd h3]
    rfl
  rw [hm]
  show ((getDesignMatrix m X).bind fun design => (rss design n.coeff y).bind fun r =>
    some (criteria (numFeatures m) X.nr r)) = _
  rw [hd, Option.bind_some]
  show (rss (colsOf X n.selection) n.coeff y).bind _ = _
  rw [hr, Option.bind_some, hs, numFeatures_eq_card, hcard]
end

/-- C68: the full statement is false; the columns are used in ascending order, the coefficients as listed. -/
theorem C68_refuted : ¬ Spec.CriteriaAlongPath ℚ := by
  intro hall
  have := hall ⟨1, 2, fun _ j => j⟩ [1] [⟨[1, 5], 1, [1, 0]⟩] (fun _ _ r => r) rfl (by decide)
  revert this
  decide +kernel

/-- The hypotheses hold on a path with two nodes. -/
example : getCriteria (⟨2, 3, fun i j => i + j⟩ : Mat ℚ) [1, 2] [⟨[1], 1, [1]⟩, ⟨[2, 1], 1 / 2, [0, 2]⟩]
      (fun k n r => k + n + r) = some [3, 14] ∧
    extractPath (fun x => x) ([⟨[1], 1, [1]⟩, ⟨[2, 3], 1 / 2, [0, 2]⟩] : List (LassoLarsNode ℚ)) 2 =
      some [(1, 0), (1 / 2, 3)] := by decide +kernel

end GoSelect
