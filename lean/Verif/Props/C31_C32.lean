import Verif.Proofs.Selection
import Verif.Model.SaScore
import Verif.Spec.Fit

/-! C31, C32: selections, design matrices, full coefficient vectors. -/

namespace GoSelect

open Spec

/-! ## C31 -/

/-- `SelectedFeatures` never panics and lists exactly the true positions in increasing order. -/
theorem C31_selected (m : List Bool) :
    ∃ s, selectedFeatures m = some s ∧ s.Pairwise (· < ·) ∧ (∀ i, i ∈ s ↔ m[i]? = some true) ∧
      s.length = numFeatures m :=
  ⟨features m, selectedFeatures_eq m, features_sorted m, fun i => mem_features m i,
    (numFeatures_eq_card m).symm⟩

/-- `Selected2Model` inverts `SelectedFeatures`. -/
theorem C31_inverse (m : List Bool) (s : List Nat) (h : selectedFeatures m = some s) :
    selected2Model (s.map Int.ofNat) m.length = some m := by
  rw [selectedFeatures_eq, Option.some.injEq] at h
  subst h
  unfold selected2Model
  rw [if_neg (by omega), Int.toNat_natCast]
  cases hb : (List.map Int.ofNat (features m)).foldlM (fun model v => goSetInt model v true)
      (List.replicate m.length false) with
  | none =>
    obtain ⟨v, hv, hbad⟩ := (selectLoop_none _ _).1 hb
    obtain ⟨i, hi, rfl⟩ := List.mem_map.1 hv
    have := features_lt hi
    rw [List.length_replicate] at hbad
    have e : Int.ofNat i = (i : Int) := rfl
    omega
  | some b =>
    obtain ⟨h1, -, h3⟩ := selectLoop_spec _ _ _ hb
    rw [Option.some.injEq]
    refine model_ext (by simpa using h1) fun i => ?_
    rw [h3 i, ← mem_features m i]
    have e : ¬ HasFeature (List.replicate m.length false) i := by
      simp [HasFeature, List.getElem?_replicate]
    simp [e]

/-- `Selected2Model` sets exactly the listed features. -/
theorem C31_model (sel : List Int) (n : Int) (m : List Bool) (h : selected2Model sel n = some m) :
    (m.length : Int) = n ∧ ∀ i : Nat, m[i]? = some true ↔ (i : Int) ∈ sel := by
  unfold selected2Model at h
  split at h
  · cases h
  · obtain ⟨h1, -, h3⟩ := selectLoop_spec _ _ _ h
    refine ⟨by simp at h1; omega, fun i => ?_⟩
    have := h3 i
    have e : ¬ HasFeature (List.replicate n.toNat false) i := by
      simp [HasFeature, List.getElem?_replicate]
    exact this.trans ⟨fun h => h.resolve_left e, Or.inr⟩

/-- `SelectedFeatures` inverts `Selected2Model` on increasing selections. -/
theorem C31_inverse' (s : List Nat) (n : Nat) (m : List Bool) (hs : s.Pairwise (· < ·))
    (h : selected2Model (s.map Int.ofNat) n = some m) : selectedFeatures m = some s := by
  obtain ⟨-, h2⟩ := C31_model _ _ _ h
  rw [selectedFeatures_eq, features_eq_of hs]
  intro i
  rw [HasFeature, h2 i]
  simp

/-- `Selected2Model` panics exactly on a negative length or an index out of range. -/
theorem C31_panic (sel : List Int) (n : Int) :
    selected2Model sel n = none ↔ n < 0 ∨ ∃ v ∈ sel, v < 0 ∨ n ≤ v := by
  unfold selected2Model
  split
  · simp_all
  · rw [selectLoop_none]
    simp only [List.length_replicate]
    constructor
    · rintro ⟨v, hv, h⟩; exact Or.inr ⟨v, hv, by omega⟩
    · rintro (h | ⟨v, hv, h⟩)
      · omega
      · exact ⟨v, hv, by omega⟩

/-- `NewSAItem` and `ToSparseCoeff` use the same selection, and `ToSparseCoeff` keeps the
coefficients. -/
theorem C31_same {K : Type} [Zero K] (n : Node K) (s : List Nat)
    (h : selectedFeatures n.model = some s) :
    (newSAItem n.model : SAItem K).selection = s.map Int.ofNat ∧
      toSparseCoeff n = some ⟨n.coeff, s.map Int.ofNat⟩ := by
  rw [selectedFeatures_eq, Option.some.injEq] at h
  subst h
  refine ⟨?_, ?_⟩
  · simp [newSAItem, selectedFrom_zero]
  · simp [toSparseCoeff, selectedFeatures_eq]

/-- Hypotheses of C31 on a concrete model. -/
example : selectedFeatures [false, true, true, false, true] = some [1, 2, 4] ∧
    selected2Model [4, 1, 2] 5 = some [false, true, true, false, true] ∧
    selected2Model [1, 5] 5 = none ∧ selected2Model [-1] 5 = none := by decide

/-! ## C32 -/

/-- Column `k` of the design matrix is the column of `X` at the `k`-th selected feature. -/
theorem C32_columns {K : Type} (X : Mat K) (m : List Bool) (hm : m.length ≤ X.nc) (hpos : true ∈ m) :
    ∃ D, getDesignMatrix m X = some D ∧ D.nr = X.nr ∧ selectedFeatures m ≠ some [] ∧
      ∀ s, selectedFeatures m = some s → D.nc = s.length ∧
        ∀ j k (hk : k < s.length), D.get j k = X.get j s[k] := by
  have hc : 0 < card m := by
    rw [card_eq_count]; exact List.count_pos_iff.2 hpos
  refine ⟨_, getDesignMatrix_some hc hm, rfl, ?_, fun s hs => ?_⟩
  · rw [selectedFeatures_eq, Ne, Option.some.injEq]
    exact List.ne_nil_of_length_pos hc
  · rw [selectedFeatures_eq, Option.some.injEq] at hs
    subst hs
    refine ⟨rfl, fun j k hk => ?_⟩
    simp only [List.getD_eq_getElem?_getD, List.getElem?_eq_getElem hk, Option.getD_some]

/-- Predicting from the design matrix is predicting from `X` with the full coefficient vector. -/
theorem C32_predict {K : Type} [CommRing K] (X : Mat K) (m : List Bool) (hm : m.length ≤ X.nc)
    (hpos : true ∈ m) (s : List Nat) (hs : selectedFeatures m = some s) (coeff : List K)
    (hc : coeff.length = s.length) :
    ∃ D full pred, getDesignMatrix m X = some D ∧
      fullCoeffVector X.nc (s.map Int.ofNat) coeff = some full ∧
      predict D coeff = some pred ∧ predict X full = some pred := by
  rw [selectedFeatures_eq, Option.some.injEq] at hs
  subst hs
  have hcard : 0 < card m := by
    rw [card_eq_count]; exact List.count_pos_iff.2 hpos
  have hlt : ∀ v ∈ features m, v < X.nc := fun v hv => (features_lt hv).trans_le hm
  have hnd := (features_sorted m).nodup
  obtain ⟨full, h1, h2, h3⟩ := fullCoeffVector_some (coeff := coeff) hnd hlt hc.ge
  refine ⟨_, full, _, getDesignMatrix_some hcard hm, h1, by rw [predict, if_neg (by simp [hc, card])], ?_⟩
  rw [predict, if_neg (by simp [h2]), Option.some.injEq]
  apply List.map_congr_left
  intro j _
  have := lin_cols hnd hlt (fun k => coeff.getD k 0) j
  simp only [lin, colsOf] at this
  simp only [card]
  rw [this]
  exact Finset.sum_congr rfl fun i hi => by rw [h3 i (Finset.mem_range.1 hi)]

/-- `GetDesignMatrix` panics on a model without features. -/
theorem C32_empty {K : Type} (X : Mat K) (m : List Bool) (h : true ∉ m) :
    getDesignMatrix m X = none := by
  have : numFeatures m = 0 := by rw [numFeatures_eq_count]; exact List.count_eq_zero.2 h
  simp [getDesignMatrix, this]

/-- Hypotheses of C32 on a 2 x 3 matrix. -/
example : ∃ D, getDesignMatrix [true, false, true] (⟨2, 3, fun i j => 3 * i + j⟩ : Mat Nat) = some D ∧
    D.get 1 1 = 5 ∧ fullCoeffVector 3 [0, 2] [7, 8] = some [7, 0, 8] :=
  ⟨_, rfl, rfl, rfl⟩

end GoSelect
