import Verif.Model.Views
import Mathlib.Algebra.Order.Field.Rat
import Mathlib.Tactic.Linarith

/-! # C70: views read through to the underlying data -/

namespace GoSelect

/-- Entries of the selected columns, as a matrix of its own. -/
def Spec.submatrix {K : Type} (X : Mat K) (cols : List Nat) : Mat K :=
  ⟨X.nr, cols.length, fun i j => X.get i (cols.getD j 0)⟩

open Spec

theorem goIdx_ofNat {K : Type} (a : List K) (i : Nat) : goIdx a (i : Int) = a[i]? := by
  unfold goIdx
  rw [if_neg (by omega)]
  rfl

theorem goIdx_none {K : Type} {a : List K} {i : Int} : goIdx a i = none ↔ i < 0 ∨ (a.length : Int) ≤ i := by
  unfold goIdx
  split
  · simp_all
  · rw [List.getElem?_eq_none_iff]
    omega

/-- C70: a column view of a matrix is the matrix of the selected columns. -/
theorem C70_colView {K : Type} (X : Mat K) (cols : List Nat) (h : ∀ c ∈ cols, c < X.nc) :
    indexedColView (denseI X) (cols.map Int.ofNat) = denseI (submatrix X cols) := by
  unfold indexedColView denseI submatrix
  simp only [List.length_map, MatI.mk.injEq, true_and]
  funext i j
  by_cases hj : j < 0 ∨ (cols.length : Int) ≤ j
  · rw [goIdx_none.2 (by simpa using hj), if_pos (by omega)]
    rfl
  · obtain ⟨k, rfl⟩ : ∃ k : Nat, j = k := ⟨j.toNat, by omega⟩
    have hk : k < cols.length := by omega
    have hc := h cols[k] (List.getElem_mem hk)
    rw [goIdx_ofNat, List.getElem?_map, List.getElem?_eq_getElem hk]
    simp only [Option.map_some, Option.bind_some, Int.toNat_natCast, List.getD_eq_getElem?_getD, List.getElem?_eq_getElem hk,
      Option.getD_some]
    by_cases hi : i < 0 ∨ (X.nr : Int) ≤ i
    · rw [if_pos (by omega), if_pos (by omega)]
    · rw [if_neg (by simp only [Int.ofNat_eq_natCast]; omega), if_neg (by omega)]
      rfl

/-- C70: `At` on a column view, whatever the matrix is. -/
theorem C70_at {K : Type} (m : MatI K) (cols : List Int) (i j : Int) :
    (indexedColView m cols).dims = (m.dims.1, (cols.length : Int)) ∧
    ((j < 0 ∨ (cols.length : Int) ≤ j) → (indexedColView m cols).at' i j = none) ∧
    (∀ (k : Nat) (c : Int), (k : Int) = j → cols[k]? = some c → (indexedColView m cols).at' i j = m.at' i c) := by
  refine ⟨rfl, fun h => ?_, fun k c hk hc => ?_⟩
  · unfold indexedColView
    simp only
    rw [goIdx_none.2 h]
    rfl
  · unfold indexedColView
    simp only
    rw [← hk, goIdx_ofNat, hc]
    rfl

/-- C70: a view of a view is the view with the composed indices. -/
theorem C70_compose {K : Type} (m : MatI K) (outer : List Int) (inner : List Nat) (h : ∀ k ∈ inner, k < outer.length) :
    indexedColView (indexedColView m outer) (inner.map Int.ofNat) =
      indexedColView m (inner.map (fun k => outer.getD k 0)) := by
  unfold indexedColView
  simp only [List.length_map, MatI.mk.injEq, true_and]
  funext i j
  by_cases hj : j < 0 ∨ (inner.length : Int) ≤ j
  · rw [goIdx_none.2 (by simpa using hj), goIdx_none.2 (by simpa using hj)]
    rfl
  · obtain ⟨k, rfl⟩ : ∃ k : Nat, j = k := ⟨j.toNat, by omega⟩
    have hk : k < inner.length := by omega
    have hc := h inner[k] (List.getElem_mem hk)
    rw [goIdx_ofNat, goIdx_ofNat, List.getElem?_map, List.getElem?_map, List.getElem?_eq_getElem hk]
    simp only [Option.map_some, Int.ofNat_eq_natCast, Option.bind_some]
    rw [goIdx_ofNat, List.getElem?_eq_getElem hc]
    simp [List.getD_eq_getElem?_getD, hc]

/-- C70: all columns in order give the matrix back. -/
theorem C70_identity {K : Type} (X : Mat K) :
    indexedColView (denseI X) ((List.range X.nc).map Int.ofNat) = denseI X := by
  rw [C70_colView X _ (by simp)]
  unfold submatrix denseI
  simp only [List.length_range, MatI.mk.injEq, true_and]
  funext i j
  split
  · rfl
  · rename_i h
    have : j.toNat < X.nc := by omega
    simp [List.getD_eq_getElem?_getD, this]

/-- C70: the transpose swaps dimensions and indices, and twice is the identity. -/
theorem C70_transpose {K : Type} (m : MatI K) :
    (transposeI m).dims = (m.dims.2, m.dims.1) ∧ (∀ i j, (transposeI m).at' i j = m.at' j i) ∧
      transposeI (transposeI m) = m := ⟨rfl, fun _ _ => rfl, rfl⟩

/-- C70: `SliceVec` is the column vector of its slice. -/
theorem C70_sliceVec {K : Type} (data : List K) (i : Int) :
    (sliceVec data).len = data.length ∧ (sliceVec data).dims = ((data.length : Int), 1) ∧
    ((sliceVec data).atVec i = none ↔ i < 0 ∨ (data.length : Int) ≤ i) ∧
    (∀ k : Nat, (k : Int) = i → (sliceVec data).atVec i = data[k]?) ∧
    ∀ j, (sliceVec data).at' i j = (sliceVec data).atVec i :=
  ⟨rfl, rfl, goIdx_none, fun k hk => by rw [← hk]; exact goIdx_ofNat data k, fun _ => rfl⟩

/-- C70: a vector view of a slice is the slice of the selected entries. -/
theorem C70_vecView {K : Type} [Inhabited K] (data : List K) (rows : List Nat) (h : ∀ r ∈ rows, r < data.length) :
    indexedColVecView (sliceVec data) (rows.map Int.ofNat) = sliceVec (rows.map (fun r => data.getD r default)) := by
  have key : ∀ i : Int, (goIdx (rows.map Int.ofNat) i).bind (fun r => goIdx data r) = goIdx (rows.map (fun r => data.getD r default)) i := by
    intro i
    by_cases hi : i < 0 ∨ (rows.length : Int) ≤ i
    · rw [goIdx_none.2 (by simpa using hi), goIdx_none.2 (by simpa using hi)]
      rfl
    · obtain ⟨k, rfl⟩ : ∃ k : Nat, i = k := ⟨i.toNat, by omega⟩
      have hk : k < rows.length := by omega
      have hr := h rows[k] (List.getElem_mem hk)
      rw [goIdx_ofNat, goIdx_ofNat, List.getElem?_map, List.getElem?_map, List.getElem?_eq_getElem hk]
      simp only [Option.map_some, Int.ofNat_eq_natCast, Option.bind_some]
      rw [goIdx_ofNat, List.getElem?_eq_getElem hr]
      simp [List.getD_eq_getElem?_getD, hr]
  unfold indexedColVecView sliceVec
  simp only [key, List.length_map]

/-- C70: a vector view of a vector view selects the composed indices. -/
theorem C70_vecCompose {K : Type} (v : VecI K) (outer : List Int) (inner : List Nat)
    (h : ∀ k ∈ inner, k < outer.length) :
    indexedColVecView (indexedColVecView v outer) (inner.map Int.ofNat) =
      indexedColVecView v (inner.map (fun k => outer.getD k 0)) := by
  have key : ∀ i : Int, (goIdx (inner.map Int.ofNat) i).bind (fun r => (indexedColVecView v outer).atVec r) =
      (goIdx (inner.map (fun k => outer.getD k 0)) i).bind (fun r => v.atVec r) := by
    intro i
    by_cases hi : i < 0 ∨ (inner.length : Int) ≤ i
    · rw [goIdx_none.2 (by simpa using hi), goIdx_none.2 (by simpa using hi)]
      rfl
    · obtain ⟨k, rfl⟩ : ∃ k : Nat, i = k := ⟨i.toNat, by omega⟩
      have hk : k < inner.length := by omega
      have hr := h inner[k] (List.getElem_mem hk)
      rw [goIdx_ofNat, goIdx_ofNat, List.getElem?_map, List.getElem?_map, List.getElem?_eq_getElem hk]
      simp only [Option.map_some, Int.ofNat_eq_natCast, Option.bind_some, indexedColVecView]
      rw [goIdx_ofNat, List.getElem?_eq_getElem hr]
      simp [List.getD_eq_getElem?_getD, hr]
  have e : ∀ (w : VecI K) (l : List Int), indexedColVecView w l =
      { dims := (l.length, 1), at' := fun i _ => (goIdx l i).bind (fun r => w.atVec r),
        atVec := fun i => (goIdx l i).bind (fun r => w.atVec r), len := l.length } := fun _ _ => rfl
  rw [e (indexedColVecView v outer) (inner.map Int.ofNat), e v (inner.map (fun k => outer.getD k 0))]
  simp only [key, List.length_map]

example : (indexedColView (denseI (⟨2, 3, fun i j => 10 * i + j⟩ : Mat ℚ)) [2, 0]).at' 1 0 = some 12 ∧
    (indexedColView (denseI (⟨2, 3, fun i j => 10 * i + j⟩ : Mat ℚ)) [2, 3]).at' 1 1 = none ∧
    (indexedColVecView (sliceVec [5, 6, 7]) [2, 2, 0]).atVec 1 = some 7 ∧
    (indexedColVecView (indexedColVecView (sliceVec [5, 6, 7]) [2, 2, 0]) [2, 1]).atVec 0 = some 5 := by
  decide +kernel

end GoSelect
