import Verif.Proofs.LeastSquares

/-! Design matrices: selected columns, zero extension of coefficients, nested models. -/

namespace GoSelect

open Finset Spec

theorem selectedFrom_eq (m : List Bool) (i : Nat) :
    selectedFrom i m = (features m).map (· + i) := by
  induction m generalizing i with
  | nil => rfl
  | cons b m ih =>
    have hf := features_cons b m
    cases b with
    | true =>
      rw [selectedFrom, ih, hf]
      simp [Function.comp_def, Nat.add_assoc, Nat.add_comm 1 i]
    | false =>
      rw [selectedFrom, ih, hf]
      simp [Function.comp_def, Nat.add_assoc, Nat.add_comm 1 i]

theorem selectedFrom_zero (m : List Bool) : selectedFrom 0 m = features m := by
  rw [selectedFrom_eq]; simp

theorem features_lt {m : List Bool} {i : Nat} (h : i ∈ features m) : i < m.length := by
  simp only [features, List.mem_filter, List.mem_range] at h
  exact h.1

/-- The design matrix of a model that fits `X`. -/
theorem getDesignMatrix_some {K : Type} {m : List Bool} {X : Mat K} (hpos : 0 < card m)
    (hlen : m.length ≤ X.nc) :
    getDesignMatrix m X = some ⟨X.nr, card m, fun j k => X.get j ((features m).getD k 0)⟩ := by
  unfold getDesignMatrix
  simp only [selectedFrom_zero, numFeatures_eq_card]
  rw [if_neg (by omega), if_neg]
  rintro ⟨-, h⟩
  obtain ⟨i, hi, hle⟩ := List.any_eq_true.1 h
  have := features_lt hi
  simp at hle
  omega

/-- Sum over the positions of a list. -/
theorem sum_getD {K : Type} [AddCommMonoid K] (L : List Nat) (g : Nat → K) :
    ∑ k ∈ range L.length, g (L.getD k 0) = (L.map g).sum := by
  induction L with
  | nil => simp
  | cons a L ih =>
    rw [List.length_cons, sum_range_succ']
    simp only [List.getD_cons_succ, List.getD_cons_zero, ih, List.map_cons, List.sum_cons]
    exact add_comm _ _

theorem sum_getD_finset {K : Type} [AddCommMonoid K] {L : List Nat} (h : L.Nodup) (g : Nat → K) :
    ∑ k ∈ range L.length, g (L.getD k 0) = ∑ i ∈ L.toFinset, g i := by
  rw [sum_getD, List.sum_toFinset g h]

/-- Coefficients on the columns `L` extended by 0. -/
def extend {K : Type} [Zero K] (L : List Nat) (c : Nat → K) (i : Nat) : K :=
  if i ∈ L then c (L.idxOf i) else 0

theorem extend_getD {K : Type} [Zero K] {L : List Nat} (h : L.Nodup) (c : Nat → K) {k : Nat}
    (hk : k < L.length) : extend L c (L.getD k 0) = c k := by
  have e : L.getD k 0 = L[k] := by simp [List.getD_eq_getElem?_getD, hk]
  rw [e, extend, if_pos (List.getElem_mem hk), h.idxOf_getElem]

section
variable {K : Type} [CommRing K]

/-- A matrix with chosen columns. -/
def colsOf (X : Mat K) (L : List Nat) : Mat K := ⟨X.nr, L.length, fun j k => X.get j (L.getD k 0)⟩

/-- Prediction with chosen columns is prediction with the zero-extended coefficients. -/
theorem lin_cols {X : Mat K} {L : List Nat} (hL : L.Nodup) (hlt : ∀ i ∈ L, i < X.nc)
    (c : Nat → K) (j : Nat) :
    lin (colsOf X L) c j = lin X (extend L c) j := by
  have h1 : lin (colsOf X L) c j =
      ∑ k ∈ range L.length, X.get j (L.getD k 0) * extend L c (L.getD k 0) :=
    sum_congr rfl fun k hk => by rw [extend_getD hL c (mem_range.1 hk)]; rfl
  rw [h1, sum_getD_finset hL (fun i => X.get j i * extend L c i)]
  refine sum_subset (fun i hi => mem_range.2 (hlt i (List.mem_toFinset.1 hi))) fun i _ hi => ?_
  rw [extend, if_neg (fun h => hi (List.mem_toFinset.2 h)), mul_zero]

/-- A coefficient vector that vanishes outside `L` can be restricted to the columns `L`. -/
theorem lin_restrict {X : Mat K} {L : List Nat} (hL : L.Nodup) (hlt : ∀ i ∈ L, i < X.nc)
    (b : Nat → K) (hb : ∀ i, i ∉ L → b i = 0) (j : Nat) :
    lin (colsOf X L) (fun k => b (L.getD k 0)) j = lin X b j := by
  have h1 : lin (colsOf X L) (fun k => b (L.getD k 0)) j =
      ∑ k ∈ range L.length, X.get j (L.getD k 0) * b (L.getD k 0) := rfl
  rw [h1, sum_getD_finset hL (fun i => X.get j i * b i)]
  refine sum_subset (fun i hi => mem_range.2 (hlt i (List.mem_toFinset.1 hi))) fun i _ hi => ?_
  rw [hb i (fun h => hi (List.mem_toFinset.2 h)), mul_zero]

/-- More columns, smaller least sum of squared errors. -/
theorem sse_nested [LinearOrder K] {X : Mat K} {A B : List Nat} (hA : A.Nodup) (hB : B.Nodup)
    (hltA : ∀ i ∈ A, i < X.nc) (hltB : ∀ i ∈ B, i < X.nc) (hsub : A ⊆ B) (cA cB y : Nat → K)
    (hls : IsLeastSquares (colsOf X B) cB y) :
    sse (colsOf X B) cB y ≤ sse (colsOf X A) cA y := by
  refine (hls (fun k => extend A cA (B.getD k 0))).trans (le_of_eq ?_)
  refine sum_congr rfl fun j _ => ?_
  rw [lin_restrict hB hltB (extend A cA) (fun i hi => if_neg fun h => hi (hsub h)) j,
    lin_cols hA hltA]

end

end GoSelect
