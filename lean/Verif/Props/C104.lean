import Verif.Props.C83
import Mathlib.Data.List.Sort
import Mathlib.Data.List.GetD
import Mathlib.LinearAlgebra.FiniteDimensional.Lemmas
import Mathlib.LinearAlgebra.Matrix.ToLin
import Mathlib.Tactic.FieldSimp

/-! C104: on orthogonal columns `LassoLars` returns the soft-thresholding path. -/

namespace GoSelect

open Finset Spec

namespace Spec

section
variable {K : Type} [Field K] [LinearOrder K]

/-- The columns are mutually orthogonal; they may have any length, and may be zero. -/
def OrthoColumns (X : Mat K) : Prop :=
  ∀ i < X.nc, ∀ j < X.nc, i ≠ j → ∑ r ∈ range X.nr, X.get r i * X.get r j = 0

/-- `x_iᵀ y`. -/
def colDot (X : Mat K) (y : Nat → K) (i : Nat) : K := ∑ r ∈ range X.nr, X.get r i * y r

/-- `x_iᵀ x_i`. -/
def colSq (X : Mat K) (i : Nat) : K := ∑ r ∈ range X.nr, X.get r i ^ 2

/-- `z` moved towards 0 by `m`. -/
def shrink (z m : K) : K := if z > m then z - m else if z < -m then z + m else 0

/-- Order of entry: by the size of the correlation with `y`, ties by number. -/
def EntersBefore (X : Mat K) (y : Nat → K) (i j : Nat) : Prop :=
  |colDot X y j| < |colDot X y i| ∨ |colDot X y j| = |colDot X y i| ∧ i ≤ j

instance (X : Mat K) (y : Nat → K) : DecidableRel (EntersBefore X y) := fun _ _ => by
  unfold EntersBefore; infer_instance

/-- The features whose correlation exceeds `lambMin`, in order of entry. -/
def softOrder (X : Mat K) (y : Nat → K) (lambMin : K) : List Nat :=
  ((List.range X.nc).filter (fun i => lambMin < |colDot X y i|)).insertionSort (EntersBefore X y)

/-- The node at which the last feature of `Q` enters: its regularisation is the correlation of that feature, the
coefficients are the thresholded least-squares coefficients. -/
def softNode (X : Mat K) (y : Nat → K) (Q : List Nat) : LassoLarsNode K :=
  ⟨(Q.insertionSort (· ≤ ·)).map (fun i => shrink (colDot X y i) |colDot X y (Q.getLastD 0)| / colSq X i),
    |colDot X y (Q.getLastD 0)|, Q.insertionSort (· ≤ ·)⟩

/-- One node for each initial part of `Q`. -/
def softNodes (X : Mat K) (y : Nat → K) (Q : List Nat) : List (LassoLarsNode K) :=
  (List.range Q.length).map (fun k => softNode X y (Q.take (k + 1)))

/-- The soft-thresholding path. -/
def softPath (X : Mat K) (y : Nat → K) (lambMin : K) : List (LassoLarsNode K) :=
  softNodes X y (softOrder X y lambMin)

/-- The estimator solves the normal equations of every set of non-zero columns. -/
def SolvesNonzero (X : Mat K) (y : Nat → K) (est : Nat → List Nat → List K → Option (List K × List K)) : Prop :=
  ∀ k E signs, E.Nodup → (∀ i ∈ E, i < X.nc ∧ colSq X i ≠ 0) → signs.length = E.length →
    ∃ c d, est k E signs = some (c, d) ∧ SolvesNormal X y E signs c d

end

end Spec

section
variable {K : Type} [Field K] [LinearOrder K]

theorem maxTime_first_loop (v : List (Option K)) (pre : List (Option K)) (s : K × Nat)
    (h1 : ∀ i < s.2, ∀ u, (pre ++ v)[i]? = some (some u) → u < s.1) (h0 : s.2 ≤ pre.length)
    (h2 : ∀ i < pre.length, ∀ u, (pre ++ v)[i]? = some (some u) → u ≤ s.1) :
    let m := (v.zipIdx pre.length).foldl (fun s ti => match ti.1 with
      | some t => if t > s.1 then (t, ti.2) else s
      | none => s) s
    ∀ i < m.2, ∀ u, (pre ++ v)[i]? = some (some u) → u < m.1 := by
  induction v generalizing pre s with
  | nil => simpa using h1
  | cons a v ih =>
    rw [List.zipIdx_cons, List.foldl_cons]
    have he : pre ++ a :: v = (pre ++ [a]) ++ v := by simp
    have hl : pre.length + 1 = (pre ++ [a]).length := by simp
    rw [he] at h1 h2 ⊢
    rw [hl]
    have hpre : ((pre ++ [a]) ++ v)[pre.length]? = some a := by simp
    apply ih (pre ++ [a])
    · cases a with
      | none => exact h1
      | some t =>
        simp only
        split
        · rename_i h
          intro i hi u hu
          exact lt_of_le_of_lt (h2 i hi u hu) h
        · exact h1
    · cases a with
      | none => simp only [List.length_append, List.length_singleton]; omega
      | some t =>
        simp only
        split
        · simp
        · simp only [List.length_append, List.length_singleton]; omega
    · intro i hi u hu
      rw [List.length_append, List.length_singleton] at hi
      rcases Nat.lt_or_eq_of_le (Nat.lt_succ_iff.1 hi) with hi | hi
      · have := h2 i hi u hu
        cases a with
        | none => exact this
        | some t =>
          simp only
          split
          · rename_i h
            exact le_of_lt (lt_of_le_of_lt this h)
          · exact this
      · subst hi
        rw [hpre, Option.some.injEq] at hu
        subst hu
        simp only
        split
        · exact le_refl _
        · rename_i h
          exact not_lt.1 h

/-- `maxTime` returns the first of the largest times. -/
theorem maxTime_first (v : List (Option K)) :
    ∀ i < (maxTime v).2, ∀ u, v[i]? = some (some u) → u < (maxTime v).1 :=
  maxTime_first_loop v [] (0, 0) (by simp) (by simp) (by simp)

theorem maxJoinTime_first (v : List K) (active : List Nat) :
    ∀ i < (maxJoinTime v active).2, i ∉ active → ∀ u, v[i]? = some u → u < (maxJoinTime v active).1 := by
  intro i hi hia u hu
  refine maxTime_first _ i hi u ?_
  rw [List.getElem?_map, setNeg_get, if_neg (fun h => hia h.1), hu]
  rfl

/-- A list that is read off a function of the feature. -/
theorem eq_map_of_spread {E : List Nat} {v : List K} (hn : E.Nodup) (hl : v.length = E.length) (f : Nat → K)
    (h : ∀ i ∈ E, spread E v i = f i) : v = E.map f := by
  apply List.ext_getElem
  · simp [hl]
  · intro k hk hk'
    rw [List.length_map] at hk'
    have hm := List.getElem_mem hk'
    have := h _ hm
    unfold spread at this
    rw [if_pos hm, hn.idxOf_getElem k hk', List.getD_eq_getElem?_getD, List.getElem?_eq_getElem hk] at this
    rw [List.getElem_map, ← this]
    rfl

/-- Orthogonal columns decouple. -/
theorem gram_ortho {X : Mat K} (h : OrthoColumns X) (b : Nat → K) {i : Nat} (hi : i < X.nc) :
    gram X b i = colSq X i * b i := by
  unfold gram
  simp only [Finset.mul_sum]
  rw [Finset.sum_comm, Finset.sum_eq_single i]
  · unfold colSq
    rw [Finset.sum_mul]
    exact Finset.sum_congr rfl (fun r _ => by ring)
  · intro j hj hji
    have := h i hi j (mem_range.1 hj) (fun e => hji e.symm)
    calc ∑ r ∈ range X.nr, X.get r i * (X.get r j * b j) = (∑ r ∈ range X.nr, X.get r i * X.get r j) * b j := by
          rw [Finset.sum_mul]; exact Finset.sum_congr rfl (fun r _ => by ring)
      _ = 0 := by rw [this, zero_mul]
  · intro hn
    exact absurd (mem_range.2 hi) hn

instance entersBefore_total (X : Mat K) (y : Nat → K) : Std.Total (EntersBefore X y) := ⟨fun i j => by
  unfold EntersBefore
  rcases lt_trichotomy |colDot X y i| |colDot X y j| with h | h | h
  · exact .inr (.inl h)
  · rcases le_total i j with h' | h'
    · exact .inl (.inr ⟨h.symm, h'⟩)
    · exact .inr (.inr ⟨h, h'⟩)
  · exact .inl (.inl h)⟩

instance entersBefore_trans (X : Mat K) (y : Nat → K) : IsTrans Nat (EntersBefore X y) := ⟨fun i j k h1 h2 => by
  unfold EntersBefore at *
  rcases h1 with h1 | ⟨h1, h1'⟩ <;> rcases h2 with h2 | ⟨h2, h2'⟩
  · exact .inl (lt_trans h2 h1)
  · exact .inl (by rw [h2]; exact h1)
  · exact .inl (by rw [← h1]; exact h2)
  · exact .inr ⟨by rw [h2, h1], le_trans h1' h2'⟩⟩

instance entersBefore_antisymm (X : Mat K) (y : Nat → K) : Std.Antisymm (EntersBefore X y) := ⟨fun i j h1 h2 => by
  unfold EntersBefore at *
  rcases h1 with h1 | ⟨h1, h1'⟩ <;> rcases h2 with h2 | ⟨h2, h2'⟩
  · exact absurd h1 (not_lt.2 (le_of_lt h2))
  · exact absurd h2 (ne_of_gt h1)
  · exact absurd h1 (ne_of_gt h2)
  · exact le_antisymm h1' h2'⟩

theorem softOrder_eq {X : Mat K} {y : Nat → K} {lambMin : K} {P : List Nat} (hn : P.Nodup)
    (hs : P.Pairwise (EntersBefore X y)) (hm : ∀ i, i ∈ P ↔ i < X.nc ∧ lambMin < |colDot X y i|) :
    softOrder X y lambMin = P := by
  refine List.Perm.eq_of_pairwise' (r := EntersBefore X y) (List.pairwise_insertionSort _ _) hs ?_
  refine (List.perm_insertionSort _ _).trans ?_
  rw [List.perm_ext_iff_of_nodup (List.nodup_range.filter _) hn]
  intro i
  simp [hm i]

theorem softNodes_snoc (X : Mat K) (y : Nat → K) (P : List Nat) (j : Nat) :
    softNodes X y (P ++ [j]) = softNodes X y P ++ [softNode X y (P ++ [j])] := by
  unfold softNodes
  rw [List.length_append, List.length_singleton, List.range_succ, List.map_append, List.map_singleton]
  congr 1
  · apply List.map_congr_left
    intro k hk
    rw [List.mem_range] at hk
    rw [List.take_append_of_le_length (by omega)]
  · rw [List.take_of_length_le (by simp)]

theorem sort_perm {P Q : List Nat} (h : P.Perm Q) : P.insertionSort (· ≤ ·) = Q.insertionSort (· ≤ ·) :=
  List.Perm.eq_of_pairwise' (r := (· ≤ ·)) (List.pairwise_insertionSort _ _) (List.pairwise_insertionSort _ _)
    ((List.perm_insertionSort _ _).trans (h.trans (List.perm_insertionSort _ _).symm))

variable [IsStrictOrderedRing K]

theorem colSq_pos {X : Mat K} {y : Nat → K} {i : Nat} (h : colDot X y i ≠ 0) : 0 < colSq X i := by
  have h0 : 0 ≤ colSq X i := Finset.sum_nonneg (fun r _ => sq_nonneg _)
  refine lt_of_le_of_ne h0 (fun he => h ?_)
  have := (Finset.sum_eq_zero_iff_of_nonneg (fun r _ => sq_nonneg (X.get r i))).1 he.symm
  unfold colDot
  apply Finset.sum_eq_zero
  intro r hr
  rw [pow_eq_zero_iff (by decide : (2 : Nat) ≠ 0) |>.1 (this r hr), zero_mul]

theorem joinTime_inactive {tol lamb a : K} (i : Nat) (htol : 0 < tol) (h : |a| ≤ lamb) :
    joinTime tol lamb none i a 0 = some (if -tol ≤ a then a else -a) := by
  obtain ⟨h1, h2⟩ := abs_le.1 h
  have e1 : Fl.divFin a (1 - 0) = .fin a := divFin_fin.2 ⟨by norm_num, by simp⟩
  have e2 : Fl.divFin a (-1 - 0) = .fin (-a) := divFin_fin.2 ⟨by norm_num, by rw [sub_zero, div_neg, div_one]⟩
  unfold joinTime
  simp only [e1, e2, timeIn]
  by_cases hc : -tol ≤ a
  · rw [if_pos ⟨hc, by linarith⟩, if_pos hc]
  · rw [if_neg (fun h => hc h.1), if_neg hc, if_pos ⟨by linarith, by linarith⟩]

theorem joinTime_active {tol lamb s : K} (i : Nat) (htol : 0 < tol) (hl : 0 ≤ lamb) (hs : s = 1 ∨ s = -1) :
    joinTime tol lamb none i 0 s = some 0 := by
  have hin : timeIn (-tol) (lamb + tol) (.fin (0 : K)) = some 0 :=
    timeIn_some.2 ⟨rfl, by linarith, by linarith⟩
  unfold joinTime
  rcases hs with rfl | rfl
  · have e1 : Fl.divFin (0 : K) (1 - 1) = .nan := by simp [Fl.divFin]
    have e2 : Fl.divFin (0 : K) (-1 - 1) = .fin 0 := divFin_fin.2 ⟨by norm_num, by simp⟩
    simp only [e1, e2, hin]
    rfl
  · have e1 : Fl.divFin (0 : K) (1 - -1) = .fin 0 := divFin_fin.2 ⟨by norm_num, by simp⟩
    simp only [e1, hin]

/-- The states of the loop on orthogonal columns: the features `P` have entered, in this order. -/
structure OrthoInv (X : Mat K) (y : Nat → K) (s : LarsState K) (P : List Nat) : Prop where
  last : s.last = none
  ne : P ≠ []
  nodup : P.Nodup
  range : ∀ i ∈ P, i < X.nc
  perm : s.activeSet.Perm P
  lamb : s.lamb = |colDot X y (P.getLastD 0)|
  sorted : P.Pairwise (EntersBefore X y)
  rest : ∀ i < X.nc, i ∉ P → ∀ p ∈ P, EntersBefore X y p i
  sgn : ∀ i ∈ P, s.allSigns i = if colDot X y i < 0 then -1 else 1
  res : s.res = softNodes X y P.dropLast

theorem entersBefore_le {X : Mat K} {y : Nat → K} {i j : Nat} (h : EntersBefore X y i j) :
    |colDot X y j| ≤ |colDot X y i| := by
  rcases h with h | h
  · exact le_of_lt h
  · exact le_of_eq h.1

theorem getLastD_mem {P : List Nat} (h : P ≠ []) : P.getLastD 0 ∈ P := by
  rw [List.getLastD_eq_getLast?, List.getLast?_eq_some_getLast h]
  exact List.getLast_mem h

theorem OrthoInv.lamb_le {X : Mat K} {y : Nat → K} {s : LarsState K} {P : List Nat} (h : OrthoInv X y s P) {i : Nat}
    (hi : i ∈ P) : s.lamb ≤ |colDot X y i| := by
  rw [h.lamb]
  by_cases e : i = P.getLastD 0
  · rw [e]
  · have hs := h.sorted
    have hP : P = P.dropLast ++ [P.getLastD 0] := by
      rw [List.getLastD_eq_getLast?, List.getLast?_eq_some_getLast h.ne]
      exact (List.dropLast_append_getLast h.ne).symm
    rw [hP] at hs hi
    rcases List.mem_append.1 hi with hi | hi
    · exact entersBefore_le ((List.pairwise_append.1 hs).2.2 i hi _ (List.mem_singleton.2 rfl))
    · exact absurd (List.mem_singleton.1 hi) e

/-- One iteration on orthogonal columns. -/
theorem ortho_step {X : Mat K} {y : Nat → K} {tol lambMin : K}
    {est : Nat → List Nat → List K → Option (List K × List K)} {s : LarsState K} {P : List Nat}
    (htol : 0 < tol) (hmin : 0 ≤ lambMin) (ho : OrthoColumns X) (hest : SolvesNonzero X y est)
    (hsmall : ∀ i < X.nc, -tol ≤ colDot X y i → colDot X y i < 0 → |colDot X y i| ≤ lambMin)
    (h : OrthoInv X y s P) (hl : lambMin < s.lamb) :
    ∃ s', larsBody X y tol lambMin est s = .next s' ∧ s'.res = softNodes X y P ∧
      ((s'.lamb ≤ lambMin ∧ ∀ i < X.nc, i ∉ P → |colDot X y i| ≤ lambMin) ∨
        lambMin < s'.lamb ∧ ∃ j < X.nc, j ∉ P ∧ OrthoInv X y s' (P ++ [j])) := by
  have hpos : 0 < s.lamb := lt_of_le_of_lt hmin hl
  have hE := sort_perm h.perm
  set E := P.insertionSort (· ≤ ·) with hEd
  have hEp : E.Perm P := List.perm_insertionSort _ _
  have hEm : ∀ i, i ∈ E ↔ i ∈ P := fun i => hEp.mem_iff
  have hEn : E.Nodup := hEp.nodup_iff.2 h.nodup
  have hEr : ∀ i ∈ E, i < X.nc := fun i hi => h.range i ((hEm i).1 hi)
  have hEne : E ≠ [] := fun h0 => h.ne (List.eq_nil_of_length_eq_zero (by rw [← hEp.length_eq, h0]; rfl))
  have hne0 : ∀ i ∈ E, colDot X y i ≠ 0 := by
    intro i hi h0
    have := h.lamb_le ((hEm i).1 hi)
    rw [h0, abs_zero] at this
    exact absurd this (not_le.2 hpos)
  have hsq : ∀ i ∈ E, 0 < colSq X i := fun i hi => colSq_pos (hne0 i hi)
  obtain ⟨c, d, he, hsol⟩ := hest s.res.length E (E.map s.allSigns) hEn
    (fun i hi => ⟨hEr i hi, ne_of_gt (hsq i hi)⟩) (by simp)
  have heq := larsEq_signs hEn hEr hsol
  have hC : ∀ i ∈ E, spread E c i = colDot X y i / colSq X i := by
    intro i hi
    have := heq.eqC i hi
    rw [gram_ortho ho _ (hEr i hi)] at this
    rw [eq_div_iff (ne_of_gt (hsq i hi)), mul_comm]
    exact this
  have hD : ∀ i ∈ E, spread E d i = s.allSigns i / colSq X i := by
    intro i hi
    have := heq.eqD i hi
    rw [gram_ortho ho _ (hEr i hi)] at this
    rw [eq_div_iff (ne_of_gt (hsq i hi)), mul_comm]
    exact this
  have hc := eq_map_of_spread hEn hsol.lenC _ hC
  have hd := eq_map_of_spread hEn hsol.lenD _ hD
  have hsg : ∀ i ∈ E, s.allSigns i = 1 ∨ s.allSigns i = -1 := by
    intro i hi
    rw [h.sgn i ((hEm i).1 hi)]
    split
    · exact .inr rfl
    · exact .inl rfl
  have hin : ∀ i < X.nc, i ∉ E → |colDot X y i| ≤ s.lamb := by
    intro i hi hiE
    rw [h.lamb]
    exact entersBefore_le (h.rest i hi (fun hp => hiE ((hEm i).2 hp)) _ (getLastD_mem h.ne))
  -- joining times
  have hjt : tJoin X y tol s.lamb E c d s.last =
      some ((List.range X.nc).map (fun i => if i ∈ E then 0
        else if -tol ≤ colDot X y i then colDot X y i else -colDot X y i)) := by
    unfold tJoin
    rw [mapM_some_iff, List.map_map]
    apply List.map_congr_left
    intro i hi
    rw [List.mem_range] at hi
    rw [larsXX_eq hEn hEr, larsXX_eq hEn hEr, h.last]
    simp only [Function.comp_apply]
    by_cases hiE : i ∈ E
    · rw [heq.eqC i hiE, heq.eqD i hiE, sub_self, if_pos hiE]
      exact joinTime_active i htol (le_of_lt hpos) (hsg i hiE)
    · rw [gram_ortho ho _ hi, gram_ortho ho _ hi, heq.suppC i hiE, heq.suppD i hiE, mul_zero, sub_zero, if_neg hiE]
      exact joinTime_inactive i htol (hin i hi hiE)
  -- crossing times
  have hct : (maxTime (tCross tol s.lamb c d)).1 = 0 := by
    obtain ⟨-, h2, -⟩ := maxTime_spec (tCross tol s.lamb c d)
    rcases h2 with ⟨h2, -⟩ | ⟨h1, h2⟩
    · exact h2
    · exfalso
      have hm := List.mem_of_getElem? h2
      generalize (maxTime (tCross tol s.lamb c d)).1 = t at h1 hm
      unfold tCross at hm
      obtain ⟨k, hk, hm⟩ := List.mem_map.1 hm
      rw [List.mem_range, hsol.lenC] at hk
      have hmem := List.getElem_mem hk
      have e1 : c.getD k 0 = colDot X y E[k] / colSq X E[k] := by
        rw [hc, List.getD_eq_getElem?_getD, List.getElem?_map, List.getElem?_eq_getElem hk]; rfl
      have e2 : d.getD k 0 = s.allSigns E[k] / colSq X E[k] := by
        rw [hd, List.getD_eq_getElem?_getD, List.getElem?_map, List.getElem?_eq_getElem hk]; rfl
      have hratio : colDot X y E[k] / colSq X E[k] / (s.allSigns E[k] / colSq X E[k]) = |colDot X y E[k]| := by
        have hq := ne_of_gt (hsq _ hmem)
        rw [h.sgn _ ((hEm _).1 hmem)]
        split
        · rename_i hlt
          rw [abs_of_neg hlt]
          field_simp
        · rename_i hlt
          rw [abs_of_nonneg (not_lt.1 hlt)]
          field_simp
      have hdne : s.allSigns E[k] / colSq X E[k] ≠ 0 := by
        apply div_ne_zero _ (ne_of_gt (hsq _ hmem))
        rcases hsg _ hmem with e | e <;> rw [e] <;> norm_num
      rw [e1, e2] at hm
      unfold crossTime at hm
      rw [divFin_fin.2 ⟨hdne, hratio⟩] at hm
      simp only at hm
      rw [if_pos (by have := h.lamb_le ((hEm _).1 hmem); linarith), Option.some.injEq] at hm
      rw [← hm] at h1
      exact lt_irrefl _ h1
  -- the node
  have hnode : (⟨betaLARS c d s.lamb, s.lamb, E⟩ : LassoLarsNode K) = softNode X y P := by
    unfold softNode
    rw [← h.lamb, ← hEd]
    congr 1
    apply eq_map_of_spread hEn (by simp [betaLARS, hsol.lenC])
    intro i hi
    have hq := ne_of_gt (hsq _ hi)
    have hle := h.lamb_le ((hEm i).1 hi)
    rw [spread_beta hsol.lenC, hC i hi, hD i hi, h.sgn i ((hEm i).1 hi), mul_div_assoc', ← sub_div]
    congr 1
    unfold shrink
    by_cases hlt : colDot X y i < 0
    · rw [if_pos hlt, if_neg (by linarith)]
      rw [abs_of_neg hlt] at hle
      split
      · ring
      · linarith
    · rw [if_neg hlt]
      rw [abs_of_nonneg (not_lt.1 hlt)] at hle
      split
      · ring
      · rw [if_neg (by linarith)]
        linarith
  have hres : s.res ++ [⟨betaLARS c d s.lamb, s.lamb, E⟩] = softNodes X y P := by
    have hP : P.dropLast ++ [P.getLast h.ne] = P := List.dropLast_append_getLast h.ne
    rw [hnode, h.res]
    conv_rhs => rw [← hP, softNodes_snoc, hP]
  have hbody : larsBody X y tol lambMin est s = larsMove X y s E c d
      (maxJoinTime ((List.range X.nc).map (fun i => if i ∈ E then 0
        else if -tol ≤ colDot X y i then colDot X y i else -colDot X y i)) E) (maxTime (tCross tol s.lamb c d)) := by
    unfold larsBody
    rw [if_neg (not_not.2 hl), if_neg (fun h0 => h.ne (List.eq_nil_of_length_eq_zero (by rw [← h.perm.length_eq, h0]; rfl)))]
    simp only [hE, he]
    rw [if_neg (by rw [hsol.lenC, hsol.lenD]; simp)]
    simp only [hjt]
  obtain ⟨j0, j1, j2⟩ := maxJoinTime_spec ((List.range X.nc).map (fun i => if i ∈ E then (0 : K)
    else if -tol ≤ colDot X y i then colDot X y i else -colDot X y i)) E
  have j3 := maxJoinTime_first ((List.range X.nc).map (fun i => if i ∈ E then (0 : K)
    else if -tol ≤ colDot X y i then colDot X y i else -colDot X y i)) E
  have hget : ∀ i < X.nc, i ∉ E → ((List.range X.nc).map (fun i => if i ∈ E then (0 : K)
      else if -tol ≤ colDot X y i then colDot X y i else -colDot X y i))[i]? =
      some (if -tol ≤ colDot X y i then colDot X y i else -colDot X y i) := by
    intro i hi hiE
    rw [List.getElem?_map, List.getElem?_range hi, Option.map_some, if_neg hiE]
  have htime : ∀ i < X.nc, (if -tol ≤ colDot X y i then colDot X y i else -colDot X y i) = |colDot X y i| ∨
      |colDot X y i| ≤ lambMin ∧ (if -tol ≤ colDot X y i then colDot X y i else -colDot X y i) < 0 := by
    intro i hi
    split
    · rename_i h1
      by_cases h2 : colDot X y i < 0
      · exact .inr ⟨hsmall i hi h1 h2, h2⟩
      · exact .inl (abs_of_nonneg (not_lt.1 h2)).symm
    · rename_i h1
      exact .inl (abs_of_neg (by linarith)).symm
  generalize hjt' : maxJoinTime ((List.range X.nc).map (fun i => if i ∈ E then (0 : K)
    else if -tol ≤ colDot X y i then colDot X y i else -colDot X y i)) E = jt at hbody j0 j1 j2 j3
  have hrest : ∀ i < X.nc, i ∉ P → |colDot X y i| ≤ jt.1 ∨ |colDot X y i| ≤ lambMin := by
    intro i hi hiP
    have hiE : i ∉ E := fun h => hiP ((hEm i).1 h)
    rcases htime i hi with e | ⟨e, -⟩
    · left
      rw [← e]
      exact j2 i _ hiE (hget i hi hiE)
    · exact .inr e
  rw [hbody]
  unfold larsMove
  simp only [hres, hct]
  by_cases hj : jt.1 > 0
  · rw [if_pos hj]
    obtain ⟨hjE, hjg⟩ := j1 hj
    have hjn : jt.2 < X.nc := by
      have := (List.getElem?_eq_some_iff.1 hjg).1
      simpa using this
    have hjP : jt.2 ∉ P := fun h => hjE ((hEm _).2 h)
    rw [hget _ hjn hjE, Option.some.injEq] at hjg
    have hja : |colDot X y jt.2| = jt.1 := by
      rcases htime _ hjn with e | ⟨-, e⟩
      · rw [← e, hjg]
      · rw [hjg] at e
        exact absurd e (not_lt.2 j0)
    rw [if_neg (not_lt.2 (by rw [← hja]; exact hin _ hjn hjE))]
    refine ⟨_, rfl, rfl, ?_⟩
    simp only
    by_cases hlast : lambMin < jt.1
    · right
      refine ⟨hlast, jt.2, hjn, hjP, rfl, by simp, ?_, ?_, ?_, ?_, ?_, ?_, ?_, ?_⟩
      · rw [List.nodup_append]
        refine ⟨h.nodup, by simp, ?_⟩
        intro a ha b hb
        rw [List.mem_singleton.1 hb]
        exact fun e => hjP (e ▸ ha)
      · intro i hi
        rcases List.mem_append.1 hi with hi | hi
        · exact h.range i hi
        · rw [List.mem_singleton.1 hi]; exact hjn
      · exact hEp.append_right _
      · simp [hja]
      · rw [List.pairwise_append]
        refine ⟨h.sorted, by simp, ?_⟩
        intro a ha b hb
        rw [List.mem_singleton.1 hb]
        exact h.rest _ hjn hjP a ha
      · intro i hi hiP p hp
        have hiP' : i ∉ P := fun h => hiP (List.mem_append_left _ h)
        have hij : i ≠ jt.2 := fun e => hiP (List.mem_append_right _ (by simp [e]))
        rcases List.mem_append.1 hp with hp | hp
        · exact h.rest i hi hiP' p hp
        · rw [List.mem_singleton.1 hp]
          unfold EntersBefore
          rw [hja]
          have hiE : i ∉ E := fun h => hiP' ((hEm i).1 h)
          rcases htime i hi with e | ⟨e, -⟩
          · have hle := j2 i _ hiE (hget i hi hiE)
            rw [e] at hle
            rcases lt_or_eq_of_le hle with hlt | heq'
            · exact .inl hlt
            · right
              refine ⟨heq', ?_⟩
              by_contra hcon
              have := j3 i (not_le.1 hcon) hiE _ (hget i hi hiE)
              rw [e, heq'] at this
              exact lt_irrefl _ this
          · exact .inl (lt_of_le_of_lt e hlast)
      · intro i hi
        simp only
        rcases List.mem_append.1 hi with hi | hi
        · rw [if_neg (fun e : i = jt.2 => hjP (e ▸ hi))]
          exact h.sgn i hi
        · rw [List.mem_singleton.1 hi, if_pos rfl, joinFeatSign_eq hEn hEr, correlation_eq, gram_ortho ho _ hjn]
          have : spread E (betaLARS c d jt.1) jt.2 = 0 := if_neg hjE
          rw [this, mul_zero, sub_zero]
          show (if colDot X y jt.2 > 0 then (1 : K) else -1) = _
          have hne : colDot X y jt.2 ≠ 0 := by
            intro h0
            rw [h0, abs_zero] at hja
            rw [← hja] at hj
            exact lt_irrefl _ hj
          rcases lt_or_gt_of_ne hne with hlt | hgt
          · rw [if_pos hlt, if_neg (not_lt.2 (le_of_lt hlt))]
          · rw [if_pos hgt, if_neg (not_lt.2 (le_of_lt hgt))]
      · rw [List.dropLast_concat]
    · left
      refine ⟨not_lt.1 hlast, fun i hi hiP => ?_⟩
      rcases hrest i hi hiP with e | e
      · exact le_trans e (not_lt.1 hlast)
      · exact e
  · rw [if_neg hj, if_neg (not_lt.2 (le_of_lt hpos))]
    refine ⟨_, rfl, rfl, .inl ⟨hmin, fun i hi hiP => ?_⟩⟩
    rcases hrest i hi hiP with e | e
    · exact le_trans e (le_trans (not_lt.1 hj) hmin)
    · exact e

theorem ortho_runs {X : Mat K} {y : Nat → K} {tol lambMin : K}
    {est : Nat → List Nat → List K → Option (List K × List K)}
    (htol : 0 < tol) (hmin : 0 ≤ lambMin) (ho : OrthoColumns X) (hest : SolvesNonzero X y est)
    (hsmall : ∀ i < X.nc, -tol ≤ colDot X y i → colDot X y i < 0 → |colDot X y i| ≤ lambMin)
    (n : Nat) : ∀ (s : LarsState K) (P : List Nat), X.nc < P.length + n → OrthoInv X y s P → lambMin < s.lamb →
      Runs (larsBody X y tol lambMin est) s (softPath X y lambMin) := by
  induction n with
  | zero =>
    intro s P hn h hl
    have hsub : P ⊆ List.range X.nc := fun i hi => List.mem_range.2 (h.range i hi)
    have := (List.subperm_of_subset h.nodup hsub).length_le
    rw [List.length_range] at this
    omega
  | succ n ih =>
    intro s P hn h hl
    obtain ⟨s', hb, hr, ⟨hl', hrest⟩ | ⟨hl', j, hj, hjP, h'⟩⟩ := ortho_step htol hmin ho hest hsmall h hl
    · refine .next hb (.ret ?_)
      unfold larsBody
      rw [if_pos (not_lt.2 hl'), hr]
      unfold softPath
      rw [softOrder_eq h.nodup h.sorted]
      intro i
      constructor
      · intro hi
        exact ⟨h.range i hi, lt_of_lt_of_le hl (h.lamb_le hi)⟩
      · rintro ⟨hi, hlt⟩
        by_contra hiP
        exact absurd hlt (not_lt.2 (hrest i hi hiP))
    · refine .next hb (ih s' (P ++ [j]) ?_ h' hl')
      rw [List.length_append, List.length_singleton]
      omega

/-- **C104 (partial).** On orthogonal columns `LassoLars` returns exactly the soft-thresholding path: one node for
each feature whose correlation with the response exceeds `lambMin`, in the order of these correlations.  Columns may
be zero and correlations may be equal.  Missing: negative correlations between `-tol` and `-lambMin`, see
`C104_refuted`. -/
theorem C104_path_partial (X : Mat K) (y : Nat → K) (tol lambMin : K) (htol : 0 < tol) (hmin : 0 ≤ lambMin)
    (hr : 0 < X.nr) (hc : 0 < X.nc) (est : Nat → List Nat → List K → Option (List K × List K))
    (ho : OrthoColumns X) (hest : SolvesNonzero X y est)
    (hsmall : ∀ i < X.nc, -tol ≤ colDot X y i → colDot X y i < 0 → |colDot X y i| ≤ lambMin)
    (path : List (LassoLarsNode K)) :
    LarsReturns X y tol lambMin est path ↔ path = softPath X y lambMin := by
  have key : LarsReturns X y tol lambMin est (softPath X y lambMin) := by
    by_cases hall : ∀ i < X.nc, |colDot X y i| ≤ lambMin
    · have : softPath X y lambMin = [] := by
        unfold softPath
        rw [softOrder_eq (P := []) (by simp) (by simp)]
        · rfl
        · intro i
          simp only [List.not_mem_nil, false_iff, not_and, not_lt]
          exact hall i
      rw [this]
      exact C63_empty X y tol lambMin hr hc est hmin hall
    · simp only [not_forall, not_le] at hall
      obtain ⟨i0, hi0, hbig⟩ := hall
      have hinit : ∃ s, larsInit X y = some s ∧ lambMin < s.lamb ∧ ∃ j, OrthoInv X y s [j] := by
        unfold larsInit
        rw [if_neg (by omega)]
        refine ⟨_, rfl, ?_⟩
        obtain ⟨h1, h2, h3⟩ := maxTime_spec ((List.range X.nc).map (fun i => some |larsXy X y i|))
        have h4 := maxTime_first ((List.range X.nc).map (fun i => some |larsXy X y i|))
        generalize maxTime ((List.range X.nc).map (fun i => some |larsXy X y i|)) = m at *
        have hle : ∀ i < X.nc, |colDot X y i| ≤ m.1 := fun i hi =>
          h3 _ (List.mem_map.2 ⟨i, List.mem_range.2 hi, rfl⟩)
        have hlt := lt_of_lt_of_le hbig (hle i0 hi0)
        rcases h2 with ⟨h2, -⟩ | ⟨hpos, h2⟩
        · rw [h2] at hlt
          exact absurd hlt (not_lt.2 hmin)
        · have hm2 : m.2 < X.nc := by
            have := (List.getElem?_eq_some_iff.1 h2).1
            simpa using this
          rw [List.getElem?_map, List.getElem?_range hm2, Option.map_some, Option.some.injEq, Option.some.injEq] at h2
          have hab : |colDot X y m.2| = m.1 := h2
          refine ⟨hlt, m.2, rfl, by simp, by simp, ?_, List.Perm.refl _, ?_, by simp, ?_, ?_, rfl⟩
          · intro i hi
            rw [List.mem_singleton.1 hi]; exact hm2
          · simp [hab]
          · intro i hi hiP p hp
            rw [List.mem_singleton.1 hp]
            unfold EntersBefore
            rw [hab]
            rcases lt_or_eq_of_le (hle i hi) with h | h
            · exact .inl h
            · refine .inr ⟨h, ?_⟩
              by_contra hcon
              have := h4 i (not_le.1 hcon) |larsXy X y i| (by
                rw [List.getElem?_map, List.getElem?_range hi, Option.map_some])
              exact absurd h (ne_of_lt this)
          · intro i hi
            rw [List.mem_singleton.1 hi]
            simp only [if_true]
            rfl
      obtain ⟨s, hs, hl, j, hinv⟩ := hinit
      exact ⟨s, hs, ortho_runs htol hmin ho hest hsmall X.nc s [j] (by simp) hinv hl⟩
  constructor
  · rintro ⟨s, hs, h⟩
    obtain ⟨s', hs', h'⟩ := key
    rw [hs] at hs'
    cases hs'
    exact h.unique h'
  · rintro rfl
    exact key

/-- The members of `softPath`. -/
theorem mem_softPath {X : Mat K} {y : Nat → K} {lambMin : K} {n : LassoLarsNode K} (h : n ∈ softPath X y lambMin) :
    ∃ P : List Nat, n = softNode X y P ∧ P ≠ [] ∧ P.Nodup ∧ P.Pairwise (EntersBefore X y) ∧
      (∀ i ∈ P, i < X.nc ∧ lambMin < |colDot X y i|) ∧
      ∀ i < X.nc, i ∉ P → |colDot X y i| ≤ |colDot X y (P.getLastD 0)| := by
  unfold softPath softNodes at h
  obtain ⟨k, hk, rfl⟩ := List.mem_map.1 h
  rw [List.mem_range] at hk
  have hperm : (softOrder X y lambMin).Perm ((List.range X.nc).filter (fun i => lambMin < |colDot X y i|)) :=
    List.perm_insertionSort _ _
  have hpw : (softOrder X y lambMin).Pairwise (EntersBefore X y) := List.pairwise_insertionSort _ _
  have hnd : (softOrder X y lambMin).Nodup := hperm.nodup_iff.2 (List.nodup_range.filter _)
  have hmem : ∀ i, i ∈ softOrder X y lambMin ↔ i < X.nc ∧ lambMin < |colDot X y i| := by
    intro i
    rw [hperm.mem_iff]
    simp
  generalize softOrder X y lambMin = Q at *
  have hne : Q.take (k + 1) ≠ [] := by
    intro h0
    have := congrArg List.length h0
    rw [List.length_take, List.length_nil] at this
    omega
  have hsub := List.take_sublist (k + 1) Q
  refine ⟨Q.take (k + 1), rfl, hne, hnd.sublist hsub, hpw.sublist hsub, fun i hi => (hmem i).1 (hsub.subset hi), ?_⟩
  intro i hi hiP
  have hlast := getLastD_mem hne
  by_cases hiQ : i ∈ Q
  · have hd : i ∈ Q.drop (k + 1) := by
      rw [← List.take_append_drop (k + 1) Q] at hiQ
      exact (List.mem_append.1 hiQ).resolve_left hiP
    rw [← List.take_append_drop (k + 1) Q, List.pairwise_append] at hpw
    exact entersBefore_le (hpw.2.2 _ hlast i hd)
  · have h1 := ((hmem _).1 (hsub.subset hlast)).2
    have h2 : |colDot X y i| ≤ lambMin := by
      by_contra hcon
      exact hiQ ((hmem i).2 ⟨hi, not_le.1 hcon⟩)
    exact le_trans h2 (le_of_lt h1)

/-- The thresholded coefficients solve the lasso problem with orthogonal columns. -/
theorem shrink_min {X : Mat K} {y : Nat → K} (ho : OrthoColumns X) {m : K} (hm : 0 ≤ m) {b : Nat → K}
    (hb : ∀ i < X.nc, b i = shrink (colDot X y i) m / colSq X i) : IsLassoMin X y m b := by
  apply lasso_min_of_kkt
  intro i hi
  rw [correlation_eq, gram_ortho ho _ hi, hb i hi]
  show |colDot X y i - _| ≤ m ∧ (colDot X y i - _) * _ = _
  by_cases h0 : colDot X y i = 0
  · have : shrink (0 : K) m = 0 := by
      unfold shrink
      rw [if_neg (by linarith), if_neg (by linarith)]
    rw [h0, this]
    simp [hm]
  · have hq := colSq_pos h0
    rw [mul_div_cancel₀ _ (ne_of_gt hq), abs_div, abs_of_pos hq, ← mul_div_assoc, ← mul_div_assoc]
    unfold shrink
    split
    · rename_i h
      refine ⟨by rw [sub_sub_cancel, abs_of_nonneg hm], ?_⟩
      rw [sub_sub_cancel, abs_of_pos (by linarith)]
    · split
      · rename_i h
        refine ⟨by rw [sub_add_cancel_left, abs_neg, abs_of_nonneg hm], ?_⟩
        rw [sub_add_cancel_left, abs_of_neg (by linarith)]
        ring
      · rename_i h1 h2
        refine ⟨?_, by simp⟩
        rw [sub_zero, abs_le]
        constructor <;> linarith

/-- **C104 (partial).** Every node of the path has, for every feature, the thresholded least-squares coefficient, and
minimises the lasso objective; the last node selects exactly the features whose correlation exceeds `lambMin`. -/
theorem C104_nodes_partial (X : Mat K) (y : Nat → K) (tol lambMin : K) (htol : 0 < tol) (hmin : 0 ≤ lambMin)
    (hr : 0 < X.nr) (hc : 0 < X.nc) (est : Nat → List Nat → List K → Option (List K × List K))
    (ho : OrthoColumns X) (hest : SolvesNonzero X y est)
    (hsmall : ∀ i < X.nc, -tol ≤ colDot X y i → colDot X y i < 0 → |colDot X y i| ≤ lambMin)
    (path : List (LassoLarsNode K)) (h : LarsReturns X y tol lambMin est path) :
    (∀ n ∈ path, (∀ i < X.nc, spread n.selection n.coeff i = shrink (colDot X y i) n.lamb / colSq X i) ∧
      IsLassoMin X y n.lamb (spread n.selection n.coeff)) ∧
    ∀ n, path.getLast? = some n → ∀ i, i ∈ n.selection ↔ i < X.nc ∧ lambMin < |colDot X y i| := by
  have hp := (C104_path_partial X y tol lambMin htol hmin hr hc est ho hest hsmall path).1 h
  subst hp
  constructor
  · intro n hn
    obtain ⟨P, rfl, hne, hnd, -, hP, hrest⟩ := mem_softPath hn
    have hEp : (P.insertionSort (· ≤ ·)).Perm P := List.perm_insertionSort _ _
    have hco : ∀ i < X.nc, spread (softNode X y P).selection (softNode X y P).coeff i =
        shrink (colDot X y i) (softNode X y P).lamb / colSq X i := by
      intro i hi
      unfold softNode
      simp only
      by_cases hiP : i ∈ P
      · rw [spread_signs _ (hEp.mem_iff.2 hiP)]
      · have h1 := abs_le.1 (hrest i hi hiP)
        have : shrink (colDot X y i) |colDot X y (P.getLastD 0)| = 0 := by
          unfold shrink
          rw [if_neg (not_lt.2 h1.2), if_neg (not_lt.2 h1.1)]
        rw [this, zero_div]
        exact if_neg (fun hE => hiP (hEp.mem_iff.1 hE))
    exact ⟨hco, shrink_min ho (abs_nonneg _) hco⟩
  · intro n hn i
    have hperm : (softOrder X y lambMin).Perm ((List.range X.nc).filter (fun i => lambMin < |colDot X y i|)) :=
      List.perm_insertionSort _ _
    have hlen : n.selection = (softOrder X y lambMin).insertionSort (· ≤ ·) := by
      unfold softPath softNodes at hn
      rw [List.getLast?_map, List.getLast?_range] at hn
      split at hn
      · cases hn
      · rename_i h0
        simp only [Option.map_some, Option.some.injEq] at hn
        rw [← hn, List.take_of_length_le (by omega)]
        rfl
    rw [hlen, (List.perm_insertionSort _ _).mem_iff, hperm.mem_iff]
    simp

/-- Orthogonal non-zero columns: not more than rows, and the squared singular values are bounded by the squared
lengths. -/
theorem ortho_svd {X : Mat K} {E : List Nat} (ho : OrthoColumns X) (hn : E.Nodup) (hr : ∀ i ∈ E, i < X.nc) {t : K}
    (ht : 0 ≤ t) (hsq : ∀ i ∈ E, t < colSq X i) {d : SVD K} (hd : d.Of (activeCols X E)) :
    E.length ≤ X.nr ∧ ∀ k < d.p, t < d.s k * d.s k := by
  have hquad : ∀ w : Nat → K, ∑ r ∈ range X.nr, (∑ l ∈ range E.length, X.get r (E.getD l 0) * w l) ^ 2 =
      ∑ l ∈ range E.length, colSq X (E.getD l 0) * w l ^ 2 := by
    intro w
    have horth : ∀ l ∈ range E.length, ∀ m ∈ range E.length, m ≠ l →
        ∑ r ∈ range X.nr, X.get r (E.getD l 0) * X.get r (E.getD m 0) = 0 := by
      intro l hl m hm hml
      rw [mem_range] at hl hm
      rw [List.getD_eq_getElem _ _ hl, List.getD_eq_getElem _ _ hm]
      exact ho _ (hr _ (List.getElem_mem hl)) _ (hr _ (List.getElem_mem hm))
        (fun e => hml ((List.Nodup.getElem_inj_iff hn).1 e).symm)
    simp only [sq, Finset.sum_mul_sum]
    rw [Finset.sum_comm]
    refine Finset.sum_congr rfl fun l hl => ?_
    rw [Finset.sum_comm, Finset.sum_eq_single l]
    · unfold colSq
      rw [Finset.sum_mul]
      exact Finset.sum_congr rfl (fun r _ => by ring)
    · intro m hm hml
      calc ∑ r ∈ range X.nr, X.get r (E.getD l 0) * w l * (X.get r (E.getD m 0) * w m) =
          (∑ r ∈ range X.nr, X.get r (E.getD l 0) * X.get r (E.getD m 0)) * (w l * w m) := by
            rw [Finset.sum_mul]; exact Finset.sum_congr rfl (fun r _ => by ring)
        _ = 0 := by rw [horth l hl m hm hml, zero_mul]
    · intro h; exact absurd hl h
  have hget : ∀ l < E.length, t < colSq X (E.getD l 0) := by
    intro l hl
    rw [List.getD_eq_getElem _ _ hl]
    exact hsq _ (List.getElem_mem hl)
  have hstrict : ∀ w : Nat → K, (∃ l < E.length, w l ≠ 0) →
      t * ∑ l ∈ range E.length, w l ^ 2 < ∑ l ∈ range E.length, colSq X (E.getD l 0) * w l ^ 2 := by
    rintro w ⟨l, hl, hw⟩
    rw [Finset.mul_sum]
    apply Finset.sum_lt_sum
    · intro m hm
      exact mul_le_mul_of_nonneg_right (le_of_lt (hget m (mem_range.1 hm))) (sq_nonneg _)
    · exact ⟨l, mem_range.2 hl, mul_lt_mul_of_pos_right (hget l hl) (by positivity)⟩
  constructor
  · by_contra hcon
    let f : (Fin E.length → K) →ₗ[K] (Fin X.nr → K) :=
      Matrix.mulVecLin (Matrix.of (fun (r : Fin X.nr) (l : Fin E.length) => X.get r (E.getD l 0)))
    have hker : LinearMap.ker f ≠ ⊥ := LinearMap.ker_ne_bot_of_finrank_lt (by
      rw [Module.finrank_fin_fun, Module.finrank_fin_fun]; omega)
    obtain ⟨w, hw, hw0⟩ := (Submodule.ne_bot_iff _).1 hker
    obtain ⟨l, hl⟩ := Function.ne_iff.1 hw0
    have hlt := hstrict (fun l => if h : l < E.length then w ⟨l, h⟩ else 0) ⟨l, l.2, by
      simp only [l.2, dif_pos]; exact hl⟩
    rw [← hquad] at hlt
    have hzero : ∑ r ∈ range X.nr, (∑ l ∈ range E.length, X.get r (E.getD l 0) *
        (if h : l < E.length then w ⟨l, h⟩ else 0)) ^ 2 = 0 := by
      apply Finset.sum_eq_zero
      intro r hr'
      rw [pow_eq_zero_iff (by decide)]
      have := congrFun (LinearMap.mem_ker.1 hw) ⟨r, mem_range.1 hr'⟩
      rw [← Fin.sum_univ_eq_sum_range (fun l => X.get r (E.getD l 0) * (if h : l < E.length then w ⟨l, h⟩ else 0))]
      simp only [Fin.is_lt, dif_pos]
      simpa [f, Matrix.mulVec, dotProduct] using this
    rw [hzero] at hlt
    exact absurd hlt (not_lt.2 (mul_nonneg ht (Finset.sum_nonneg (fun _ _ => sq_nonneg _))))
  · intro k hk
    have hone : ∑ l ∈ range E.length, d.v l k ^ 2 = 1 := by
      have := hd.vOrth k k hk hk
      rw [if_pos rfl] at this
      rw [← this]
      exact Finset.sum_congr rfl (fun l _ => sq _)
    have hne : ∃ l < E.length, d.v l k ≠ 0 := by
      by_contra hcon
      simp only [not_exists, not_and, not_not] at hcon
      rw [Finset.sum_eq_zero (fun l hl => by rw [hcon l (mem_range.1 hl)]; ring)] at hone
      exact zero_ne_one hone
    have hlt := hstrict (fun l => d.v l k) hne
    rw [hone, mul_one, ← hquad] at hlt
    have hrow : ∀ r ∈ range X.nr, ∑ l ∈ range E.length, X.get r (E.getD l 0) * d.v l k = d.u r k * d.s k := by
      intro r hr'
      have hprod : ∀ l ∈ range E.length, X.get r (E.getD l 0) * d.v l k =
          ∑ m ∈ range d.p, d.u r m * d.s m * d.v l m * d.v l k := by
        intro l hl
        have := hd.prod r l (mem_range.1 hr') (mem_range.1 hl)
        rw [← Finset.sum_mul, ← this]
        rfl
      rw [Finset.sum_congr rfl hprod, Finset.sum_comm, Finset.sum_eq_single k]
      · have := hd.vOrth k k hk hk
        rw [if_pos rfl] at this
        calc ∑ l ∈ range E.length, d.u r k * d.s k * d.v l k * d.v l k =
            d.u r k * d.s k * ∑ l ∈ range E.length, d.v l k * d.v l k := by
              rw [Finset.mul_sum]; exact Finset.sum_congr rfl (fun l _ => by ring)
          _ = d.u r k * d.s k := by
              rw [show ∑ l ∈ range E.length, d.v l k * d.v l k = 1 from this, mul_one]
      · intro m hm hmk
        have := hd.vOrth m k (mem_range.1 hm) hk
        rw [if_neg hmk] at this
        calc ∑ l ∈ range E.length, d.u r m * d.s m * d.v l m * d.v l k =
            d.u r m * d.s m * ∑ l ∈ range E.length, d.v l m * d.v l k := by
              rw [Finset.mul_sum]; exact Finset.sum_congr rfl (fun l _ => by ring)
          _ = 0 := by
              rw [show ∑ l ∈ range E.length, d.v l m * d.v l k = 0 from this, mul_zero]
      · intro h; exact absurd (mem_range.2 hk) h
    rw [Finset.sum_congr rfl (fun r hr' => by rw [hrow r hr'])] at hlt
    have hu := hd.uOrth k k hk hk
    rw [if_pos rfl] at hu
    have : ∑ r ∈ range X.nr, (d.u r k * d.s k) ^ 2 = d.s k * d.s k := by
      calc ∑ r ∈ range X.nr, (d.u r k * d.s k) ^ 2 = d.s k * d.s k * ∑ r ∈ range X.nr, d.u r k * d.u r k := by
            rw [Finset.mul_sum]; exact Finset.sum_congr rfl (fun l _ => by ring)
        _ = d.s k * d.s k := by
            rw [show ∑ r ∈ range X.nr, d.u r k * d.u r k = 1 from hu, mul_one]
    rwa [this] at hlt

/-- **C104.** `MorsePenroseCD` is an estimator as required when no column is shorter than `1e-3`, except zero columns:
all that is needed of the singular value decomposition is its contract. -/
theorem C104_estimator (svd : Mat K → SVD K) (X : Mat K) (y : List K) (hy : y.length = X.nr) (ho : OrthoColumns X)
    (hsq : ∀ i < X.nc, colSq X i = 0 ∨ 1 / 10 ^ 6 < colSq X i)
    (hsvd : ∀ E : List Nat, E.Nodup → (∀ i ∈ E, i < X.nc ∧ colSq X i ≠ 0) → (svd (activeCols X E)).Of (activeCols X E)) :
    SolvesNonzero X (vec y) (morseEst svd X y) := by
  intro k E signs hn hE hs
  have hd := hsvd E hn hE
  obtain ⟨h1, h2⟩ := ortho_svd ho hn (fun i hi => (hE i hi).1) (t := 1 / 10 ^ 6) (by positivity)
    (fun i hi => (hsq i (hE i hi).1).resolve_left (hE i hi).2) hd
  have hsome : (morseEst svd X y k E signs).isSome := by
    have e1 : ¬ y.length ≠ (activeCols X E).nr := fun h => h hy
    have e2 : ¬ signs.length ≠ (activeCols X E).nc := fun h => h hs
    simp only [morseEst, morsePenroseC, morsePenroseD, if_neg e1, if_neg e2, Option.bind_some, Option.map_some,
      Option.isSome_some]
  obtain ⟨⟨c, d⟩, he⟩ := Option.isSome_iff_exists.1 hsome
  exact ⟨c, d, he, C64_estimator svd X y k E signs c d hd h1 h2 he⟩

end

/-! ### Examples and the refutation -/

namespace OrthoExample

section
variable {K : Type} [Field K] [LinearOrder K]

/-- The solution of the normal equations for orthogonal columns. -/
def orthoEst (X : Mat K) (y : Nat → K) (_ : Nat) (E : List Nat) (signs : List K) : Option (List K × List K) :=
  some ((List.range E.length).map (fun k => colDot X y (E.getD k 0) / colSq X (E.getD k 0)),
    (List.range E.length).map (fun k => signs.getD k 0 / colSq X (E.getD k 0)))

theorem orthoEst_solves [IsStrictOrderedRing K] {X : Mat K} (y : Nat → K) (ho : OrthoColumns X) :
    SolvesNonzero X y (orthoEst X y) := by
  intro k E signs hn hE hs
  refine ⟨_, _, rfl, by simp, by simp, ?_, ?_⟩
  all_goals
    intro l hl
    have hget : ∀ m < E.length, E.getD m 0 ∈ E := fun m hm => by
      rw [List.getD_eq_getElem _ _ hm]; exact List.getElem_mem hm
    rw [Finset.sum_eq_single l]
    · rw [getD_map_range, if_pos hl, ← mul_div_assoc, div_eq_iff (hE _ (hget l hl)).2, mul_comm]
      unfold colSq
      first
        | (unfold colDot; congr 1; exact Finset.sum_congr rfl (fun r _ => (sq _).symm))
        | (congr 1; exact Finset.sum_congr rfl (fun r _ => (sq _).symm))
    · intro m hm hml
      rw [mem_range] at hm
      have : ∑ r ∈ range X.nr, X.get r (E.getD l 0) * X.get r (E.getD m 0) = 0 := by
        apply ho _ (hE _ (hget l hl)).1 _ (hE _ (hget m hm)).1
        rw [List.getD_eq_getElem _ _ hl, List.getD_eq_getElem _ _ hm]
        exact fun e => hml ((List.Nodup.getElem_inj_iff hn).1 e).symm
      rw [this, zero_mul]
    · intro h; exact absurd (mem_range.2 hl) h

end

/-- Five features: two with equal correlation, one with the opposite sign, one zero column, one below `lambMin`. -/
def X : Mat ℚ := ⟨5, 5, fun r c => if r = c ∧ c ≠ 2 then (c + 1 : ℚ) else 0⟩

def y (r : Nat) : ℚ := [6, 3, 7, -3, 1 / 100].getD r 0

theorem ortho : OrthoColumns X := by unfold OrthoColumns; decide +kernel

theorem small : ∀ i < X.nc, -lassoTol ≤ colDot X y i → colDot X y i < 0 → |colDot X y i| ≤ 1 / 10 := by decide +kernel

/-- The hypotheses of `C104_path_partial` and `C104_nodes_partial`. -/
example : LarsReturns X y lassoTol (1 / 10) (orthoEst X y)
    [⟨[0], 12, [3]⟩, ⟨[0, -3 / 8], 6, [0, 3]⟩, ⟨[0, 0, -3 / 8], 6, [0, 1, 3]⟩] := by
  rw [C104_path_partial X y lassoTol (1 / 10) (by norm_num [lassoTol]) (by norm_num) (by decide) (by decide)
    (orthoEst X y) ortho (orthoEst_solves y ortho) small]
  decide +kernel

/-- The hypotheses of `C104_estimator`. -/
example : SolvesNonzero (unitX 3 2 : Mat ℚ) (vec [2, 5, 1]) (morseEst orthSvd (unitX 3 2) [2, 5, 1]) := by
  refine C104_estimator orthSvd (unitX 3 2) [2, 5, 1] rfl ?_ ?_ ?_
  · unfold OrthoColumns; decide +kernel
  · decide +kernel
  · intro E hn hE
    have hle : E.length ≤ 2 := by
      have hsub : E ⊆ List.range 2 := fun i hi => List.mem_range.2 (hE i hi).1
      simpa using (List.subperm_of_subset hn hsub).length_le
    refine (orthSvd_untruncated (by show E.length ≤ 3; omega) (fun k l hk hl => ?_)).1
    have hk' : k < E.length := hk
    have hl' : l < E.length := hl
    have key : ∀ a < 2, ∀ b < 2, ∑ i ∈ range 3, (unitX 3 2 : Mat ℚ).get i a * (unitX 3 2 : Mat ℚ).get i b =
        if a = b then 1 else 0 := by decide +kernel
    have := key (E.getD k 0) (by rw [List.getD_eq_getElem _ _ hk']; exact (hE _ (List.getElem_mem hk')).1) (E.getD l 0)
      (by rw [List.getD_eq_getElem _ _ hl']; exact (hE _ (List.getElem_mem hl')).1)
    have hiff : (E.getD k 0 = E.getD l 0) ↔ k = l := by
      rw [List.getD_eq_getElem _ _ hk', List.getD_eq_getElem _ _ hl']
      exact List.Nodup.getElem_inj_iff hn
    simp only [hiff] at this
    exact this

/-- Two orthogonal columns with mean 0 and variance 1. -/
def normX : Mat ℚ := ⟨5, 2, fun r c =>
  if c = 0 then [1, -1, 1, -1, 0].getD r 0 else [1, 1, -1, -1, 0].getD r 0⟩

/-- A response with mean 0 and variance 1 whose correlation with the second column is about `-8e-8`. -/
def normY (r : Nat) : ℚ :=
  ((10 ^ 16 - 1) * normX.get r 0 - 2 * 10 ^ 8 * normX.get r 1) / (10 ^ 16 + 1)

end OrthoExample

/-- **C104 is false in general.** The data are normalised and orthogonal and `lambMin` is the default of the command.
The second column has a correlation 790 times larger than `lambMin`, but of negative sign and below `lassoTol`:
`LassoLars` stops after the first feature. -/
theorem C104_refuted : ∃ (X : Mat ℚ) (y : Nat → ℚ) (est : Nat → List Nat → List ℚ → Option (List ℚ × List ℚ))
    (path : List (LassoLarsNode ℚ)), Spec.IsNormalized X y ∧ OrthoColumns X ∧ SolvesNonzero X y est ∧
    LarsReturns X y lassoTol (1 / 10 ^ 10) est path ∧ path ≠ softPath X y (1 / 10 ^ 10) ∧
    path.map (·.selection) = [[0]] ∧ (softPath X y (1 / 10 ^ 10)).map (·.selection) = [[0], [0, 1]] ∧
    790 * (1 / 10 ^ 10) < |colDot X y 1| := by
  have ho : OrthoColumns OrthoExample.normX := by unfold OrthoColumns; decide +kernel
  refine ⟨OrthoExample.normX, OrthoExample.normY, OrthoExample.orthoEst OrthoExample.normX OrthoExample.normY,
    [⟨[0], |colDot OrthoExample.normX OrthoExample.normY 0|, [0]⟩], ?_, ho, OrthoExample.orthoEst_solves _ ho, ?_,
    ?_, rfl, ?_, ?_⟩
  · unfold Spec.IsNormalized
    decide +kernel
  · refine ⟨_, rfl, runs_of_runFuel (n := 4) ?_⟩
    decide +kernel
  · intro h
    have := congrArg List.length h
    revert this
    decide +kernel
  · decide +kernel
  · decide +kernel

end GoSelect
