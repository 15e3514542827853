import Verif.Props.C63
import Verif.Props.C65_C66
import Verif.Proofs.Lars
import Mathlib.LinearAlgebra.FiniteDimensional.Basic

/-! C64: nodes of a LARS path satisfy the equicorrelation condition. -/

namespace GoSelect

open Finset Spec

namespace Spec

variable {K : Type} [Field K] [LinearOrder K]

/-- `c` and `d` solve the normal equations of the columns `E`: `XₑᵀXₑ c = Xₑᵀ y`, `XₑᵀXₑ d = signs`. -/
structure SolvesNormal (X : Mat K) (y : Nat → K) (E : List Nat) (signs c d : List K) : Prop where
  lenC : c.length = E.length
  lenD : d.length = E.length
  eqC : ∀ k < E.length, ∑ l ∈ range E.length, (∑ r ∈ range X.nr, X.get r (E.getD k 0) * X.get r (E.getD l 0)) * c.getD l 0 =
    ∑ r ∈ range X.nr, X.get r (E.getD k 0) * y r
  eqD : ∀ k < E.length, ∑ l ∈ range E.length, (∑ r ∈ range X.nr, X.get r (E.getD k 0) * X.get r (E.getD l 0)) * d.getD l 0 =
    signs.getD k 0

end Spec

section
variable {K : Type} [Field K] [LinearOrder K]

/-- Sums over the active set. -/
theorem sum_active {E : List Nat} {n : Nat} (hn : E.Nodup) (hr : ∀ i ∈ E, i < n) (f : Nat → K) (v : List K) :
    ∑ j ∈ range n, f j * spread E v j = ∑ l ∈ range E.length, f (E.getD l 0) * v.getD l 0 := by
  have hget : ∀ l < E.length, E.getD l 0 ∈ E ∧ E.idxOf (E.getD l 0) = l := by
    intro l hl
    rw [List.getD_eq_getElem?_getD, List.getElem?_eq_getElem hl]
    simp only [Option.getD_some]
    exact ⟨List.getElem_mem hl, hn.idxOf_getElem l hl⟩
  symm
  apply Finset.sum_of_injOn (fun l => E.getD l 0)
  · intro a ha b hb hab
    have ha' := hget a (mem_range.1 (by simpa using ha))
    have hb' := hget b (mem_range.1 (by simpa using hb))
    simp only at hab
    rw [← ha'.2, ← hb'.2, hab]
  · intro a ha
    have := hget a (mem_range.1 (by simpa using ha))
    simpa using hr _ this.1
  · intro j hj hj'
    have : j ∉ E := by
      intro h
      apply hj'
      refine ⟨E.idxOf j, by simpa using List.idxOf_lt_length_of_mem h, ?_⟩
      simp only
      rw [List.getD_eq_getElem?_getD, List.getElem?_eq_getElem (List.idxOf_lt_length_of_mem h)]
      simp
    unfold spread
    rw [if_neg this, mul_zero]
  · intro l hl
    obtain ⟨h1, h2⟩ := hget l (mem_range.1 hl)
    unfold spread
    rw [if_pos h1, h2]

theorem larsFit_eq {X : Mat K} {E : List Nat} (hn : E.Nodup) (hr : ∀ i ∈ E, i < X.nc) (v : List K) (r : Nat) :
    larsFit X E v r = ∑ j ∈ range X.nc, X.get r j * spread E v j :=
  (sum_active hn hr (fun j => X.get r j) v).symm

theorem larsXX_eq {X : Mat K} {E : List Nat} (hn : E.Nodup) (hr : ∀ i ∈ E, i < X.nc) (v : List K) (i : Nat) :
    larsXX X E v i = gram X (spread E v) i := by
  unfold larsXX gram
  exact Finset.sum_congr rfl (fun r _ => by rw [larsFit_eq hn hr])

theorem gram_active {X : Mat K} {E : List Nat} (hn : E.Nodup) (hr : ∀ i ∈ E, i < X.nc) (v : List K) (i : Nat) :
    gram X (spread E v) i =
      ∑ l ∈ range E.length, (∑ r ∈ range X.nr, X.get r i * X.get r (E.getD l 0)) * v.getD l 0 := by
  rw [← larsXX_eq hn hr]
  unfold larsXX larsFit
  simp only [Finset.mul_sum, Finset.sum_mul]
  rw [Finset.sum_comm]
  exact Finset.sum_congr rfl (fun l _ => Finset.sum_congr rfl (fun r _ => by ring))

theorem spread_beta {E : List Nat} {c d : List K} (hc : c.length = E.length) (m : K) (i : Nat) :
    spread E (betaLARS c d m) i = spread E c i - m * spread E d i := by
  unfold spread
  by_cases h : i ∈ E
  · rw [if_pos h, if_pos h, if_pos h]
    unfold betaLARS
    rw [getD_map_range, if_pos (by rw [hc]; exact List.idxOf_lt_length_of_mem h)]
  · rw [if_neg h, if_neg h, if_neg h]; ring

theorem spread_signs {E : List Nat} (sgn : Nat → K) {i : Nat} (h : i ∈ E) : spread E (E.map sgn) i = sgn i := by
  unfold spread
  rw [if_pos h, List.getD_eq_getElem?_getD, List.getElem?_map,
    List.getElem?_eq_getElem (List.idxOf_lt_length_of_mem h)]
  simp

/-- From the lists of the program to functions of the feature. -/
theorem larsEq_of_solves {X : Mat K} {y : Nat → K} {E : List Nat} {signs c d : List K} (hn : E.Nodup)
    (hr : ∀ i ∈ E, i < X.nc) (h : SolvesNormal X y E signs c d) :
    LarsEq X y E (spread E signs) (spread E c) (spread E d) := by
  have hget : ∀ i ∈ E, E.getD (E.idxOf i) 0 = i := by
    intro i hi
    rw [List.getD_eq_getElem?_getD, List.getElem?_eq_getElem (List.idxOf_lt_length_of_mem hi)]
    simp
  refine ⟨fun i hi => if_neg hi, fun i hi => if_neg hi, fun i hi => ?_, fun i hi => ?_⟩
  · have := h.eqC _ (List.idxOf_lt_length_of_mem hi)
    rw [hget i hi] at this
    rw [gram_active hn hr, this]
    rfl
  · have := h.eqD _ (List.idxOf_lt_length_of_mem hi)
    rw [hget i hi] at this
    rw [gram_active hn hr, this]
    unfold spread
    rw [if_pos hi]

variable [IsStrictOrderedRing K]

/-- How the nodes of a path were computed. -/
theorem lars_nodes {X : Mat K} {y : Nat → K} {tol lambMin : K}
    {est : Nat → List Nat → List K → Option (List K × List K)} {path : List (LassoLarsNode K)}
    (h : LarsReturns X y tol lambMin est path) :
    ∀ n ∈ path, ∃ k c d, ∃ sgn : Nat → K, (∀ i ∈ n.selection, sgn i = 1 ∨ sgn i = -1) ∧
      est k n.selection (n.selection.map sgn) = some (c, d) ∧ c.length = n.selection.length ∧
      d.length = n.selection.length ∧ n.coeff = betaLARS c d n.lamb := by
  obtain ⟨s, hs, hr⟩ := h
  have hinv : LarsInv X.nc lambMin s := larsInit_inv hs
  have hsgn : ∀ i ∈ s.activeSet, s.allSigns i = 1 ∨ s.allSigns i = -1 := by
    unfold larsInit at hs
    split at hs
    · cases hs
    · simp only [Option.some.injEq] at hs
      subst hs
      intro i hi
      rw [List.mem_singleton.1 hi]
      simp only [if_true]
      split
      · right; rfl
      · left; rfl
  have hres : ∀ n ∈ s.res, ∃ k c d, ∃ sgn : Nat → K, (∀ i ∈ n.selection, sgn i = 1 ∨ sgn i = -1) ∧
      est k n.selection (n.selection.map sgn) = some (c, d) ∧ c.length = n.selection.length ∧
      d.length = n.selection.length ∧ n.coeff = betaLARS c d n.lamb := by
    unfold larsInit at hs
    split at hs
    · cases hs
    · simp only [Option.some.injEq] at hs
      subst hs
      simp
  clear hs
  induction hr with
  | @ret s r hb =>
    rcases larsBody_cases (X := X) (y := y) (tol := tol) (lambMin := lambMin) (est := est) (s := s) with h' | ⟨-, h'⟩ |
      ⟨hl, hne, c, d, jts, he, hc, hd, hj, h'⟩
    · rw [h'] at hb; cases hb
    · rw [h'] at hb
      simp only [Outcome.ret.injEq] at hb
      subst hb
      exact hres
    · rw [h'] at hb
      have hperm := List.perm_insertionSort (· ≤ ·) s.activeSet
      have : r = s.res ++ [⟨betaLARS c d s.lamb, s.lamb, s.activeSet.insertionSort (· ≤ ·)⟩] := by
        unfold larsMove at hb
        simp only at hb
        split at hb <;> split at hb <;> simp only [Outcome.ret.injEq, reduceCtorEq] at hb <;> exact hb.symm
      subst this
      intro n hn
      rcases List.mem_append.1 hn with hn | hn
      · exact hres n hn
      · rw [List.mem_singleton.1 hn]
        exact ⟨_, c, d, s.allSigns, fun i hi => hsgn i (hperm.mem_iff.1 hi), he, by rw [hc, hperm.length_eq],
          by rw [hd, hperm.length_eq], rfl⟩
  | @next s s' r hb _ ih =>
    refine ih ((larsBody_inv hinv).2 _ hb) ?_ ?_
    · rcases larsBody_cases (X := X) (y := y) (tol := tol) (lambMin := lambMin) (est := est) (s := s) with h' | ⟨-, h'⟩ |
        ⟨hl, hne, c, d, jts, he, hc, hd, hj, h'⟩
      · rw [h'] at hb; cases hb
      · rw [h'] at hb; cases hb
      · rw [h'] at hb
        have hperm := List.perm_insertionSort (· ≤ ·) s.activeSet
        have hcne : c ≠ [] := fun h0 => hne (List.eq_nil_of_length_eq_zero (by rw [← hc, h0]; rfl))
        have hci : (maxTime (tCross tol s.lamb c d)).2 < (s.activeSet.insertionSort (· ≤ ·)).length := by
          rw [hperm.length_eq, ← hc]; exact cross_index hcne
        unfold larsMove at hb
        simp only at hb
        split at hb <;> split at hb <;> simp only [Outcome.next.injEq, reduceCtorEq] at hb <;> subst hb
        · intro i hi
          simp only
          split
          · unfold joinFeatSign; split <;> simp
          · rename_i hij
            rcases List.mem_append.1 hi with hi | hi
            · exact hsgn i (hperm.mem_iff.1 hi)
            · exact absurd (List.mem_singleton.1 hi) hij
        · intro i hi
          simp only
          have hp := dropped_sub hci
          exact hsgn i (hperm.mem_iff.1 ((List.eraseIdx_sublist _ _).subset (hp.mem_iff.1 hi)))
    · rcases larsBody_cases (X := X) (y := y) (tol := tol) (lambMin := lambMin) (est := est) (s := s) with h' | ⟨-, h'⟩ |
        ⟨hl, hne, c, d, jts, he, hc, hd, hj, h'⟩
      · rw [h'] at hb; cases hb
      · rw [h'] at hb; cases hb
      · rw [h'] at hb
        have hperm := List.perm_insertionSort (· ≤ ·) s.activeSet
        have : s'.res = s.res ++ [⟨betaLARS c d s.lamb, s.lamb, s.activeSet.insertionSort (· ≤ ·)⟩] := by
          unfold larsMove at hb
          simp only at hb
          split at hb <;> split at hb <;> simp only [Outcome.next.injEq, reduceCtorEq] at hb <;> subst hb <;> rfl
        rw [this]
        intro n hn
        rcases List.mem_append.1 hn with hn | hn
        · exact hres n hn
        · rw [List.mem_singleton.1 hn]
          exact ⟨_, c, d, s.allSigns, fun i hi => hsgn i (hperm.mem_iff.1 hi), he, by rw [hc, hperm.length_eq],
            by rw [hd, hperm.length_eq], rfl⟩

/-- **C64.** If the estimator solves the normal equations for the selections of the path, every selected feature
of every node has correlation `lamb` or `-lamb` with the residual of the node's coefficients. -/
theorem C64_equicorrelation (X : Mat K) (y : Nat → K) (tol lambMin : K)
    (est : Nat → List Nat → List K → Option (List K × List K)) (path : List (LassoLarsNode K))
    (h : LarsReturns X y tol lambMin est path)
    (hest : ∀ n ∈ path, ∀ k signs c d, est k n.selection signs = some (c, d) →
      signs.length = n.selection.length → SolvesNormal X y n.selection signs c d) :
    ∀ n ∈ path, ∃ sgn : Nat → K, ∀ i ∈ n.selection, (sgn i = 1 ∨ sgn i = -1) ∧
      correlation X y (spread n.selection n.coeff) i = n.lamb * sgn i := by
  intro n hn
  obtain ⟨k, c, d, sgn, hs, he, hc, hd, hb⟩ := lars_nodes h n hn
  obtain ⟨hok, -⟩ := C63_path X y tol lambMin est path h
  have hnd : n.selection.Nodup := (hok n hn).sorted.imp (fun h => ne_of_lt h)
  have heq := larsEq_of_solves hnd (hok n hn).range (hest n hn k _ c d he (by simp))
  refine ⟨sgn, fun i hi => ⟨hs i hi, ?_⟩⟩
  rw [hb, corr_congr (spread_beta hc n.lamb), heq.corr_active n.lamb hi, spread_signs sgn hi]

/-- **C64.** If moreover no selected coefficient has the opposite sign of its correlation and no other
correlation exceeds `lamb`, the coefficients of the node minimise the lasso objective. -/
theorem C64_optimal (X : Mat K) (y : Nat → K) (tol lambMin : K) (hmin : 0 ≤ lambMin)
    (est : Nat → List Nat → List K → Option (List K × List K)) (path : List (LassoLarsNode K))
    (h : LarsReturns X y tol lambMin est path)
    (hest : ∀ n ∈ path, ∀ k signs c d, est k n.selection signs = some (c, d) →
      signs.length = n.selection.length → SolvesNormal X y n.selection signs c d)
    (n : LassoLarsNode K) (hn : n ∈ path)
    (hsign : ∀ i ∈ n.selection, 0 ≤ correlation X y (spread n.selection n.coeff) i * spread n.selection n.coeff i)
    (hout : ∀ i < X.nc, i ∉ n.selection → |correlation X y (spread n.selection n.coeff) i| ≤ n.lamb) :
    IsLassoMin X y n.lamb (spread n.selection n.coeff) := by
  obtain ⟨sgn, hc⟩ := C64_equicorrelation X y tol lambMin est path h hest n hn
  have hl : 0 ≤ n.lamb := le_trans hmin (le_of_lt ((C63_path X y tol lambMin est path h).1 n hn).lamb)
  apply lasso_min_of_kkt
  intro i hi
  by_cases hE : i ∈ n.selection
  · have h1 := hsign i hE
    obtain ⟨hs, he⟩ := hc i hE
    have habs : |correlation X y (spread n.selection n.coeff) i| = n.lamb := by
      rw [he, abs_mul, abs_of_nonneg hl]
      rcases hs with hs | hs <;> rw [hs] <;> simp
    refine ⟨le_of_eq habs, ?_⟩
    rw [← abs_of_nonneg h1, abs_mul, habs]
  · refine ⟨hout i hi hE, ?_⟩
    have : spread n.selection n.coeff i = 0 := if_neg hE
    rw [this]; simp

/-- Least squares implies the normal equations. -/
theorem orthogonal_of_isLeastSquares (X : Mat K) (c y : Nat → K) (h : IsLeastSquares X c y) (b : Nat → K) :
    ∑ i ∈ range X.nr, (lin X c i - y i) * lin X b i = 0 := by
  have key : ∀ t : K, sse X (fun j => c j - t * b j) y = sse X c y -
      2 * t * ∑ i ∈ range X.nr, (lin X c i - y i) * lin X b i + t ^ 2 * ∑ i ∈ range X.nr, (lin X b i) ^ 2 := by
    intro t
    unfold sse
    rw [Finset.mul_sum, Finset.mul_sum, ← Finset.sum_sub_distrib, ← Finset.sum_add_distrib]
    refine Finset.sum_congr rfl fun i _ => ?_
    have : lin X (fun j => c j - t * b j) i = lin X c i - t * lin X b i := by
      unfold lin
      rw [Finset.mul_sum, ← Finset.sum_sub_distrib]
      exact Finset.sum_congr rfl (fun j _ => by ring)
    rw [this]
    ring
  generalize hp : ∑ i ∈ range X.nr, (lin X c i - y i) * lin X b i = p at *
  generalize hq : ∑ i ∈ range X.nr, (lin X b i) ^ 2 = q at *
  have hq0 : 0 ≤ q := by rw [← hq]; exact Finset.sum_nonneg fun _ _ => sq_nonneg _
  have h1 := h (fun j => c j - (p / (q + 1)) * b j)
  rw [key] at h1
  have hq1 : 0 < q + 1 := by linarith
  have h2 : 0 ≤ -(2 * (p / (q + 1)) * p) + (p / (q + 1)) ^ 2 * q := by linarith
  have e : -(2 * (p / (q + 1)) * p) + (p / (q + 1)) ^ 2 * q = -(p ^ 2 * (q + 2)) / (q + 1) ^ 2 := by
    field_simp
    ring
  rw [e] at h2
  by_contra hpn
  have : 0 < p ^ 2 * (q + 2) / (q + 1) ^ 2 := by positivity
  rw [neg_div] at h2
  linarith

/-- **C64.** `MorsePenroseCD` solves the normal equations of an active set when the columns are independent, as
far as its tolerance can see: at most as many columns as rows, squared singular values above `1e-6`. -/
theorem C64_estimator (svd : Mat K → SVD K) (X : Mat K) (y : List K) (k : Nat) (E : List Nat) (signs c d : List K)
    (h : (svd (activeCols X E)).Of (activeCols X E)) (hle : E.length ≤ X.nr)
    (hs : ∀ k, k < (svd (activeCols X E)).p → 1 / 10 ^ 6 < (svd (activeCols X E)).s k * (svd (activeCols X E)).s k)
    (he : morseEst svd X y k E signs = some (c, d)) : SolvesNormal X (vec y) E signs c d := by
  unfold morseEst at he
  simp only [Option.bind_eq_some_iff, Option.map_eq_some_iff, Prod.mk.injEq] at he
  obtain ⟨c', hc, d', hd, rfl, rfl⟩ := he
  set Xe := activeCols X E with hXe
  have hnr : Xe.nr = X.nr := rfl
  have hnc : Xe.nc = E.length := rfl
  obtain ⟨hl, hls, -⟩ := C65_minimum_norm (svd Xe) Xe y c' h (fun k hk => .inr (hs k hk)) hc
  have hp : (svd Xe).p = E.length := by rw [h.size, hnr, hnc, min_eq_right hle]
  unfold morsePenroseD at hd
  split at hd
  · cases hd
  obtain rfl := Option.some.inj hd
  refine ⟨hl, by simp [hnc], fun k hk => ?_, fun k hk => ?_⟩
  · have h1 := orthogonal_of_isLeastSquares Xe (vec c') (vec y) hls (fun j => if j = k then 1 else 0)
    have h2 : ∀ i, lin Xe (fun j => if j = k then 1 else 0) i = X.get i (E.getD k 0) := by
      intro i
      unfold lin
      simp only [mul_ite, mul_one, mul_zero]
      rw [Finset.sum_ite_eq', if_pos (mem_range.2 (by rw [hnc]; exact hk))]
      rfl
    simp only [h2, sub_mul, Finset.sum_sub_distrib, sub_eq_zero, hnr] at h1
    rw [show ∑ r ∈ range X.nr, X.get r (E.getD k 0) * vec y r = ∑ r ∈ range X.nr, vec y r * X.get r (E.getD k 0) from
      Finset.sum_congr rfl (fun _ _ => mul_comm _ _), ← h1]
    unfold lin
    simp only [Finset.sum_mul]
    rw [Finset.sum_comm]
    refine Finset.sum_congr rfl fun r _ => Finset.sum_congr rfl fun l _ => ?_
    show X.get r _ * X.get r _ * vec c' l = X.get r _ * vec c' l * X.get r _
    ring
  · -- `V Vᵀ = 1` because `V` is square
    have hVV : vMat (svd Xe) Xe.nc * (vMat (svd Xe) Xe.nc).transpose = 1 :=
      (Matrix.mul_eq_one_comm_of_card_eq _ _ _ (by simp [hp, hnc])).1 (vMat_orth h)
    have hmul : (toMatrix Xe Xe.nr Xe.nc).transpose * toMatrix Xe Xe.nr Xe.nc *
        toMatrix (pseudoInverseXTX (svd Xe) Xe (1 / 10 ^ 6)) Xe.nc Xe.nc = 1 := by
      rw [xtx_matrix h, pinvXTX_matrix]
      calc _ = vMat (svd Xe) Xe.nc * Matrix.diagonal (fun k : Fin (svd Xe).p => (svd Xe).s k * (svd Xe).s k) *
            ((vMat (svd Xe) Xe.nc).transpose * vMat (svd Xe) Xe.nc) * Matrix.diagonal (fun k : Fin (svd Xe).p =>
              recipAbove (1 / 10 ^ 6) (fun k => (svd Xe).s k * (svd Xe).s k) k) *
              (vMat (svd Xe) Xe.nc).transpose := by simp only [Matrix.mul_assoc]
        _ = vMat (svd Xe) Xe.nc * (vMat (svd Xe) Xe.nc).transpose := by
          rw [vMat_orth h, Matrix.mul_one, Matrix.mul_assoc (vMat (svd Xe) Xe.nc), Matrix.diagonal_mul_diagonal]
          have : (fun k : Fin (svd Xe).p => (svd Xe).s k * (svd Xe).s k *
              recipAbove (1 / 10 ^ 6) (fun k => (svd Xe).s k * (svd Xe).s k) k) = fun _ => 1 := by
            funext k
            have hk := hs k k.2
            unfold recipAbove
            rw [if_pos hk]
            apply mul_one_div_cancel
            intro h0
            rw [h0] at hk
            exact absurd hk (not_lt.2 (by positivity))
          rw [this, Matrix.diagonal_one, Matrix.mul_one]
        _ = 1 := hVV
    have hk' : k < Xe.nc := hk
    have happ : ∀ j : Fin Xe.nc, ∑ l ∈ range E.length, (∑ r ∈ range X.nr, X.get r (E.getD k 0) * X.get r (E.getD l 0)) *
        (pseudoInverseXTX (svd Xe) Xe (1 / 10 ^ 6)).get l j = if k = j then 1 else 0 := by
      intro j
      have := congrFun (congrFun hmul ⟨k, hk'⟩) j
      rw [Matrix.mul_apply, Matrix.one_apply] at this
      simp only [Matrix.mul_apply, toMatrix, Matrix.transpose_apply, Matrix.of_apply, Fin.ext_iff] at this
      rw [← this, ← Fin.sum_univ_eq_sum_range (fun l => (∑ r ∈ range X.nr, X.get r (E.getD k 0) * X.get r (E.getD l 0)) *
        (pseudoInverseXTX (svd Xe) Xe (1 / 10 ^ 6)).get l j)]
      refine Finset.sum_congr rfl fun l _ => ?_
      rw [← Fin.sum_univ_eq_sum_range (fun r => X.get r (E.getD k 0) * X.get r (E.getD l 0))]
      rfl
    have e : ∀ l ∈ range E.length, (∑ r ∈ range X.nr, X.get r (E.getD k 0) * X.get r (E.getD l 0)) *
        ((List.range Xe.nc).map (fun i => ∑ j ∈ range Xe.nc,
          (pseudoInverseXTX (svd Xe) Xe (1 / 10 ^ 6)).get i j * signs.getD j 0)).getD l 0 =
        ∑ j ∈ range E.length, ((∑ r ∈ range X.nr, X.get r (E.getD k 0) * X.get r (E.getD l 0)) *
          (pseudoInverseXTX (svd Xe) Xe (1 / 10 ^ 6)).get l j) * signs.getD j 0 := by
      intro l hl
      rw [getD_map_range, if_pos (by rw [hnc]; exact mem_range.1 hl), Finset.mul_sum, hnc]
      exact Finset.sum_congr rfl (fun j _ => by ring)
    rw [Finset.sum_congr rfl e, Finset.sum_comm]
    have e2 : ∀ j ∈ range E.length, ∑ l ∈ range E.length,
        ((∑ r ∈ range X.nr, X.get r (E.getD k 0) * X.get r (E.getD l 0)) *
          (pseudoInverseXTX (svd Xe) Xe (1 / 10 ^ 6)).get l j) * signs.getD j 0 =
        if j = k then signs.getD j 0 else 0 := by
      intro j hj
      rw [← Finset.sum_mul, happ ⟨j, mem_range.1 hj⟩]
      simp only
      by_cases h : j = k
      · rw [if_pos h, if_pos h.symm, one_mul]
      · rw [if_neg h, if_neg (fun h' => h h'.symm), zero_mul]
    rw [Finset.sum_congr rfl e2, Finset.sum_ite_eq', if_pos (mem_range.2 hk)]

/-- **C64.** Paths computed with `MorsePenroseCD`: equicorrelation holds for every node whose columns are
independent. -/
theorem C64_path (svd : Mat K → SVD K) (X : Mat K) (y : List K) (tol lambMin : K) (path : List (LassoLarsNode K))
    (h : LarsReturns X (vec y) tol lambMin (morseEst svd X y) path)
    (hsvd : ∀ n ∈ path, (svd (activeCols X n.selection)).Of (activeCols X n.selection) ∧
      n.selection.length ≤ X.nr ∧ ∀ k, k < (svd (activeCols X n.selection)).p →
        1 / 10 ^ 6 < (svd (activeCols X n.selection)).s k * (svd (activeCols X n.selection)).s k) :
    ∀ n ∈ path, ∃ sgn : Nat → K, ∀ i ∈ n.selection, (sgn i = 1 ∨ sgn i = -1) ∧
      correlation X (vec y) (spread n.selection n.coeff) i = n.lamb * sgn i :=
  C64_equicorrelation X (vec y) tol lambMin _ path h (fun n hn k signs c d he _ =>
    C64_estimator svd X y k n.selection signs c d (hsvd n hn).1 (hsvd n hn).2.1 (hsvd n hn).2.2 he)

end

/-! ### Examples -/

/-- Two correlated columns `(1, 0)` and `(3/5, 4/5)`. -/
def larsPair : Mat ℚ := ⟨2, 2, fun i j => if j = 0 then (if i = 0 then 1 else 0) else (if i = 0 then 3 / 5 else 4 / 5)⟩

/-- The normal equations of `larsPair`. -/
def larsPairEst (y : Nat → ℚ) (_ : Nat) (active : List Nat) (signs : List ℚ) : Option (List ℚ × List ℚ) :=
  let b0 := larsXy larsPair y 0
  let b1 := larsXy larsPair y 1
  if active = [0] then some ([b0], [signs.getD 0 0])
  else if active = [1] then some ([b1], [signs.getD 0 0])
  else if active = [0, 1] then some (
    [(b0 - 3 / 5 * b1) * 25 / 16, (b1 - 3 / 5 * b0) * 25 / 16],
    [(signs.getD 0 0 - 3 / 5 * signs.getD 1 0) * 25 / 16, (signs.getD 1 0 - 3 / 5 * signs.getD 0 0) * 25 / 16])
  else none

theorem larsPair_path : LarsReturns larsPair (fun i => if i = 0 then 5 else -5) lassoTol (1 / 2)
    (larsPairEst (fun i => if i = 0 then 5 else -5)) [⟨[0], 5, [0]⟩, ⟨[5 / 2, 0], 5 / 2, [0, 1]⟩] := by
  refine ⟨_, rfl, runs_of_runFuel (n := 4) ?_⟩
  decide +kernel

theorem larsPair_solves (y : Nat → ℚ) (k : Nat) (E : List Nat) (hE : E = [0] ∨ E = [0, 1]) (signs c d : List ℚ)
    (h : larsPairEst y k E signs = some (c, d)) : SolvesNormal larsPair y E signs c d := by
  unfold larsPairEst at h
  rcases hE with rfl | rfl
  · simp only [if_true, Option.some.injEq, Prod.mk.injEq] at h
    obtain ⟨rfl, rfl⟩ := h
    refine ⟨rfl, rfl, ?_, ?_⟩
    · intro k hk
      have : k = 0 := by simpa using hk
      subst this
      simp [larsPair, larsXy, Finset.sum_range_succ]
    · intro k hk
      have : k = 0 := by simpa using hk
      subst this
      simp [larsPair, Finset.sum_range_succ]
  · simp only [List.cons.injEq, reduceCtorEq, and_false, one_ne_zero, zero_ne_one, false_and, if_false, if_true,
      Option.some.injEq, Prod.mk.injEq] at h
    obtain ⟨rfl, rfl⟩ := h
    refine ⟨rfl, rfl, ?_, ?_⟩
    · intro k hk
      have : k = 0 ∨ k = 1 := by simp at hk; omega
      rcases this with rfl | rfl
      · simp [larsPair, larsXy, Finset.sum_range_succ]
        ring
      · simp [larsPair, larsXy, Finset.sum_range_succ]
        ring
    · intro k hk
      have : k = 0 ∨ k = 1 := by simp at hk; omega
      rcases this with rfl | rfl
      · simp [larsPair, Finset.sum_range_succ]
        ring
      · simp [larsPair, Finset.sum_range_succ]
        ring

/-- Equicorrelation and optimality of the path above; the second node selects a feature with coefficient 0. -/
example : IsLassoMin larsPair (fun i => if i = 0 then 5 else -5) (5 / 2) (spread [0, 1] [5 / 2, 0]) := by
  refine C64_optimal larsPair _ lassoTol (1 / 2) (by norm_num) _ _ larsPair_path ?_ ⟨[5 / 2, 0], 5 / 2, [0, 1]⟩
    (by simp) ?_ ?_
  · intro n hn k signs c d he _
    refine larsPair_solves _ k _ ?_ signs c d he
    simp only [List.mem_cons, List.not_mem_nil, or_false] at hn
    rcases hn with rfl | rfl <;> simp
  · decide +kernel
  · decide +kernel

/-- `MorsePenroseCD` on unit vectors. -/
example : SolvesNormal (unitX 3 2 : Mat ℚ) (vec [2, 5, 1]) [0, 1] [1, -1] [2, 5] [1, -1] := by
  refine C64_estimator orthSvd (unitX 3 2) [2, 5, 1] 0 [0, 1] [1, -1] [2, 5] [1, -1] ?_ (by decide) ?_ ?_
  · refine (orthSvd_untruncated (by decide) (fun k l hk hl => ?_)).1
    have : ∀ k < 2, ∀ l < 2, ∑ i ∈ range 3, (activeCols (unitX 3 2 : Mat ℚ) [0, 1]).get i k *
        (activeCols (unitX 3 2) [0, 1]).get i l = if k = l then 1 else 0 := by decide +kernel
    exact this k hk l hl
  · intro k _
    show (1 : ℚ) / 10 ^ 6 < 1 * 1
    norm_num
  · decide +kernel

end GoSelect
