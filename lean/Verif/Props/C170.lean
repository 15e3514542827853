import Verif.Model.Annealing
import Verif.Model.Lars
import Verif.Model.Omp
import Verif.Props.C53_C54
import Verif.Props.C65_C66
import Verif.Props.C107

/-!
# C170: fits and searches depend on the data through sums of products over the rows only
-/

namespace GoSelect

open Finset Spec

/-- The two data sets have the same sums of squares and products of columns and target over their rows. -/
structure Spec.SameSums {K : Type} [CommRing K] (X X' : Mat K) (y y' : Nat → K) : Prop where
  nc : X'.nc = X.nc
  gram : ∀ i j, i < X.nc → j < X.nc →
    ∑ r ∈ range X'.nr, X'.get r i * X'.get r j = ∑ r ∈ range X.nr, X.get r i * X.get r j
  xy : ∀ j, j < X.nc → ∑ r ∈ range X'.nr, X'.get r j * y' r = ∑ r ∈ range X.nr, X.get r j * y r
  yy : ∑ r ∈ range X'.nr, y' r ^ 2 = ∑ r ∈ range X.nr, y r ^ 2

/-- There is nothing beyond the last column. -/
def Spec.NoMoreColumns {K : Type} [CommRing K] (X : Mat K) : Prop := ∀ r j, X.nc ≤ j → X.get r j = 0

section
variable {K : Type} [Field K] [LinearOrder K] [IsStrictOrderedRing K]

/-- The product of the matrix of sums with a vector. -/
theorem gram_svd {d : SVD K} {X : Mat K} (h : d.Of X) (b : Nat → K) {i : Nat} (hi : i < X.nc) :
    ∑ j ∈ range X.nc, (∑ r ∈ range X.nr, X.get r i * X.get r j) * b j =
      ∑ k ∈ range d.p, d.v i k * (d.s k ^ 2 * ∑ j ∈ range X.nc, d.v j k * b j) := by
  have e1 : ∑ j ∈ range X.nc, (∑ r ∈ range X.nr, X.get r i * X.get r j) * b j = ∑ r ∈ range X.nr, X.get r i * lin X b r := by
    simp only [lin, Finset.sum_mul, Finset.mul_sum]
    rw [Finset.sum_comm]
    exact Finset.sum_congr rfl fun r _ => Finset.sum_congr rfl fun j _ => by ring
  rw [e1]
  have e2 : ∀ r ∈ range X.nr, X.get r i * lin X b r = ∑ k ∈ range d.p, (d.s k * d.v i k) *
      (d.u r k * ∑ l ∈ range d.p, d.u r l * (d.s l * ∑ j ∈ range X.nc, d.v j l * b j)) := by
    intro r hr
    rw [← svd_lin h b (mem_range.1 hr), h.prod r i (mem_range.1 hr) hi, Finset.sum_mul]
    exact Finset.sum_congr rfl fun k _ => by ring
  rw [Finset.sum_congr rfl e2, Finset.sum_comm]
  refine Finset.sum_congr rfl fun k hk => ?_
  rw [← Finset.mul_sum, orth_expand h.uOrth (fun l => d.s l * ∑ j ∈ range X.nc, d.v j l * b j) (mem_range.1 hk)]
  ring

/-- The components of the target along the left singular vectors. -/
theorem xy_svd {d : SVD K} {X : Mat K} (h : d.Of X) (y : Nat → K) {k : Nat} (hk : k < d.p) :
    ∑ j ∈ range X.nc, d.v j k * ∑ r ∈ range X.nr, X.get r j * y r = d.s k * ∑ r ∈ range X.nr, d.u r k * y r := by
  have e : ∀ j ∈ range X.nc, d.v j k * ∑ r ∈ range X.nr, X.get r j * y r =
      d.v j k * ∑ l ∈ range d.p, d.v j l * (d.s l * ∑ r ∈ range X.nr, d.u r l * y r) := by
    intro j hj
    congr 1
    rw [Finset.sum_congr rfl fun r hr => by rw [h.prod r j (mem_range.1 hr) (mem_range.1 hj), Finset.sum_mul]]
    rw [Finset.sum_comm]
    refine Finset.sum_congr rfl fun l _ => ?_
    rw [Finset.mul_sum, Finset.mul_sum]
    exact Finset.sum_congr rfl fun r _ => by ring
  rw [Finset.sum_congr rfl e]
  exact orth_expand h.vOrth (fun l => d.s l * ∑ r ∈ range X.nr, d.u r l * y r) hk

/-- Functions of the singular values do not depend on the decomposition, but on the sums of products only. -/
theorem svd_function {d d' : SVD K} {X X' : Mat K} (h : d.Of X) (h' : d'.Of X') (hnc : X'.nc = X.nc)
    (hg : ∀ i j, i < X.nc → j < X.nc →
      ∑ r ∈ range X'.nr, X'.get r i * X'.get r j = ∑ r ∈ range X.nr, X.get r i * X.get r j)
    (f : K → K) (hf : f 0 = 0) (w : Nat → K) {j : Nat} (hj : j < X.nc) :
    ∑ k ∈ range d'.p, d'.v j k * (f (d'.s k) * ∑ i ∈ range X'.nc, d'.v i k * w i) =
      ∑ k ∈ range d.p, d.v j k * (f (d.s k) * ∑ i ∈ range X.nc, d.v i k * w i) := by
  rw [hnc]
  set c : Nat → Nat → K := fun k l => ∑ i ∈ range X.nc, d.v i k * d'.v i l with hc
  have vO' : ∀ k l, k < d'.p → l < d'.p → ∑ i ∈ range X.nc, d'.v i k * d'.v i l = if k = l then 1 else 0 := by
    rw [← hnc]
    exact h'.vOrth
  have G : ∀ b : Nat → K, ∀ i, i < X.nc → ∑ k ∈ range d.p, d.v i k * (d.s k ^ 2 * ∑ j ∈ range X.nc, d.v j k * b j) =
      ∑ l ∈ range d'.p, d'.v i l * (d'.s l ^ 2 * ∑ j ∈ range X.nc, d'.v j l * b j) := by
    intro b i hi
    have e1 := gram_svd h b hi
    have e2 := gram_svd h' b (i := i) (by omega)
    rw [hnc] at e2
    rw [← e1, ← e2]
    exact Finset.sum_congr rfl fun j hj => by rw [hg i j hi (mem_range.1 hj)]
  have c' : ∀ k l, ∑ i ∈ range X.nc, d'.v i l * d.v i k = c k l := fun k l =>
    Finset.sum_congr rfl fun i _ => mul_comm _ _
  -- the products of singular vectors with the matrix
  have A : ∀ k < d.p, ∀ i < X.nc, d.s k ^ 2 * d.v i k = ∑ l ∈ range d'.p, d'.v i l * (d'.s l ^ 2 * c k l) := by
    intro k hk i hi
    have := G (fun i => d.v i k) i hi
    simp only [c'] at this
    rw [← this, Finset.sum_eq_single_of_mem k (mem_range.2 hk)]
    · rw [h.vOrth k k hk hk, if_pos rfl]
      ring
    · intro l hl hlk
      rw [h.vOrth l k (mem_range.1 hl) hk, if_neg hlk]
      ring
  have A' : ∀ l < d'.p, ∀ i < X.nc, d'.s l ^ 2 * d'.v i l = ∑ k ∈ range d.p, d.v i k * (d.s k ^ 2 * c k l) := by
    intro l hl i hi
    rw [G (fun i => d'.v i l) i hi, Finset.sum_eq_single_of_mem l (mem_range.2 hl)]
    · rw [vO' l l hl hl, if_pos rfl]
      ring
    · intro k hk hkl
      rw [vO' k l (mem_range.1 hk) hl, if_neg hkl]
      ring
  have B : ∀ k < d.p, ∀ l < d'.p, c k l = 0 ∨ d.s k = d'.s l := by
    intro k hk l hl
    have e : d.s k ^ 2 * c k l = d'.s l ^ 2 * c k l := by
      have e1 : d.s k ^ 2 * c k l = ∑ i ∈ range X.nc, d'.v i l * (d.s k ^ 2 * d.v i k) := by
        rw [← c' k l, Finset.mul_sum]
        exact Finset.sum_congr rfl fun i _ => by ring
      rw [e1, Finset.sum_congr rfl fun i hi => by rw [A k hk i (mem_range.1 hi)]]
      exact orth_expand vO' (fun l => d'.s l ^ 2 * c k l) hl
    rcases mul_eq_mul_right_iff.1 e with e | e
    · right
      exact (pow_left_inj₀ (h.nonneg k hk) (h'.nonneg l hl) two_ne_zero).1 e
    · exact .inl e
  have A2 : ∀ k < d.p, d.s k ≠ 0 → ∀ i < X.nc, d.v i k = ∑ l ∈ range d'.p, d'.v i l * c k l := by
    intro k hk h0 i hi
    have e := A k hk i hi
    refine mul_left_cancel₀ (pow_ne_zero 2 h0) (e.trans ?_)
    rw [Finset.mul_sum]
    refine Finset.sum_congr rfl fun l hl => ?_
    rcases B k hk l (mem_range.1 hl) with h1 | h1
    · rw [h1]
      ring
    · rw [h1]
      ring
  have A2' : ∀ l < d'.p, d'.s l ≠ 0 → ∀ i < X.nc, d'.v i l = ∑ k ∈ range d.p, d.v i k * c k l := by
    intro l hl h0 i hi
    have e := A' l hl i hi
    refine mul_left_cancel₀ (pow_ne_zero 2 h0) (e.trans ?_)
    rw [Finset.mul_sum]
    refine Finset.sum_congr rfl fun k hk => ?_
    rcases B k (mem_range.1 hk) l hl with h1 | h1
    · rw [h1]
      ring
    · rw [h1]
      ring
  set q : Nat → K := fun l => ∑ i ∈ range X.nc, d'.v i l * w i with hq
  have L : ∀ l ∈ range d'.p, d'.v j l * (f (d'.s l) * q l) = ∑ k ∈ range d.p, d.v j k * (c k l * (f (d.s k) * q l)) := by
    intro l hl
    have hl' := mem_range.1 hl
    have e : ∀ k ∈ range d.p, d.v j k * (c k l * (f (d.s k) * q l)) = d.v j k * c k l * (f (d'.s l) * q l) := by
      intro k hk
      rcases B k (mem_range.1 hk) l hl' with h1 | h1
      · rw [h1]
        ring
      · rw [h1]
        ring
    rw [Finset.sum_congr rfl e, ← Finset.sum_mul]
    by_cases h0 : d'.s l = 0
    · rw [h0, hf]
      ring
    · rw [← A2' l hl' h0 j hj]
  rw [Finset.sum_congr rfl L, Finset.sum_comm]
  refine Finset.sum_congr rfl fun k hk => ?_
  have hk' := mem_range.1 hk
  rw [← Finset.mul_sum]
  congr 1
  by_cases h0 : d.s k = 0
  · rw [h0, hf]
    simp
  · have e : ∑ i ∈ range X.nc, d.v i k * w i = ∑ l ∈ range d'.p, c k l * q l := by
      rw [Finset.sum_congr rfl fun i hi => by rw [A2 k hk' h0 i (mem_range.1 hi), Finset.sum_mul], Finset.sum_comm]
      refine Finset.sum_congr rfl fun l _ => ?_
      rw [hq, Finset.mul_sum]
      exact Finset.sum_congr rfl fun i _ => by ring
    rw [e, Finset.mul_sum]
    exact Finset.sum_congr rfl fun l _ => by ring

/-- The same for the components of the target along the left singular vectors. -/
theorem svd_function_target {d d' : SVD K} {X X' : Mat K} {y y' : Nat → K} (hs : SameSums X X' y y') (h : d.Of X) (h' : d'.Of X')
    (f : K → K) (hf : f 0 = 0) {j : Nat} (hj : j < X.nc) :
    ∑ k ∈ range d'.p, d'.v j k * (f (d'.s k) * ∑ i ∈ range X'.nr, d'.u i k * y' i) =
      ∑ k ∈ range d.p, d.v j k * (f (d.s k) * ∑ i ∈ range X.nr, d.u i k * y i) := by
  have key := svd_function h h' hs.nc hs.gram (fun s => f s / s) (by simp) (fun j => ∑ r ∈ range X.nr, X.get r j * y r) hj
  have e : ∀ k ∈ range d.p, d.v j k * (f (d.s k) / d.s k * ∑ i ∈ range X.nc, d.v i k * ∑ r ∈ range X.nr, X.get r i * y r) =
      d.v j k * (f (d.s k) * ∑ i ∈ range X.nr, d.u i k * y i) := by
    intro k hk
    rw [xy_svd h y (mem_range.1 hk)]
    by_cases h0 : d.s k = 0
    · rw [h0, hf]
      simp
    · field_simp
  have e' : ∀ k ∈ range d'.p, d'.v j k * (f (d'.s k) / d'.s k * ∑ i ∈ range X'.nc, d'.v i k * ∑ r ∈ range X.nr, X.get r i * y r) =
      d'.v j k * (f (d'.s k) * ∑ i ∈ range X'.nr, d'.u i k * y' i) := by
    intro k hk
    have e2 : ∑ i ∈ range X'.nc, d'.v i k * ∑ r ∈ range X.nr, X.get r i * y r =
        ∑ i ∈ range X'.nc, d'.v i k * ∑ r ∈ range X'.nr, X'.get r i * y' r :=
      Finset.sum_congr rfl fun i hi => by rw [hs.xy i (by rw [← hs.nc]; exact mem_range.1 hi)]
    rw [e2, xy_svd h' y' (mem_range.1 hk)]
    by_cases h0 : d'.s k = 0
    · rw [h0, hf]
      simp
    · field_simp
  rw [Finset.sum_congr rfl e, Finset.sum_congr rfl e'] at key
  exact key

/-- Sums of squared errors. -/
theorem Spec.SameSums.sse {X X' : Mat K} {y y' : Nat → K} (hs : SameSums X X' y y') (b : Nat → K) : sse X' b y' = sse X b y := by
  have e : ∀ (X : Mat K) (y : Nat → K), Spec.sse X b y = (∑ i ∈ range X.nc, b i * ∑ j ∈ range X.nc,
      (∑ r ∈ range X.nr, X.get r i * X.get r j) * b j) - 2 * (∑ j ∈ range X.nc, b j * ∑ r ∈ range X.nr, X.get r j * y r) +
      ∑ r ∈ range X.nr, y r ^ 2 := by
    intro X y
    have e1 : ∑ i ∈ range X.nc, b i * ∑ j ∈ range X.nc, (∑ r ∈ range X.nr, X.get r i * X.get r j) * b j =
        ∑ r ∈ range X.nr, lin X b r ^ 2 := by
      have : ∀ r ∈ range X.nr, lin X b r ^ 2 = ∑ i ∈ range X.nc, ∑ j ∈ range X.nc, b i * (X.get r i * X.get r j * b j) := by
        intro r _
        rw [pow_two]
        unfold lin
        rw [Finset.sum_mul_sum]
        exact Finset.sum_congr rfl fun i _ => Finset.sum_congr rfl fun j _ => by ring
      rw [Finset.sum_congr rfl this, Finset.sum_comm]
      refine Finset.sum_congr rfl fun i _ => ?_
      rw [Finset.sum_comm, Finset.mul_sum]
      refine Finset.sum_congr rfl fun j _ => ?_
      rw [Finset.sum_mul, Finset.mul_sum]
    have e2 : ∑ j ∈ range X.nc, b j * ∑ r ∈ range X.nr, X.get r j * y r = ∑ r ∈ range X.nr, lin X b r * y r := by
      unfold lin
      simp only [Finset.mul_sum, Finset.sum_mul]
      rw [Finset.sum_comm]
      exact Finset.sum_congr rfl fun i _ => Finset.sum_congr rfl fun j _ => by ring
    rw [e1, e2, Finset.mul_sum, ← Finset.sum_sub_distrib, ← Finset.sum_add_distrib]
    exact Finset.sum_congr rfl fun r _ => by ring
  rw [e X' y', e X y, hs.nc, hs.yy]
  congr 2
  · refine Finset.sum_congr rfl fun i hi => ?_
    congr 1
    exact Finset.sum_congr rfl fun j hj => by rw [hs.gram i j (mem_range.1 hi) (mem_range.1 hj)]
  · congr 1
    exact Finset.sum_congr rfl fun j hj => by rw [hs.xy j (mem_range.1 hj)]

/-- Some of the columns. -/
theorem Spec.SameSums.cols {X X' : Mat K} {y y' : Nat → K} (hs : SameSums X X' y y') (n : Nat) (idx : List Nat)
    (hn : n ≤ idx.length) (hidx : ∀ i ∈ idx, i < X.nc) :
    SameSums ⟨X.nr, n, fun r k => X.get r (idx.getD k 0)⟩ ⟨X'.nr, n, fun r k => X'.get r (idx.getD k 0)⟩ y y' := by
  have hlt : ∀ k, k < n → idx.getD k 0 < X.nc := by
    intro k hk
    have hk' : k < idx.length := by omega
    have : idx.getD k 0 = idx[k] := by simp [hk']
    rw [this]
    exact hidx _ (List.getElem_mem hk')
  exact ⟨rfl, fun i j hi hj => hs.gram _ _ (hlt i hi) (hlt j hj), fun j hj => hs.xy _ (hlt j hj), hs.yy⟩

/-- **C170.** `Fit` depends on the data only through the sums of products over the rows; neither on the order or the number of the rows
nor on the decomposition that was found, also if singular values are discarded.  The residual sum of squares is the same, too. -/
theorem C170_fit (d d' : SVD K) (X X' : Mat K) (y y' : List K) (h : d.Of X) (h' : d'.Of X') (hy : y.length = X.nr)
    (hy' : y'.length = X'.nr) (hs : SameSums X X' (vec y) (vec y')) :
    ∃ c r, fit d X y = some c ∧ fit d' X' y' = some c ∧ rss X c y = some r ∧ rss X' c y' = some r := by
  have e : fit d' X' y' = fit d X y := by
    rw [fit_eq_some hy.symm, fit_eq_some hy'.symm, hs.nc]
    congr 1
    refine List.map_congr_left fun j hj => ?_
    have key := svd_function_target hs h h' invSigma (by simp [invSigma]) (List.mem_range.1 hj)
    unfold svdCoeff
    simpa only [mul_comm (invSigma _)] using key
  refine ⟨_, _, fit_eq_some hy.symm, e.trans (fit_eq_some hy.symm), rss_eq_some (by simp) hy, ?_⟩
  rw [rss_eq_some (by simp [hs.nc]) hy', hs.sse]

end

/-- `GetDesignMatrix`, `Fit` and `Rss` in a row. -/
theorem SameSums.fitModel {svd svd' : Mat ℝ → SVD ℝ} {X X' : Mat ℝ} {y y' : List ℝ} (h : ∀ A, (svd A).Of A)
    (h' : ∀ A, (svd' A).Of A) (hy : y.length = X.nr) (hy' : y'.length = X'.nr) (hnr : X'.nr = X.nr) (hpos : 0 < X.nr)
    (hs : SameSums X X' (vec y) (vec y')) (m : List Bool) : fitModel svd' X' y' m = fitModel svd X y m := by
  unfold GoSelect.fitModel getDesignMatrix
  simp only [hnr, hs.nc]
  by_cases h1 : numFeatures m = 0
  · simp [h1]
  by_cases h2 : 0 < X.nr ∧ (selectedFrom 0 m).any (fun i => decide (X.nc ≤ i)) = true
  · simp only [if_neg h1, if_pos h2]
  simp only [if_neg h1, if_neg h2]
  have hidx : ∀ i ∈ selectedFrom 0 m, i < X.nc := by
    intro i hi
    by_contra hc
    exact h2 ⟨hpos, List.any_eq_true.2 ⟨i, hi, by simpa using hc⟩⟩
  have hl : numFeatures m ≤ (selectedFrom 0 m).length := by
    rw [selectedFrom_zero, numFeatures_eq_card]
    exact le_refl _
  have hs' := hs.cols (numFeatures m) (selectedFrom 0 m) hl hidx
  rw [hnr] at hs'
  obtain ⟨c, r, e1, e2, e3, e4⟩ := C170_fit (svd ⟨X.nr, numFeatures m, fun j k => X.get j ((selectedFrom 0 m).getD k 0)⟩)
    (svd' ⟨X.nr, numFeatures m, fun j k => X'.get j ((selectedFrom 0 m).getD k 0)⟩) _ _ y y' (h _) (h' _) hy (hy'.trans hnr) hs'
  simp only [e1, e2, e3, e4]

/-- **C170.** `SelectModel` and `BruteForceSelect` do the same on data with the same number of rows and the same sums of products,
whatever decompositions they find: the runs of the one are those of the other, state by state. -/
theorem C170_search (svd svd' : Mat ℝ → SVD ℝ) (X X' : Mat ℝ) (y y' : List ℝ) (h : ∀ A, (svd A).Of A)
    (h' : ∀ A, (svd' A).Of A) (hy : y.length = X.nr) (hy' : y'.length = X'.nr) (hnr : X'.nr = X.nr) (hpos : 0 < X.nr)
    (hs : SameSums X X' (vec y) (vec y')) :
    (∀ root maxQueue cutoff M pre s, SelectReaches (regressionSearch svd' X' y' root maxQueue cutoff) M pre s ↔
      SelectReaches (regressionSearch svd X y root maxQueue cutoff) M pre s) ∧
    ∀ hs, BruteForceReturns (regressionProblem svd' X' y') hs ↔ BruteForceReturns (regressionProblem svd X y) hs := by
  have hf : fitModel svd' X' y' = fitModel svd X y := funext (SameSums.fitModel h h' hy hy' hnr hpos hs)
  have hp : regressionProblem svd' X' y' = regressionProblem svd X y := by
    unfold regressionProblem
    rw [hf, hnr, hs.nc]
  have hS : ∀ root maxQueue cutoff, regressionSearch svd' X' y' root maxQueue cutoff = regressionSearch svd X y root maxQueue cutoff := by
    intro root maxQueue cutoff
    unfold regressionSearch boundsAICC bounds boundsRssLcs boundsRssGcs
    rw [hp, hf, hnr, hy', hnr, hy]
  exact ⟨fun root maxQueue cutoff M pre s => by rw [hS], fun hs => by rw [hp]⟩

/-- **C170.** With the same random numbers `SelectModelSA` does the same on data with the same number of rows and the same sums of
products, in every iteration; so the possible results are the same. -/
theorem C170_annealing (P P' : SaInput) (h : ∀ A, (P.svd A).Of A) (h' : ∀ A, (P'.svd A).Of A) (hy : P.y.length = P.X.nr)
    (hy' : P'.y.length = P'.X.nr) (hnr : P'.X.nr = P.X.nr) (hpos : 0 < P.X.nr) (hs : SameSums P.X P'.X (vec P.y) (vec P'.y))
    (hsweeps : P'.nSweeps = P.nSweeps) (hcost : P'.cost = P.cost) :
    saInit P' = saInit P ∧ (∀ s index u, saBody P' s index u = saBody P s index u) ∧ ∀ r, SaReturns P' r ↔ SaReturns P r := by
  have hf : fitModel P'.svd P'.X P'.y = fitModel P.svd P.X P.y := funext (SameSums.fitModel h h' hy hy' hnr hpos hs)
  have hi : saInit P' = saInit P := by
    unfold saInit
    rw [hs.nc]
  have hb : saBody P' = saBody P := by
    unfold saBody saEval saSweep
    rw [hf, hs.nc, hnr, hsweeps, hcost, hy', hy, hnr]
  have key : ∀ Q Q' : SaInput, saInit Q' = saInit Q → saBody Q' = saBody Q → Q'.X.nc = Q.X.nc → ∀ s, SaReach Q s → SaReach Q' s := by
    intro Q Q' q1 q2 q3 s hr
    induction hr with
    | init h => exact .init (q1.trans h)
    | step index u _ i0 i1 i2 i3 ih => exact .step index u ih (i0.trans_eq q3.symm) i1 i2 (by rw [q2]; exact i3)
  refine ⟨hi, fun s index u => by rw [hb], fun r => ⟨?_, ?_⟩⟩
  · rintro ⟨s, index, u, r1, r2, r3, r4, r5⟩
    exact ⟨s, index, u, key P' P hi.symm hb.symm hs.nc.symm s r1, r2.trans_eq hs.nc, r3, r4, by rw [← hb]; exact r5⟩
  · rintro ⟨s, index, u, r1, r2, r3, r4, r5⟩
    exact ⟨s, index, u, key P P' hi hb hs.nc s r1, r2.trans_eq hs.nc.symm, r3, r4, by rw [hb]; exact r5⟩

section
variable {K : Type} [Field K] [LinearOrder K] [IsStrictOrderedRing K]

theorem Spec.SameSums.gramAll {X X' : Mat K} {y y' : Nat → K} (hs : SameSums X X' y y') (h0 : NoMoreColumns X)
    (h0' : NoMoreColumns X') (i j : Nat) :
    ∑ r ∈ range X'.nr, X'.get r i * X'.get r j = ∑ r ∈ range X.nr, X.get r i * X.get r j := by
  have h0'' : ∀ r j, X.nc ≤ j → X'.get r j = 0 := fun r j hj => h0' r j (hs.nc.trans_le hj)
  by_cases hi : i < X.nc
  · by_cases hj : j < X.nc
    · exact hs.gram i j hi hj
    · simp [h0 _ j (not_lt.1 hj), h0'' _ j (not_lt.1 hj)]
  · simp [h0 _ i (not_lt.1 hi), h0'' _ i (not_lt.1 hi)]

theorem Spec.SameSums.xyAll {X X' : Mat K} {y y' : Nat → K} (hs : SameSums X X' y y') (h0 : NoMoreColumns X)
    (h0' : NoMoreColumns X') (j : Nat) :
    ∑ r ∈ range X'.nr, X'.get r j * y' r = ∑ r ∈ range X.nr, X.get r j * y r := by
  by_cases hj : j < X.nc
  · exact hs.xy j hj
  · simp [h0 _ j (not_lt.1 hj), h0' _ j (hs.nc.trans_le (not_lt.1 hj))]

/-- **C170.** `LassoCrdDesc` returns the same on data with the same number of rows and the same sums of products, with every
correction. -/
theorem C170_crd {S : Type} (X X' : Mat K) (y y' : Nat → K) (hnr : X'.nr = X.nr) (hs : SameSums X X' y y') (h0 : NoMoreColumns X)
    (h0' : NoMoreColumns X') (lamb tol : K) (corr : LassoCorrection K S) (s : S) (x0 : Option (List K)) (maxIter : Nat) :
    lassoCrdDesc (lassoProblem X' y' lamb tol corr) s x0 maxIter = lassoCrdDesc (lassoProblem X y lamb tol corr) s x0 maxIter := by
  have e : lassoProblem X' y' lamb tol corr = lassoProblem X y lamb tol corr := by
    unfold lassoProblem empiricalCov
    rw [hnr, hs.nc]
    have e1 : xTy X' y' = xTy X y := funext fun j => hs.xyAll h0 h0' j
    have e2 : (fun i j => (1 / (X.nr : K)) * ∑ r ∈ range X.nr, X'.get r i * X'.get r j) =
        fun i j => (1 / (X.nr : K)) * ∑ r ∈ range X.nr, X.get r i * X.get r j := by
      funext i j
      have := hs.gramAll h0 h0' i j
      rw [hnr] at this
      rw [this]
    rw [e1, e2]
  rw [e]

theorem larsXX_gram (X : Mat K) (active : List Nat) (v : List K) (i : Nat) : larsXX X active v i =
    ∑ k ∈ range active.length, (∑ r ∈ range X.nr, X.get r i * X.get r (active.getD k 0)) * v.getD k 0 := by
  unfold larsXX larsFit
  simp only [Finset.mul_sum, Finset.sum_mul]
  rw [Finset.sum_comm]
  exact Finset.sum_congr rfl fun k _ => Finset.sum_congr rfl fun r _ => by ring

/-- **C170.** `LassoLars` with the estimator of the commands returns the same path for data with the same sums of products, whatever
decompositions it finds. -/
theorem C170_lars (svd svd' : Mat K → SVD K) (X X' : Mat K) (y y' : List K) (h : ∀ A, (svd A).Of A) (h' : ∀ A, (svd' A).Of A)
    (hy : y.length = X.nr) (hy' : y'.length = X'.nr) (hpos : 0 < X.nr) (hpos' : 0 < X'.nr)
    (hs : SameSums X X' (vec y) (vec y')) (h0 : NoMoreColumns X) (h0' : NoMoreColumns X') (tol lambMin : K)
    (path : List (LassoLarsNode K)) :
    LarsReturns X' (vec y') tol lambMin (morseEst svd' X' y') path ↔ LarsReturns X (vec y) tol lambMin (morseEst svd X y) path := by
  have exy : larsXy X' (vec y') = larsXy X (vec y) := funext fun j => hs.xyAll h0 h0' j
  have exx : larsXX X' = larsXX X := by
    funext active v i
    rw [larsXX_gram, larsXX_gram]
    exact Finset.sum_congr rfl fun k _ => by rw [hs.gramAll h0 h0']
  have esign : joinFeatSign X' (vec y') = joinFeatSign X (vec y) := by
    have e : ∀ (X : Mat K) (y : Nat → K) j active coeff, ∑ r ∈ range X.nr, X.get r j * (y r - larsFit X active coeff r) =
        larsXy X y j - larsXX X active coeff j := by
      intro X y j active coeff
      unfold larsXy larsXX
      rw [← Finset.sum_sub_distrib]
      exact Finset.sum_congr rfl fun r _ => by ring
    funext j active coeff
    unfold joinFeatSign
    rw [e, e, exy, exx]
  have ejoin : tJoin X' (vec y') = tJoin X (vec y) := by
    unfold tJoin
    rw [exy, exx, hs.nc]
  have emove : larsMove X' (vec y') = larsMove X (vec y) := by
    unfold larsMove
    rw [esign]
  have einit : larsInit X' (vec y') = larsInit X (vec y) := by
    unfold larsInit
    rw [exy, hs.nc]
    simp [hpos.ne', hpos'.ne']
  have eest : morseEst svd' X' y' = morseEst svd X y := by
    funext k active signs
    have hs' : SameSums (activeCols X active) (activeCols X' active) (vec y) (vec y') :=
      ⟨rfl, fun i j _ _ => hs.gramAll h0 h0' _ _, fun j _ => hs.xyAll h0 h0' _, hs.yy⟩
    have eC : morsePenroseC (svd' (activeCols X' active)) (activeCols X' active) y' =
        morsePenroseC (svd (activeCols X active)) (activeCols X active) y := by
      unfold morsePenroseC
      have n1 : (activeCols X' active).nr = X'.nr := rfl
      have n2 : (activeCols X active).nr = X.nr := rfl
      rw [if_neg (by rw [n1, hy']; simp), if_neg (by rw [n2, hy]; simp)]
      refine congrArg some (List.map_congr_left fun j hj => ?_)
      exact svd_function_target hs' (h _) (h' _) (fun s => if s * s > 1 / 10 ^ 6 then 1 / s else s) (by simp) (List.mem_range.1 hj)
    have eD : morsePenroseD (svd' (activeCols X' active)) (activeCols X' active) signs =
        morsePenroseD (svd (activeCols X active)) (activeCols X active) signs := by
      have e : ∀ (d : SVD K) (A : Mat K), d.Of A → ∀ i, ∑ j ∈ range A.nc, (pseudoInverseXTX d A (1 / 10 ^ 6)).get i j * signs.getD j 0 =
          ∑ k ∈ range d.p, d.v i k * ((if d.s k * d.s k > 1 / 10 ^ 6 then 1 / (d.s k * d.s k) else 0) *
            ∑ j ∈ range A.nc, d.v j k * signs.getD j 0) := by
        intro d A _ i
        unfold pseudoInverseXTX
        simp only [Finset.sum_mul, Finset.mul_sum]
        rw [Finset.sum_comm]
        exact Finset.sum_congr rfl fun k _ => Finset.sum_congr rfl fun j _ => by ring
      unfold morsePenroseD
      have n1 : (activeCols X' active).nc = (activeCols X active).nc := rfl
      rw [n1]
      congr 2
      refine List.map_congr_left fun j hj => ?_
      have key := svd_function (h (activeCols X active)) (h' (activeCols X' active)) hs'.nc hs'.gram
        (fun s => if s * s > 1 / 10 ^ 6 then 1 / (s * s) else 0) (by simp) (fun j => signs.getD j 0) (List.mem_range.1 hj)
      have e1 := e _ _ (h (activeCols X active)) j
      have e2 := e _ _ (h' (activeCols X' active)) j
      rw [n1] at e2 key
      rw [e1, e2]
      exact key
    unfold morseEst
    simp only [eC, eD]
  have ebody : larsBody X' (vec y') tol lambMin (morseEst svd' X' y') = larsBody X (vec y) tol lambMin (morseEst svd X y) := by
    unfold larsBody
    rw [eest, ejoin, emove]
  unfold LarsReturns
  rw [einit, ebody]

end

/-- **C170.** Data with the rows in another order have the same sums. -/
theorem C170_rows (X X' : Mat ℝ) (y y' : Nat → ℝ) (ρ : Equiv.Perm Nat) (hnr : X'.nr = X.nr) (hnc : X'.nc = X.nc)
    (hρ : ∀ i, ρ i < X.nr ↔ i < X.nr) (hX : ∀ i j, i < X.nr → j < X.nc → X'.get i j = X.get (ρ i) j)
    (hy : ∀ i, i < X.nr → y' i = y (ρ i)) : SameSums X X' y y' := by
  refine ⟨hnc, fun i j hi hj => ?_, fun j hj => ?_, ?_⟩
  · rw [hnr, ← sum_range_perm ρ hρ (fun r => X.get r i * X.get r j)]
    exact Finset.sum_congr rfl fun r hr => by rw [hX r i (mem_range.1 hr) hi, hX r j (mem_range.1 hr) hj]
  · rw [hnr, ← sum_range_perm ρ hρ (fun r => X.get r j * y r)]
    exact Finset.sum_congr rfl fun r hr => by rw [hX r j (mem_range.1 hr) hj, hy r (mem_range.1 hr)]
  · rw [hnr, ← sum_range_perm ρ hρ (fun r => y r ^ 2)]
    exact Finset.sum_congr rfl fun r hr => by rw [hy r (mem_range.1 hr)]

/-! ### Orthogonal matching pursuit -/

/-- Only the values in the rows matter. -/
theorem Spec.SameSums.congr {X X' : Mat ℝ} {y y' z z' : Nat → ℝ} (hs : SameSums X X' y y') (hz : ∀ r < X.nr, z r = y r)
    (hz' : ∀ r < X'.nr, z' r = y' r) : SameSums X X' z z' := by
  refine ⟨hs.nc, hs.gram, fun j hj => ?_, ?_⟩
  · rw [Finset.sum_congr rfl fun r hr => by rw [hz' r (mem_range.1 hr)], hs.xy j hj]
    exact Finset.sum_congr rfl fun r hr => by rw [hz r (mem_range.1 hr)]
  · rw [Finset.sum_congr rfl fun r hr => by rw [hz' r (mem_range.1 hr)], hs.yy]
    exact Finset.sum_congr rfl fun r hr => by rw [hz r (mem_range.1 hr)]

/-- The residuals of coefficients for some of the columns. -/
theorem Spec.SameSums.residuals {X X' : Mat ℝ} {y y' : Nat → ℝ} (hs : SameSums X X' y y') (n : Nat) (idx : List Nat)
    (hn : n ≤ idx.length) (hidx : ∀ i ∈ idx, i < X.nc) (c : Nat → ℝ) :
    SameSums X X' (fun r => lin ⟨X.nr, n, fun r k => X.get r (idx.getD k 0)⟩ c r - y r)
      (fun r => lin ⟨X'.nr, n, fun r k => X'.get r (idx.getD k 0)⟩ c r - y' r) := by
  have hlt : ∀ k, k < n → idx.getD k 0 < X.nc := by
    intro k hk
    have hk' : k < idx.length := by omega
    have : idx.getD k 0 = idx[k] := by simp [hk']
    rw [this]
    exact hidx _ (List.getElem_mem hk')
  refine ⟨hs.nc, hs.gram, fun j hj => ?_, (hs.cols n idx hn hidx).sse c⟩
  have e : ∀ (X : Mat ℝ) (y : Nat → ℝ), ∑ r ∈ range X.nr, X.get r j * (lin ⟨X.nr, n, fun r k => X.get r (idx.getD k 0)⟩ c r - y r) =
      (∑ k ∈ range n, (∑ r ∈ range X.nr, X.get r j * X.get r (idx.getD k 0)) * c k) - ∑ r ∈ range X.nr, X.get r j * y r := by
    intro X y
    simp only [lin, mul_sub, Finset.sum_sub_distrib, Finset.mul_sum, Finset.sum_mul]
    rw [Finset.sum_comm]
    congr 1
    exact Finset.sum_congr rfl fun k _ => Finset.sum_congr rfl fun r _ => by ring
  rw [e, e, hs.xy j hj]
  congr 1
  exact Finset.sum_congr rfl fun k hk => by rw [hs.gram j _ hj (hlt k (mem_range.1 hk))]

/-- The states of two runs of `Omp`. -/
structure OmpSame (X X' : Mat ℝ) (st st' : OmpState) : Prop where
  sums : SameSums X X' (vec st.residuals) (vec st'.residuals)
  len : st.residuals.length = X.nr
  len' : st'.residuals.length = X'.nr
  model : st'.model = st.model
  coeff : st'.coeff = st.coeff
  order : st'.order = st.order

theorem OmpSame.proj {X X' : Mat ℝ} {st st' : OmpState} (h : OmpSame X X' st st') :
    ompProj X' st'.residuals = ompProj X st.residuals := by
  unfold ompProj
  rw [h.sums.nc]
  refine List.map_congr_left fun i hi => ?_
  have hi' := List.mem_range.1 hi
  have e1 := h.sums.xy i hi'
  have e2 : norm2 st'.residuals = norm2 st.residuals := by
    unfold norm2
    rw [h.len, h.len']
    exact congrArg Real.sqrt h.sums.yy
  have e3 : colNorm X' i = colNorm X i := by
    unfold colNorm
    rw [h.sums.gram i i hi' hi']
  rw [e2, e3]
  unfold vec at e1
  rw [e1]

/-- The two runs of `Omp` do the same: both panic, or both go on with the same root mean square error. -/
def OmpAgree (X X' : Mat ℝ) : Option (OmpState × ℝ) → Option (OmpState × ℝ) → Prop
  | none, none => True
  | some (st, e), some (st', e') => OmpSame X X' st st' ∧ e' = e
  | _, _ => False

theorem ompStep_same {svd svd' : Mat ℝ → SVD ℝ} {X X' : Mat ℝ} {y y' : List ℝ} (h : ∀ A, (svd A).Of A)
    (h' : ∀ A, (svd' A).Of A) (hy : y.length = X.nr) (hy' : y'.length = X'.nr) (hnr : X'.nr = X.nr) (hpos : 0 < X.nr)
    (hs : SameSums X X' (vec y) (vec y')) (current : Nat) {st st' : OmpState} (hst : OmpSame X X' st st') :
    OmpAgree X X' (ompStep svd X y current st) (ompStep svd' X' y' current st') := by
  unfold ompStep
  rw [hst.proj, hst.model, hst.order, hst.coeff]
  cases h1 : argmax (ompProj X st.residuals) with
  | none => trivial
  | some imax =>
  simp only [Option.bind_eq_bind, Option.bind_some]
  cases h2 : goSet st.model imax true with
  | none => trivial
  | some m =>
  simp only [Option.bind_some]
  cases h3 : goSet st.order current (imax : Int) with
  | none => trivial
  | some order =>
  simp only [Option.bind_some]
  unfold getDesignMatrix
  simp only [hnr, hs.nc]
  by_cases g1 : numFeatures m = 0
  · simp [g1, OmpAgree]
  by_cases g2 : 0 < X.nr ∧ (selectedFrom 0 m).any (fun i => decide (X.nc ≤ i)) = true
  · simp only [if_neg g1, if_pos g2]
    trivial
  simp only [if_neg g1, if_neg g2, Option.bind_some]
  have hidx : ∀ i ∈ selectedFrom 0 m, i < X.nc := by
    intro i hi
    by_contra hc
    exact g2 ⟨hpos, List.any_eq_true.2 ⟨i, hi, by simpa using hc⟩⟩
  have hl : numFeatures m ≤ (selectedFrom 0 m).length := by
    rw [selectedFrom_zero, numFeatures_eq_card]
    exact le_refl _
  have hs' := hs.cols (numFeatures m) (selectedFrom 0 m) hl hidx
  have hres := hs.residuals (numFeatures m) (selectedFrom 0 m) hl hidx
  rw [hnr] at hs' hres
  set D : Mat ℝ := ⟨X.nr, numFeatures m, fun j k => X.get j ((selectedFrom 0 m).getD k 0)⟩ with hD
  set D' : Mat ℝ := ⟨X.nr, numFeatures m, fun j k => X'.get j ((selectedFrom 0 m).getD k 0)⟩ with hD'
  obtain ⟨c, r, e1, e2, -, -⟩ := C170_fit (svd D) (svd' D') D D' y y' (h _) (h' _) hy (hy'.trans hnr) hs'
  rw [e1, e2]
  simp only [Option.bind_some]
  cases h4 : selectedFeatures m with
  | none => trivial
  | some selected =>
  simp only [Option.bind_some]
  cases h5 : fullCoeffLoop c (selected.map Int.ofNat) 0 st.coeff with
  | none => trivial
  | some full =>
  simp only [Option.bind_some]
  have hc : c.length = numFeatures m := by
    rw [fit_eq_some (d := svd D) (X := D) hy.symm, Option.some.injEq] at e1
    rw [← e1]
    simp [hD]
  have p1 : predict D c = some ((List.range X.nr).map (lin D (vec c))) := by
    unfold predict
    rw [if_neg (by simp [hc, hD])]
    rfl
  have p2 : predict D' c = some ((List.range X.nr).map (lin D' (vec c))) := by
    unfold predict
    rw [if_neg (by simp [hc, hD'])]
    rfl
  rw [p1, p2]
  have hz : ∀ (E : Mat ℝ) (z : List ℝ), z.length = X.nr → ∀ r < X.nr,
      vec (List.zipWith (· - ·) ((List.range X.nr).map (lin E (vec c))) z) r = lin E (vec c) r - vec z r := by
    intro E z hz r hr
    have hr' : r < z.length := by omega
    simp [vec, hr, hr']
  refine ⟨⟨?_, by simp [hy], by simp [hy', hnr], rfl, rfl, rfl⟩, ?_⟩
  · exact (hres (vec c)).congr (fun r hr => hz D y hy r hr) (fun r hr => hz D' y' (hy'.trans hnr) r (by omega))
  · have q : ∀ (E : Mat ℝ) (z : List ℝ), E.nr = X.nr → ∑ i ∈ range ((List.range X.nr).map (lin E (vec c))).length,
        (z.getD i 0 - ((List.range X.nr).map (lin E (vec c))).getD i 0) ^ 2 = sse E (vec c) (vec z) := by
      intro E z hE
      unfold Spec.sse
      rw [hE, List.length_map, List.length_range]
      refine Finset.sum_congr rfl fun i hi => ?_
      rw [getD_map_range, if_pos (mem_range.1 hi)]
      unfold vec
      ring
    rw [q D y rfl, q D' y' rfl, hs'.sse, hy, hy', hnr]

/-- **C170.** `Omp` returns the same on data with the same number of rows and the same sums of products, whatever decompositions it
finds. -/
theorem C170_omp (svd svd' : Mat ℝ → SVD ℝ) (X X' : Mat ℝ) (y y' : List ℝ) (h : ∀ A, (svd A).Of A)
    (h' : ∀ A, (svd' A).Of A) (hy : y.length = X.nr) (hy' : y'.length = X'.nr) (hnr : X'.nr = X.nr)
    (hs : SameSums X X' (vec y) (vec y')) (tol : ℝ) : omp svd' X' y' tol = omp svd X y tol := by
  rcases Nat.eq_zero_or_pos X.nr with h0 | hpos
  · unfold omp
    rw [if_pos (.inl (by omega)), if_pos (.inl (by omega))]
  have loop : ∀ fuel current st st', OmpSame X X' st st' →
      (ompLoop svd' X' y' tol fuel current st').map (fun s => (s.coeff, s.order)) =
        (ompLoop svd X y tol fuel current st).map (fun s => (s.coeff, s.order)) := by
    intro fuel
    induction fuel with
    | zero =>
      intro current st st' hst
      simp [ompLoop, hst.coeff, hst.order]
    | succ fuel ih =>
      intro current st st' hst
      have key := ompStep_same h h' hy hy' hnr hpos hs current hst
      unfold ompLoop
      cases h1 : ompStep svd X y current st with
      | none =>
        cases h2 : ompStep svd' X' y' current st' with
        | none => rfl
        | some q =>
          rw [h1, h2] at key
          exact key.elim
      | some p =>
        cases h2 : ompStep svd' X' y' current st' with
        | none =>
          rw [h1, h2] at key
          exact key.elim
        | some q =>
          obtain ⟨p1, e⟩ := p
          obtain ⟨q1, e'⟩ := q
          rw [h1, h2] at key
          obtain ⟨k1, rfl⟩ := key
          dsimp only
          by_cases ht : e' < tol
          · simp [ht, k1.coeff, k1.order]
          · simp only [if_neg ht]
            exact ih (current + 1) p1 q1 k1
  unfold omp
  rw [hs.nc, hnr, hy, hy', hnr]
  by_cases hc : X.nr = 0 ∨ X.nc = 0 ∨ X.nr ≠ X.nr
  · rw [if_pos hc, if_pos hc]
  rw [if_neg hc, if_neg hc]
  have key := loop X.nc 0 ⟨y, List.replicate X.nc false, List.replicate X.nc 0, List.replicate X.nc (-1)⟩
    ⟨y', List.replicate X.nc false, List.replicate X.nc 0, List.replicate X.nc (-1)⟩ ⟨hs, hy, hy', rfl, rfl, rfl⟩
  cases h1 : ompLoop svd X y tol X.nc 0 ⟨y, List.replicate X.nc false, List.replicate X.nc 0, List.replicate X.nc (-1)⟩ with
  | none =>
    rw [h1, Option.map_none, Option.map_eq_none_iff] at key
    rw [key]
  | some st =>
    rw [h1, Option.map_some, Option.map_eq_some_iff] at key
    obtain ⟨st', k1, k2⟩ := key
    obtain ⟨k3, k4⟩ := Prod.mk.inj k2
    rw [k1]
    dsimp only
    rw [k3, k4]

/-! ### Examples -/

/-- Three rows, two columns. -/
def sumsX : Mat ℝ := ⟨3, 2, fun i j => if j = 0 then (if i < 3 then 1 else 0) else if j = 1 then (if i < 3 then (i : ℝ) ^ 2 else 0) else 0⟩

/-- The same with the first and the last row exchanged. -/
def sumsX' : Mat ℝ := ⟨3, 2, fun i j => sumsX.get (Equiv.swap 0 2 i) j⟩

theorem swap_rows (i : Nat) : Equiv.swap 0 2 i < 3 ↔ i < 3 := by
  by_cases h0 : i = 0
  · subst h0; simp
  by_cases h2 : i = 2
  · subst h2; simp
  rw [Equiv.swap_apply_of_ne_of_ne h0 h2]

theorem sums_same : SameSums sumsX sumsX' (vec [1, 5, 2]) (vec [2, 5, 1]) := by
  refine C170_rows sumsX sumsX' _ _ (Equiv.swap 0 2) rfl rfl swap_rows (fun i j _ _ => rfl) fun i hi => ?_
  have hi' : i < 3 := hi
  interval_cases i
  · simp [vec]
  · rw [Equiv.swap_apply_of_ne_of_ne (by decide) (by decide)]
    simp [vec]
  · simp [vec]

/-- With the rows in another order and other decompositions the search and matching pursuit are the same. -/
example : ∃ svd : Mat ℝ → SVD ℝ, (∀ A, (svd A).Of A) ∧ ∀ svd' : Mat ℝ → SVD ℝ, (∀ A, (svd' A).Of A) →
    (∀ root maxQueue cutoff M pre s, SelectReaches (regressionSearch svd' sumsX' [2, 5, 1] root maxQueue cutoff) M pre s ↔
      SelectReaches (regressionSearch svd sumsX [1, 5, 2] root maxQueue cutoff) M pre s) ∧
    ∀ tol, omp svd' sumsX' [2, 5, 1] tol = omp svd sumsX [1, 5, 2] tol := by
  choose svd hsvd using C65_contract
  exact ⟨svd, hsvd, fun svd' hsvd' =>
    ⟨(C170_search svd svd' sumsX sumsX' [1, 5, 2] [2, 5, 1] hsvd hsvd' rfl rfl rfl (by decide) sums_same).1,
      C170_omp svd svd' sumsX sumsX' [1, 5, 2] [2, 5, 1] hsvd hsvd' rfl rfl rfl sums_same⟩⟩

/-- So are the lasso path and coordinate descent. -/
example (svd svd' : Mat ℝ → SVD ℝ) (h : ∀ A, (svd A).Of A) (h' : ∀ A, (svd' A).Of A) (path : List (LassoLarsNode ℝ)) :
    (LarsReturns sumsX' (vec [2, 5, 1]) lassoTol 1 (morseEst svd' sumsX' [2, 5, 1]) path ↔
      LarsReturns sumsX (vec [1, 5, 2]) lassoTol 1 (morseEst svd sumsX [1, 5, 2]) path) ∧
    lassoCrdDesc (lassoProblem sumsX' (vec [2, 5, 1]) 1 1 pureLasso) () none 100 =
      lassoCrdDesc (lassoProblem sumsX (vec [1, 5, 2]) 1 1 pureLasso) () none 100 := by
  have h0 : NoMoreColumns sumsX := by
    intro r j hj
    have hj' : 2 ≤ j := hj
    have n0 : j ≠ 0 := by omega
    have n1 : j ≠ 1 := by omega
    simp [sumsX, n0, n1]
  have h0' : NoMoreColumns sumsX' := fun r j hj => h0 _ j hj
  exact ⟨C170_lars svd svd' sumsX sumsX' [1, 5, 2] [2, 5, 1] h h' rfl rfl (by decide) (by decide) sums_same h0 h0' lassoTol 1 path,
    C170_crd sumsX sumsX' _ _ rfl sums_same h0 h0' 1 1 pureLasso () none 100⟩

end GoSelect
