import Verif.Model.Fit
import Verif.Spec.LeastSquares
import Verif.Proofs.Models
import Mathlib.Algebra.BigOperators.Ring.Finset
import Mathlib.Algebra.Order.BigOperators.Group.Finset
import Mathlib.Algebra.Order.Ring.Abs
import Mathlib.Tactic.FieldSimp
import Mathlib.Tactic.Positivity
import Mathlib.Tactic.Linarith
import Mathlib.Tactic.Ring

/-! Least squares from a singular value decomposition. -/

namespace GoSelect

open Finset Spec

section
variable {K : Type} [Field K] [LinearOrder K] [IsStrictOrderedRing K]

omit [LinearOrder K] [IsStrictOrderedRing K] in
theorem lin_sub (X : Mat K) (b c : Nat → K) (i : Nat) :
    lin X (fun j => b j - c j) i = lin X b i - lin X c i := by
  simp only [lin, mul_sub, sum_sub_distrib]

/-- Normal equations imply least squares. -/
theorem isLeastSquares_of_orthogonal (X : Mat K) (c y : Nat → K)
    (h : ∀ b, ∑ i ∈ range X.nr, (lin X c i - y i) * lin X b i = 0) : IsLeastSquares X c y := by
  intro b
  have key : sse X b y = sse X c y +
      2 * ∑ i ∈ range X.nr, (lin X c i - y i) * lin X (fun j => b j - c j) i +
      ∑ i ∈ range X.nr, (lin X (fun j => b j - c j) i) ^ 2 := by
    unfold sse
    rw [mul_sum, ← sum_add_distrib, ← sum_add_distrib]
    refine sum_congr rfl fun i _ => ?_
    rw [lin_sub]
    ring
  rw [key, h, mul_zero, add_zero]
  have : 0 ≤ ∑ i ∈ range X.nr, (lin X (fun j => b j - c j) i) ^ 2 :=
    sum_nonneg fun i _ => sq_nonneg _
  linarith

omit [LinearOrder K] [IsStrictOrderedRing K] in
/-- Orthonormal columns: coefficient `k` of a combination of the columns. -/
theorem orth_expand {n p : Nat} {q : Nat → Nat → K}
    (ho : ∀ k l, k < p → l < p → ∑ i ∈ range n, q i k * q i l = if k = l then 1 else 0)
    (t : Nat → K) {k : Nat} (hk : k < p) :
    ∑ i ∈ range n, q i k * ∑ l ∈ range p, q i l * t l = t k := by
  simp only [mul_sum]
  rw [sum_comm]
  have : ∀ l ∈ range p, ∑ i ∈ range n, q i k * (q i l * t l) = if l = k then t k else 0 := by
    intro l hl
    have h1 : ∑ i ∈ range n, q i k * (q i l * t l) = (∑ i ∈ range n, q i k * q i l) * t l := by
      rw [sum_mul]; exact sum_congr rfl fun i _ => by ring
    rw [h1, ho k l hk (mem_range.1 hl)]
    by_cases h : k = l
    · subst h; simp
    · simp [h, Ne.symm h]
  rw [sum_congr rfl this, sum_ite_eq' (range p) k, if_pos (mem_range.2 hk)]

theorem svd_lin {d : SVD K} {X : Mat K} (h : d.Of X) (b : Nat → K) {i : Nat} (hi : i < X.nr) :
    lin X b i = ∑ k ∈ range d.p, d.u i k * (d.s k * ∑ j ∈ range X.nc, d.v j k * b j) := by
  have h1 : lin X b i = ∑ j ∈ range X.nc, ∑ k ∈ range d.p, d.u i k * d.s k * d.v j k * b j := by
    refine sum_congr rfl fun j hj => ?_
    rw [h.prod i j hi (mem_range.1 hj), sum_mul]
  rw [h1, sum_comm]
  refine sum_congr rfl fun k _ => ?_
  rw [mul_sum, mul_sum]
  exact sum_congr rfl fun j _ => by ring

/-- Coefficient vector `V diag(w) Uᵀ y`. -/
def svdCoeff (d : SVD K) (X : Mat K) (w y : Nat → K) (j : Nat) : K :=
  ∑ k ∈ range d.p, d.v j k * ((∑ i ∈ range X.nr, d.u i k * y i) * w k)

/-- If `w` inverts every singular value that is not 0, `V diag(w) Uᵀ y` solves the least-squares
problem. -/
theorem svdCoeff_leastSquares {d : SVD K} {X : Mat K} (h : d.Of X) (w y : Nat → K)
    (hw : ∀ k, k < d.p → d.s k = 0 ∨ d.s k * w k = 1) :
    IsLeastSquares X (svdCoeff d X w y) y := by
  set c := fun k => ∑ i ∈ range X.nr, d.u i k * y i with hc
  have hpred : ∀ i, i < X.nr → lin X (svdCoeff d X w y) i =
      ∑ k ∈ range d.p, d.u i k * (d.s k * (c k * w k)) := by
    intro i hi
    rw [svd_lin h _ hi]
    refine sum_congr rfl fun k hk => ?_
    have := orth_expand h.vOrth (fun l => c l * w l) (mem_range.1 hk)
    unfold svdCoeff
    rw [← this]
  have hres : ∀ k, k < d.p →
      (∑ i ∈ range X.nr, (lin X (svdCoeff d X w y) i - y i) * d.u i k) * d.s k = 0 := by
    intro k hk
    have h1 : ∑ i ∈ range X.nr, (lin X (svdCoeff d X w y) i - y i) * d.u i k =
        d.s k * (c k * w k) - c k := by
      have e : ∑ i ∈ range X.nr, (lin X (svdCoeff d X w y) i - y i) * d.u i k =
          (∑ i ∈ range X.nr, d.u i k * ∑ l ∈ range d.p, d.u i l * (d.s l * (c l * w l))) - c k := by
        rw [hc, ← sum_sub_distrib]
        refine sum_congr rfl fun i hi => ?_
        rw [hpred i (mem_range.1 hi)]
        ring
      rw [e, orth_expand h.uOrth _ hk]
    rw [h1]
    rcases hw k hk with h0 | h0
    · rw [h0]; ring
    · have : (d.s k * (c k * w k) - c k) * d.s k = c k * (d.s k * w k - 1) * d.s k := by ring
      rw [this, h0]; ring
  refine isLeastSquares_of_orthogonal X _ y fun b => ?_
  have e : ∀ i ∈ range X.nr, (lin X (svdCoeff d X w y) i - y i) * lin X b i =
      ∑ k ∈ range d.p, (lin X (svdCoeff d X w y) i - y i) * d.u i k * d.s k *
        (∑ j ∈ range X.nc, d.v j k * b j) := by
    intro i hi
    rw [svd_lin h b (mem_range.1 hi), mul_sum]
    exact sum_congr rfl fun k _ => by ring
  rw [sum_congr rfl e, sum_comm]
  refine sum_eq_zero fun k hk => ?_
  rw [← sum_mul, ← sum_mul, hres k (mem_range.1 hk), zero_mul]

theorem invSigma_spec {s : K} (h : s = 0 ∨ 1 / 10 ^ 6 < |s|) : s = 0 ∨ s * invSigma s = 1 := by
  rcases h with h | h
  · exact Or.inl h
  · right
    have hs : s ≠ 0 := by
      rintro rfl
      rw [abs_zero] at h
      have : (0 : K) < 1 / 10 ^ 6 := by positivity
      linarith
    rw [invSigma, if_pos h]
    field_simp

end

section
variable {K : Type} [Field K] [LinearOrder K]

theorem fit_eq_some {d : SVD K} {X : Mat K} {y : List K} (h : X.nr = y.length) :
    fit d X y = some ((List.range X.nc).map (svdCoeff d X (fun k => invSigma (d.s k)) (vec y))) := by
  rw [fit, if_neg (by simpa using h)]
  rfl

end

theorem getD_map_range {K : Type} (f : Nat → K) (n i : Nat) (z : K) :
    ((List.range n).map f).getD i z = if i < n then f i else z := by
  by_cases h : i < n
  · rw [if_pos h, List.getD_eq_getElem?_getD]
    simp [h]
  · rw [if_neg h, List.getD_eq_getElem?_getD]
    simp [h]

section
variable {K : Type} [CommRing K]

theorem lin_congr (X : Mat K) {b c : Nat → K} (h : ∀ j, j < X.nc → b j = c j) (i : Nat) :
    lin X b i = lin X c i :=
  sum_congr rfl fun j hj => by rw [h j (mem_range.1 hj)]

theorem sse_congr (X : Mat K) {b c y z : Nat → K} (h : ∀ j, j < X.nc → b j = c j)
    (hy : ∀ i, i < X.nr → y i = z i) : sse X b y = sse X c z :=
  sum_congr rfl fun i hi => by rw [lin_congr X h i, hy i (mem_range.1 hi)]

/-- The modelled `Rss` is the sum of squared errors. -/
theorem rss_eq_some {X : Mat K} {c y : List K} (hc : c.length = X.nc) (hy : y.length = X.nr) :
    rss X c y = some (sse X (vec c) (vec y)) := by
  have hp : predict X c = some ((List.range X.nr).map (lin X (vec c))) := by
    simp only [predict, hc, ne_eq, not_true, if_false]
    rfl
  rw [rss, hp]
  simp only [List.length_map, List.length_range, hy, ne_eq, not_true, if_false, Option.some.injEq]
  refine sum_congr rfl fun i hi => ?_
  rw [getD_map_range, if_pos (mem_range.1 hi)]
  simp only [vec]
  ring

end

end GoSelect
