import Verif.Model.PseudoInverse
import Verif.Spec.MoorePenrose
import Verif.Spec.LeastSquares
import Verif.Proofs.LeastSquares
import Verif.Proofs.Orthonormal
import Verif.Proofs.SvdExists
import Mathlib.Data.Matrix.Diagonal
import Mathlib.Algebra.BigOperators.Field
import Mathlib.Algebra.Order.Field.Rat
import Mathlib.Tactic.NormNum

/-!
# C65: pseudo-inverses, C66: hat matrix
-/

namespace GoSelect

open Finset Spec Matrix

/-- The Moore-Penrose inverse is unique. -/
theorem IsMoorePenrose_unique {K : Type} [CommRing K] {m n : Type} [Fintype m] [Fintype n]
    {A : Matrix m n K} {P Q : Matrix n m K} (hP : IsMoorePenrose A P) (hQ : IsMoorePenrose A Q) : P = Q := by
  have h1 : A * P = A * Q := by
    have e1 : A * P = (A * Q) * (A * P) := by rw [← Matrix.mul_assoc, hQ.apa]
    have e2 : A * Q = (A * P) * (A * Q) := by rw [← Matrix.mul_assoc, hP.apa]
    calc A * P = (A * P)ᵀ := hP.ap.symm
      _ = ((A * Q) * (A * P))ᵀ := by rw [← e1]
      _ = (A * P)ᵀ * (A * Q)ᵀ := Matrix.transpose_mul _ _
      _ = (A * P) * (A * Q) := by rw [hP.ap, hQ.ap]
      _ = A * Q := e2.symm
  have h2 : P * A = Q * A := by
    have e1 : P * A = (P * A) * (Q * A) := by rw [Matrix.mul_assoc, ← Matrix.mul_assoc A, hQ.apa]
    have e2 : Q * A = (Q * A) * (P * A) := by rw [Matrix.mul_assoc, ← Matrix.mul_assoc A, hP.apa]
    calc P * A = (P * A)ᵀ := hP.pa.symm
      _ = ((P * A) * (Q * A))ᵀ := by rw [← e1]
      _ = (Q * A)ᵀ * (P * A)ᵀ := Matrix.transpose_mul _ _
      _ = (Q * A) * (P * A) := by rw [hP.pa, hQ.pa]
      _ = Q * A := e2.symm
  calc P = P * A * P := hP.pap.symm
    _ = Q * A * P := by rw [h2]
    _ = Q * (A * P) := Matrix.mul_assoc _ _ _
    _ = Q * (A * Q) := by rw [h1]
    _ = Q * A * Q := (Matrix.mul_assoc _ _ _).symm
    _ = Q := hQ.pap

variable {K : Type} [Field K] [LinearOrder K]

/-- The factors as matrices. -/
def uMat (d : SVD K) (n : Nat) : Matrix (Fin n) (Fin d.p) K := of fun i k => d.u i k
def vMat (d : SVD K) (n : Nat) : Matrix (Fin n) (Fin d.p) K := of fun i k => d.v i k

theorem uMat_orth {d : SVD K} {X : Mat K} (h : d.Of X) : (uMat d X.nr)ᵀ * uMat d X.nr = 1 := by
  ext k l
  rw [Matrix.mul_apply, Matrix.one_apply]
  simp only [uMat, Matrix.transpose_apply, Matrix.of_apply]
  rw [Fin.sum_univ_eq_sum_range (fun i => d.u i k * d.u i l) X.nr, h.uOrth k l k.2 l.2]
  simp [Fin.ext_iff]

theorem vMat_orth {d : SVD K} {X : Mat K} (h : d.Of X) : (vMat d X.nc)ᵀ * vMat d X.nc = 1 := by
  ext k l
  rw [Matrix.mul_apply, Matrix.one_apply]
  simp only [vMat, Matrix.transpose_apply, Matrix.of_apply]
  rw [Fin.sum_univ_eq_sum_range (fun i => d.v i k * d.v i l) X.nc, h.vOrth k l k.2 l.2]
  simp [Fin.ext_iff]

/-- A product with a diagonal matrix in the middle. -/
theorem mul_diag_mul {m n p : Nat} (A : Matrix (Fin m) (Fin p) K) (w : Nat → K)
    (B : Matrix (Fin n) (Fin p) K) (i : Fin m) (j : Fin n) :
    (A * diagonal (fun k : Fin p => w k) * Bᵀ) i j = ∑ k : Fin p, A i k * w k * B j k := by
  rw [Matrix.mul_apply]
  simp [Matrix.mul_diagonal]

theorem svd_matrix {d : SVD K} {X : Mat K} (h : d.Of X) :
    toMatrix X X.nr X.nc = uMat d X.nr * diagonal (fun k : Fin d.p => d.s k) * (vMat d X.nc)ᵀ := by
  ext i j
  rw [mul_diag_mul]
  simp only [toMatrix, uMat, vMat, Matrix.of_apply]
  rw [Fin.sum_univ_eq_sum_range (fun k => d.u i k * d.s k * d.v j k) d.p, h.prod i j i.2 j.2]

/-- `V diag(w) Uᵀ` for `w` that inverts the non-zero values and is 0 for the others. -/
theorem moorePenrose_of_diag {m n p : Nat} (U : Matrix (Fin m) (Fin p) K) (V : Matrix (Fin n) (Fin p) K)
    (hU : Uᵀ * U = 1) (hV : Vᵀ * V = 1) (s w : Nat → K)
    (hw : ∀ k, k < p → s k * w k * s k = s k ∧ w k * s k * w k = w k) :
    IsMoorePenrose (U * diagonal (fun k : Fin p => s k) * Vᵀ) (V * diagonal (fun k : Fin p => w k) * Uᵀ) := by
  have hap : U * diagonal (fun k : Fin p => s k) * Vᵀ * (V * diagonal (fun k : Fin p => w k) * Uᵀ) =
      U * diagonal (fun k : Fin p => s k * w k) * Uᵀ := by
    calc _ = U * diagonal (fun k : Fin p => s k) * (Vᵀ * V) * diagonal (fun k : Fin p => w k) * Uᵀ := by
          simp only [Matrix.mul_assoc]
      _ = _ := by rw [hV, Matrix.mul_one, Matrix.mul_assoc U, Matrix.diagonal_mul_diagonal]
  have hpa : V * diagonal (fun k : Fin p => w k) * Uᵀ * (U * diagonal (fun k : Fin p => s k) * Vᵀ) =
      V * diagonal (fun k : Fin p => w k * s k) * Vᵀ := by
    calc _ = V * diagonal (fun k : Fin p => w k) * (Uᵀ * U) * diagonal (fun k : Fin p => s k) * Vᵀ := by
          simp only [Matrix.mul_assoc]
      _ = _ := by rw [hU, Matrix.mul_one, Matrix.mul_assoc V, Matrix.diagonal_mul_diagonal]
  refine ⟨?_, ?_, ?_, ?_⟩
  · rw [hap]
    calc _ = U * diagonal (fun k : Fin p => s k * w k) * (Uᵀ * U) * diagonal (fun k : Fin p => s k) * Vᵀ := by
          simp only [Matrix.mul_assoc]
      _ = _ := by
        rw [hU, Matrix.mul_one, Matrix.mul_assoc U, Matrix.diagonal_mul_diagonal]
        congr 3
        ext k
        exact (hw k k.2).1
  · rw [hpa]
    calc _ = V * diagonal (fun k : Fin p => w k * s k) * (Vᵀ * V) * diagonal (fun k : Fin p => w k) * Uᵀ := by
          simp only [Matrix.mul_assoc]
      _ = _ := by
        rw [hV, Matrix.mul_one, Matrix.mul_assoc V, Matrix.diagonal_mul_diagonal]
        congr 3
        ext k
        exact (hw k k.2).2
  · rw [hap]
    simp only [Matrix.transpose_mul, Matrix.transpose_transpose, Matrix.diagonal_transpose, Matrix.mul_assoc]
  · rw [hpa]
    simp only [Matrix.transpose_mul, Matrix.transpose_transpose, Matrix.diagonal_transpose, Matrix.mul_assoc]

variable [IsStrictOrderedRing K]

omit [IsStrictOrderedRing K] in
theorem toMatrix_diag (m n p : Nat) (a b : Nat → Nat → K) (w : Nat → K) :
    toMatrix ⟨m, n, fun i j => ∑ k ∈ range p, a i k * w k * b j k⟩ m n =
      (of fun (i : Fin m) (k : Fin p) => a i k) * diagonal (fun k : Fin p => w k) *
        (of fun (i : Fin n) (k : Fin p) => b i k)ᵀ := by
  ext i j
  rw [mul_diag_mul]
  simp only [toMatrix, Matrix.of_apply]
  rw [Fin.sum_univ_eq_sum_range (fun k => a i k * w k * b j k) p]

/-- Reciprocals of the values above the tolerance. -/
def recipAbove (tol : K) (s : Nat → K) (k : Nat) : K := if s k > tol then 1 / s k else 0

theorem recipAbove_spec {tol : K} (ht : 0 ≤ tol) {s : Nat → K} {k : Nat} (h : s k = 0 ∨ tol < s k) :
    s k * recipAbove tol s k * s k = s k ∧ recipAbove tol s k * s k * recipAbove tol s k = recipAbove tol s k := by
  unfold recipAbove
  rcases h with h0 | h0
  · have : ¬ s k > tol := by rw [h0]; exact not_lt.2 ht
    simp only [if_neg this, h0]
    simp
  · have hne : s k ≠ 0 := (ht.trans_lt h0).ne'
    have h0' : s k > tol := h0
    simp only [if_pos h0']
    constructor <;> field_simp

/-- C65: `PseudoInverse` satisfies the Moore-Penrose equations. -/
theorem C65_pseudoInverse (d : SVD K) (X : Mat K) (tol : K) (h : d.Of X) (ht : 0 ≤ tol)
    (hs : ∀ k, k < d.p → d.s k = 0 ∨ tol < d.s k) :
    (pseudoInverse d X tol).nr = X.nc ∧ (pseudoInverse d X tol).nc = X.nr ∧
      IsMoorePenrose (toMatrix X X.nr X.nc) (toMatrix (pseudoInverse d X tol) X.nc X.nr) := by
  refine ⟨rfl, rfl, ?_⟩
  have e : toMatrix (pseudoInverse d X tol) X.nc X.nr = vMat d X.nc *
      diagonal (fun k : Fin d.p => recipAbove tol d.s k) * (uMat d X.nr)ᵀ :=
    toMatrix_diag X.nc X.nr d.p d.v d.u (recipAbove tol d.s)
  rw [e, svd_matrix h]
  exact moorePenrose_of_diag _ _ (uMat_orth h) (vMat_orth h) d.s (recipAbove tol d.s)
    (fun k hk => recipAbove_spec ht (hs k hk))

omit [IsStrictOrderedRing K] in
/-- `Xᵀ X = V diag(s²) Vᵀ`. -/
theorem xtx_matrix {d : SVD K} {X : Mat K} (h : d.Of X) :
    (toMatrix X X.nr X.nc)ᵀ * toMatrix X X.nr X.nc =
      vMat d X.nc * diagonal (fun k : Fin d.p => d.s k * d.s k) * (vMat d X.nc)ᵀ := by
  rw [svd_matrix h]
  calc _ = vMat d X.nc * diagonal (fun k : Fin d.p => d.s k) * ((uMat d X.nr)ᵀ * uMat d X.nr) *
        diagonal (fun k : Fin d.p => d.s k) * (vMat d X.nc)ᵀ := by
        simp only [Matrix.transpose_mul, Matrix.transpose_transpose, Matrix.diagonal_transpose, Matrix.mul_assoc]
    _ = _ := by
      rw [uMat_orth h, Matrix.mul_one, Matrix.mul_assoc (vMat d X.nc), Matrix.diagonal_mul_diagonal]

omit [IsStrictOrderedRing K] in
theorem pinvXTX_matrix (d : SVD K) (X : Mat K) (tol : K) :
    toMatrix (pseudoInverseXTX d X tol) X.nc X.nc = vMat d X.nc *
      diagonal (fun k : Fin d.p => recipAbove tol (fun k => d.s k * d.s k) k) * (vMat d X.nc)ᵀ :=
  toMatrix_diag X.nc X.nc d.p d.v d.v (recipAbove tol (fun k => d.s k * d.s k))

/-- C65: `PseudoInverseXTX` satisfies the Moore-Penrose equations of `Xᵀ X`. -/
theorem C65_pseudoInverseXTX (d : SVD K) (X : Mat K) (tol : K) (h : d.Of X) (ht : 0 ≤ tol)
    (hs : ∀ k, k < d.p → d.s k = 0 ∨ tol < d.s k * d.s k) :
    (pseudoInverseXTX d X tol).nr = X.nc ∧ (pseudoInverseXTX d X tol).nc = X.nc ∧
      IsMoorePenrose ((toMatrix X X.nr X.nc)ᵀ * toMatrix X X.nr X.nc)
        (toMatrix (pseudoInverseXTX d X tol) X.nc X.nc) := by
  refine ⟨rfl, rfl, ?_⟩
  rw [pinvXTX_matrix, xtx_matrix h]
  refine moorePenrose_of_diag _ _ (vMat_orth h) (vMat_orth h) (fun k => d.s k * d.s k) _ ?_
  intro k hk
  refine recipAbove_spec (s := fun k => d.s k * d.s k) ht ?_
  rcases hs k hk with h0 | h0
  · left; simp [h0]
  · exact .inr h0

omit [LinearOrder K] [IsStrictOrderedRing K] in
/-- `V diag(w) Uᵀ` has smaller norm than every other solution: coefficients in the row space of `X`. -/
theorem sum_sq_split {n : Nat} (a b : Nat → K) (h : ∑ j ∈ range n, a j * (b j - a j) = 0) :
    ∑ j ∈ range n, b j ^ 2 = ∑ j ∈ range n, a j ^ 2 + ∑ j ∈ range n, (b j - a j) ^ 2 := by
  have : ∀ j ∈ range n, b j ^ 2 = a j ^ 2 + (b j - a j) ^ 2 + 2 * (a j * (b j - a j)) := fun j _ => by ring
  rw [Finset.sum_congr rfl this, Finset.sum_add_distrib, Finset.sum_add_distrib, ← Finset.mul_sum, h]
  ring

/-- Two least-squares solutions have the same predictions. -/
theorem leastSquares_lin_eq (X : Mat K) (c b y : Nat → K) (hc : IsLeastSquares X c y)
    (hb : IsLeastSquares X b y) (i : Nat) (hi : i < X.nr) : lin X b i = lin X c i := by
  have h0 : sse X b y = sse X c y := le_antisymm (hb c) (hc b)
  have h1 := hc (fun j => (b j + c j) / 2)
  have hlin : ∀ i, lin X (fun j => (b j + c j) / 2) i = (lin X b i + lin X c i) / 2 := by
    intro i
    unfold lin
    rw [← Finset.sum_add_distrib, Finset.sum_div]
    exact Finset.sum_congr rfl (fun j _ => by ring)
  have key : sse X b y + sse X c y = 2 * sse X (fun j => (b j + c j) / 2) y +
      (1 / 2) * ∑ i ∈ range X.nr, (lin X b i - lin X c i) ^ 2 := by
    unfold sse
    rw [Finset.mul_sum, Finset.mul_sum, ← Finset.sum_add_distrib, ← Finset.sum_add_distrib]
    refine Finset.sum_congr rfl fun i _ => ?_
    rw [hlin]
    ring
  have h2 : ∑ i ∈ range X.nr, (lin X b i - lin X c i) ^ 2 = 0 :=
    le_antisymm (by linarith) (Finset.sum_nonneg fun _ _ => sq_nonneg _)
  rw [Finset.sum_eq_zero_iff_of_nonneg fun _ _ => sq_nonneg _] at h2
  have h4 : lin X b i - lin X c i = 0 := pow_eq_zero_iff two_ne_zero |>.1 (h2 i (mem_range.2 hi))
  linarith

/-- C65: `MorsePenroseCD.C` returns the least-squares coefficients of smallest norm. -/
theorem C65_minimum_norm (d : SVD K) (X : Mat K) (y c : List K) (h : d.Of X)
    (hs : ∀ k, k < d.p → d.s k = 0 ∨ 1 / 10 ^ 6 < d.s k * d.s k) (hc : morsePenroseC d X y = some c) :
    c.length = X.nc ∧ IsLeastSquares X (vec c) (vec y) ∧
      ∀ b, IsLeastSquares X b (vec y) →
        ∑ j ∈ range X.nc, vec c j ^ 2 ≤ ∑ j ∈ range X.nc, b j ^ 2 ∧
        (∑ j ∈ range X.nc, b j ^ 2 = ∑ j ∈ range X.nc, vec c j ^ 2 → ∀ j, j < X.nc → b j = vec c j) := by
  unfold morsePenroseC at hc
  split at hc
  · cases hc
  obtain rfl := Option.some.inj hc
  set w : Nat → K := fun k => if d.s k * d.s k > 1 / 10 ^ 6 then 1 / d.s k else d.s k with hw
  have hw0 : ∀ k, k < d.p → (d.s k = 0 ∧ w k = 0) ∨ (d.s k ≠ 0 ∧ d.s k * w k = 1) := by
    intro k hk
    rcases hs k hk with h0 | h0
    · left
      refine ⟨h0, ?_⟩
      simp only [hw, h0]
      rw [if_neg]
      rw [mul_zero, gt_iff_lt, not_lt]
      positivity
    · right
      have h0' : d.s k * d.s k > 1 / 10 ^ 6 := h0
      have hne : d.s k ≠ 0 := by
        intro h00
        rw [h00, mul_zero] at h0
        exact absurd h0 (not_lt.2 (by positivity))
      refine ⟨hne, ?_⟩
      simp only [hw, if_pos h0']
      field_simp
  have hcoef : ∀ j, j < X.nc → vec ((List.range X.nc).map (fun j => ∑ k ∈ range d.p, d.v j k *
      (w k * ∑ i ∈ range X.nr, d.u i k * y.getD i 0))) j = svdCoeff d X w (vec y) j := by
    intro j hj
    unfold vec svdCoeff
    rw [getD_map_range, if_pos hj]
    exact Finset.sum_congr rfl (fun k _ => by ring)
  have hls' : IsLeastSquares X (svdCoeff d X w (vec y)) (vec y) :=
    svdCoeff_leastSquares h w (vec y) (fun k hk => (hw0 k hk).elim (fun a => .inl a.1) (fun a => .inr a.2))
  set c := (List.range X.nc).map (fun j => ∑ k ∈ range d.p, d.v j k *
      (w k * ∑ i ∈ range X.nr, d.u i k * y.getD i 0)) with hcdef
  have hls : IsLeastSquares X (vec c) (vec y) := by
    intro b
    rw [sse_congr X hcoef (fun _ _ => rfl)]
    exact hls' b
  refine ⟨by simp [hcdef], hls, fun b hb => ?_⟩
  -- the difference of two solutions is orthogonal to the right singular vectors of non-zero values
  have hv : ∀ k, k < d.p → d.s k ≠ 0 → ∑ j ∈ range X.nc, d.v j k * (b j - vec c j) = 0 := by
    intro k hk hne
    have hz : ∀ i, i < X.nr → lin X (fun j => b j - vec c j) i = 0 := by
      intro i hi
      rw [lin_sub, leastSquares_lin_eq X (vec c) b (vec y) hls hb i hi, sub_self]
    have h1 : ∑ i ∈ range X.nr, d.u i k * lin X (fun j => b j - vec c j) i =
        d.s k * ∑ j ∈ range X.nc, d.v j k * (b j - vec c j) := by
      rw [← orth_expand h.uOrth (fun l => d.s l * ∑ j ∈ range X.nc, d.v j l * (b j - vec c j)) hk]
      exact Finset.sum_congr rfl (fun i hi => by rw [svd_lin h _ (mem_range.1 hi)])
    rw [Finset.sum_eq_zero (fun i hi => by rw [hz i (mem_range.1 hi), mul_zero])] at h1
    rcases mul_eq_zero.1 h1.symm with h2 | h2
    · exact absurd h2 hne
    · exact h2
  have horth : ∑ j ∈ range X.nc, vec c j * (b j - vec c j) = 0 := by
    have e : ∀ j ∈ range X.nc, vec c j * (b j - vec c j) = ∑ k ∈ range d.p,
        (w k * ∑ i ∈ range X.nr, d.u i k * vec y i) * (d.v j k * (b j - vec c j)) := by
      intro j hj
      have e1 : vec c j = ∑ k ∈ range d.p, d.v j k * ((∑ i ∈ range X.nr, d.u i k * vec y i) * w k) :=
        hcoef j (mem_range.1 hj)
      generalize b j - vec c j = r
      rw [e1, Finset.sum_mul]
      exact Finset.sum_congr rfl (fun k _ => by ring)
    rw [Finset.sum_congr rfl e, Finset.sum_comm]
    refine Finset.sum_eq_zero (fun k hk => ?_)
    rw [← Finset.mul_sum]
    rcases hw0 k (mem_range.1 hk) with h0 | h0
    · rw [h0.2, zero_mul, zero_mul]
    · rw [hv k (mem_range.1 hk) h0.1, mul_zero]
  have hsplit := sum_sq_split (vec c) b horth
  have hnn : 0 ≤ ∑ j ∈ range X.nc, (b j - vec c j) ^ 2 := Finset.sum_nonneg fun _ _ => sq_nonneg _
  refine ⟨by linarith, fun heq j hj => ?_⟩
  have hz : ∑ j ∈ range X.nc, (b j - vec c j) ^ 2 = 0 := by linarith
  rw [Finset.sum_eq_zero_iff_of_nonneg fun _ _ => sq_nonneg _] at hz
  have := pow_eq_zero_iff two_ne_zero |>.1 (hz j (mem_range.2 hj))
  linarith

/-- C65: a singular value between 0 and 1e-3 is used as it is instead of its reciprocal; the coefficients are
then not a least-squares solution. -/
theorem C65_small_values : ∃ (d : SVD ℚ) (X : Mat ℚ) (y c : List ℚ), d.Of X ∧
    morsePenroseC d X y = some c ∧ ¬ IsLeastSquares X (vec c) (vec y) := by
  refine ⟨⟨1, fun _ _ => 1, fun _ => 1 / 1000, fun _ _ => 1⟩, ⟨1, 1, fun _ _ => 1 / 1000⟩, [1], _, ?_, rfl, ?_⟩
  · refine ⟨rfl, ?_, ?_, ?_, ?_, ?_⟩
    · intro i j hi hj; simp
    · intro k l hk hl
      have : k = 0 := by simpa using hk
      have : l = 0 := by simpa using hl
      subst_vars; simp
    · intro k l hk hl
      have : k = 0 := by simpa using hk
      have : l = 0 := by simpa using hl
      subst_vars; simp
    · intro k _; norm_num
    · intro k l _ _; exact le_refl _
  · intro hls
    refine absurd (hls (fun _ => 1000)) (not_le.2 ?_)
    decide +kernel

/-! ### C66 -/

/-- The hat matrix in terms of the decomposition. -/
theorem hat_matrix {d : SVD K} {X : Mat K} (h : d.Of X)
    (hs : ∀ k, k < d.p → d.s k = 0 ∨ 1 / 10 ^ 6 < d.s k * d.s k) :
    toMatrix (denumMatrixGcv d X) X.nr X.nr =
      uMat d X.nr * diagonal (fun k : Fin d.p => if d.s k = 0 then (0 : K) else 1) * (uMat d X.nr)ᵀ := by
  have e : toMatrix (denumMatrixGcv d X) X.nr X.nr = toMatrix X X.nr X.nc *
      (toMatrix (pseudoInverseXTX d X (1 / 10 ^ 6)) X.nc X.nc * (toMatrix X X.nr X.nc)ᵀ) := by
    ext i j
    rw [Matrix.mul_apply]
    simp only [Matrix.mul_apply, toMatrix, Matrix.of_apply, Matrix.transpose_apply, denumMatrixGcv]
    rw [Fin.sum_univ_eq_sum_range (fun a => X.get i a * ∑ b : Fin X.nc,
      (pseudoInverseXTX d X (1 / 10 ^ 6)).get a b * X.get j b) X.nc]
    refine Finset.sum_congr rfl (fun a _ => ?_)
    rw [Fin.sum_univ_eq_sum_range (fun b => (pseudoInverseXTX d X (1 / 10 ^ 6)).get a b * X.get j b) X.nc]
  rw [e, pinvXTX_matrix, svd_matrix h]
  calc _ = uMat d X.nr * diagonal (fun k : Fin d.p => d.s k) * ((vMat d X.nc)ᵀ * vMat d X.nc) *
        diagonal (fun k : Fin d.p => recipAbove (1 / 10 ^ 6) (fun k => d.s k * d.s k) k) *
        ((vMat d X.nc)ᵀ * vMat d X.nc) * diagonal (fun k : Fin d.p => d.s k) * (uMat d X.nr)ᵀ := by
        simp only [Matrix.transpose_mul, Matrix.transpose_transpose, Matrix.diagonal_transpose, Matrix.mul_assoc]
    _ = _ := by
      rw [vMat_orth h, Matrix.mul_one, Matrix.mul_one, Matrix.mul_assoc (uMat d X.nr),
        Matrix.diagonal_mul_diagonal, Matrix.mul_assoc (uMat d X.nr), Matrix.diagonal_mul_diagonal]
      congr 3
      funext k
      rcases hs k k.2 with h0 | h0
      · simp [h0]
      · have h0' : d.s k * d.s k > 1 / 10 ^ 6 := h0
        have hne : d.s k ≠ 0 := by
          intro h00
          rw [h00, mul_zero] at h0
          exact absurd h0 (not_lt.2 (by positivity))
        simp only [recipAbove, if_pos h0', if_neg hne]
        field_simp

/-- C66: `DenumMatrixGcv` is symmetric and idempotent and leaves every column of `X` as it is. -/
theorem C66_projection (d : SVD K) (X : Mat K) (h : d.Of X)
    (hs : ∀ k, k < d.p → d.s k = 0 ∨ 1 / 10 ^ 6 < d.s k * d.s k) :
    (denumMatrixGcv d X).nr = X.nr ∧ (denumMatrixGcv d X).nc = X.nr ∧
    (toMatrix (denumMatrixGcv d X) X.nr X.nr)ᵀ = toMatrix (denumMatrixGcv d X) X.nr X.nr ∧
    toMatrix (denumMatrixGcv d X) X.nr X.nr * toMatrix (denumMatrixGcv d X) X.nr X.nr =
      toMatrix (denumMatrixGcv d X) X.nr X.nr ∧
    toMatrix (denumMatrixGcv d X) X.nr X.nr * toMatrix X X.nr X.nc = toMatrix X X.nr X.nc := by
  refine ⟨rfl, rfl, ?_, ?_, ?_⟩
  · rw [hat_matrix h hs]
    simp only [Matrix.transpose_mul, Matrix.transpose_transpose, Matrix.diagonal_transpose, Matrix.mul_assoc]
  · rw [hat_matrix h hs]
    calc _ = uMat d X.nr * diagonal (fun k : Fin d.p => if d.s k = 0 then (0 : K) else 1) *
          ((uMat d X.nr)ᵀ * uMat d X.nr) * diagonal (fun k : Fin d.p => if d.s k = 0 then (0 : K) else 1) *
          (uMat d X.nr)ᵀ := by simp only [Matrix.mul_assoc]
      _ = _ := by
        rw [uMat_orth h, Matrix.mul_one, Matrix.mul_assoc (uMat d X.nr), Matrix.diagonal_mul_diagonal]
        congr 3
        funext k
        by_cases hk : d.s k = 0 <;> simp [hk]
  · rw [hat_matrix h hs, svd_matrix h]
    calc _ = uMat d X.nr * diagonal (fun k : Fin d.p => if d.s k = 0 then (0 : K) else 1) *
          ((uMat d X.nr)ᵀ * uMat d X.nr) * diagonal (fun k : Fin d.p => d.s k) *
          (vMat d X.nc)ᵀ := by simp only [Matrix.mul_assoc]
      _ = _ := by
        rw [uMat_orth h, Matrix.mul_one, Matrix.mul_assoc (uMat d X.nr), Matrix.diagonal_mul_diagonal]
        congr 3
        funext k
        by_cases hk : d.s k = 0 <;> simp [hk]

/-- C66: the diagonal entries lie in [0, 1]. -/
theorem C66_diagonal (d : SVD K) (X : Mat K) (h : d.Of X)
    (hs : ∀ k, k < d.p → d.s k = 0 ∨ 1 / 10 ^ 6 < d.s k * d.s k) (i : Nat) (hi : i < X.nr) :
    0 ≤ (denumMatrixGcv d X).get i i ∧ (denumMatrixGcv d X).get i i ≤ 1 := by
  obtain ⟨-, -, h1, h2, -⟩ := C66_projection d X h hs
  set H := toMatrix (denumMatrixGcv d X) X.nr X.nr with hH
  have e : (denumMatrixGcv d X).get i i = H ⟨i, hi⟩ ⟨i, hi⟩ := rfl
  have hsum : H ⟨i, hi⟩ ⟨i, hi⟩ = ∑ j, H ⟨i, hi⟩ j * H ⟨i, hi⟩ j := by
    conv_lhs => rw [← h2, Matrix.mul_apply]
    refine Finset.sum_congr rfl (fun j _ => ?_)
    have : H j ⟨i, hi⟩ = H ⟨i, hi⟩ j := congrFun (congrFun h1 ⟨i, hi⟩) j
    rw [this]
  have hge : H ⟨i, hi⟩ ⟨i, hi⟩ * H ⟨i, hi⟩ ⟨i, hi⟩ ≤ ∑ j, H ⟨i, hi⟩ j * H ⟨i, hi⟩ j :=
    Finset.single_le_sum (f := fun j => H ⟨i, hi⟩ j * H ⟨i, hi⟩ j) (fun j _ => mul_self_nonneg _)
      (Finset.mem_univ _)
  have h0 : 0 ≤ H ⟨i, hi⟩ ⟨i, hi⟩ := by rw [hsum]; exact Finset.sum_nonneg (fun j _ => mul_self_nonneg _)
  rw [e]
  refine ⟨h0, ?_⟩
  rw [← hsum] at hge
  by_contra hlt
  rw [not_le] at hlt
  nlinarith

/-- Orthonormal columns meet the hypotheses. -/
theorem orthSvd_of {n k : Nat} (h : k ≤ n) : (orthSvd (unitX n k : Mat K)).Of (unitX n k) := by
  refine (orthSvd_untruncated (X := (unitX n k : Mat K)) h ?_).1
  intro a b ha hb
  simp only [unitX, mul_ite, mul_one, mul_zero] at *
  rw [Finset.sum_ite_eq' (range n), if_pos (mem_range.2 (by omega))]
  by_cases hab : a = b
  · simp [hab]
  · simp [hab, Ne.symm hab]

example : (orthSvd (unitX 3 2 : Mat ℚ)).Of (unitX 3 2) ∧ (0 : ℚ) ≤ 1 / 2 ∧
    (∀ k, k < (orthSvd (unitX 3 2 : Mat ℚ)).p → (orthSvd (unitX 3 2 : Mat ℚ)).s k = 0 ∨
      1 / 2 < (orthSvd (unitX 3 2 : Mat ℚ)).s k * (orthSvd (unitX 3 2 : Mat ℚ)).s k) ∧
    (denumMatrixGcv (orthSvd (unitX 3 2 : Mat ℚ)) (unitX 3 2)).get 0 0 = 1 ∧
    (denumMatrixGcv (orthSvd (unitX 3 2 : Mat ℚ)) (unitX 3 2)).get 2 2 = 0 ∧
    morsePenroseC (orthSvd (unitX 3 2 : Mat ℚ)) (unitX 3 2) [4, 5, 6] = some [4, 5] := by
  refine ⟨orthSvd_of (by decide), by norm_num, fun k _ => .inr ?_, by decide +kernel, by decide +kernel,
    by decide +kernel⟩
  simp only [orthSvd]
  norm_num

/-- **C65 (the contract).** Every real matrix has a decomposition that meets the contract of gonum's `Factorize`: what is
proved about all decompositions is proved about at least one, for every input. -/
theorem C65_contract (X : Mat ℝ) : ∃ d : SVD ℝ, d.Of X := exists_svd X

/-- **C65 (which decomposition).** The pseudo-inverse does not depend on the decomposition that was found. -/
theorem C65_any_decomposition (d d' : SVD K) (X : Mat K) (tol : K) (h : d.Of X) (h' : d'.Of X) (ht : 0 ≤ tol)
    (hs : ∀ k, k < d.p → d.s k = 0 ∨ tol < d.s k) (hs' : ∀ k, k < d'.p → d'.s k = 0 ∨ tol < d'.s k) {i j : Nat}
    (hi : i < X.nc) (hj : j < X.nr) : (pseudoInverse d X tol).get i j = (pseudoInverse d' X tol).get i j := by
  have := IsMoorePenrose_unique (C65_pseudoInverse d X tol h ht hs).2.2 (C65_pseudoInverse d' X tol h' ht hs').2.2
  exact congrFun (congrFun this ⟨i, hi⟩) ⟨j, hj⟩

/-- Two decompositions of the same matrix that differ in the signs of the vectors. -/
example : let d : SVD ℚ := ⟨1, fun _ _ => 1, fun _ => 2, fun _ _ => 1⟩
    let d' : SVD ℚ := ⟨1, fun _ _ => -1, fun _ => 2, fun _ _ => -1⟩
    d.Of ⟨1, 1, fun _ _ => 2⟩ ∧ d'.Of ⟨1, 1, fun _ _ => 2⟩ ∧ (0 : ℚ) ≤ 1 / 2 ∧ (1 / 2 : ℚ) < d.s 0 ∧
      (pseudoInverse d ⟨1, 1, fun _ _ => 2⟩ (1 / 2)).get 0 0 = 1 / 2 := by
  refine ⟨?_, ?_, by norm_num, by norm_num, by decide +kernel⟩ <;>
    (refine ⟨rfl, ?_, ?_, ?_, ?_, ?_⟩ <;> intros <;> simp_all)

end GoSelect
