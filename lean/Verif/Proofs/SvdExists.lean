import Verif.Model.Fit
import Mathlib.Analysis.InnerProductSpace.Spectrum
import Mathlib.Analysis.InnerProductSpace.Adjoint
import Mathlib.Analysis.InnerProductSpace.PiL2
import Mathlib.Data.Real.Sqrt

/-! Every real matrix has a singular value decomposition, so the contract `SVD.Of` of gonum's `Factorize` can be met. -/

namespace GoSelect

open Finset

section
variable {E F : Type} [NormedAddCommGroup E] [InnerProductSpace ℝ E] [FiniteDimensional ℝ E]
  [NormedAddCommGroup F] [InnerProductSpace ℝ F] [FiniteDimensional ℝ F]

/-- Singular vectors of a map to a space of at least the same dimension. -/
theorem singular_vectors {m n : Nat} (hE : Module.finrank ℝ E = n) (hF : Module.finrank ℝ F = m) (hnm : n ≤ m)
    (T : E →ₗ[ℝ] F) : ∃ (v : OrthonormalBasis (Fin n) ℝ E) (u : OrthonormalBasis (Fin m) ℝ F) (s : Fin n → ℝ),
      (∀ k, 0 ≤ s k) ∧ Antitone s ∧ ∀ k, T (v k) = s k • u (Fin.castLE hnm k) := by
  have hS := T.isSymmetric_adjoint_comp_self
  let v := hS.eigenvectorBasis hE
  let μ := hS.eigenvalues hE
  have hinner : ∀ k l, inner ℝ (T (v k)) (T (v l)) = if k = l then μ k else 0 := by
    intro k l
    rw [← LinearMap.adjoint_inner_left]
    have : LinearMap.adjoint T (T (v k)) = μ k • v k := hS.apply_eigenvectorBasis hE k
    rw [this, real_inner_smul_left, v.inner_eq_ite]
    split <;> simp
  have hμ : ∀ k, 0 ≤ μ k := by
    intro k
    have := hinner k k
    rw [if_pos rfl] at this
    rw [← this]
    exact real_inner_self_nonneg
  let f : Fin m → F := fun i => if h : i.1 < n then (Real.sqrt (μ ⟨i.1, h⟩))⁻¹ • T (v ⟨i.1, h⟩) else 0
  let S : Set (Fin m) := {i | ∃ h : i.1 < n, 0 < μ ⟨i.1, h⟩}
  have hf : ∀ i (h : i.1 < n), f i = (Real.sqrt (μ ⟨i.1, h⟩))⁻¹ • T (v ⟨i.1, h⟩) := fun i h => dif_pos h
  have horth : Orthonormal ℝ (S.domRestrict f) := by
    rw [orthonormal_iff_ite]
    rintro ⟨i, hi, hi'⟩ ⟨j, hj, hj'⟩
    show inner ℝ (f i) (f j) = _
    rw [hf i hi, hf j hj, real_inner_smul_left, real_inner_smul_right, hinner]
    by_cases hij : i = j
    · subst hij
      rw [if_pos rfl, if_pos rfl]
      have : Real.sqrt (μ ⟨i.1, hi⟩) ≠ 0 := (Real.sqrt_pos.2 hi').ne'
      field_simp
      exact (Real.sq_sqrt (hμ _)).symm
    · rw [if_neg (fun e => hij (Fin.ext (by simpa using e))), if_neg (fun e => hij (by simpa using e))]
      simp
  obtain ⟨u, hu⟩ := horth.exists_orthonormalBasis_extension_of_card_eq (by rw [hF, Fintype.card_fin])
  refine ⟨v, u, fun k => Real.sqrt (μ k), fun k => Real.sqrt_nonneg _, ?_, ?_⟩
  · intro k l hkl
    exact Real.sqrt_le_sqrt (hS.eigenvalues_antitone hE hkl)
  · intro k
    show T (v k) = Real.sqrt (μ k) • u (Fin.castLE hnm k)
    by_cases hk : 0 < μ k
    · rw [hu _ ⟨k.2, hk⟩, hf _ k.2]
      show T (v k) = Real.sqrt (μ k) • (Real.sqrt (μ k))⁻¹ • T (v k)
      rw [smul_smul, mul_inv_cancel₀ (Real.sqrt_pos.2 hk).ne', one_smul]
    · have h0 : μ k = 0 := le_antisymm (not_lt.1 hk) (hμ k)
      have := hinner k k
      rw [if_pos rfl, h0, inner_self_eq_zero] at this
      rw [this, h0, Real.sqrt_zero, zero_smul]

end

/-- A tall matrix. -/
theorem svd_tall (X : Mat ℝ) (h : X.nc ≤ X.nr) : ∃ d : SVD ℝ, d.Of X := by
  let T : EuclideanSpace ℝ (Fin X.nc) →ₗ[ℝ] EuclideanSpace ℝ (Fin X.nr) :=
    Matrix.toEuclideanLin (Matrix.of fun (i : Fin X.nr) (j : Fin X.nc) => X.get i j)
  obtain ⟨v, u, s, h1, h2, h3⟩ := singular_vectors finrank_euclideanSpace_fin finrank_euclideanSpace_fin h T
  let d : SVD ℝ := ⟨X.nc, fun i k => if hi : i < X.nr then if hk : k < X.nc then u (Fin.castLE h ⟨k, hk⟩) ⟨i, hi⟩ else 0 else 0,
    fun k => if hk : k < X.nc then s ⟨k, hk⟩ else 0,
    fun j k => if hj : j < X.nc then if hk : k < X.nc then v ⟨k, hk⟩ ⟨j, hj⟩ else 0 else 0⟩
  have hdu : ∀ i k (hi : i < X.nr) (hk : k < X.nc), d.u i k = u (Fin.castLE h ⟨k, hk⟩) ⟨i, hi⟩ := by
    intro i k hi hk
    simp only [d, dif_pos hi, dif_pos hk]
  have hdv : ∀ j k (hj : j < X.nc) (hk : k < X.nc), d.v j k = v ⟨k, hk⟩ ⟨j, hj⟩ := by
    intro j k hj hk
    simp only [d, dif_pos hj, dif_pos hk]
  have hds : ∀ k (hk : k < X.nc), d.s k = s ⟨k, hk⟩ := by
    intro k hk
    simp only [d, dif_pos hk]
  have hT : ∀ x i, T x i = ∑ j : Fin X.nc, X.get i j * x j := fun x i => rfl
  refine ⟨d, ⟨(min_eq_right h).symm, ?_, ?_, ?_, ?_, ?_⟩⟩
  · intro i j hi hj
    have hx := v.sum_repr (EuclideanSpace.single ⟨j, hj⟩ (1 : ℝ))
    have hx := congrArg (fun x => T x ⟨i, hi⟩) hx
    simp only [map_sum, map_smul] at hx
    have e1 : T (EuclideanSpace.single ⟨j, hj⟩ (1 : ℝ)) ⟨i, hi⟩ = X.get i j := by
      rw [hT]
      simp
    rw [e1] at hx
    rw [← hx, Finset.sum_range]
    simp only [WithLp.ofLp_sum, Finset.sum_apply]
    apply Finset.sum_congr rfl
    intro k _
    rw [hdu i k hi k.2, hds k k.2, hdv j k hj k.2, h3, v.repr_apply_apply, EuclideanSpace.inner_single_right]
    simp
    ring
  · intro k l hk hl
    have := u.inner_eq_ite (Fin.castLE h ⟨k, hk⟩) (Fin.castLE h ⟨l, hl⟩)
    rw [PiLp.inner_apply] at this
    rw [Finset.sum_range]
    have e : ∀ i : Fin X.nr, d.u i k * d.u i l = inner ℝ (u (Fin.castLE h ⟨k, hk⟩) i) (u (Fin.castLE h ⟨l, hl⟩) i) := by
      intro i
      rw [hdu i k i.2 hk, hdu i l i.2 hl]
      simp [mul_comm]
    rw [Finset.sum_congr rfl (fun i _ => e i), this]
    simp [Fin.ext_iff]
  · intro k l hk hl
    have := v.inner_eq_ite ⟨k, hk⟩ ⟨l, hl⟩
    rw [PiLp.inner_apply] at this
    rw [Finset.sum_range]
    have e : ∀ i : Fin X.nc, d.v i k * d.v i l = inner ℝ (v ⟨k, hk⟩ i) (v ⟨l, hl⟩ i) := by
      intro i
      rw [hdv i k i.2 hk, hdv i l i.2 hl]
      simp [mul_comm]
    rw [Finset.sum_congr rfl (fun i _ => e i), this]
    simp [Fin.ext_iff]
  · intro k hk
    rw [hds k hk]
    exact h1 _
  · intro k l hkl hl
    have hl : l < X.nc := hl
    rw [hds k (lt_of_le_of_lt hkl hl), hds l hl]
    exact h2 (by simpa using hkl)

/-- Every real matrix has a decomposition as gonum promises it. -/
theorem exists_svd (X : Mat ℝ) : ∃ d : SVD ℝ, d.Of X := by
  rcases Nat.le_total X.nc X.nr with h | h
  · exact svd_tall X h
  · obtain ⟨d, h1, h2, h3, h4, h5, h6⟩ := svd_tall ⟨X.nc, X.nr, fun i j => X.get j i⟩ h
    refine ⟨⟨d.p, d.v, d.s, d.u⟩, ⟨by rw [h1]; exact min_comm _ _, ?_, h4, h3, h5, h6⟩⟩
    intro i j hi hj
    rw [show X.get i j = _ from h2 j i hj hi]
    exact Finset.sum_congr rfl (fun k _ => by ring)

/-- So there is a function that computes decompositions of all real matrices. -/
theorem exists_svd_all : ∃ svd : Mat ℝ → SVD ℝ, ∀ X, (svd X).Of X := by
  choose svd h using exists_svd
  exact ⟨svd, h⟩

end GoSelect
