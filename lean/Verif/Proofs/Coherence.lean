import Verif.Spec.Coherence
import Mathlib.Algebra.BigOperators.Ring.Finset
import Mathlib.Algebra.Order.Chebyshev
import Mathlib.Data.Finset.Max
import Mathlib.Tactic.Linarith
import Mathlib.Tactic.Ring
import Mathlib.Tactic.Positivity

/-!
# Matrices with nearly orthogonal columns
-/

namespace GoSelect

open Finset

open Spec

variable {X : Mat ℝ} {μ : ℝ} {S : Finset Nat}

theorem colLen_nonneg (X : Mat ℝ) (i : Nat) : 0 ≤ colLen X i := Real.sqrt_nonneg _

theorem colLen_sq (X : Mat ℝ) (i : Nat) : colLen X i * colLen X i = colProd X i i :=
  Real.mul_self_sqrt (Finset.sum_nonneg (fun _ _ => mul_self_nonneg _))

theorem colProd_comm (X : Mat ℝ) (i j : Nat) : colProd X i j = colProd X j i :=
  Finset.sum_congr rfl (fun _ _ => mul_comm _ _)

section General
variable {K : Type} [Field K] {X : Mat K} {S : Finset Nat}

/-- A combination of the columns in `S`. -/
theorem lin_support (hS : ∀ i ∈ S, i < X.nc) {a : Nat → K} (ha : ∀ i, i ∉ S → a i = 0) (r : Nat) :
    lin X a r = ∑ i ∈ S, X.get r i * a i := by
  unfold lin
  refine (Finset.sum_subset (fun i hi => mem_range.2 (hS i hi)) (fun i _ hi => ?_)).symm
  rw [ha i hi, mul_zero]

/-- Scalar product of a column with a combination of columns. -/
theorem dot_lin (hS : ∀ i ∈ S, i < X.nc) {a : Nat → K} (ha : ∀ i, i ∉ S → a i = 0) (j : Nat) :
    ∑ r ∈ range X.nr, X.get r j * lin X a r = ∑ i ∈ S, a i * colProd X j i := by
  simp only [lin_support hS ha, Finset.mul_sum]
  rw [Finset.sum_comm]
  refine Finset.sum_congr rfl (fun i _ => ?_)
  unfold colProd
  rw [Finset.mul_sum]
  exact Finset.sum_congr rfl (fun r _ => by ring)

end General

/-- Squared length of a combination. -/
theorem sq_lin (hS : ∀ i ∈ S, i < X.nc) {a : Nat → ℝ} (ha : ∀ i, i ∉ S → a i = 0) :
    ∑ r ∈ range X.nr, lin X a r ^ 2 = ∑ j ∈ S, a j * ∑ i ∈ S, a i * colProd X j i := by
  simp only [← dot_lin hS ha]
  simp only [Finset.mul_sum]
  rw [Finset.sum_comm]
  refine Finset.sum_congr rfl (fun r _ => ?_)
  rw [sq]
  conv_lhs => rw [lin_support hS ha r, Finset.sum_mul]
  refine Finset.sum_congr rfl (fun i _ => ?_)
  rw [← lin_support hS ha r]
  ring

/-- Combinations of nearly orthogonal columns are not short. -/
theorem coherence_lower (hμ : Coherence X μ) (h0 : 0 ≤ μ) (hS : ∀ i ∈ S, i < X.nc) {a : Nat → ℝ}
    (ha : ∀ i, i ∉ S → a i = 0) :
    (1 - (S.card - 1) * μ) * ∑ i ∈ S, (|a i| * colLen X i) ^ 2 ≤ ∑ r ∈ range X.nr, lin X a r ^ 2 := by
  rw [sq_lin hS ha]
  set u : Nat → ℝ := fun i => |a i| * colLen X i with hu
  have hu0 : ∀ i, 0 ≤ u i := fun i => mul_nonneg (abs_nonneg _) (colLen_nonneg _ _)
  have h1 : ∀ j ∈ S, (1 + μ) * u j ^ 2 - μ * (u j * ∑ i ∈ S, u i) ≤ a j * ∑ i ∈ S, a i * colProd X j i := by
    intro j hj
    rw [← Finset.add_sum_erase S (fun i => a i * colProd X j i) hj, ← Finset.add_sum_erase S u hj]
    have e1 : a j * (a j * colProd X j j) = u j ^ 2 := by
      simp only [hu]
      rw [← colLen_sq, mul_pow, sq_abs]
      ring
    have h2 : -(μ * (u j * ∑ i ∈ S.erase j, u i)) ≤ a j * ∑ i ∈ S.erase j, a i * colProd X j i := by
      rw [Finset.mul_sum, Finset.mul_sum, Finset.mul_sum, ← Finset.sum_neg_distrib]
      refine Finset.sum_le_sum (fun i hi => ?_)
      have hne : j ≠ i := fun h => (Finset.ne_of_mem_erase hi) h.symm
      have := hμ j i (hS j hj) (hS i (Finset.mem_of_mem_erase hi)) hne
      have h3 : |a j * (a i * colProd X j i)| ≤ μ * (u j * u i) := by
        rw [abs_mul, abs_mul]
        calc |a j| * (|a i| * |colProd X j i|)
            ≤ |a j| * (|a i| * (μ * (colLen X j * colLen X i))) := by gcongr
          _ = μ * (u j * u i) := by simp only [hu]; ring
      have := neg_abs_le (a j * (a i * colProd X j i))
      linarith
    rw [mul_add (a j), e1]
    nlinarith
  have h2 := Finset.sum_le_sum h1
  refine le_trans ?_ h2
  rw [Finset.sum_sub_distrib, ← Finset.mul_sum, ← Finset.mul_sum, ← Finset.sum_mul]
  have h3 : (∑ i ∈ S, u i) ^ 2 ≤ S.card * ∑ i ∈ S, u i ^ 2 := sq_sum_le_card_mul_sum_sq
  have h4 := mul_le_mul_of_nonneg_left h3 h0
  nlinarith

/-- The column that is closest to a non-zero combination of few columns is one of them. -/
theorem coherence_pick (hμ : Coherence X μ) (h0 : 0 ≤ μ) (hk : (2 * S.card - 1) * μ < 1)
    (hS : ∀ i ∈ S, i < X.nc) (hcol : ∀ i, i < X.nc → 0 < colLen X i) {a : Nat → ℝ}
    (ha : ∀ i, i ∉ S → a i = 0) (hne : ∃ r, r < X.nr ∧ lin X a r ≠ 0) {j : Nat} (hj : j < X.nc)
    (hmax : ∀ i, i < X.nc → |∑ r ∈ range X.nr, X.get r i * lin X a r| / colLen X i ≤
      |∑ r ∈ range X.nr, X.get r j * lin X a r| / colLen X j) :
    j ∈ S ∧ ∑ r ∈ range X.nr, X.get r j * lin X a r ≠ 0 := by
  obtain ⟨r0, -, hr0⟩ := hne
  have hSne : S.Nonempty := by
    rw [Finset.nonempty_iff_ne_empty]
    rintro rfl
    rw [lin_support hS ha] at hr0
    simp at hr0
  set u : Nat → ℝ := fun i => |a i| * colLen X i with hu
  obtain ⟨m, hm, hmx⟩ := Finset.exists_max_image S u hSne
  have hcard : (1 : ℝ) ≤ S.card := by
    have := Finset.card_pos.2 hSne
    exact_mod_cast this
  have hpos : 0 < u m := by
    by_contra hle
    apply hr0
    rw [lin_support hS ha]
    refine Finset.sum_eq_zero (fun i hi => ?_)
    have h1 : u i ≤ 0 := (hmx i hi).trans (not_lt.1 hle)
    have h2 := hcol i (hS i hi)
    have h3 : |a i| ≤ 0 := by
      by_contra hp
      exact absurd h1 (not_le.2 (mul_pos (not_le.1 hp) h2))
    rw [abs_nonpos_iff.1 h3, mul_zero]
  have hdot : ∀ i l, i < X.nc → l ∈ S → i ≠ l → |a l * colProd X i l| ≤ (μ * u m) * colLen X i := by
    intro i l hi hl hil
    rw [abs_mul]
    have h1 := hμ i l hi (hS l hl) hil
    have h2 := hmx l hl
    have h3 := colLen_nonneg X i
    calc |a l| * |colProd X i l| ≤ |a l| * (μ * (colLen X i * colLen X l)) := by gcongr
      _ = (μ * u l) * colLen X i := by simp only [hu]; ring
      _ ≤ _ := by gcongr
  -- the lower bound at `m`
  have hmL := hcol m (hS m hm)
  have hlow : (1 - (S.card - 1) * μ) * u m * colLen X m ≤ |∑ r ∈ range X.nr, X.get r m * lin X a r| := by
    rw [dot_lin hS ha, ← Finset.add_sum_erase S _ hm]
    have e1 : |a m * colProd X m m| = u m * colLen X m := by
      rw [← colLen_sq, abs_mul, abs_of_nonneg (mul_nonneg hmL.le hmL.le)]
      simp only [hu]; ring
    have h1 : |∑ i ∈ S.erase m, a i * colProd X m i| ≤ (S.card - 1) * ((μ * u m) * colLen X m) := by
      refine (Finset.abs_sum_le_sum_abs _ _).trans ?_
      have := Finset.sum_le_card_nsmul (S.erase m) (fun i => |a i * colProd X m i|) ((μ * u m) * colLen X m)
        (fun i hi => hdot m i (hS m hm) (Finset.mem_of_mem_erase hi)
          (fun h => (Finset.ne_of_mem_erase hi) h.symm))
      rw [Finset.card_erase_of_mem hm, nsmul_eq_mul, Nat.cast_sub (Finset.card_pos.2 hSne)] at this
      simpa using this
    have h2 := abs_sub_abs_le_abs_add (a m * colProd X m m) (∑ i ∈ S.erase m, a i * colProd X m i)
    rw [e1] at h2
    nlinarith
  have hlow' : (1 - (S.card - 1) * μ) * u m ≤ |∑ r ∈ range X.nr, X.get r m * lin X a r| / colLen X m := by
    rw [le_div_iff₀ hmL]
    exact hlow
  have hge := hlow'.trans (hmax m (hS m hm))
  have hjL := hcol j hj
  have hp1 : 0 < 1 - (S.card - 1) * μ := by nlinarith
  have hp2 : 0 < (1 - (S.card - 1) * μ) * u m := mul_pos hp1 hpos
  refine ⟨?_, ?_⟩
  · by_contra hjS
    have h1 : |∑ r ∈ range X.nr, X.get r j * lin X a r| ≤ S.card * ((μ * u m) * colLen X j) := by
      rw [dot_lin hS ha]
      refine (Finset.abs_sum_le_sum_abs _ _).trans ?_
      have := Finset.sum_le_card_nsmul S (fun i => |a i * colProd X j i|) ((μ * u m) * colLen X j)
        (fun i hi => hdot j i hj hi (fun h => hjS (h ▸ hi)))
      rwa [nsmul_eq_mul] at this
    have h2 : |∑ r ∈ range X.nr, X.get r j * lin X a r| / colLen X j ≤ S.card * (μ * u m) := by
      rw [div_le_iff₀ hjL]
      linarith
    have h3 := hge.trans h2
    have h4 : (1 - (2 * S.card - 1) * μ) * u m ≤ 0 := by linarith
    have h5 : 0 < (1 - (2 * S.card - 1) * μ) * u m := mul_pos (by linarith) hpos
    linarith
  · intro hz
    rw [hz, abs_zero, zero_div] at hge
    linarith

end GoSelect
