import Verif.Proofs.LassoOracle
import Mathlib.LinearAlgebra.Dimension.StrongRankCondition
import Mathlib.LinearAlgebra.FiniteDimensional.Lemmas
import Mathlib.LinearAlgebra.Dimension.Constructions

/-!
# How many features a lasso solution uses
-/

namespace GoSelect

open Finset Spec

namespace Spec

variable {K : Type} [Field K] [LinearOrder K]

/-- The features that `b` uses. -/
def usedFeatures (X : Mat K) (b : Nat → K) : Finset Nat := (range X.nc).filter (fun j => b j ≠ 0)

/-- Combinations of columns are not longer than `Λ` allows (the largest eigenvalue of `XᵀX` is at most `Λ`). -/
def StretchAtMost (X : Mat K) (Λ : K) : Prop :=
  ∀ w : Nat → K, ∑ r ∈ range X.nr, lin X w r ^ 2 ≤ Λ * ∑ j ∈ range X.nc, w j ^ 2

/-- The columns in `A` are linearly independent. -/
def IndependentOn (X : Mat K) (A : Finset Nat) : Prop :=
  ∀ w : Nat → K, (∀ i, i ∉ A → w i = 0) → (∀ r < X.nr, lin X w r = 0) → ∀ i, w i = 0

/-- The mean of every column is 0. -/
def Centred (X : Mat K) : Prop := ∀ j < X.nc, ∑ r ∈ range X.nr, X.get r j = 0

end Spec

section

variable {K : Type} [Field K] [LinearOrder K]

theorem mem_usedFeatures {X : Mat K} {b : Nat → K} {j : Nat} : j ∈ usedFeatures X b ↔ j < X.nc ∧ b j ≠ 0 := by
  simp [usedFeatures]

theorem lin_on {X : Mat K} {A : Finset Nat} (hA : ∀ i ∈ A, i < X.nc) {w : Nat → K} (hw : ∀ i, i ∉ A → w i = 0) (r : Nat) :
    lin X w r = ∑ j ∈ A, X.get r j * w j := by
  unfold lin
  refine (Finset.sum_subset (fun i hi => mem_range.2 (hA i hi)) (fun i _ hi => ?_)).symm
  rw [hw i hi, mul_zero]

/-- A kernel vector of the columns in `A`, with a constant added. -/
theorem independentOn_card {X : Mat K} {A : Finset Nat} (hA : ∀ i ∈ A, i < X.nc) (h : IndependentOn X A) : A.card ≤ X.nr := by
  by_contra hlt
  push Not at hlt
  let f : (A → K) →ₗ[K] (Fin X.nr → K) :=
    { toFun := fun v r => ∑ k : A, X.get r k * v k
      map_add' := by
        intro u v
        funext r
        simp only [Pi.add_apply, mul_add, Finset.sum_add_distrib]
      map_smul' := by
        intro c v
        funext r
        simp only [Pi.smul_apply, smul_eq_mul, RingHom.id_apply, Finset.mul_sum]
        exact Finset.sum_congr rfl (fun k _ => by ring) }
  have hker : LinearMap.ker f ≠ ⊥ := LinearMap.ker_ne_bot_of_finrank_lt (by
    rw [Module.finrank_fin_fun, Module.finrank_fintype_fun_eq_card, Fintype.card_coe]; exact hlt)
  obtain ⟨v, hv, hv0⟩ := Submodule.exists_mem_ne_zero_of_ne_bot hker
  apply hv0
  have hw := h (fun i => if hi : i ∈ A then v ⟨i, hi⟩ else 0) (fun i hi => by simp [hi]) (fun r hr => by
    rw [lin_on hA (fun i hi => by simp [hi]), ← Finset.sum_coe_sort]
    have := congrFun (LinearMap.mem_ker.1 hv) ⟨r, hr⟩
    simpa [f] using this)
  funext k
  have := hw k
  simpa using this

theorem independentOn_card_centred [IsStrictOrderedRing K] {X : Mat K} {A : Finset Nat} (hA : ∀ i ∈ A, i < X.nc)
    (h : IndependentOn X A) (hc : Centred X) (hr : 0 < X.nr) : A.card < X.nr := by
  by_contra hlt
  push Not at hlt
  let f : ((A → K) × K) →ₗ[K] (Fin X.nr → K) :=
    { toFun := fun v r => ∑ k : A, X.get r k * v.1 k + v.2
      map_add' := by
        intro u v
        funext r
        simp only [Prod.fst_add, Prod.snd_add, Pi.add_apply, mul_add, Finset.sum_add_distrib]
        ring
      map_smul' := by
        intro c v
        funext r
        simp only [Prod.smul_fst, Prod.smul_snd, Pi.smul_apply, smul_eq_mul, RingHom.id_apply, mul_add, Finset.mul_sum]
        congr 1
        exact Finset.sum_congr rfl (fun k _ => by ring) }
  have hker : LinearMap.ker f ≠ ⊥ := LinearMap.ker_ne_bot_of_finrank_lt (by
    rw [Module.finrank_fin_fun, Module.finrank_prod, Module.finrank_fintype_fun_eq_card, Fintype.card_coe,
      Module.finrank_self]; omega)
  obtain ⟨v, hv, hv0⟩ := Submodule.exists_mem_ne_zero_of_ne_bot hker
  apply hv0
  have hrow : ∀ r < X.nr, lin X (fun i => if hi : i ∈ A then v.1 ⟨i, hi⟩ else 0) r + v.2 = 0 := by
    intro r hr
    rw [lin_on hA (fun i hi => by simp [hi]), ← Finset.sum_coe_sort]
    have := congrFun (LinearMap.mem_ker.1 hv) ⟨r, hr⟩
    simpa [f] using this
  have ht : v.2 = 0 := by
    have h1 : ∑ r ∈ range X.nr, (lin X (fun i => if hi : i ∈ A then v.1 ⟨i, hi⟩ else 0) r + v.2) = 0 :=
      Finset.sum_eq_zero (fun r hr => hrow r (mem_range.1 hr))
    have h2 : ∑ r ∈ range X.nr, lin X (fun i => if hi : i ∈ A then v.1 ⟨i, hi⟩ else 0) r = 0 := by
      unfold lin
      rw [Finset.sum_comm]
      refine Finset.sum_eq_zero (fun j hj => ?_)
      rw [← Finset.sum_mul, hc j (mem_range.1 hj), zero_mul]
    rw [Finset.sum_add_distrib, h2, zero_add, Finset.sum_const, card_range, nsmul_eq_mul, mul_eq_zero] at h1
    rcases h1 with h1 | h1
    · exact absurd h1 (by exact_mod_cast hr.ne')
    · exact h1
  have hw := h (fun i => if hi : i ∈ A then v.1 ⟨i, hi⟩ else 0) (fun i hi => by simp [hi])
    (fun r hr => by simpa [ht] using hrow r hr)
  refine Prod.ext (funext fun k => ?_) ht
  have := hw k
  simpa using this

theorem abs_sub_add_abs_add [IsStrictOrderedRing K] {u v : K} (h : |u| ≤ |v|) : |v - u| + |v + u| = 2 * |v| := by
  have h1 := abs_le.1 h
  rcases le_total 0 v with hv | hv
  · rw [abs_of_nonneg hv] at h1 ⊢
    rw [abs_of_nonneg (by linarith [h1.2]), abs_of_nonneg (by linarith [h1.1])]
    ring
  · rw [abs_of_nonpos hv] at h1 ⊢
    rw [abs_of_nonpos (by linarith [h1.1]), abs_of_nonpos (by linarith [h1.2])]
    ring

/-- From every lasso solution there is a way to one with independent columns, on which features are only given up. -/
theorem exists_independent_min [IsStrictOrderedRing K] {X : Mat K} {y : Nat → K} {lamb : K} : ∀ (n : Nat) (b : Nat → K),
    (usedFeatures X b).card = n → IsLassoMin X y lamb b →
    ∃ b', IsLassoMin X y lamb b' ∧ usedFeatures X b' ⊆ usedFeatures X b ∧ IndependentOn X (usedFeatures X b') := by
  intro n
  induction n using Nat.strong_induction_on with
  | _ n ih =>
    intro b hn hb
    by_cases hi : IndependentOn X (usedFeatures X b)
    · exact ⟨b, hb, Finset.Subset.refl _, hi⟩
    · unfold IndependentOn at hi
      push Not at hi
      obtain ⟨w, hw, hX, i0, hi0⟩ := hi
      have hin : i0 ∈ (usedFeatures X b).filter (fun j => w j ≠ 0) := by
        rw [Finset.mem_filter]
        refine ⟨?_, hi0⟩
        by_contra hc
        exact hi0 (hw i0 hc)
      obtain ⟨j0, hj0, hmin⟩ := Finset.exists_min_image ((usedFeatures X b).filter (fun j => w j ≠ 0))
        (fun j => |b j| / |w j|) ⟨i0, hin⟩
      rw [Finset.mem_filter] at hj0
      set t := b j0 / w j0 with ht
      have hsmall : ∀ j < X.nc, |t * w j| ≤ |b j| := by
        intro j hj
        by_cases hwj : w j = 0
        · rw [hwj, mul_zero, abs_zero]; exact abs_nonneg _
        · have hj' : j ∈ usedFeatures X b := by
            by_contra hc
            exact hwj (hw j hc)
          have := hmin j (Finset.mem_filter.2 ⟨hj', hwj⟩)
          rw [abs_mul, ht, abs_div]
          rwa [← le_div_iff₀ (abs_pos.2 hwj)]
      have hres : ∀ (c : K) (r : Nat), r < X.nr → residual X y (fun j => b j + c * w j) r = residual X y b r := by
        intro c r hr
        rw [residual_lin, residual_lin]
        have : lin X (fun j => b j + c * w j) r = lin X b r + c * lin X w r := by
          simp only [lin, Finset.mul_sum, ← Finset.sum_add_distrib]
          exact Finset.sum_congr rfl (fun j _ => by ring)
        rw [this, hX r hr, mul_zero, add_zero]
      have hrisk : ∀ c : K, lassoRisk X y lamb (fun j => b j + c * w j) =
          (1 / 2) * ∑ r ∈ range X.nr, residual X y b r ^ 2 + lamb * ∑ j ∈ range X.nc, |b j + c * w j| := by
        intro c
        unfold lassoRisk
        rw [Finset.sum_congr rfl (fun r hr => by rw [hres c r (mem_range.1 hr)])]
      have habs : ∑ j ∈ range X.nc, |b j + -t * w j| + ∑ j ∈ range X.nc, |b j + t * w j| = 2 * ∑ j ∈ range X.nc, |b j| := by
        rw [← Finset.sum_add_distrib, Finset.mul_sum]
        refine Finset.sum_congr rfl (fun j hj => ?_)
        rw [← abs_sub_add_abs_add (hsmall j (mem_range.1 hj))]
        congr 2
        ring
      have hb' : IsLassoMin X y lamb (fun j => b j + -t * w j) := by
        intro b''
        refine le_trans ?_ (hb b'')
        have h1 := hb (fun j => b j + t * w j)
        rw [hrisk] at h1 ⊢
        unfold lassoRisk at h1 ⊢
        have h2 : lamb * ∑ j ∈ range X.nc, |b j + -t * w j| + lamb * ∑ j ∈ range X.nc, |b j + t * w j| =
            2 * (lamb * ∑ j ∈ range X.nc, |b j|) := by
          rw [← mul_add, habs]; ring
        linarith
      have hsub : usedFeatures X (fun j => b j + -t * w j) ⊆ usedFeatures X b := by
        intro j hj
        rw [mem_usedFeatures] at hj
        by_contra hc
        have h1 : w j = 0 := hw j hc
        have h2 : b j = 0 := by
          by_contra h2
          exact hc (mem_usedFeatures.2 ⟨hj.1, h2⟩)
        exact hj.2 (by rw [h1, h2]; ring)
      have hlt : (usedFeatures X (fun j => b j + -t * w j)).card < n := by
        rw [← hn]
        refine Finset.card_lt_card (Finset.ssubset_iff_subset_ne.2 ⟨hsub, fun he => ?_⟩)
        have h1 := hj0.1
        rw [← he, mem_usedFeatures] at h1
        apply h1.2
        rw [ht, neg_mul, div_mul_cancel₀ _ hj0.2]
        ring
      obtain ⟨b', h1, h2, h3⟩ := ih _ hlt _ rfl hb'
      exact ⟨b', h1, h2.trans hsub, h3⟩

/-- The inner products of the columns with a vector, in total. -/
theorem inner_sq_le [IsStrictOrderedRing K] {X : Mat K} {Λ : K} (h : StretchAtMost X Λ) {A : Finset Nat} (hA : ∀ i ∈ A, i < X.nc)
    (hΛ : 0 ≤ Λ) (u : Nat → K) :
    ∑ j ∈ A, (∑ r ∈ range X.nr, X.get r j * u r) ^ 2 ≤ Λ * ∑ r ∈ range X.nr, u r ^ 2 := by
  set w : Nat → K := fun j => if j ∈ A then ∑ r ∈ range X.nr, X.get r j * u r else 0 with hw
  set T := ∑ j ∈ A, (∑ r ∈ range X.nr, X.get r j * u r) ^ 2 with hT
  have hsum : ∀ g : Nat → K, ∑ j ∈ range X.nc, g j * w j = ∑ j ∈ A, g j * ∑ r ∈ range X.nr, X.get r j * u r := by
    intro g
    rw [← Finset.sum_subset (fun i hi => mem_range.2 (hA i hi)) (fun i _ hi => by simp [hw, hi])]
    exact Finset.sum_congr rfl (fun j hj => by simp [hw, hj])
  have h1 : ∑ r ∈ range X.nr, u r * lin X w r = T := by
    rw [sum_mul_lin, hsum, hT]
    exact Finset.sum_congr rfl (fun j _ => by ring)
  have h2 : ∑ j ∈ range X.nc, w j ^ 2 = T := by
    have := hsum w
    rw [hT, Finset.sum_congr rfl (fun j (hj : j ∈ A) => by rw [sq])]
    rw [Finset.sum_congr rfl (fun j _ => sq (w j)), this]
    exact Finset.sum_congr rfl (fun j hj => by simp [hw, hj])
  have h3 := Finset.sum_mul_sq_le_sq_mul_sq (range X.nr) u (lin X w)
  rw [h1] at h3
  have h4 := h w
  rw [h2] at h4
  have hU : 0 ≤ ∑ r ∈ range X.nr, u r ^ 2 := Finset.sum_nonneg (fun r _ => sq_nonneg _)
  have hT0 : 0 ≤ T := Finset.sum_nonneg (fun j _ => sq_nonneg _)
  rcases hT0.eq_or_lt with h0 | h0
  · rw [← h0]
    exact mul_nonneg hΛ hU
  · have h5 : T * T ≤ T * (Λ * ∑ r ∈ range X.nr, u r ^ 2) := by
      have := mul_le_mul_of_nonneg_left h4 hU
      nlinarith
    exact le_of_mul_le_mul_left h5 h0

end

end GoSelect
