import Verif.Proofs.Lars
import Verif.Proofs.Coherence
import Verif.Proofs.LeastSquares
import Mathlib.LinearAlgebra.FiniteDimensional.Basic

/-!
# Which features a lasso solution uses
-/

namespace GoSelect

open Finset Spec

namespace Spec

variable {K : Type} [Field K] [LinearOrder K]

/-- The columns in `S` have the squared length `q`, and their cosine with every other column (measured by `q`) is
at most `μ`, so small that they can be told from the others. -/
structure LassoDistinguishable (X : Mat K) (S : Finset Nat) (q μ : K) : Prop where
  lt : ∀ i ∈ S, i < X.nc
  pos : 0 < q
  len : ∀ i ∈ S, colProd X i i = q
  nonneg : 0 ≤ μ
  coh : ∀ i ∈ S, ∀ j, j < X.nc → j ≠ i → |colProd X i j| ≤ μ * q
  small : (2 * S.card - 1) * μ < 1

/-- The target is a combination of the columns in `S` plus noise that correlates with no column more than `ε`. -/
structure SignalPlusNoise (X : Mat K) (y : Nat → K) (S : Finset Nat) (b : Nat → K) (ε : K) : Prop where
  zero : ∀ i, i ∉ S → b i = 0
  noise : ∀ j, j < X.nc → |correlation X y b j| ≤ ε

end Spec

variable {K : Type} [Field K] [LinearOrder K] [IsStrictOrderedRing K]

/-- A function that does not decrease along a ray. -/
theorem slope_nonneg {A B : K} (h : ∀ t : K, 0 < t → t ≤ 1 → 0 ≤ t * A + t ^ 2 * B) : 0 ≤ A := by
  by_contra hA
  push Not at hA
  have hd : 0 < |B| + |A| + 1 := by positivity
  have hA' : |A| = -A := abs_of_neg hA
  set t := |A| / (|B| + |A| + 1) with ht
  have ht0 : 0 < t := div_pos (by rw [hA']; linarith) hd
  have ht1 : t ≤ 1 := by
    rw [ht, div_le_one hd]
    have := abs_nonneg B
    linarith
  have h1 := h t ht0 ht1
  have h2 : t * (|B| + |A| + 1) = |A| := by rw [ht]; field_simp
  have h3 : 0 ≤ A + t * B := by
    by_contra hc
    push Not at hc
    nlinarith
  have h4 : t * B ≤ t * |B| := mul_le_mul_of_nonneg_left (le_abs_self B) ht0.le
  nlinarith [abs_nonneg A]

/-- The optimality conditions are necessary. -/
theorem kkt_of_lasso_min {X : Mat K} {y : Nat → K} {lamb : K} (hl : 0 ≤ lamb) {b : Nat → K} (h : IsLassoMin X y lamb b) (i : Nat)
    (hi : i < X.nc) : |correlation X y b i| ≤ lamb ∧ correlation X y b i * b i = lamb * |b i| := by
  have key : ∀ t : K, 0 ≤ -t * correlation X y b i + t ^ 2 * ((1 / 2) * ∑ r ∈ range X.nr, X.get r i ^ 2) +
      lamb * (|b i + t| - |b i|) := by
    intro t
    have h1 := h (Function.update b i (b i + t))
    unfold lassoRisk at h1
    have e1 : ∑ j ∈ range X.nc, |Function.update b i (b i + t) j| = ∑ j ∈ range X.nc, |b j| + (|b i + t| - |b i|) := by
      have := sum_update_fun X.nc i hi (fun x => |x|) b (b i + t)
      linarith
    have e2 : ∑ r ∈ range X.nr, residual X y (Function.update b i (b i + t)) r ^ 2 =
        ∑ r ∈ range X.nr, residual X y b r ^ 2 - 2 * t * correlation X y b i + t ^ 2 * ∑ r ∈ range X.nr, X.get r i ^ 2 := by
      unfold correlation
      rw [Finset.mul_sum, Finset.mul_sum, ← Finset.sum_sub_distrib, ← Finset.sum_add_distrib]
      refine Finset.sum_congr rfl (fun r _ => ?_)
      rw [residual_update X y b r i hi]
      ring
    rw [e1, e2] at h1
    linarith
  set c := correlation X y b i
  set B := (1 / 2) * ∑ r ∈ range X.nr, X.get r i ^ 2
  have hup : c ≤ lamb := by
    have := slope_nonneg (A := lamb - c) (B := B) (fun t ht _ => by
      have h1 := key t
      have h2 : |b i + t| - |b i| ≤ t := by
        have := abs_add_le (b i) t
        rw [abs_of_pos ht] at this
        linarith
      have := mul_le_mul_of_nonneg_left h2 hl
      linarith)
    linarith
  have hdown : -lamb ≤ c := by
    have := slope_nonneg (A := lamb + c) (B := B) (fun t ht _ => by
      have h1 := key (-t)
      have h2 : |b i + -t| - |b i| ≤ t := by
        have := abs_add_le (b i) (-t)
        rw [abs_neg, abs_of_pos ht] at this
        linarith
      have := mul_le_mul_of_nonneg_left h2 hl
      nlinarith)
    linarith
  have habs : |c| ≤ lamb := abs_le.2 ⟨hdown, hup⟩
  refine ⟨habs, le_antisymm ?_ ?_⟩
  · calc c * b i ≤ |c * b i| := le_abs_self _
      _ = |c| * |b i| := abs_mul _ _
      _ ≤ _ := mul_le_mul_of_nonneg_right habs (abs_nonneg _)
  · have := slope_nonneg (A := c * b i - lamb * |b i|) (B := b i ^ 2 * B) (fun t ht h1 => by
      have h2 := key (-(t * b i))
      have h3 : |b i + -(t * b i)| = (1 - t) * |b i| := by
        rw [show b i + -(t * b i) = (1 - t) * b i by ring, abs_mul, abs_of_nonneg (by linarith)]
      rw [h3] at h2
      nlinarith)
    linarith

section Support
variable {X : Mat K} {y : Nat → K} {S : Finset Nat} {q μ ε lamb : K} {b β : Nat → K}

theorem LassoDistinguishable.denom (hd : LassoDistinguishable X S q μ) : 0 < 1 - (S.card - 1) * μ := by
  have h1 := hd.small
  have h2 := hd.nonneg
  have h3 : (0 : K) ≤ S.card := Nat.cast_nonneg _
  nlinarith [mul_nonneg h3 h2]

/-- Every vector has a projection on the span of the columns in `S`. -/
theorem exists_projection (hd : LassoDistinguishable X S q μ) (t : Nat → K) :
    ∃ v : Nat → K, (∀ i, i ∉ S → v i = 0) ∧ ∀ i ∈ S, ∑ r ∈ range X.nr, X.get r i * (lin X v r - t r) = 0 := by
  have hD := LassoDistinguishable.denom hd
  let f : (S → K) →ₗ[K] (S → K) :=
    { toFun := fun v i => ∑ l : S, v l * colProd X i l
      map_add' := fun v w => by
        funext i
        simp only [Pi.add_apply, add_mul, Finset.sum_add_distrib]
      map_smul' := fun c v => by
        funext i
        simp only [Pi.smul_apply, smul_eq_mul, RingHom.id_apply, Finset.mul_sum, mul_assoc] }
  have hinj : Function.Injective f := by
    rw [injective_iff_map_eq_zero]
    intro v hv
    by_contra hne
    obtain ⟨i0, hi0⟩ := Function.ne_iff.1 hne
    obtain ⟨m, -, hmx⟩ := Finset.exists_max_image (univ : Finset S) (fun i => |v i|) ⟨i0, mem_univ _⟩
    have hpos : 0 < |v m| := lt_of_lt_of_le (abs_pos.2 hi0) (hmx i0 (mem_univ _))
    have h0 : ∑ l : S, v l * colProd X m l = 0 := congrFun hv m
    rw [← Finset.add_sum_erase univ _ (mem_univ m), hd.len m m.2] at h0
    have h1 : |∑ l ∈ univ.erase m, v l * colProd X m l| ≤ (S.card - 1) * (μ * q * |v m|) := by
      refine (Finset.abs_sum_le_sum_abs _ _).trans ?_
      have := Finset.sum_le_card_nsmul (univ.erase m) (fun l : S => |v l * colProd X m l|) (μ * q * |v m|) (fun l hl => by
        rw [abs_mul, mul_comm]
        have h2 := hd.coh m m.2 l (hd.lt l l.2) (fun h => (Finset.ne_of_mem_erase hl) (Subtype.ext h))
        exact mul_le_mul h2 (hmx l (mem_univ _)) (abs_nonneg _) (mul_nonneg hd.nonneg hd.pos.le))
      rw [Finset.card_erase_of_mem (mem_univ m), nsmul_eq_mul, Finset.card_univ, Fintype.card_coe,
        Nat.cast_sub (Finset.card_pos.2 ⟨m.1, m.2⟩)] at this
      simpa using this
    have h2 : q * |v m| = |∑ l ∈ univ.erase m, v l * colProd X m l| := by
      rw [show ∑ l ∈ univ.erase m, v l * colProd X m l = -(v m * q) by linarith, abs_neg, abs_mul, abs_of_pos hd.pos, mul_comm]
    rw [← h2] at h1
    have h3 : q * |v m| * (1 - (S.card - 1) * μ) ≤ 0 := by linarith
    have := mul_pos (mul_pos hd.pos hpos) hD
    linarith
  obtain ⟨v, hv⟩ := (LinearMap.injective_iff_surjective.1 hinj) (fun i => ∑ r ∈ range X.nr, X.get r i * t r)
  refine ⟨fun i => if h : i ∈ S then v ⟨i, h⟩ else 0, fun i hi => by simp only [dif_neg hi], fun i hi => ?_⟩
  simp only [mul_sub, Finset.sum_sub_distrib]
  rw [dot_lin hd.lt (fun i hi => by simp only [dif_neg hi]), sub_eq_zero]
  have := congrFun hv ⟨i, hi⟩
  refine Eq.trans ?_ this
  change _ = ∑ l : S, v l * colProd X i l
  rw [← Finset.sum_coe_sort S]
  refine Finset.sum_congr rfl (fun l _ => ?_)
  simp only [l.2, dif_pos]

/-- The projection of another column on the columns in `S` has small coefficients. -/
theorem projection_small (hd : LassoDistinguishable X S q μ) {j : Nat} (hj : j < X.nc) (hjS : j ∉ S) {v : Nat → K}
    (hv : ∀ i, i ∉ S → v i = 0) (ho : ∀ i ∈ S, ∑ r ∈ range X.nr, X.get r i * (lin X v r - X.get r j) = 0) :
    (1 - (S.card - 1) * μ) * ∑ i ∈ S, |v i| ≤ S.card * μ := by
  set V := ∑ i ∈ S, |v i| with hV
  have hq := hd.pos
  have h1 : ∀ i ∈ S, q * |v i| ≤ μ * q + μ * q * (V - |v i|) := by
    intro i hi
    have e1 := ho i hi
    simp only [mul_sub, Finset.sum_sub_distrib] at e1
    rw [dot_lin hd.lt hv, ← Finset.add_sum_erase S _ hi, hd.len i hi] at e1
    have e2 : v i * q = colProd X i j - ∑ l ∈ S.erase i, v l * colProd X i l := by
      unfold colProd at e1 ⊢
      linarith
    have e3 : q * |v i| = |colProd X i j - ∑ l ∈ S.erase i, v l * colProd X i l| := by
      rw [← e2, abs_mul, abs_of_pos hq, mul_comm]
    have e4 : |∑ l ∈ S.erase i, v l * colProd X i l| ≤ μ * q * (V - |v i|) := by
      rw [hV, ← Finset.add_sum_erase S _ hi, add_sub_cancel_left, Finset.mul_sum]
      refine (Finset.abs_sum_le_sum_abs _ _).trans (Finset.sum_le_sum fun l hl => ?_)
      have := hd.coh i hi l (hd.lt l (Finset.mem_of_mem_erase hl)) (Finset.ne_of_mem_erase hl)
      rw [abs_mul, mul_comm]
      exact mul_le_mul_of_nonneg_right this (abs_nonneg _)
    have e5 := hd.coh i hi j hj (fun h => hjS (h ▸ hi))
    rw [e3]
    exact (abs_sub _ _).trans (add_le_add e5 e4)
  have h2 := Finset.sum_le_sum h1
  rw [← Finset.mul_sum, Finset.sum_add_distrib, Finset.sum_const, ← Finset.mul_sum, Finset.sum_sub_distrib, Finset.sum_const,
    nsmul_eq_mul, nsmul_eq_mul, ← hV] at h2
  have h3 : q * ((1 - (S.card - 1) * μ) * V) ≤ q * (S.card * μ) := by linarith
  exact le_of_mul_le_mul_left h3 hq

/-- Scalar products with a combination of differences between columns and their projections. -/
theorem dot_differences (hS : ∀ i ∈ S, i < X.nc) {T : Finset Nat} (c : Nat → K) {v : Nat → Nat → K}
    (hv : ∀ j ∈ T, ∀ i, i ∉ S → v j i = 0) (w : Nat → K) :
    ∑ r ∈ range X.nr, (∑ j ∈ T, c j * (X.get r j - lin X (v j) r)) * w r =
      ∑ j ∈ T, c j * (∑ r ∈ range X.nr, X.get r j * w r - ∑ i ∈ S, v j i * ∑ r ∈ range X.nr, X.get r i * w r) := by
  simp only [Finset.sum_mul]
  rw [Finset.sum_comm]
  refine Finset.sum_congr rfl (fun j hj => ?_)
  have e : ∑ i ∈ S, v j i * ∑ r ∈ range X.nr, X.get r i * w r = ∑ r ∈ range X.nr, lin X (v j) r * w r := by
    simp only [lin_support hS (hv j hj), Finset.sum_mul, Finset.mul_sum]
    rw [Finset.sum_comm]
    exact Finset.sum_congr rfl (fun r _ => Finset.sum_congr rfl (fun i _ => by ring))
  rw [e, ← Finset.sum_sub_distrib, Finset.mul_sum]
  exact Finset.sum_congr rfl (fun r _ => by ring)

theorem residual_lin (X : Mat K) (y b : Nat → K) (r : Nat) : residual X y b r = y r - lin X b r := rfl

/-- A lasso solution for a large enough regularisation uses none but the columns of the signal. -/
theorem lasso_support (hd : LassoDistinguishable X S q μ) (hs : SignalPlusNoise X y S b ε)
    (hlamb : (1 + μ) * ε < lamb * (1 - (2 * S.card - 1) * μ)) (hl : 0 ≤ lamb) (hε : 0 ≤ ε) (hmin : IsLassoMin X y lamb β)
    (j : Nat) (hj : j < X.nc) (hjS : j ∉ S) : β j = 0 := by
  have hD := LassoDistinguishable.denom hd
  set D := 1 - (S.card - 1) * μ with hDdef
  choose v hv ho using fun j => exists_projection hd (fun r => X.get r j)
  set T := (range X.nc).filter (fun j => j ∉ S) with hT
  have hTlt : ∀ j ∈ T, j < X.nc := fun j hj => mem_range.1 (Finset.mem_filter.1 hj).1
  have hTS : ∀ j ∈ T, j ∉ S := fun j hj => (Finset.mem_filter.1 hj).2
  set z : Nat → K := fun r => ∑ j ∈ T, β j * (X.get r j - lin X (v j) r) with hz
  have hV : ∀ j ∈ T, D * ∑ i ∈ S, |v j i| ≤ S.card * μ :=
    fun j hj => projection_small hd (hTlt j hj) (hTS j hj) (hv j) (ho j)
  have hkkt := fun i hi => kkt_of_lasso_min hl hmin i hi
  have hdot : ∀ w : Nat → K, ∑ r ∈ range X.nr, z r * w r =
      ∑ j ∈ T, β j * (∑ r ∈ range X.nr, X.get r j * w r - ∑ i ∈ S, v j i * ∑ r ∈ range X.nr, X.get r i * w r) :=
    fun w => dot_differences hd.lt β (fun j _ => hv j) w
  -- a bound for sums over `S`
  have hbound : ∀ (c : Nat → K) (m : K), 0 ≤ m → (∀ i ∈ S, |c i| ≤ m) → ∀ j ∈ T,
      D * |∑ i ∈ S, v j i * c i| ≤ S.card * μ * m := by
    intro c m hm hc j hj
    have h1 : |∑ i ∈ S, v j i * c i| ≤ (∑ i ∈ S, |v j i|) * m := by
      rw [Finset.sum_mul]
      refine (Finset.abs_sum_le_sum_abs _ _).trans (Finset.sum_le_sum fun i hi => ?_)
      rw [abs_mul]
      exact mul_le_mul_of_nonneg_left (hc i hi) (abs_nonneg _)
    calc D * |∑ i ∈ S, v j i * c i| ≤ D * ((∑ i ∈ S, |v j i|) * m) := mul_le_mul_of_nonneg_left h1 hD.le
      _ = (D * ∑ i ∈ S, |v j i|) * m := by ring
      _ ≤ _ := mul_le_mul_of_nonneg_right (hV j hj) hm
  -- the correlation of the solution
  have hlow : (1 - (2 * S.card - 1) * μ) * lamb * ∑ j ∈ T, |β j| ≤ D * ∑ r ∈ range X.nr, z r * residual X y β r := by
    rw [hdot, Finset.mul_sum, Finset.mul_sum]
    refine Finset.sum_le_sum fun j hj => ?_
    have h1 := (hkkt j (hTlt j hj)).2
    have h2 := hbound (correlation X y β) lamb hl (fun i hi => (hkkt i (hd.lt i hi)).1) j hj
    have h3 : β j * ∑ i ∈ S, v j i * correlation X y β i ≤ |β j| * |∑ i ∈ S, v j i * correlation X y β i| := by
      rw [← abs_mul]; exact le_abs_self _
    have h4 := mul_le_mul_of_nonneg_left h2 (abs_nonneg (β j))
    change _ ≤ D * (β j * (correlation X y β j - ∑ i ∈ S, v j i * correlation X y β i))
    have h5 : D * (β j * ∑ i ∈ S, v j i * correlation X y β i) ≤ |β j| * (S.card * μ * lamb) := by
      refine le_trans (mul_le_mul_of_nonneg_left h3 hD.le) (le_trans (le_of_eq (by ring)) h4)
    have h6 : D * (β j * (correlation X y β j - ∑ i ∈ S, v j i * correlation X y β i)) =
        D * (lamb * |β j|) - D * (β j * ∑ i ∈ S, v j i * correlation X y β i) := by
      rw [← h1]; ring
    rw [h6]
    have h7 : D - S.card * μ = 1 - (2 * S.card - 1) * μ := by rw [hDdef]; ring
    rw [← h7]
    linarith
  -- the correlation of the noise
  have hup : D * ∑ r ∈ range X.nr, z r * residual X y b r ≤ (1 + μ) * ε * ∑ j ∈ T, |β j| := by
    rw [hdot, Finset.mul_sum, Finset.mul_sum]
    refine Finset.sum_le_sum fun j hj => ?_
    have h1 := hs.noise j (hTlt j hj)
    have h2 := hbound (correlation X y b) ε hε (fun i hi => hs.noise i (hd.lt i hi)) j hj
    change D * (β j * (correlation X y b j - ∑ i ∈ S, v j i * correlation X y b i)) ≤ _
    have h3 : β j * (correlation X y b j - ∑ i ∈ S, v j i * correlation X y b i) ≤
        |β j| * (|correlation X y b j| + |∑ i ∈ S, v j i * correlation X y b i|) := by
      refine (le_abs_self _).trans ?_
      rw [abs_mul]
      exact mul_le_mul_of_nonneg_left (abs_sub _ _) (abs_nonneg _)
    have h4 : D * (|correlation X y b j| + |∑ i ∈ S, v j i * correlation X y b i|) ≤ (1 + μ) * ε := by
      have := mul_le_mul_of_nonneg_left h1 hD.le
      have h7 : D + S.card * μ = 1 + μ := by rw [hDdef]; ring
      rw [← h7]
      linarith
    calc _ ≤ D * (|β j| * (|correlation X y b j| + |∑ i ∈ S, v j i * correlation X y b i|)) :=
          mul_le_mul_of_nonneg_left h3 hD.le
      _ = (D * (|correlation X y b j| + |∑ i ∈ S, v j i * correlation X y b i|)) * |β j| := by ring
      _ ≤ _ := mul_le_mul_of_nonneg_right h4 (abs_nonneg _)
  -- the two residuals
  set h : Nat → K := fun i => b i - (if i ∈ S then β i else 0) - ∑ j ∈ T, β j * v j i with hh
  have hh0 : ∀ i, i ∉ S → h i = 0 := by
    intro i hi
    simp only [hh, hs.zero i hi, if_neg hi]
    rw [Finset.sum_eq_zero (fun j _ => by rw [hv j i hi, mul_zero])]
    ring
  have hres : ∀ r, residual X y β r = lin X h r + residual X y b r - z r := by
    intro r
    have e1 : lin X β r = ∑ i ∈ S, X.get r i * β i + ∑ j ∈ T, X.get r j * β j := by
      unfold lin
      rw [← Finset.sum_filter_add_sum_filter_not (range X.nc) (fun j => j ∈ S)]
      congr 1
      have : (range X.nc).filter (fun j => j ∈ S) = S := by
        ext i
        simp only [Finset.mem_filter, mem_range]
        exact ⟨fun h => h.2, fun h => ⟨hd.lt i h, h⟩⟩
      rw [this]
    have e2 : lin X h r = lin X b r - ∑ i ∈ S, X.get r i * β i - ∑ j ∈ T, β j * lin X (v j) r := by
      rw [lin_support hd.lt hh0, lin_support hd.lt hs.zero]
      simp only [lin_support hd.lt (hv _), hh]
      have : ∑ j ∈ T, β j * ∑ i ∈ S, X.get r i * v j i = ∑ i ∈ S, X.get r i * ∑ j ∈ T, β j * v j i := by
        simp only [Finset.mul_sum]
        rw [Finset.sum_comm]
        exact Finset.sum_congr rfl (fun i _ => Finset.sum_congr rfl (fun j _ => by ring))
      rw [this, ← Finset.sum_sub_distrib, ← Finset.sum_sub_distrib]
      refine Finset.sum_congr rfl (fun i hi => ?_)
      rw [if_pos hi]
      ring
    rw [residual_lin, residual_lin, e1, e2]
    simp only [hz, mul_sub, Finset.sum_sub_distrib]
    have : ∑ j ∈ T, β j * X.get r j = ∑ j ∈ T, X.get r j * β j := Finset.sum_congr rfl (fun _ _ => mul_comm _ _)
    rw [this]
    ring
  have horth : ∑ r ∈ range X.nr, z r * lin X h r = 0 := by
    simp only [lin_support hd.lt hh0, Finset.mul_sum]
    rw [Finset.sum_comm]
    refine Finset.sum_eq_zero (fun i hi => ?_)
    have e1 : ∑ r ∈ range X.nr, z r * (X.get r i * h i) = h i * ∑ r ∈ range X.nr, z r * X.get r i := by
      rw [Finset.mul_sum]
      exact Finset.sum_congr rfl (fun _ _ => by ring)
    rw [e1]
    have e2 : ∑ r ∈ range X.nr, z r * X.get r i = 0 := by
      simp only [hz, Finset.sum_mul]
      rw [Finset.sum_comm]
      refine Finset.sum_eq_zero (fun j _ => ?_)
      have := ho j i hi
      calc ∑ r ∈ range X.nr, β j * (X.get r j - lin X (v j) r) * X.get r i
          = -β j * ∑ r ∈ range X.nr, X.get r i * (lin X (v j) r - X.get r j) := by
            rw [Finset.mul_sum]
            exact Finset.sum_congr rfl (fun _ _ => by ring)
        _ = 0 := by rw [this, mul_zero]
    rw [e2, mul_zero]
  have hsplit : ∑ r ∈ range X.nr, z r * residual X y β r =
      ∑ r ∈ range X.nr, z r * residual X y b r - ∑ r ∈ range X.nr, z r ^ 2 := by
    have : ∀ r, z r * residual X y β r = z r * lin X h r + z r * residual X y b r - z r ^ 2 := by
      intro r; rw [hres]; ring
    simp only [this]
    rw [Finset.sum_sub_distrib, Finset.sum_add_distrib, horth, zero_add]
  have hsq : 0 ≤ ∑ r ∈ range X.nr, z r ^ 2 := Finset.sum_nonneg fun _ _ => sq_nonneg _
  rw [hsplit] at hlow
  have hfin : (1 - (2 * S.card - 1) * μ) * lamb * ∑ j ∈ T, |β j| ≤ (1 + μ) * ε * ∑ j ∈ T, |β j| := by
    have := mul_nonneg hD.le hsq
    linarith
  have hzero : ∑ j ∈ T, |β j| ≤ 0 := by
    by_contra hpos
    push Not at hpos
    have := mul_lt_mul_of_pos_right hlamb hpos
    linarith
  have hjT : j ∈ T := Finset.mem_filter.2 ⟨mem_range.2 hj, hjS⟩
  have := Finset.single_le_sum (f := fun j => |β j|) (fun _ _ => abs_nonneg _) hjT
  exact abs_nonpos_iff.1 (this.trans hzero)

/-- The errors of the coefficients. -/
theorem lasso_error (hd : LassoDistinguishable X S q μ) (hs : SignalPlusNoise X y S b ε)
    (hlamb : (1 + μ) * ε < lamb * (1 - (2 * S.card - 1) * μ)) (hl : 0 ≤ lamb) (hε : 0 ≤ ε) (hmin : IsLassoMin X y lamb β)
    (i : Nat) (hi : i ∈ S) : q * (1 - (S.card - 1) * μ) * |β i - b i| ≤ lamb + ε := by
  have hq := hd.pos
  set δ : Nat → K := fun i => if i ∈ S then β i - b i else 0 with hδ
  obtain ⟨m, hm, hmx⟩ := Finset.exists_max_image S (fun i => |δ i|) ⟨i, hi⟩
  have hlin : ∀ r, lin X δ r = residual X y b r - residual X y β r := by
    intro r
    rw [residual_lin, residual_lin]
    have : lin X β r - lin X b r = lin X δ r := by
      rw [← lin_sub]
      refine Finset.sum_congr rfl (fun j hj => ?_)
      congr 1
      simp only [hδ]
      by_cases hjS : j ∈ S
      · rw [if_pos hjS]
      · rw [if_neg hjS, hs.zero j hjS, lasso_support hd hs hlamb hl hε hmin j (mem_range.1 hj) hjS]
        ring
    linarith
  have hgram : ∑ l ∈ S, δ l * colProd X m l = correlation X y b m - correlation X y β m := by
    rw [← dot_lin hd.lt (a := δ) (fun i hi => by simp only [hδ, if_neg hi])]
    simp only [hlin, mul_sub, Finset.sum_sub_distrib]
    rfl
  rw [← Finset.add_sum_erase S _ hm, hd.len m hm] at hgram
  have h1 : |∑ l ∈ S.erase m, δ l * colProd X m l| ≤ (S.card - 1) * (μ * q * |δ m|) := by
    refine (Finset.abs_sum_le_sum_abs _ _).trans ?_
    have := Finset.sum_le_card_nsmul (S.erase m) (fun l => |δ l * colProd X m l|) (μ * q * |δ m|) (fun l hl => by
      rw [abs_mul, mul_comm]
      have h2 := hd.coh m hm l (hd.lt l (Finset.mem_of_mem_erase hl)) (Finset.ne_of_mem_erase hl)
      exact mul_le_mul h2 (hmx l (Finset.mem_of_mem_erase hl)) (abs_nonneg _) (mul_nonneg hd.nonneg hq.le))
    rw [Finset.card_erase_of_mem hm, nsmul_eq_mul, Nat.cast_sub (Finset.card_pos.2 ⟨m, hm⟩)] at this
    simpa using this
  have h2 := (kkt_of_lasso_min hl hmin m (hd.lt m hm)).1
  have h3 := hs.noise m (hd.lt m hm)
  have h4 : q * |δ m| ≤ |correlation X y b m| + |correlation X y β m| + |∑ l ∈ S.erase m, δ l * colProd X m l| := by
    have e : q * |δ m| = |correlation X y b m - correlation X y β m - ∑ l ∈ S.erase m, δ l * colProd X m l| := by
      rw [show correlation X y b m - correlation X y β m - ∑ l ∈ S.erase m, δ l * colProd X m l = δ m * q by linarith,
        abs_mul, abs_of_pos hq, mul_comm]
    rw [e]
    exact (abs_sub _ _).trans (add_le_add (abs_sub _ _) le_rfl)
  have h5 : q * (1 - (S.card - 1) * μ) * |δ m| ≤ lamb + ε := by linarith
  have h6 : |β i - b i| ≤ |δ m| := by
    have := hmx i hi
    simp only [hδ, if_pos hi] at this
    simpa only [hδ] using this
  refine le_trans (mul_le_mul_of_nonneg_left h6 (mul_nonneg hq.le (LassoDistinguishable.denom hd).le)) h5

end Support

end GoSelect
