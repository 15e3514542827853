import Verif.Props.C106
import Mathlib.Algebra.Order.Chebyshev

/-!
# The speed of coordinate descent
-/

namespace GoSelect

open Finset Spec

variable {X : Mat ℝ} {y : Nat → ℝ} {lamb : ℝ}

theorem sweepMap_off (A : List Nat) (b : Nat → ℝ) (k : Nat) (hk : k ∉ A) : sweepMap X y lamb A b k = b k := by
  induction A generalizing b with
  | nil => rfl
  | cons j A ih =>
    simp only [List.mem_cons, not_or] at hk
    have := ih (Function.update b j (coordMin X y lamb b j)) hk.2
    rw [Function.update_of_ne hk.1] at this
    exact this

/-- The condition of a feature right after its update. -/
theorem coordMin_kkt (hl : 0 ≤ lamb) (b : Nat → ℝ) {j : Nat} (hj : j < X.nc) (hc : 0 < (empiricalCov X).get j j) (t : ℝ) :
    gradient X y (Function.update b j (coordMin X y lamb b j)) j * (t - coordMin X y lamb b j) ≤
      lamb * (|t| - |coordMin X y lamb b j|) := by
  set x := gradient X y b j + (empiricalCov X).get j j * b j with hx
  have hmin : (empiricalCov X).get j j * coordMin X y lamb b j = softThreshold x lamb := by
    unfold coordMin
    rw [← hx]
    field_simp
  have hg : gradient X y (Function.update b j (coordMin X y lamb b j)) j = x - softThreshold x lamb := by
    have h1 := gradient_sub X y (Function.update b j (coordMin X y lamb b j)) b j
    rw [Finset.sum_eq_single j (fun k _ hk => by rw [Function.update_of_ne hk, sub_self, mul_zero])
      (fun h => absurd (mem_range.2 hj) h), Function.update_self] at h1
    rw [← hmin, hx]
    linarith
  obtain ⟨h1, h2⟩ := softThreshold_subgradient (x := x) hl
  have h3 : (x - softThreshold x lamb) * coordMin X y lamb b j = lamb * |coordMin X y lamb b j| := by
    have e : coordMin X y lamb b j = softThreshold x lamb / (empiricalCov X).get j j := by
      rw [← hmin]; field_simp
    rw [e, abs_div, abs_of_pos hc, ← mul_div_assoc, h2, mul_div_assoc]
  rw [hg]
  have := subgradient_le h1 h3 t
  linarith

/-- After a sweep every feature of the sweep satisfies its condition up to the changes of the sweep. -/
theorem sweep_kkt (hl : 0 ≤ lamb) {A : List Nat} (hnd : A.Nodup)
    (hA : ∀ j ∈ A, j < X.nc ∧ 0 < (empiricalCov X).get j j) {B : ℝ} (hB0 : 0 ≤ B)
    (hB : ∀ i ∈ A, ∀ j ∈ A, |(empiricalCov X).get i j| ≤ B) (b : Nat → ℝ) (i : Nat) (hi : i ∈ A) :
    ∃ g, (∀ t, g * (t - sweepMap X y lamb A b i) ≤ lamb * (|t| - |sweepMap X y lamb A b i|)) ∧
      |gradient X y (sweepMap X y lamb A b) i - g| ≤ B * ∑ j ∈ A.toFinset, |sweepMap X y lamb A b j - b j| := by
  induction A generalizing b with
  | nil => simp at hi
  | cons j A ih =>
    obtain ⟨h1, h2⟩ := hA j (by simp)
    obtain ⟨hjA, hnd'⟩ := List.nodup_cons.1 hnd
    have hA' := fun k hk => hA k (List.mem_cons_of_mem j hk)
    set b1 := Function.update b j (coordMin X y lamb b j) with hb1
    have he : sweepMap X y lamb (j :: A) b = sweepMap X y lamb A b1 := rfl
    rw [he]
    have hsum : ∑ k ∈ A.toFinset, |sweepMap X y lamb A b1 k - b1 k| ≤
        ∑ k ∈ (j :: A).toFinset, |sweepMap X y lamb A b1 k - b k| := by
      rw [List.toFinset_cons, Finset.sum_insert (by simpa using hjA)]
      have : ∑ k ∈ A.toFinset, |sweepMap X y lamb A b1 k - b1 k| = ∑ k ∈ A.toFinset, |sweepMap X y lamb A b1 k - b k| := by
        refine Finset.sum_congr rfl (fun k hk => ?_)
        rw [hb1, Function.update_of_ne (by rintro rfl; exact hjA (List.mem_toFinset.1 hk))]
      rw [this]
      have := abs_nonneg (sweepMap X y lamb A b1 j - b j)
      linarith
    rcases List.mem_cons.1 hi with rfl | hi'
    · refine ⟨gradient X y b1 i, ?_, ?_⟩
      · rw [sweepMap_off A b1 i hjA, hb1, Function.update_self]
        exact coordMin_kkt hl b h1 h2
      · refine le_trans ?_ (mul_le_mul_of_nonneg_left hsum hB0)
        rw [gradient_sub, abs_neg, Finset.mul_sum]
        have hsub : A.toFinset ⊆ range X.nc := fun k hk => mem_range.2 (hA' k (List.mem_toFinset.1 hk)).1
        rw [← Finset.sum_subset hsub (fun k _ hk => by
          rw [sweepMap_off A b1 k (fun h => hk (List.mem_toFinset.2 h)), sub_self, mul_zero])]
        refine (Finset.abs_sum_le_sum_abs _ _).trans (Finset.sum_le_sum (fun k hk => ?_))
        rw [abs_mul]
        exact mul_le_mul_of_nonneg_right (hB i (by simp) k (List.mem_cons_of_mem _ (List.mem_toFinset.1 hk)))
          (abs_nonneg _)
    · obtain ⟨g, hg1, hg2⟩ := ih hnd' hA'
        (fun i hi j hj => hB i (List.mem_cons_of_mem _ hi) j (List.mem_cons_of_mem _ hj)) b1 hi'
      exact ⟨g, hg1, hg2.trans (mul_le_mul_of_nonneg_left hsum hB0)⟩

/-- A sweep lowers the objective by the squares of all changes. -/
theorem sweep_decrease (hl : 0 ≤ lamb) (hnr : 0 < X.nr) {A : List Nat} (hnd : A.Nodup) {c : ℝ} (hc : 0 < c)
    (hA : ∀ j ∈ A, j < X.nc ∧ c ≤ (empiricalCov X).get j j) (b : Nat → ℝ) :
    lassoObjective X y lamb (sweepMap X y lamb A b) + c / 2 * ∑ j ∈ A.toFinset, (sweepMap X y lamb A b j - b j) ^ 2 ≤
      lassoObjective X y lamb b := by
  induction A generalizing b with
  | nil => simp [sweepMap]
  | cons j A ih =>
    obtain ⟨h1, h2⟩ := hA j (by simp)
    obtain ⟨hjA, hnd'⟩ := List.nodup_cons.1 hnd
    set b1 := Function.update b j (coordMin X y lamb b j) with hb1
    have he : sweepMap X y lamb (j :: A) b = sweepMap X y lamb A b1 := rfl
    have hi := ih hnd' (fun k hk => hA k (List.mem_cons_of_mem j hk)) b1
    have hd := coordMin_decrease X y lamb hl b j h1 hnr (hc.trans_le h2)
    rw [he, List.toFinset_cons, Finset.sum_insert (by simpa using hjA)]
    have e1 : ∑ k ∈ A.toFinset, (sweepMap X y lamb A b1 k - b1 k) ^ 2 =
        ∑ k ∈ A.toFinset, (sweepMap X y lamb A b1 k - b k) ^ 2 := by
      refine Finset.sum_congr rfl (fun k hk => ?_)
      rw [hb1, Function.update_of_ne (by rintro rfl; exact hjA (List.mem_toFinset.1 hk))]
    have e2 : sweepMap X y lamb A b1 j = coordMin X y lamb b j := by
      rw [sweepMap_off A b1 j hjA, hb1, Function.update_self]
    rw [e1] at hi
    rw [e2]
    have : c / 2 * (coordMin X y lamb b j - b j) ^ 2 ≤ (empiricalCov X).get j j / 2 * (coordMin X y lamb b j - b j) ^ 2 :=
      mul_le_mul_of_nonneg_right (by linarith) (sq_nonneg _)
    rw [mul_add]
    linarith

/-- The mean square of the predictions of a vector. -/
noncomputable def Spec.predSquare (X : Mat ℝ) (v : Nat → ℝ) : ℝ :=
  (1 / (X.nr : ℝ)) * ∑ r ∈ range X.nr, (∑ j ∈ range X.nc, X.get r j * v j) ^ 2

theorem objective_expand (hnr : 0 < X.nr) (b b' : Nat → ℝ) :
    lassoObjective X y lamb b' = lassoObjective X y lamb b - ∑ j ∈ range X.nc, gradient X y b j * (b' j - b j) +
      lamb * (∑ j ∈ range X.nc, |b' j| - ∑ j ∈ range X.nc, |b j|) + predSquare X (fun j => b' j - b j) / 2 := by
  have hn : (0 : ℝ) < X.nr := by positivity
  have hres : ∀ r, Spec.residual X y b' r = Spec.residual X y b r - ∑ j ∈ range X.nc, X.get r j * (b' j - b j) := by
    intro r
    unfold Spec.residual
    simp only [mul_sub, Finset.sum_sub_distrib]
    ring
  have hcross : ∑ j ∈ range X.nc, gradient X y b j * (b' j - b j) =
      (1 / (X.nr : ℝ)) * ∑ r ∈ range X.nr, Spec.residual X y b r * ∑ j ∈ range X.nc, X.get r j * (b' j - b j) := by
    unfold gradient
    simp only [Finset.mul_sum, Finset.sum_mul]
    rw [Finset.sum_comm]
    apply Finset.sum_congr rfl
    intro r _
    apply Finset.sum_congr rfl
    intro j _
    ring
  have hsq : ∑ r ∈ range X.nr, Spec.residual X y b' r ^ 2 =
      ∑ r ∈ range X.nr, Spec.residual X y b r ^ 2 -
        2 * ∑ r ∈ range X.nr, Spec.residual X y b r * ∑ j ∈ range X.nc, X.get r j * (b' j - b j) +
        ∑ r ∈ range X.nr, (∑ j ∈ range X.nc, X.get r j * (b' j - b j)) ^ 2 := by
    rw [Finset.mul_sum, ← Finset.sum_sub_distrib, ← Finset.sum_add_distrib]
    apply Finset.sum_congr rfl
    intro r _
    rw [hres r]; ring
  unfold lassoObjective predSquare
  rw [hcross, hsq]
  field_simp
  ring

/-- The gap after a sweep in terms of the changes of the sweep. -/
theorem sweep_gap_strong (hl : 0 ≤ lamb) (hnr : 0 < X.nr) {A : List Nat} (hnd : A.Nodup)
    (hA : ∀ j ∈ A, j < X.nc ∧ 0 < (empiricalCov X).get j j) {B : ℝ} (hB0 : 0 ≤ B)
    (hB : ∀ i ∈ A, ∀ j ∈ A, |(empiricalCov X).get i j| ≤ B) (b b' : Nat → ℝ) (hoff : ∀ j < X.nc, j ∉ A → b' j = b j) :
    lassoObjective X y lamb (sweepMap X y lamb A b) - lassoObjective X y lamb b' ≤
      B * (∑ j ∈ A.toFinset, |sweepMap X y lamb A b j - b j|) * (∑ j ∈ range X.nc, |b' j - sweepMap X y lamb A b j|) -
        predSquare X (fun j => b' j - sweepMap X y lamb A b j) / 2 := by
  set b1 := sweepMap X y lamb A b with hb1
  set D := ∑ j ∈ A.toFinset, |b1 j - b j| with hD
  have hconv := objective_expand (y := y) (lamb := lamb) hnr b1 b'
  have hsum : ∑ j ∈ range X.nc, gradient X y b1 j * (b' j - b1 j) ≤
      lamb * (∑ j ∈ range X.nc, |b' j| - ∑ j ∈ range X.nc, |b1 j|) + B * D * ∑ j ∈ range X.nc, |b' j - b1 j| := by
    rw [← Finset.sum_sub_distrib, Finset.mul_sum, Finset.mul_sum, ← Finset.sum_add_distrib]
    refine Finset.sum_le_sum (fun j hj => ?_)
    by_cases hjA : j ∈ A
    · obtain ⟨g, hg1, hg2⟩ := sweep_kkt hl hnd hA hB0 hB b j hjA
      have h1 := hg1 (b' j)
      have h2 : (gradient X y b1 j - g) * (b' j - b1 j) ≤ B * D * |b' j - b1 j| := by
        refine (le_abs_self _).trans ?_
        rw [abs_mul]
        exact mul_le_mul_of_nonneg_right hg2 (abs_nonneg _)
      have e : gradient X y b1 j * (b' j - b1 j) = g * (b' j - b1 j) + (gradient X y b1 j - g) * (b' j - b1 j) := by ring
      rw [e]
      exact add_le_add h1 h2
    · have : b' j = b1 j := by rw [hoff j (mem_range.1 hj) hjA, hb1, sweepMap_off A b j hjA]
      rw [this]
      simp
  linarith

theorem predSquare_nonneg (v : Nat → ℝ) : 0 ≤ predSquare X v := by
  unfold predSquare
  positivity

theorem sweep_gap (hl : 0 ≤ lamb) (hnr : 0 < X.nr) {A : List Nat} (hnd : A.Nodup)
    (hA : ∀ j ∈ A, j < X.nc ∧ 0 < (empiricalCov X).get j j) {B : ℝ} (hB0 : 0 ≤ B)
    (hB : ∀ i ∈ A, ∀ j ∈ A, |(empiricalCov X).get i j| ≤ B) (b b' : Nat → ℝ) (hoff : ∀ j < X.nc, j ∉ A → b' j = b j) :
    lassoObjective X y lamb (sweepMap X y lamb A b) - lassoObjective X y lamb b' ≤
      B * (∑ j ∈ A.toFinset, |sweepMap X y lamb A b j - b j|) * ∑ j ∈ range X.nc, |b' j - sweepMap X y lamb A b j| := by
  have h1 := sweep_gap_strong (y := y) hl hnr hnd hA hB0 hB b b' hoff
  have h2 := predSquare_nonneg (X := X) (fun j => b' j - sweepMap X y lamb A b j)
  linarith

/-- A sequence whose decrease is at least a multiple of the square of the next value. -/
theorem rate_of_decrease {a : Nat → ℝ} {γ : ℝ} (hγ : 0 < γ) (m : Nat) (hpos : 0 < a m)
    (hstep : ∀ k, k < m → a (k + 1) ≤ a k ∧ γ * a (k + 1) ^ 2 ≤ a k - a (k + 1)) :
    m * a m ≤ 2 / γ + a 0 := by
  have hge : ∀ k, k ≤ m → a m ≤ a k := by
    intro k hk
    have : ∀ d, d ≤ m → a m ≤ a (m - d) := by
      intro d
      induction d with
      | zero => intro _; exact le_rfl
      | succ d ih =>
        intro hd
        refine (ih (by omega)).trans ?_
        have := (hstep (m - (d + 1)) (by omega)).1
        rwa [show m - (d + 1) + 1 = m - d by omega] at this
    have h1 := this (m - k) (by omega)
    rwa [show m - (m - k) = k by omega] at h1
  have hak : ∀ k, k ≤ m → 0 < a k := fun k hk => hpos.trans_le (hge k hk)
  set δ := (2 / γ + a 0)⁻¹ with hδ
  have hden : 0 < 2 / γ + a 0 := by have := hak 0 (Nat.zero_le _); positivity
  have hle0 : ∀ k, k ≤ m → a k ≤ a 0 := by
    intro k
    induction k with
    | zero => intro _; exact le_rfl
    | succ k ih => intro hk; exact (hstep k (by omega)).1.trans (ih (by omega))
  have key : ∀ k, k ≤ m → k * δ ≤ (a k)⁻¹ := by
    intro k
    induction k with
    | zero => intro _; have := hak 0 (Nat.zero_le _); simp; exact this.le
    | succ k ih =>
      intro hk
      have i := ih (by omega)
      have p0 := hak k (by omega)
      have p1 := hak (k + 1) hk
      obtain ⟨s1, s2⟩ := hstep k (by omega)
      suffices hinc : (a k)⁻¹ + δ ≤ (a (k + 1))⁻¹ by push_cast; linarith
      have hδ1 : δ ≤ γ / 2 := by
        rw [hδ, inv_le_comm₀ hden (by positivity), inv_div]
        have := hak 0 (Nat.zero_le _)
        linarith
      have hδ2 : δ * a k ≤ 1 := by
        rw [hδ, inv_mul_le_one₀ hden]
        have h1 := hle0 k (by omega)
        have : 0 < 2 / γ := by positivity
        linarith
      have hδ0 : 0 < δ := inv_pos.2 hden
      rw [← one_div, ← one_div, div_add' _ _ _ p0.ne', div_le_div_iff₀ p0 p1, one_mul]
      by_cases hh : a k ≤ 2 * a (k + 1)
      · have h3 : δ * (a k * a (k + 1)) ≤ γ * a (k + 1) ^ 2 := by
          have : δ * (a k * a (k + 1)) ≤ γ / 2 * (2 * a (k + 1) * a (k + 1)) := by
            apply mul_le_mul hδ1 _ (by positivity) (by positivity)
            exact mul_le_mul_of_nonneg_right hh p1.le
          linarith [this]
        nlinarith
      · have hh' := not_le.1 hh
        have : δ * a k * a (k + 1) ≤ a (k + 1) := by
          have := mul_le_mul_of_nonneg_right hδ2 p1.le
          linarith
        nlinarith
  have hm := mul_le_mul_of_nonneg_right (key m le_rfl) hpos.le
  rw [inv_mul_cancel₀ hpos.ne', hδ] at hm
  have h2 := mul_le_mul_of_nonneg_left hm hden.le
  rw [mul_one] at h2
  refine le_trans (le_of_eq ?_) h2
  have h3 : (2 / γ + a 0) * (↑m * (2 / γ + a 0)⁻¹ * a m) = ((2 / γ + a 0) * (2 / γ + a 0)⁻¹) * (m * a m) := by ring
  rw [h3, mul_inv_cancel₀ hden.ne', one_mul]

/-- A covariance is at most the larger variance. -/
theorem cov_le {B : ℝ} {i j : Nat} (hi : (empiricalCov X).get i i ≤ B) (hj : (empiricalCov X).get j j ≤ B) :
    |(empiricalCov X).get i j| ≤ B := by
  have e : ∀ i j, (empiricalCov X).get i j = (∑ r ∈ range X.nr, X.get r i * X.get r j) / X.nr := by
    intro i j
    simp [empiricalCov]
    ring
  rw [e] at hi hj ⊢
  have h1 : |∑ r ∈ range X.nr, X.get r i * X.get r j| ≤
      (∑ r ∈ range X.nr, X.get r i * X.get r i + ∑ r ∈ range X.nr, X.get r j * X.get r j) / 2 := by
    rw [← Finset.sum_add_distrib, div_eq_mul_inv, Finset.sum_mul]
    refine (Finset.abs_sum_le_sum_abs _ _).trans (Finset.sum_le_sum (fun r _ => ?_))
    rw [abs_le]
    constructor <;> nlinarith [sq_nonneg (X.get r i + X.get r j), sq_nonneg (X.get r i - X.get r j)]
  rw [abs_div, Nat.abs_cast]
  have hn : (0 : ℝ) ≤ X.nr := Nat.cast_nonneg _
  have h2 := div_le_div_of_nonneg_right h1 hn
  have h3 : (∑ r ∈ range X.nr, X.get r i * X.get r i + ∑ r ∈ range X.nr, X.get r j * X.get r j) / 2 / X.nr =
      ((∑ r ∈ range X.nr, X.get r i * X.get r i) / X.nr + (∑ r ∈ range X.nr, X.get r j * X.get r j) / X.nr) / 2 := by
    ring
  rw [h3] at h2
  linarith

/-- Mean of the squares of the response. -/
noncomputable def Spec.meanSquare (X : Mat ℝ) (y : Nat → ℝ) : ℝ := (∑ r ∈ range X.nr, y r ^ 2) / X.nr

theorem objective_at_zero : lassoObjective X y lamb (fun _ => 0) = meanSquare X y / 2 := by
  unfold lassoObjective meanSquare Spec.residual
  simp
  ring

theorem l1_le (hl : 0 < lamb) (b : Nat → ℝ) : ∑ j ∈ range X.nc, |b j| ≤ lassoObjective X y lamb b / lamb := by
  rw [le_div_iff₀ hl]
  unfold lassoObjective
  have : 0 ≤ (1 / (2 * (X.nr : ℝ))) * ∑ r ∈ range X.nr, Spec.residual X y b r ^ 2 := by positivity
  linarith

/-- Sweeps over the same features, in any order. -/
theorem sweeps_rate (hl : 0 < lamb) (hnr : 0 < X.nr) {A : Nat → List Nat} {u : Nat → Nat → ℝ} {c B : ℝ} (hc : 0 < c)
    (m : Nat) (hm : 0 < m) (hu : ∀ k, k < m → u (k + 1) = sweepMap X y lamb (A k) (u k)) (hnd : ∀ k, k < m → (A k).Nodup)
    (hA : ∀ k, k < m → ∀ j ∈ A k, j < X.nc ∧ c ≤ (empiricalCov X).get j j ∧ (empiricalCov X).get j j ≤ B)
    (hB0 : 0 ≤ B) (h0 : lassoObjective X y lamb (u 0) ≤ meanSquare X y / 2) (b : Nat → ℝ)
    (hoff : ∀ k, k < m → ∀ j < X.nc, j ∉ A k → b j = u k j) :
    lassoObjective X y lamb (u m) ≤ lassoObjective X y lamb b +
      (4 * X.nc * B ^ 2 * meanSquare X y ^ 2 / (c * lamb ^ 2) + meanSquare X y) / m := by
  set F := lassoObjective X y lamb with hF
  set s := meanSquare X y with hs
  have hs0 : 0 ≤ s := by rw [hs]; unfold meanSquare; positivity
  have hmr : (0 : ℝ) < m := by exact_mod_cast hm
  by_cases hpos : F (u m) ≤ F b
  · have : 0 ≤ (4 * X.nc * B ^ 2 * s ^ 2 / (c * lamb ^ 2) + s) / m := by positivity
    linarith
  have hpos' : 0 < F (u m) - F b := sub_pos.2 (not_le.1 hpos)
  have hanti : ∀ k, k < m → F (u (k + 1)) ≤ F (u k) := by
    intro k hk
    rw [hu k hk]
    exact sweepMap_le X y lamb hl.le hnr (A k) (fun j hj => ⟨(hA k hk j hj).1, hc.trans_le (hA k hk j hj).2.1⟩) (u k)
  have hle : ∀ k, k ≤ m → F (u k) ≤ s / 2 := by
    intro k
    induction k with
    | zero => intro _; exact h0
    | succ k ih => intro hk; exact (hanti k (by omega)).trans (ih (by omega))
  have hFb0 : 0 ≤ F b := (objective_nonneg X y hl.le b).1
  have hFb : F b ≤ s / 2 := by linarith [hle m le_rfl]
  -- a positive bound on the distance
  have hdist : ∀ k, k ≤ m → ∑ j ∈ range X.nc, |b j - u k j| ≤ s / lamb := by
    intro k hk
    have h1 : ∑ j ∈ range X.nc, |b j - u k j| ≤ ∑ j ∈ range X.nc, |b j| + ∑ j ∈ range X.nc, |u k j| := by
      rw [← Finset.sum_add_distrib]
      exact Finset.sum_le_sum (fun j _ => abs_sub _ _)
    have h2 := l1_le (X := X) (y := y) hl b
    have h3 := l1_le (X := X) (y := y) hl (u k)
    have h4 : F b / lamb + F (u k) / lamb ≤ s / lamb := by
      rw [← add_div]
      exact div_le_div_of_nonneg_right (by linarith [hle k hk]) hl.le
    linarith
  set R := 2 * X.nc * B ^ 2 * s ^ 2 / (c * lamb ^ 2) with hR
  have hR0 : 0 ≤ R := by positivity
  have hstep : ∀ k, k < m → (F (u (k + 1)) - F b) ^ 2 ≤ R * (F (u k) - F (u (k + 1))) := by
    intro k hk
    have hAk : ∀ j ∈ A k, j < X.nc ∧ 0 < (empiricalCov X).get j j :=
      fun j hj => ⟨(hA k hk j hj).1, hc.trans_le (hA k hk j hj).2.1⟩
    have g1 := sweep_gap (y := y) hl.le hnr (hnd k hk) hAk hB0
      (fun i hi j hj => cov_le (hA k hk i hi).2.2 (hA k hk j hj).2.2) (u k) b (hoff k hk)
    have g2 := sweep_decrease (y := y) hl.le hnr (hnd k hk) hc (fun j hj => ⟨(hA k hk j hj).1, (hA k hk j hj).2.1⟩) (u k)
    rw [← hu k hk] at g1 g2
    set D := ∑ j ∈ (A k).toFinset, |u (k + 1) j - u k j| with hD
    have hD0 : 0 ≤ D := Finset.sum_nonneg (fun _ _ => abs_nonneg _)
    have hgap0 : 0 ≤ F (u (k + 1)) - F b := by
      have : ∀ d, k + 1 + d ≤ m → F (u (k + 1 + d)) ≤ F (u (k + 1)) := by
        intro d
        induction d with
        | zero => intro _; exact le_rfl
        | succ d ih => intro hd; exact (hanti (k + 1 + d) (by omega)).trans (ih (by omega))
      have h1 := this (m - (k + 1)) (by omega)
      rw [show k + 1 + (m - (k + 1)) = m by omega] at h1
      linarith
    have g3 : F (u (k + 1)) - F b ≤ B * D * (s / lamb) :=
      g1.trans (mul_le_mul_of_nonneg_left (hdist (k + 1) (by omega)) (mul_nonneg hB0 hD0))
    have g4 : D ^ 2 ≤ X.nc * ∑ j ∈ (A k).toFinset, (u (k + 1) j - u k j) ^ 2 := by
      refine (sq_sum_le_card_mul_sum_sq).trans ?_
      have hcard : ((A k).toFinset.card : ℝ) ≤ X.nc := by
        have : (A k).toFinset ⊆ range X.nc := fun j hj => mem_range.2 (hAk j (List.mem_toFinset.1 hj)).1
        have := Finset.card_le_card this
        rw [Finset.card_range] at this
        exact_mod_cast this
      refine (mul_le_mul_of_nonneg_right hcard (Finset.sum_nonneg (fun _ _ => sq_nonneg _))).trans (le_of_eq ?_)
      congr 1
      exact Finset.sum_congr rfl (fun j _ => sq_abs _)
    have g5 : ∑ j ∈ (A k).toFinset, (u (k + 1) j - u k j) ^ 2 ≤ 2 / c * (F (u k) - F (u (k + 1))) := by
      rw [div_mul_eq_mul_div, le_div_iff₀ hc]
      linarith
    calc (F (u (k + 1)) - F b) ^ 2 ≤ (B * D * (s / lamb)) ^ 2 := pow_le_pow_left₀ hgap0 g3 2
      _ = B ^ 2 * (s / lamb) ^ 2 * D ^ 2 := by ring
      _ ≤ B ^ 2 * (s / lamb) ^ 2 * (X.nc * (2 / c * (F (u k) - F (u (k + 1))))) :=
          mul_le_mul_of_nonneg_left (g4.trans (mul_le_mul_of_nonneg_left g5 (Nat.cast_nonneg _))) (by positivity)
      _ = R * (F (u k) - F (u (k + 1))) := by rw [hR]; field_simp
  rcases hR0.eq_or_lt with hz | hRpos
  · exfalso
    have h1 := hstep (m - 1) (by omega)
    rw [show m - 1 + 1 = m by omega, ← hz, zero_mul] at h1
    have : 0 < (F (u m) - F b) ^ 2 := by positivity
    linarith
  have hrate := rate_of_decrease (a := fun k => F (u k) - F b) (γ := 1 / R) (by positivity) m hpos' (fun k hk => by
    refine ⟨by have := hanti k hk; linarith, ?_⟩
    have := hstep k hk
    rw [div_mul_eq_mul_div, div_le_iff₀ hRpos, one_mul]
    linarith)
  have e : 2 / (1 / R) = 4 * X.nc * B ^ 2 * s ^ 2 / (c * lamb ^ 2) := by
    rw [hR]
    field_simp
    ring
  rw [e] at hrate
  have h6 : F (u m) - F b ≤ (4 * X.nc * B ^ 2 * s ^ 2 / (c * lamb ^ 2) + s) / m := by
    rw [le_div_iff₀ hmr]
    have h0' := hle 0 (Nat.zero_le _)
    linarith
  linarith

/-- The sum of the absolute changes of a sweep and the decrease of the objective. -/
theorem change_le (hl : 0 ≤ lamb) (hnr : 0 < X.nr) {A : List Nat} (hnd : A.Nodup) {c : ℝ} (hc : 0 < c)
    (hA : ∀ j ∈ A, j < X.nc ∧ c ≤ (empiricalCov X).get j j) (b : Nat → ℝ) :
    (∑ j ∈ A.toFinset, |sweepMap X y lamb A b j - b j|) ^ 2 ≤
      X.nc * (2 / c * (lassoObjective X y lamb b - lassoObjective X y lamb (sweepMap X y lamb A b))) := by
  have g2 := sweep_decrease (y := y) hl hnr hnd hc hA b
  refine (sq_sum_le_card_mul_sum_sq).trans ?_
  have hcard : (A.toFinset.card : ℝ) ≤ X.nc := by
    have : A.toFinset ⊆ range X.nc := fun j hj => mem_range.2 (hA j (List.mem_toFinset.1 hj)).1
    have := Finset.card_le_card this
    rw [Finset.card_range] at this
    exact_mod_cast this
  have e : ∑ j ∈ A.toFinset, |sweepMap X y lamb A b j - b j| ^ 2 = ∑ j ∈ A.toFinset, (sweepMap X y lamb A b j - b j) ^ 2 :=
    Finset.sum_congr rfl (fun j _ => sq_abs _)
  rw [e]
  refine (mul_le_mul_of_nonneg_right hcard (Finset.sum_nonneg (fun _ _ => sq_nonneg _))).trans
    (mul_le_mul_of_nonneg_left ?_ (Nat.cast_nonneg _))
  rw [div_mul_eq_mul_div, le_div_iff₀ hc]
  linarith

/-- The columns other than the first are independent: the mean square of the predictions is at least `μ` times the sum of
squares of the coefficients. -/
def Spec.WellConditioned (X : Mat ℝ) (μ : ℝ) : Prop :=
  ∀ v : Nat → ℝ, v 0 = 0 → μ * ∑ j ∈ range X.nc, v j ^ 2 ≤ predSquare X v

/-- Sweeps for independent columns: one step. -/
theorem sweep_linear (hl : 0 ≤ lamb) (hnr : 0 < X.nr) {A : List Nat} (hnd : A.Nodup) {c B μ : ℝ} (hc : 0 < c)
    (hA : ∀ j ∈ A, 1 ≤ j ∧ j < X.nc ∧ c ≤ (empiricalCov X).get j j ∧ (empiricalCov X).get j j ≤ B)
    (hB0 : 0 ≤ B) (hμ : 0 < μ) (hw : WellConditioned X μ) (b b' : Nat → ℝ) (hoff : ∀ j < X.nc, j ∉ A → b' j = b j)
    (h0 : b' 0 = b 0) :
    lassoObjective X y lamb (sweepMap X y lamb A b) - lassoObjective X y lamb b' ≤
      X.nc ^ 2 * B ^ 2 / (μ * c) * (lassoObjective X y lamb b - lassoObjective X y lamb (sweepMap X y lamb A b)) := by
  have g1 := sweep_gap_strong (y := y) hl hnr hnd (fun j hj => ⟨(hA j hj).2.1, hc.trans_le (hA j hj).2.2.1⟩) hB0
    (fun i hi j hj => cov_le (hA i hi).2.2.2 (hA j hj).2.2.2) b b' hoff
  have g2 := change_le (y := y) hl hnr hnd hc (fun j hj => ⟨(hA j hj).2.1, (hA j hj).2.2.1⟩) b
  set u := sweepMap X y lamb A b with hu
  have g3 := hw (fun j => b' j - u j) (by
    rw [h0, hu, sweepMap_off A b 0 (fun h => by have := (hA 0 h).1; omega), sub_self])
  set D := ∑ j ∈ A.toFinset, |u j - b j| with hD
  set E := ∑ j ∈ range X.nc, |b' j - u j| with hE
  have hE2 : E ^ 2 ≤ X.nc * ∑ j ∈ range X.nc, (b' j - u j) ^ 2 := by
    have h := sq_sum_le_card_mul_sum_sq (s := range X.nc) (f := fun j => |b' j - u j|)
    rw [card_range] at h
    refine h.trans (le_of_eq ?_)
    congr 1
    exact Finset.sum_congr rfl (fun j _ => sq_abs _)
  rcases Nat.eq_zero_or_pos X.nc with hnc | hnc
  · have hE0 : E = 0 := by rw [hE, hnc]; simp
    have := predSquare_nonneg (X := X) (fun j => b' j - u j)
    rw [hE0, mul_zero] at g1
    rw [hnc]
    simp only [Nat.cast_zero]
    norm_num
    linarith
  have hp : (0 : ℝ) < X.nc := by exact_mod_cast hnc
  have hmul : B * D * E ≤ X.nc * (B * D) ^ 2 / (2 * μ) + μ / (2 * X.nc) * E ^ 2 := by
    have h := sq_nonneg (X.nc * (B * D) - μ * E)
    have e : X.nc * (B * D) ^ 2 / (2 * μ) + μ / (2 * X.nc) * E ^ 2 - B * D * E =
        (X.nc * (B * D) - μ * E) ^ 2 / (2 * μ * X.nc) := by
      field_simp
      ring
    have : 0 ≤ (X.nc * (B * D) - μ * E) ^ 2 / (2 * μ * X.nc) := by positivity
    linarith
  have h5 : μ / (2 * X.nc) * E ^ 2 ≤ μ / 2 * ∑ j ∈ range X.nc, (b' j - u j) ^ 2 := by
    refine (mul_le_mul_of_nonneg_left hE2 (by positivity)).trans (le_of_eq ?_)
    field_simp
  have h6 : X.nc * (B * D) ^ 2 / (2 * μ) ≤ X.nc ^ 2 * B ^ 2 / (μ * c) * (lassoObjective X y lamb b - lassoObjective X y lamb u) := by
    have e1 : X.nc * (B * D) ^ 2 / (2 * μ) = X.nc * B ^ 2 / (2 * μ) * D ^ 2 := by ring
    have e2 : X.nc ^ 2 * B ^ 2 / (μ * c) * (lassoObjective X y lamb b - lassoObjective X y lamb u) =
        X.nc * B ^ 2 / (2 * μ) * (X.nc * (2 / c * (lassoObjective X y lamb b - lassoObjective X y lamb u))) := by
      field_simp
    rw [e1, e2]
    exact mul_le_mul_of_nonneg_left g2 (by positivity)
  linarith

/-- The objective at the best of some vectors is below that at any other of them by half the mean square of the difference
of the predictions. -/
theorem gap_of_best (hnr : 0 < X.nr) (hl : 0 ≤ lamb) (b b' : Nat → ℝ)
    (hbest : ∀ t : ℝ, 0 < t → t < 1 → lassoObjective X y lamb b ≤ lassoObjective X y lamb (fun j => (1 - t) * b j + t * b' j)) :
    predSquare X (fun j => b' j - b j) / 2 ≤ lassoObjective X y lamb b' - lassoObjective X y lamb b := by
  have hn : (0 : ℝ) < X.nr := by positivity
  set q := predSquare X (fun j => b' j - b j) with hq
  set F := lassoObjective X y lamb with hF
  have key : ∀ t : ℝ, 0 < t → t < 1 → (1 - t) * q / 2 ≤ F b' - F b := by
    intro t ht0 ht1
    have h1 : F (fun j => (1 - t) * b j + t * b' j) ≤ (1 - t) * F b + t * F b' - t * (1 - t) * q / 2 := by
      have hres : ∀ r, Spec.residual X y (fun j => (1 - t) * b j + t * b' j) r =
          (1 - t) * Spec.residual X y b r + t * Spec.residual X y b' r := by
        intro r
        unfold Spec.residual
        simp only [mul_add, Finset.sum_add_distrib, mul_sub, Finset.mul_sum]
        have e : ∀ (a : ℝ) (v : Nat → ℝ), ∑ j ∈ range X.nc, X.get r j * (a * v j) = ∑ j ∈ range X.nc, a * (X.get r j * v j) :=
          fun a v => Finset.sum_congr rfl (fun j _ => by ring)
        rw [e, e]
        ring
      have hdiff : ∀ r, ∑ j ∈ range X.nc, X.get r j * (b' j - b j) = Spec.residual X y b r - Spec.residual X y b' r := by
        intro r
        unfold Spec.residual
        simp only [mul_sub, Finset.sum_sub_distrib]
        ring
      have hl1 : ∑ j ∈ range X.nc, |(1 - t) * b j + t * b' j| ≤
          (1 - t) * ∑ j ∈ range X.nc, |b j| + t * ∑ j ∈ range X.nc, |b' j| := by
        rw [Finset.mul_sum, Finset.mul_sum, ← Finset.sum_add_distrib]
        refine Finset.sum_le_sum (fun j _ => (abs_add_le _ _).trans ?_)
        rw [abs_mul, abs_mul, abs_of_pos ht0, abs_of_pos (by linarith : 0 < 1 - t)]
      have hsq : ∑ r ∈ range X.nr, Spec.residual X y (fun j => (1 - t) * b j + t * b' j) r ^ 2 =
          (1 - t) * ∑ r ∈ range X.nr, Spec.residual X y b r ^ 2 + t * ∑ r ∈ range X.nr, Spec.residual X y b' r ^ 2 -
            t * (1 - t) * ∑ r ∈ range X.nr, (∑ j ∈ range X.nc, X.get r j * (b' j - b j)) ^ 2 := by
        rw [Finset.mul_sum, Finset.mul_sum, Finset.mul_sum, ← Finset.sum_add_distrib, ← Finset.sum_sub_distrib]
        refine Finset.sum_congr rfl (fun r _ => ?_)
        rw [hres, hdiff]
        ring
      have hl1' := mul_le_mul_of_nonneg_left hl1 hl
      rw [hF, hq]
      unfold lassoObjective predSquare
      rw [hsq]
      have e : ∀ a b c : ℝ, 1 / (2 * (X.nr : ℝ)) * ((1 - t) * a + t * b - t * (1 - t) * c) =
          (1 - t) * (1 / (2 * (X.nr : ℝ)) * a) + t * (1 / (2 * (X.nr : ℝ)) * b) - t * (1 - t) * (1 / (X.nr : ℝ) * c) / 2 := by
        intro a b c
        field_simp
      rw [e]
      linarith
    have h2 := hbest t ht0 ht1
    have h3 : t * ((1 - t) * q / 2) ≤ t * (F b' - F b) := by linarith
    exact le_of_mul_le_mul_left h3 ht0
  by_contra hcon
  push Not at hcon
  have hq0 : 0 ≤ q := predSquare_nonneg _
  have hg : 0 ≤ F b' - F b := by
    have := key (1 / 2) (by norm_num) (by norm_num)
    have : 0 ≤ (1 - 1 / 2 : ℝ) * q / 2 := by positivity
    linarith
  have hqp : 0 < q := by linarith
  set t := (q / 2 - (F b' - F b)) / q with ht
  have ht0 : 0 < t := by rw [ht]; apply div_pos <;> linarith
  have ht1 : t < 1 := by rw [ht, div_lt_one hqp]; linarith
  have h := key t ht0 ht1
  have e : t * q = q / 2 - (F b' - F b) := by rw [ht]; field_simp
  nlinarith

end GoSelect
