import Verif.Model.CrdDescRounded
import Verif.Proofs.CrdDesc
import Verif.Proofs.RoundedFit

/-! Coordinate descent with rounding: effect of one coordinate update, of a sweep, of the loop. -/

namespace GoSelect

open Finset Spec

/-- `rnd x` is at most `v` off `x` if `|x|` is at most `w`. -/
theorem rel_err {rnd : ℝ → ℝ} {u : ℝ} (hu : 0 ≤ u) (h : RelativeError rnd u) {x w : ℝ} (hx : |x| ≤ w) :
    |rnd x - x| ≤ u * w := (h x).trans (mul_le_mul_of_nonneg_left hx hu)

theorem rel_size {rnd : ℝ → ℝ} {u : ℝ} (hu : 0 ≤ u) (hu1 : u ≤ 1 / 1000) (h : RelativeError rnd u) {x w : ℝ}
    (hx : |x| ≤ w) : |rnd x| ≤ 1001 / 1000 * w := by
  refine (rel_abs h x).trans ?_
  have h0 := abs_nonneg x
  calc (1 + u) * |x| ≤ (1001 / 1000) * |x| := mul_le_mul_of_nonneg_right (by linarith) h0
    _ ≤ _ := mul_le_mul_of_nonneg_left hx (by norm_num)

theorem rel_zero {rnd : ℝ → ℝ} {u : ℝ} (h : RelativeError rnd u) : rnd 0 = 0 := by
  have := h 0
  rw [abs_zero, mul_zero, sub_zero] at this
  exact abs_nonpos_iff.1 this

/-- The argument of `SoftThreshold`, as computed. -/
theorem argument_err {rnd : ℝ → ℝ} {u S : ℝ} (hu : 0 ≤ u) (hu1 : u ≤ 1 / 1000) (h : RelativeError rnd u)
    {a cd d : ℝ} (ha : |a| ≤ S) (hcd : |cd| ≤ 101 / 100 * S) (hd : |d| ≤ S) :
    |rnd (rnd (rnd a - rnd (cd - rnd d)) - 0) - (a - cd + d)| ≤ 102 / 10 * (u * S) ∧
      |rnd (rnd (rnd a - rnd (cd - rnd d)) - 0)| ≤ 31 / 10 * S := by
  have hS : 0 ≤ S := (abs_nonneg a).trans ha
  have huS : 0 ≤ u * S := mul_nonneg hu hS
  have e1 := rel_err hu h ha
  have s1 := rel_size hu hu1 h ha
  have e2 := rel_err hu h hd
  have s2 := rel_size hu hu1 h hd
  have b3 : |cd - rnd d| ≤ 2011 / 1000 * S := (abs_sub _ _).trans (by linarith)
  have e3 := rel_err hu h b3
  have s3 := rel_size hu hu1 h b3
  have b4 : |rnd a - rnd (cd - rnd d)| ≤ 303 / 100 * S := (abs_sub _ _).trans (by linarith)
  have e4 := rel_err hu h b4
  have s4 := rel_size hu hu1 h b4
  have b5 : |rnd (rnd a - rnd (cd - rnd d)) - 0| ≤ 304 / 100 * S := by rw [sub_zero]; linarith
  have e5 := rel_err hu h b5
  have s5 := rel_size hu hu1 h b5
  refine ⟨?_, by linarith⟩
  set x1 := rnd a
  set x2 := rnd d
  set x3 := rnd (cd - x2)
  set x4 := rnd (x1 - x3)
  rw [sub_zero] at e5 ⊢
  rw [abs_le] at *
  constructor <;> linarith [e1.1, e1.2, e2.1, e2.2, e3.1, e3.2, e4.1, e4.2, e5.1, e5.2]

/-- A rounded soft threshold, divided by `c`: a solution of the one-dimensional problem up to rounding errors. -/
theorem soft_err {rnd : ℝ → ℝ} {u S : ℝ} (hu : 0 ≤ u) (hu1 : u ≤ 1 / 1000) (h : RelativeError rnd u) {x c lamb : ℝ}
    (hx : |x| ≤ 31 / 10 * S) (hc : 0 < c) (hl : 0 ≤ lamb) :
    ∃ s, |s| ≤ lamb ∧ s * rnd (softThresholdRnd rnd x lamb / c) = lamb * |rnd (softThresholdRnd rnd x lamb / c)| ∧
      |x - s - c * rnd (softThresholdRnd rnd x lamb / c)| ≤ 63 / 10 * (u * S) := by
  have hS : 0 ≤ S := by have := (abs_nonneg x).trans hx; linarith
  have huS : 0 ≤ u * S := mul_nonneg hu hS
  have key : ∀ z, |z| ≤ 31 / 10 * S → |z - c * rnd (rnd z / c)| ≤ 63 / 10 * (u * S) := by
    intro z hz
    have e1 := rel_err hu h hz
    have s1 := rel_size hu hu1 h hz
    have e2 := h (rnd z / c)
    have e3 : |c * rnd (rnd z / c) - rnd z| ≤ u * |rnd z| := by
      have : c * rnd (rnd z / c) - rnd z = c * (rnd (rnd z / c) - rnd z / c) := by
        rw [mul_sub, mul_div_cancel₀ _ hc.ne']
      rw [this, abs_mul, abs_of_pos hc]
      calc c * |rnd (rnd z / c) - rnd z / c| ≤ c * (u * |rnd z / c|) := mul_le_mul_of_nonneg_left e2 hc.le
        _ = u * |rnd z| := by rw [abs_div, abs_of_pos hc]; field_simp
    have e4 : u * |rnd z| ≤ u * (1001 / 1000 * (31 / 10 * S)) := mul_le_mul_of_nonneg_left s1 hu
    rw [abs_le] at *
    constructor <;> linarith [e1.1, e1.2, e3.1, e3.2]
  have hnn : ∀ z, 0 ≤ z → 0 ≤ rnd (rnd z / c) := by
    intro z hz
    have h1 : 0 ≤ rnd z := le_trans (mul_nonneg (by linarith) hz) (rel_nonneg h hz).1
    have h2 : 0 ≤ rnd z / c := div_nonneg h1 hc.le
    exact le_trans (mul_nonneg (by linarith) h2) (rel_nonneg h h2).1
  have hnp : ∀ z, z ≤ 0 → rnd z ≤ 0 := by
    intro z hz
    have := abs_le.1 (h z)
    rw [abs_of_nonpos hz] at this
    nlinarith [this.2]
  unfold softThresholdRnd
  split
  · rename_i hlt
    have hz : x + lamb ≤ 0 := by linarith
    have hb : |x + lamb| ≤ 31 / 10 * S := by
      rw [abs_of_nonpos hz]
      rw [abs_of_nonpos (by linarith : x ≤ 0)] at hx
      linarith
    have ht : rnd (rnd (x + lamb) / c) ≤ 0 := hnp _ (div_nonpos_of_nonpos_of_nonneg (hnp _ hz) hc.le)
    refine ⟨-lamb, by rw [abs_neg, abs_of_nonneg hl], by rw [abs_of_nonpos ht]; ring, ?_⟩
    rw [sub_neg_eq_add]
    exact key _ hb
  · split
    · rename_i h1 h2
      have hz : 0 ≤ x - lamb := by linarith
      have hb : |x - lamb| ≤ 31 / 10 * S := by
        rw [abs_of_nonneg hz]
        rw [abs_of_nonneg (by linarith : 0 ≤ x)] at hx
        linarith
      have ht := hnn _ hz
      exact ⟨lamb, by rw [abs_of_nonneg hl], by rw [abs_of_nonneg ht], key _ hb⟩
    · rename_i h1 h2
      rw [zero_div, rel_zero h]
      refine ⟨x, abs_le.2 ⟨not_lt.1 h1, not_lt.1 h2⟩, by simp, ?_⟩
      rw [mul_zero, sub_zero, sub_self, abs_zero]
      positivity

/-! ### One coordinate -/

/-- The numbers that the loop works with are those of the data up to `e`; `M` bounds the coefficients and `S` all
intermediate results; `N` updates are made at most. -/
structure Spec.CrdBounds (X : Mat ℝ) (y : Nat → ℝ) (p : CDProblem ℝ Unit) (u e c M S : ℝ) (N : Nat) : Prop where
  corr : p.corr = pureLasso
  nr : p.nr = X.nr
  nFeat : p.nFeat = X.nc
  rows : 0 < X.nr
  lamb : 0 < p.lamb
  e0 : 0 ≤ e
  M0 : 0 ≤ M
  cov : ∀ i < X.nc, ∀ j < X.nc, |p.cov.get i j - (empiricalCov X).get i j| ≤ e
  rhs : ∀ j < X.nc, |p.XTy j / p.nr - xTy X y j / X.nr| ≤ e * M
  entry : ∀ i < X.nc, ∀ j < X.nc, |p.cov.get i j| * M ≤ S
  size : ∀ j < X.nc, |p.XTy j / p.nr| ≤ S
  diag : ∀ j, 1 ≤ j → j < X.nc → c ≤ (empiricalCov X).get j j
  accurate : 4 * e ≤ c
  c0 : 0 < c
  steps : 8 * (N * u) ≤ 1 / 100
  unit : u ≤ 1 / 1000
  start : (∑ r ∈ range X.nr, y r ^ 2) / X.nr ≤ p.lamb * M
  budget : N * ((8 * N + 17) * (u * S) + 2 * (e * M)) ^ 2 ≤ c * (p.lamb * M / 2)

/-- What holds after `k` updates, with the coordinates `todo` of the sweep still to come. -/
structure CrdInv (X : Mat ℝ) (y : Nat → ℝ) (p : CDProblem ℝ Unit) (u c S ε : ℝ) (st : CDState ℝ Unit) (todo : List Nat)
    (k : Nat) : Prop where
  dot : ∀ i < X.nc, |st.covDotBeta i - ∑ l ∈ range X.nc, p.cov.get i l * st.beta l| ≤ 8 * (k * (u * S))
  obj : lassoObjective X y p.lamb st.beta ≤ lassoObjective X y p.lamb (fun _ => 0) + k * (ε ^ 2 / c)
  old : ∀ l ∈ todo, st.beta l = st.betaOld l

theorem objective_zero (X : Mat ℝ) (y : Nat → ℝ) (lamb : ℝ) :
    lassoObjective X y lamb (fun _ => 0) = (∑ r ∈ range X.nr, y r ^ 2) / X.nr / 2 := by
  unfold lassoObjective Spec.residual
  simp only [mul_zero, sum_const_zero, sub_zero, abs_zero, add_zero]
  ring

/-- The sum of the magnitudes is bounded by the objective. -/
theorem norm_le_objective (X : Mat ℝ) (y : Nat → ℝ) (lamb : ℝ) (b : Nat → ℝ) :
    lamb * ∑ l ∈ range X.nc, |b l| ≤ lassoObjective X y lamb b := by
  unfold lassoObjective
  have : 0 ≤ 1 / (2 * (X.nr : ℝ)) * ∑ r ∈ range X.nr, residual X y b r ^ 2 :=
    mul_nonneg (by positivity) (sum_nonneg fun _ _ => sq_nonneg _)
  linarith

theorem CrdInv.norm {X : Mat ℝ} {y : Nat → ℝ} {p : CDProblem ℝ Unit} {u e c M S : ℝ} {N : Nat}
    (hb : CrdBounds X y p u e c M S N) {b : Nat → ℝ} {k : Nat} (hk : k ≤ N)
    (h : lassoObjective X y p.lamb b ≤ lassoObjective X y p.lamb (fun _ => 0) +
      k * (((8 * N + 17) * (u * S) + 2 * (e * M)) ^ 2 / c)) : ∑ l ∈ range X.nc, |b l| ≤ M := by
  have h1 := norm_le_objective X y p.lamb b
  have h2 := objective_zero X y p.lamb
  have h3 : (k : ℝ) ≤ N := by exact_mod_cast hk
  have h4 : (k : ℝ) * (((8 * N + 17) * (u * S) + 2 * (e * M)) ^ 2 / c) ≤ p.lamb * M / 2 := by
    rw [← mul_div_assoc, div_le_iff₀ hb.c0]
    have := mul_le_mul_of_nonneg_right h3 (sq_nonneg ((8 * (N : ℝ) + 17) * (u * S) + 2 * (e * M)))
    have := hb.budget
    linarith
  have h5 := hb.start
  refine le_of_mul_le_mul_left ?_ hb.lamb
  linarith

theorem cdCoordRnd_step {rnd : ℝ → ℝ} {X : Mat ℝ} {y : Nat → ℝ} {p : CDProblem ℝ Unit} {u e c M S : ℝ} {N : Nat}
    (hu : 0 ≤ u) (h : RelativeError rnd u) (hb : CrdBounds X y p u e c M S N) (hn : rnd p.nr = p.nr)
    {st : CDState ℝ Unit} {j : Nat} {todo : List Nat} {k : Nat} (hj1 : 1 ≤ j) (hj : j < X.nc) (hnd : (j :: todo).Nodup)
    (hk : k + 1 ≤ N)
    (hi : CrdInv X y p u c S ((8 * N + 17) * (u * S) + 2 * (e * M)) st (j :: todo) k) :
    CrdInv X y p u c S ((8 * N + 17) * (u * S) + 2 * (e * M)) (cdCoordRnd rnd p st j) todo (k + 1) ∧
      ∃ s, |s| ≤ p.lamb ∧ s * (cdCoordRnd rnd p st j).beta j = p.lamb * |(cdCoordRnd rnd p st j).beta j| ∧
        |gradient X y (cdCoordRnd rnd p st j).beta j - s| ≤ (8 * N + 17) * (u * S) + 4 * (e * M) := by
  set ε := (8 * (N : ℝ) + 17) * (u * S) + 2 * (e * M) with hε
  have hkN : (k : ℝ) + 1 ≤ N := by exact_mod_cast hk
  have hM := CrdInv.norm hb (by omega) hi.obj
  have hM0 := hb.M0
  have hS : 0 ≤ S := (abs_nonneg _).trans (hb.size j hj)
  have huS : 0 ≤ u * S := mul_nonneg hu hS
  have habs : ∀ (b : Nat → ℝ), ∑ l ∈ range X.nc, |b l| ≤ M → ∀ l < X.nc, |b l| ≤ M := fun b hbM l hl =>
    (single_le_sum (f := fun l => |b l|) (fun _ _ => abs_nonneg _) (mem_range.2 hl)).trans hbM
  -- sizes
  have hdot : ∀ (b : Nat → ℝ), ∑ l ∈ range X.nc, |b l| ≤ M → ∀ i < X.nc, |∑ l ∈ range X.nc, p.cov.get i l * b l| ≤ S := by
    intro b hbM i hil
    rcases eq_or_lt_of_le hM0 with h0 | h0
    · have hz : ∀ l ∈ range X.nc, p.cov.get i l * b l = 0 := by
        intro l hl
        have := habs b hbM l (mem_range.1 hl)
        rw [← h0] at this
        rw [abs_nonpos_iff.1 this, mul_zero]
      rw [sum_eq_zero hz, abs_zero]
      exact hS
    · have h1 : ∀ l ∈ range X.nc, |p.cov.get i l * b l| ≤ S / M * |b l| := by
        intro l hl
        rw [abs_mul]
        refine mul_le_mul_of_nonneg_right ?_ (abs_nonneg _)
        rw [le_div_iff₀ h0]
        exact hb.entry i hil l (mem_range.1 hl)
      calc |∑ l ∈ range X.nc, p.cov.get i l * b l| ≤ ∑ l ∈ range X.nc, |p.cov.get i l * b l| := abs_sum_le_sum_abs _ _
        _ ≤ ∑ l ∈ range X.nc, S / M * |b l| := sum_le_sum h1
        _ = S / M * ∑ l ∈ range X.nc, |b l| := (mul_sum _ _ _).symm
        _ ≤ S / M * M := mul_le_mul_of_nonneg_left hbM (div_nonneg hS hM0)
        _ = S := div_mul_cancel₀ _ h0.ne'
  have hkS : 8 * ((k : ℝ) * (u * S)) ≤ 1 / 100 * S := by
    have h1 : (k : ℝ) * u ≤ N * u := mul_le_mul_of_nonneg_right (by linarith) hu
    have h2 := hb.steps
    calc 8 * ((k : ℝ) * (u * S)) = 8 * (k * u) * S := by ring
      _ ≤ 1 / 100 * S := mul_le_mul_of_nonneg_right (by linarith) hS
  have hcd : ∀ i < X.nc, |st.covDotBeta i| ≤ 101 / 100 * S := by
    intro i hil
    have h1 := hi.dot i hil
    have h2 := hdot st.beta hM i hil
    have : |st.covDotBeta i| ≤ |st.covDotBeta i - ∑ l ∈ range X.nc, p.cov.get i l * st.beta l| +
        |∑ l ∈ range X.nc, p.cov.get i l * st.beta l| := by
      calc |st.covDotBeta i| = |(st.covDotBeta i - ∑ l ∈ range X.nc, p.cov.get i l * st.beta l) +
            ∑ l ∈ range X.nc, p.cov.get i l * st.beta l| := by rw [sub_add_cancel]
        _ ≤ _ := abs_add_le _ _
    linarith
  -- the new coefficient
  set b := st.beta j with hbd
  have hbo : st.betaOld j = b := (hi.old j (by simp)).symm
  set C := (empiricalCov X).get j j with hC
  set c' := p.cov.get j j with hc'
  have hcov := hb.cov j hj j hj
  have hcC := hb.diag j hj1 hj
  have hc0 := hb.c0
  have hacc := hb.accurate
  have hc'0 : 0 < c' := by
    have := (abs_le.1 hcov).1
    linarith
  have hbc : |b * c'| ≤ S := by
    rw [abs_mul, mul_comm]
    exact (mul_le_mul_of_nonneg_left (habs _ hM j hj) (abs_nonneg _)).trans (hb.entry j hj j hj)
  set a := p.XTy j / p.nr with ha
  obtain ⟨x1, x2⟩ := argument_err hu hb.unit h (hb.size j hj) (hcd j hj) hbc
  rw [← ha] at x1 x2
  set x := rnd (rnd (rnd a - rnd (st.covDotBeta j - rnd (b * c'))) - 0) with hx
  obtain ⟨s, s1, s2, s3⟩ := soft_err hu hb.unit h x2 hc'0 hb.lamb.le
  set t := rnd (softThresholdRnd rnd x p.lamb / c') with ht
  have hbeta : (cdCoordRnd rnd p st j).beta = Function.update st.beta j t := by
    simp only [cdCoordRnd, hb.corr, pureLasso, hn, hbo]
    rfl
  have hcdb : (cdCoordRnd rnd p st j).covDotBeta = fun i => rnd (st.covDotBeta i + rnd (p.cov.get i j * rnd (t - b))) := by
    simp only [cdCoordRnd, hb.corr, pureLasso, hn, hbo, updateCovDotBetaRnd]
    rfl
  -- the gradient
  have hgrad : |gradient X y (Function.update st.beta j t) j - s| ≤ ε + e * |t - b| := by
    have g1 : gradient X y (Function.update st.beta j t) j - s =
        (xTy X y j / X.nr - a) + (a - st.covDotBeta j + b * c' - x) + (x - s - c' * t) +
        (st.covDotBeta j - ∑ l ∈ range X.nc, p.cov.get j l * st.beta l) +
        (∑ l ∈ range X.nc, (p.cov.get j l - (empiricalCov X).get j l) * st.beta l) + (c' - C) * (t - b) := by
      rw [gradient_eq, sum_update _ _ hj]
      simp only [sub_mul, sum_sub_distrib]
      ring
    have r1 : |xTy X y j / X.nr - a| ≤ e * M := by rw [abs_sub_comm]; exact hb.rhs j hj
    have r2 : |a - st.covDotBeta j + b * c' - x| ≤ 102 / 10 * (u * S) := by rw [abs_sub_comm]; exact x1
    have r4 := hi.dot j hj
    have r5 : |∑ l ∈ range X.nc, (p.cov.get j l - (empiricalCov X).get j l) * st.beta l| ≤ e * M := by
      calc _ ≤ ∑ l ∈ range X.nc, |(p.cov.get j l - (empiricalCov X).get j l) * st.beta l| := abs_sum_le_sum_abs _ _
        _ ≤ ∑ l ∈ range X.nc, e * |st.beta l| := by
          refine sum_le_sum fun l hl => ?_
          rw [abs_mul]
          exact mul_le_mul_of_nonneg_right (hb.cov j hj l (mem_range.1 hl)) (abs_nonneg _)
        _ = e * ∑ l ∈ range X.nc, |st.beta l| := (mul_sum _ _ _).symm
        _ ≤ e * M := mul_le_mul_of_nonneg_left hM hb.e0
    have r6 : |(c' - C) * (t - b)| ≤ e * |t - b| := by
      rw [abs_mul]
      exact mul_le_mul_of_nonneg_right hcov (abs_nonneg _)
    have hk8 : 8 * ((k : ℝ) * (u * S)) + 8 * (u * S) ≤ 8 * (N * (u * S)) := by
      have := mul_le_mul_of_nonneg_right hkN huS
      linarith
    have hεe : ε = 8 * (N * (u * S)) + 17 * (u * S) + 2 * (e * M) := by rw [hε]; ring
    rw [g1, hεe]
    refine (abs_add_le _ _).trans (add_le_add ?_ r6)
    refine (abs_add_le _ _).trans ?_
    refine (add_le_add ((abs_add_le _ _).trans (add_le_add ((abs_add_le _ _).trans (add_le_add
      ((abs_add_le _ _).trans (add_le_add r1 r2)) s3)) r4)) r5).trans ?_
    linarith
  have hε0 : 0 ≤ ε := by
    have := mul_nonneg hb.e0 hM0
    positivity
  -- the objective
  have hobj : lassoObjective X y p.lamb (Function.update st.beta j t) ≤
      lassoObjective X y p.lamb st.beta + ε ^ 2 / c := by
    have o1 := objective_update X y p.lamb st.beta j hj hb.rows t
    rw [← hbd, ← hC] at o1
    have o2 : gradient X y (Function.update st.beta j t) j = gradient X y st.beta j - C * (t - b) := by
      have := gradient_eq X y (Function.update st.beta j t) j
      rw [sum_update _ _ hj] at this
      rw [this, gradient_eq]
      ring
    set G := gradient X y (Function.update st.beta j t) j with hG
    have o3 := subgradient_le s1 s2 b
    have o4 : (s - G) * (b - t) ≥ -((ε + e * |t - b|) * |t - b|) := by
      have : |(s - G) * (b - t)| ≤ (ε + e * |t - b|) * |t - b| := by
        rw [abs_mul, abs_sub_comm s G, abs_sub_comm b t]
        exact mul_le_mul_of_nonneg_right hgrad (abs_nonneg _)
      exact (abs_le.1 this).1
    set δ := |t - b| with hδ
    have hδ2 : (t - b) ^ 2 = δ ^ 2 := (sq_abs _).symm
    have hg : gradient X y st.beta j = G + C * (t - b) := by rw [o2]; ring
    have o5 : lassoObjective X y p.lamb (Function.update st.beta j t) ≤
        lassoObjective X y p.lamb st.beta + (ε + e * δ) * δ - C / 2 * δ ^ 2 := by
      rw [o1, hg]
      have e1 : (t - b) * (G + C * (t - b)) = (t - b) * G + C * (t - b) ^ 2 := by ring
      have e2 : (s - G) * (b - t) = s * (b - t) + (t - b) * G := by ring
      rw [e1, hδ2]
      rw [e2] at o4
      linarith
    have o6 : (ε + e * δ) * δ - C / 2 * δ ^ 2 ≤ ε ^ 2 / c := by
      rw [le_div_iff₀ hc0]
      have hδ0 : 0 ≤ δ := abs_nonneg _
      have q1 : e * δ ^ 2 ≤ c / 4 * δ ^ 2 := mul_le_mul_of_nonneg_right (by linarith) (sq_nonneg _)
      have q2 : c / 2 * δ ^ 2 ≤ C / 2 * δ ^ 2 := mul_le_mul_of_nonneg_right (by linarith) (sq_nonneg _)
      have q3 : (ε + e * δ) * δ - C / 2 * δ ^ 2 ≤ ε * δ - c / 4 * δ ^ 2 := by
        have : (ε + e * δ) * δ = ε * δ + e * δ ^ 2 := by ring
        linarith
      have q4 := mul_le_mul_of_nonneg_right q3 hc0.le
      have q5 : (ε * δ - c / 4 * δ ^ 2) * c = ε ^ 2 - (ε - c / 2 * δ) ^ 2 := by ring
      have q6 := sq_nonneg (ε - c / 2 * δ)
      linarith
    linarith
  have hobj' : lassoObjective X y p.lamb (Function.update st.beta j t) ≤
      lassoObjective X y p.lamb (fun _ => 0) + (k + 1 : Nat) * (ε ^ 2 / c) := by
    have := hi.obj
    push_cast
    linarith
  have hM' := CrdInv.norm hb hk hobj'
  have htM : |t| ≤ M := by
    have := habs _ hM' j hj
    rwa [Function.update_self] at this
  have hbM : |b| ≤ M := habs _ hM j hj
  have hδM : |t - b| ≤ 2 * M := (abs_sub _ _).trans (by linarith)
  refine ⟨⟨?_, ?_, ?_⟩, s, s1, ?_, ?_⟩
  · intro i hil
    rw [hcdb, hbeta, sum_update _ _ hj, ← hbd]
    have hd := hi.dot i hil
    have hz : |p.cov.get i j * (t - b)| ≤ 2 * S := by
      rw [abs_mul]
      have h1 := mul_le_mul_of_nonneg_left hδM (abs_nonneg (p.cov.get i j))
      have h2 := hb.entry i hil j hj
      linarith
    have w1 : |p.cov.get i j * rnd (t - b) - p.cov.get i j * (t - b)| ≤ u * (2 * S) := by
      rw [← mul_sub, abs_mul]
      calc |p.cov.get i j| * |rnd (t - b) - (t - b)| ≤ |p.cov.get i j| * (u * |t - b|) :=
            mul_le_mul_of_nonneg_left (h _) (abs_nonneg _)
        _ = u * |p.cov.get i j * (t - b)| := by rw [abs_mul]; ring
        _ ≤ u * (2 * S) := mul_le_mul_of_nonneg_left hz hu
    have hu1 := hb.unit
    have huS2 : u * (2 * S) ≤ 1 / 1000 * (2 * S) := mul_le_mul_of_nonneg_right hu1 (by linarith)
    have w2 : |p.cov.get i j * rnd (t - b)| ≤ 2002 / 1000 * S := by
      have : |p.cov.get i j * rnd (t - b)| ≤ |p.cov.get i j * rnd (t - b) - p.cov.get i j * (t - b)| +
          |p.cov.get i j * (t - b)| := by
        calc _ = |(p.cov.get i j * rnd (t - b) - p.cov.get i j * (t - b)) + p.cov.get i j * (t - b)| := by
              rw [sub_add_cancel]
          _ ≤ _ := abs_add_le _ _
      linarith
    have w3 := rel_err hu h w2
    have w4 := rel_size hu hu1 h w2
    set w := rnd (p.cov.get i j * rnd (t - b))
    have w5 : |st.covDotBeta i + w| ≤ 3015 / 1000 * S := (abs_add_le _ _).trans (by linarith [hcd i hil])
    have w6 := rel_err hu h w5
    set D := ∑ l ∈ range X.nc, p.cov.get i l * st.beta l
    push_cast
    rw [abs_le] at *
    constructor <;> linarith [hd.1, hd.2, w1.1, w1.2, w3.1, w3.2, w6.1, w6.2]
  · rw [hbeta]
    exact hobj'
  · intro l hl
    have hne : l ≠ j := by
      rintro rfl
      exact (List.nodup_cons.1 hnd).1 hl
    rw [hbeta, Function.update_of_ne hne]
    exact hi.old l (by simp [hl])
  · rw [hbeta, Function.update_self]
    exact s2
  · rw [hbeta]
    refine hgrad.trans ?_
    have := mul_le_mul_of_nonneg_left hδM hb.e0
    rw [hε]
    linarith

/-! ### Sweeps -/

theorem foldl_cdCoordRnd_const {S : Type} (rnd : ℝ → ℝ) (p : CDProblem ℝ S) (todo : List Nat) (st : CDState ℝ S) :
    (todo.foldl (cdCoordRnd rnd p) st).betaOld = st.betaOld ∧
    (todo.foldl (cdCoordRnd rnd p) st).iterIndices = st.iterIndices ∧
    ∀ k ∉ todo, (todo.foldl (cdCoordRnd rnd p) st).beta k = st.beta k := by
  induction todo generalizing st with
  | nil => simp
  | cons j todo ih =>
    rw [List.foldl_cons]
    obtain ⟨h1, h2, h4⟩ := ih (cdCoordRnd rnd p st j)
    refine ⟨h1, h2, ?_⟩
    intro k hk
    simp only [List.mem_cons, not_or] at hk
    rw [h4 k hk.2]
    simp only [cdCoordRnd]
    rw [Function.update_of_ne hk.1]

theorem cdSweepRnd_step {rnd : ℝ → ℝ} {X : Mat ℝ} {y : Nat → ℝ} {p : CDProblem ℝ Unit} {u e c M S : ℝ} {N : Nat}
    (hu : 0 ≤ u) (h : RelativeError rnd u) (hb : CrdBounds X y p u e c M S N) (hn : rnd p.nr = p.nr)
    (todo : List Nat) (st : CDState ℝ Unit) (k : Nat) (hlt : ∀ j ∈ todo, 1 ≤ j ∧ j < X.nc) (hnd : todo.Nodup)
    (hk : k + todo.length ≤ N)
    (hi : CrdInv X y p u c S ((8 * N + 17) * (u * S) + 2 * (e * M)) st todo k) :
    CrdInv X y p u c S ((8 * N + 17) * (u * S) + 2 * (e * M)) (todo.foldl (cdCoordRnd rnd p) st) [] (k + todo.length) ∧
      ∀ j ∈ todo, ∃ s, |s| ≤ p.lamb ∧
        s * (todo.foldl (cdCoordRnd rnd p) st).beta j = p.lamb * |(todo.foldl (cdCoordRnd rnd p) st).beta j| ∧
        |gradient X y (todo.foldl (cdCoordRnd rnd p) st).beta j - s| ≤ (8 * N + 17) * (u * S) + 4 * (e * M) +
          ∑ l ∈ range X.nc, |(empiricalCov X).get j l| * |(todo.foldl (cdCoordRnd rnd p) st).beta l - st.beta l| := by
  induction todo generalizing st k with
  | nil => exact ⟨hi, by simp⟩
  | cons i todo ih =>
    rw [List.length_cons] at hk
    obtain ⟨hit, hnd'⟩ := List.nodup_cons.1 hnd
    obtain ⟨i1, i2⟩ := hlt i (by simp)
    obtain ⟨g1, s, s1, s2, s3⟩ := cdCoordRnd_step hu h hb hn i1 i2 hnd (by omega) hi
    obtain ⟨r1, r2⟩ := ih (cdCoordRnd rnd p st i) (k + 1) (fun j hj => hlt j (by simp [hj])) hnd' (by omega) g1
    rw [List.foldl_cons]
    have hconst := (foldl_cdCoordRnd_const rnd p todo (cdCoordRnd rnd p st i)).2.2
    set fin := (todo.foldl (cdCoordRnd rnd p) (cdCoordRnd rnd p st i)).beta with hfin
    have hmono : ∀ l, |fin l - (cdCoordRnd rnd p st i).beta l| ≤ |fin l - st.beta l| := by
      intro l
      by_cases hl : l = i
      · subst hl; rw [hconst _ hit]; simp
      · have : (cdCoordRnd rnd p st i).beta l = st.beta l := by
          simp only [cdCoordRnd]
          rw [Function.update_of_ne hl]
        rw [this]
    have hsum : ∀ j', ∑ l ∈ range X.nc, |(empiricalCov X).get j' l| * |fin l - (cdCoordRnd rnd p st i).beta l| ≤
        ∑ l ∈ range X.nc, |(empiricalCov X).get j' l| * |fin l - st.beta l| := fun j' =>
      Finset.sum_le_sum (fun l _ => mul_le_mul_of_nonneg_left (hmono l) (abs_nonneg _))
    refine ⟨?_, ?_⟩
    · rw [List.length_cons, show k + (todo.length + 1) = k + 1 + todo.length by omega]
      exact r1
    · intro j hj
      rcases List.mem_cons.1 hj with rfl | hj
      · refine ⟨s, s1, by rw [hconst _ hit]; exact s2, ?_⟩
        have e1 : gradient X y fin j - s = (gradient X y (cdCoordRnd rnd p st j).beta j - s) +
            (gradient X y fin j - gradient X y (cdCoordRnd rnd p st j).beta j) := by ring
        rw [e1]
        refine (abs_add_le _ _).trans (add_le_add s3 (le_trans ?_ (hsum j)))
        rw [gradient_sub, abs_neg]
        refine (Finset.abs_sum_le_sum_abs _ _).trans (le_of_eq ?_)
        exact Finset.sum_congr rfl (fun l _ => abs_mul _ _)
      · obtain ⟨s', t1, t2, t3⟩ := r2 j hj
        exact ⟨s', t1, t2, t3.trans (by linarith [hsum j])⟩

/-! ### The loop -/

theorem cdIterRnd_shape {S : Type} (rnd : ℝ → ℝ) (p : CDProblem ℝ S) (st : CDState ℝ S) :
    (cdIterRnd rnd p st).1.beta = (cdSweepRnd rnd p st).beta ∧ (cdIterRnd rnd p st).1.betaOld = (cdSweepRnd rnd p st).beta ∧
    (cdIterRnd rnd p st).1.covDotBeta = (cdSweepRnd rnd p st).covDotBeta ∧
    ((cdIterRnd rnd p st).1.iterIndices =
        (cdSweepRnd rnd p st).iterIndices.filter (fun j => decide (|(cdSweepRnd rnd p st).beta j| > rnd (1 / 10 ^ 16))) ∨
      (cdIterRnd rnd p st).1.iterIndices = unionNat
        ((cdSweepRnd rnd p st).iterIndices.filter (fun j => decide (|(cdSweepRnd rnd p st).beta j| > rnd (1 / 10 ^ 16))))
        (unsatisfiedKKTRnd rnd p.nFeat p.XTy (cdSweepRnd rnd p st).covDotBeta (cdSweepRnd rnd p st).beta p.lamb p.corr
          (p.corr.update (cdSweepRnd rnd p st).corrState (cdSweepRnd rnd p st).beta))) := by
  unfold cdIterRnd
  simp only
  split
  · split
    · exact ⟨rfl, rfl, rfl, .inl rfl⟩
    · exact ⟨rfl, rfl, rfl, .inr rfl⟩
  · exact ⟨rfl, rfl, rfl, .inl rfl⟩

theorem cdLoopRnd_succ {S : Type} (rnd : ℝ → ℝ) (p : CDProblem ℝ S) (n : Nat) (st : CDState ℝ S) :
    cdLoopRnd rnd p (n + 1) st =
      if (cdLoopRnd rnd p n st).2 then cdLoopRnd rnd p n st else cdIterRnd rnd p (cdLoopRnd rnd p n st).1 := by
  induction n generalizing st with
  | zero =>
    simp only [cdLoopRnd]
    rcases h : cdIterRnd rnd p st with ⟨st', b⟩
    cases b <;> simp
  | succ n ih =>
    rw [cdLoopRnd]
    rcases h : cdIterRnd rnd p st with ⟨st', b⟩
    cases b
    · simp only
      rw [ih st']
      conv_rhs => rw [cdLoopRnd]
      simp only [h]
    · simp only
      conv_rhs => rw [cdLoopRnd]
      simp [h]

/-- The loop was left in its last iteration. -/
theorem cdLoopRnd_break {S : Type} (rnd : ℝ → ℝ) (p : CDProblem ℝ S) (n : Nat) (st : CDState ℝ S)
    (h : (cdLoopRnd rnd p n st).2 = true) : ∃ m < n, cdIterRnd rnd p (cdLoopRnd rnd p m st).1 = cdLoopRnd rnd p n st := by
  induction n with
  | zero => simp [cdLoopRnd] at h
  | succ n ih =>
    rw [cdLoopRnd_succ] at h ⊢
    split at h
    · rename_i hb
      rw [if_pos hb]
      obtain ⟨m, h1, h2⟩ := ih hb
      exact ⟨m, by omega, h2⟩
    · rename_i hb
      rw [if_neg hb]
      exact ⟨n, by omega, rfl⟩

/-- The active list. -/
structure ActiveInv {S : Type} (rnd : ℝ → ℝ) (p : CDProblem ℝ S) (st : CDState ℝ S) : Prop where
  old : st.betaOld = st.beta
  nodup : st.iterIndices.Nodup
  idx : ∀ j ∈ st.iterIndices, 1 ≤ j ∧ j < p.nFeat
  zero : ∀ k, (k = 0 ∨ p.nFeat ≤ k) → st.beta k = 0
  small : ∀ k, 1 ≤ k → k < p.nFeat → k ∉ st.iterIndices → |st.beta k| ≤ rnd (1 / 10 ^ 16)

theorem activeInv {S : Type} (rnd : ℝ → ℝ) (p : CDProblem ℝ S) (s : S) (n : Nat) :
    ActiveInv rnd p (cdLoopRnd rnd p n (cdInitRnd rnd p s)).1 := by
  induction n with
  | zero =>
    refine ⟨rfl, ?_, ?_, fun _ _ => rfl, ?_⟩
    · simp only [cdLoopRnd, cdInitRnd]
      exact List.Nodup.map (fun a b h => by omega) List.nodup_range
    · intro j hj
      simp only [cdLoopRnd, cdInitRnd, List.mem_map, List.mem_range] at hj
      omega
    · intro k h1 h2 hk
      exfalso
      apply hk
      simp only [cdLoopRnd, cdInitRnd, List.mem_map, List.mem_range]
      exact ⟨k - 1, by omega, by omega⟩
  | succ n ih =>
    rw [cdLoopRnd_succ]
    split
    · exact ih
    · set st := (cdLoopRnd rnd p n (cdInitRnd rnd p s)).1 with hst
      obtain ⟨h1, h2, h3, h4⟩ := cdIterRnd_shape rnd p st
      obtain ⟨-, g2, g4⟩ := foldl_cdCoordRnd_const rnd p st.iterIndices st
      have hit : (cdSweepRnd rnd p st).iterIndices = st.iterIndices := g2
      have hfn : ((cdSweepRnd rnd p st).iterIndices.filter
          (fun j => decide (|(cdSweepRnd rnd p st).beta j| > rnd (1 / 10 ^ 16)))).Nodup := by
        rw [hit]; exact ih.nodup.filter _
      refine ⟨by rw [h1, h2], ?_, ?_, ?_, ?_⟩
      · rcases h4 with h4 | h4
        · rw [h4]; exact hfn
        · rw [h4]; exact (unionNat_spec _ _ hfn).1
      · intro j hj
        rcases h4 with h4 | h4
        · rw [h4, hit] at hj
          exact ih.idx j (List.mem_filter.1 hj).1
        · rw [h4, (unionNat_spec _ _ hfn).2, hit] at hj
          rcases hj with hj | hj
          · exact ih.idx j (List.mem_filter.1 hj).1
          · simp only [unsatisfiedKKTRnd, List.mem_filter, List.mem_range, Bool.and_eq_true, decide_eq_true_eq] at hj
            exact ⟨hj.2.1, hj.1⟩
      · intro k hk
        rw [h1]
        have : k ∉ st.iterIndices := by
          intro hm
          have := ih.idx k hm
          omega
        change (st.iterIndices.foldl (cdCoordRnd rnd p) st).beta k = 0
        rw [g4 k this]
        exact ih.zero k hk
      · intro k k1 k2 hk
        rw [h1]
        by_cases hm : k ∈ st.iterIndices
        · by_contra hgt
          apply hk
          have hmem : k ∈ (cdSweepRnd rnd p st).iterIndices.filter
              (fun j => decide (|(cdSweepRnd rnd p st).beta j| > rnd (1 / 10 ^ 16))) := by
            rw [List.mem_filter, hit]
            exact ⟨hm, by simpa using hgt⟩
          rcases h4 with h4 | h4
          · rw [h4]; exact hmem
          · rw [h4, (unionNat_spec _ _ hfn).2]; exact .inl hmem
        · change |(st.iterIndices.foldl (cdCoordRnd rnd p) st).beta k| ≤ _
          rw [g4 k hm]
          exact ih.small k k1 k2 hm

theorem dotLoop_zero {rnd : ℝ → ℝ} (h0 : rnd 0 = 0) (x : Nat → ℝ) (n : Nat) : dotLoop rnd x (fun _ => 0) n = 0 := by
  induction n with
  | zero => rfl
  | succ n ih => rw [dotLoop, ih, mul_zero, h0, add_zero, h0]

theorem nodup_length_le {l : List Nat} {n : Nat} (hnd : l.Nodup) (hlt : ∀ j ∈ l, 1 ≤ j ∧ j < n) : l.length ≤ n := by
  have h1 : l.toFinset ⊆ range n := by
    intro j hj
    exact mem_range.2 (hlt j (List.mem_toFinset.1 hj)).2
  have h2 := Finset.card_le_card h1
  rwa [List.toFinset_card_of_nodup hnd, Finset.card_range] at h2

theorem cdLoopRnd_inv {rnd : ℝ → ℝ} {X : Mat ℝ} {y : Nat → ℝ} {p : CDProblem ℝ Unit} {u e c M S : ℝ} {N : Nat}
    (hu : 0 ≤ u) (h : RelativeError rnd u) (hb : CrdBounds X y p u e c M S N) (hn : rnd p.nr = p.nr) (n : Nat)
    (hN : n * X.nc ≤ N) :
    ∃ k ≤ n * X.nc, ∀ l, CrdInv X y p u c S ((8 * N + 17) * (u * S) + 2 * (e * M))
      (cdLoopRnd rnd p n (cdInitRnd rnd p ())).1 l k := by
  induction n with
  | zero =>
    refine ⟨0, by simp, fun l => ⟨?_, ?_, ?_⟩⟩
    · intro i hi
      simp only [cdLoopRnd, cdInitRnd, mulSliceRnd, dotLoop_zero (rel_zero h), mul_zero, sum_const_zero, sub_zero,
        abs_zero, Nat.cast_zero, zero_mul, le_refl]
    · simp only [cdLoopRnd, cdInitRnd, Nat.cast_zero, zero_mul, add_zero, le_refl]
    · intro k hk
      rfl
  | succ n ih =>
    rw [Nat.succ_mul] at hN ⊢
    obtain ⟨k, hk, hi⟩ := ih (by omega)
    rw [cdLoopRnd_succ]
    split
    · exact ⟨k, by omega, hi⟩
    · have ha := activeInv rnd p () n
      set st := (cdLoopRnd rnd p n (cdInitRnd rnd p ())).1 with hst
      obtain ⟨h1, h2, h3, h4⟩ := cdIterRnd_shape rnd p st
      have hidx : ∀ j ∈ st.iterIndices, 1 ≤ j ∧ j < X.nc := fun j hj => hb.nFeat ▸ ha.idx j hj
      have hlen := nodup_length_le ha.nodup hidx
      obtain ⟨r1, -⟩ := cdSweepRnd_step hu h hb hn st.iterIndices st k hidx ha.nodup (by omega) (hi _)
      refine ⟨k + st.iterIndices.length, by omega, fun l => ⟨?_, ?_, ?_⟩⟩
      · rw [h1, h3]; exact r1.dot
      · rw [h1]; exact r1.obj
      · intro j _; rw [h1, h2]

end GoSelect
