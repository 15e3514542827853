import Verif.Proofs.CrdDescRounded
import Verif.Props.C55_C56
import Verif.Props.C136
import Verif.Props.C139

/-!
C140: rounding errors in coordinate descent.
-/

namespace GoSelect

open Finset Spec

/-! ### Without rounding -/

/-- Without rounding the model is that of exact arithmetic. -/
theorem C140_exact {S : Type} (p : CDProblem ℝ S) (s : S) (n : Nat) :
    cdLoopRnd id p n (cdInitRnd id p s) = cdLoop p n (cdInit p s) := by
  have hd : ∀ (x v : Nat → ℝ) n, dotLoop id x v n = ∑ j ∈ range n, x j * v j := by
    intro x v n
    induction n with
    | zero => rfl
    | succ n ih => rw [dotLoop, ih, sum_range_succ]; rfl
  have hinit : cdInitRnd id p s = cdInit p s := by
    unfold cdInitRnd cdInit mulSliceRnd mulSlice
    simp only [hd]
  have hiter : cdIterRnd id p = cdIter p := rfl
  have hloop : ∀ st, cdLoopRnd id p n st = cdLoop p n st := by
    induction n with
    | zero => intro st; rfl
    | succ n ih =>
      intro st
      rw [cdLoopRnd, cdLoop, hiter]
      rcases cdIter p st with ⟨st', b⟩
      cases b
      · exact ih st'
      · rfl
  rw [hinit, hloop]

/-! ### Any rounding -/

/-- The objective goes down up to rounding errors, the coefficients stay bounded. -/
theorem C140_objective (rnd : ℝ → ℝ) (X : Mat ℝ) (y : Nat → ℝ) (p : CDProblem ℝ Unit) (u e c M S : ℝ) (N : Nat)
    (hu : 0 ≤ u) (h : RelativeError rnd u) (hb : CrdBounds X y p u e c M S N) (hn : rnd p.nr = p.nr) (n : Nat)
    (hN : n * X.nc ≤ N) :
    let b := (lassoCrdDescRnd rnd p () n).1
    lassoObjective X y p.lamb b ≤ lassoObjective X y p.lamb (fun _ => 0) +
      n * X.nc * (((8 * N + 17) * (u * S) + 2 * (e * M)) ^ 2 / c) ∧ ∑ j ∈ range X.nc, |b j| ≤ M := by
  intro b
  obtain ⟨k, hk, hi⟩ := cdLoopRnd_inv hu h hb hn n hN
  have h1 := (hi []).obj
  refine ⟨h1.trans ?_, CrdInv.norm hb (by omega) h1⟩
  have hk' : (k : ℝ) ≤ n * X.nc := by exact_mod_cast hk
  have h2 : 0 ≤ ((8 * (N : ℝ) + 17) * (u * S) + 2 * (e * M)) ^ 2 / c := div_nonneg (sq_nonneg _) hb.c0.le
  have := mul_le_mul_of_nonneg_right hk' h2
  linarith

/-- When convergence is reported every selected feature satisfies its KKT condition up to the tolerance and rounding
errors. -/
theorem C140_selected (rnd : ℝ → ℝ) (X : Mat ℝ) (y : Nat → ℝ) (p : CDProblem ℝ Unit) (u e c M S : ℝ) (N : Nat)
    (hu : 0 ≤ u) (h : RelativeError rnd u) (hb : CrdBounds X y p u e c M S N) (hn : rnd p.nr = p.nr) (n : Nat)
    (hN : n * X.nc ≤ N) (hconv : (lassoCrdDescRnd rnd p () n).2 = true) :
    let b := (lassoCrdDescRnd rnd p () n).1
    ∃ m, (∃ k < X.nc, |b k| = m) ∧ ∀ j, 1 ≤ j → j < X.nc → |b j| > rnd (1 / 10 ^ 16) →
      ∃ s, |s| ≤ p.lamb ∧ s * b j = p.lamb * |b j| ∧
        |gradient X y b j - s| ≤ 101 / 100 * p.tol * m * ∑ k ∈ range X.nc, |(empiricalCov X).get j k| +
          ((8 * N + 17) * (u * S) + 4 * (e * M)) := by
  intro b
  obtain ⟨q, hqn, hq⟩ := cdLoopRnd_break rnd p n (cdInitRnd rnd p ()) hconv
  have ha := activeInv rnd p () q
  have hqN : (q + 1) * X.nc ≤ N := le_trans (Nat.mul_le_mul_right _ hqn) hN
  rw [Nat.succ_mul] at hqN
  obtain ⟨k, hk, hi⟩ := cdLoopRnd_inv hu h hb hn q (by omega)
  set st := (cdLoopRnd rnd p q (cdInitRnd rnd p ())).1 with hst
  have hidx : ∀ j ∈ st.iterIndices, 1 ≤ j ∧ j < X.nc := fun j hj => hb.nFeat ▸ ha.idx j hj
  have hlen := nodup_length_le ha.nodup hidx
  obtain ⟨-, hnear⟩ := cdSweepRnd_step hu h hb hn st.iterIndices st k hidx ha.nodup (by omega) (hi _)
  have hbs : b = (cdSweepRnd rnd p st).beta := by
    change (cdLoopRnd rnd p n (cdInitRnd rnd p ())).1.beta = _
    rw [← hq]
    exact (cdIterRnd_shape rnd p st).1
  obtain ⟨f1, f2, f4⟩ := foldl_cdCoordRnd_const rnd p st.iterIndices st
  have hit : (cdSweepRnd rnd p st).iterIndices = st.iterIndices := f2
  have hbo : (cdSweepRnd rnd p st).betaOld = st.beta := f1.trans ha.old
  set B := runMax (fun j => |(cdSweepRnd rnd p st).beta j|) st.iterIndices with hB
  set D := runMax (fun j => |rnd ((cdSweepRnd rnd p st).beta j - st.beta j)|) st.iterIndices with hD
  have hcv : B ≠ 0 ∧ rnd (D / B) < p.tol := by
    have h2 : (cdIterRnd rnd p st).2 = true := by rw [hq]; exact hconv
    unfold cdIterRnd at h2
    simp only at h2
    split at h2
    · rename_i hc
      rw [Bool.and_eq_true, decide_eq_true_eq, decide_eq_true_eq] at hc
      rw [hit, hbo] at hc
      exact hc
    · simp at h2
  have hBpos : 0 < B := lt_of_le_of_ne (le_runMax _ _).1 (Ne.symm hcv.1)
  have hD0 : 0 ≤ D := (le_runMax _ _).1
  have hu1 := hb.unit
  have hDB : (1 - u) * D ≤ p.tol * B := by
    have h1 := (rel_nonneg h (div_nonneg hD0 hBpos.le)).1
    have h2 : (1 - u) * (D / B) < p.tol := lt_of_le_of_lt h1 hcv.2
    rw [← mul_div_assoc, div_lt_iff₀ hBpos] at h2
    exact h2.le
  have hchange : ∀ k ∈ st.iterIndices, |(cdSweepRnd rnd p st).beta k - st.beta k| ≤ 101 / 100 * p.tol * B := by
    intro k hk
    have h1 := (le_runMax (fun j => |rnd ((cdSweepRnd rnd p st).beta j - st.beta j)|) st.iterIndices).2 k hk
    rw [← hD] at h1
    set z := (cdSweepRnd rnd p st).beta k - st.beta k
    have h2 : (1 - u) * |z| ≤ |rnd z| := by
      have h3 := h z
      have : |z| ≤ |rnd z| + |rnd z - z| := by
        calc |z| = |rnd z - (rnd z - z)| := by ring_nf
          _ ≤ _ := abs_sub _ _
      linarith
    have h3 : (1 - u) * ((1 - u) * |z|) ≤ p.tol * B := (mul_le_mul_of_nonneg_left (h2.trans h1) (by linarith)).trans hDB
    have h4 : (100 / 101) * |z| ≤ (1 - u) * ((1 - u) * |z|) := by
      rw [← mul_assoc]
      refine mul_le_mul_of_nonneg_right ?_ (abs_nonneg _)
      nlinarith
    linarith
  have htol : 0 ≤ 101 / 100 * p.tol * B := by
    have : 0 ≤ (1 - u) * D := mul_nonneg (by linarith) hD0
    linarith
  refine ⟨B, ?_, ?_⟩
  · rcases runMax_attained (fun j => |(cdSweepRnd rnd p st).beta j|) st.iterIndices with h0 | ⟨k, hkm, hk⟩
    · exact absurd h0 hcv.1
    · exact ⟨k, (hidx k hkm).2, by rw [hbs]; exact hk⟩
  · intro j h1 h2 hj
    have hjm : j ∈ st.iterIndices := by
      by_contra hnm
      have hs := ha.small j h1 (by rw [hb.nFeat]; exact h2) hnm
      rw [hbs] at hj
      have : (cdSweepRnd rnd p st).beta j = st.beta j := f4 j hnm
      rw [this] at hj
      exact absurd hj (not_lt.2 hs)
    obtain ⟨s, g1, g2, g3⟩ := hnear j hjm
    refine ⟨s, g1, by rw [hbs]; exact g2, ?_⟩
    rw [hbs]
    refine g3.trans ?_
    rw [add_comm]
    refine add_le_add ?_ le_rfl
    rw [Finset.mul_sum]
    refine Finset.sum_le_sum (fun k _ => ?_)
    rw [mul_comm (101 / 100 * p.tol * B)]
    refine mul_le_mul_of_nonneg_left ?_ (abs_nonneg _)
    by_cases hk : k ∈ st.iterIndices
    · exact hchange k hk
    · have : (st.iterIndices.foldl (cdCoordRnd rnd p) st).beta k = st.beta k := f4 k hk
      rw [this, sub_self, abs_zero]
      exact htol

/-! ### Normalised data -/

/-- Features and response have mean square about 1, as after normalisation; the column of the intercept may be zero. -/
structure Spec.UnitScale (X : Mat ℝ) (y : Nat → ℝ) : Prop where
  rows : 0 < X.nr
  upper : ∀ j < X.nc, ∑ r ∈ range X.nr, X.get r j ^ 2 ≤ 102 / 100 * X.nr
  lower : ∀ j, 1 ≤ j → j < X.nc → 49 / 100 * X.nr ≤ ∑ r ∈ range X.nr, X.get r j ^ 2
  response : ∑ r ∈ range X.nr, y r ^ 2 ≤ 102 / 100 * X.nr

/-- The error in the KKT conditions due to rounding, after `N` updates. -/
noncomputable def Spec.crdError (u γ lamb : ℝ) (N : Nat) : ℝ := (9 * N * u + 28 * u + 5 * γ) / lamb

theorem sum_abs_mul_le (n : Nat) (f g : Nat → ℝ) (B : ℝ) (hf : ∑ r ∈ range n, f r ^ 2 ≤ B) (hg : ∑ r ∈ range n, g r ^ 2 ≤ B) :
    ∑ r ∈ range n, |f r * g r| ≤ B := by
  have h1 : ∑ r ∈ range n, |f r * g r| ≤ ∑ r ∈ range n, (1 / 2 * f r ^ 2 + 1 / 2 * g r ^ 2) := by
    refine sum_le_sum (fun r _ => ?_)
    rw [abs_mul]
    nlinarith [sq_nonneg (|f r| - |g r|), sq_abs (f r), sq_abs (g r)]
  rw [sum_add_distrib, ← mul_sum, ← mul_sum] at h1
  linarith

/-- An inner product of the data, divided by the number of rows. -/
theorem unit_dot {dot : Nat → (Nat → ℝ) → (Nat → ℝ) → ℝ} {n : Nat} {γ : ℝ} (hγ : 0 ≤ γ) (hd : DotError dot n γ)
    (hn : (0 : ℝ) < n) (f g : Nat → ℝ) (hf : ∑ r ∈ range n, f r ^ 2 ≤ 102 / 100 * n)
    (hg : ∑ r ∈ range n, g r ^ 2 ≤ 102 / 100 * n) :
    |dot n f g / n - (∑ r ∈ range n, f r * g r) / n| ≤ 102 / 100 * γ ∧
      |(∑ r ∈ range n, f r * g r) / n| ≤ 102 / 100 := by
  have h1 := sum_abs_mul_le n f g _ hf hg
  constructor
  · rw [← sub_div, abs_div, abs_of_pos hn, div_le_iff₀ hn]
    exact (hd f g).trans ((mul_le_mul_of_nonneg_left h1 hγ).trans (le_of_eq (by ring)))
  · rw [abs_div, abs_of_pos hn, div_le_iff₀ hn]
    exact (abs_sum_le_sum_abs _ _).trans h1

theorem unit_cov {rnd : ℝ → ℝ} {u : ℝ} (hu : 0 ≤ u) (hu1 : u ≤ 1 / 1000) (h : RelativeError rnd u) {n d C γ : ℝ}
    (hn : 0 < n) (hγ1 : γ ≤ 1 / 100) (h1 : |d / n - C| ≤ 102 / 100 * γ) (h2 : |C| ≤ 102 / 100) :
    |rnd (rnd (1 / n) * d) - C| ≤ 11 / 10 * (γ + 2 * u) := by
  have hdn : |d / n| ≤ 104 / 100 := by
    have : |d / n| ≤ |d / n - C| + |C| := by
      calc |d / n| = |(d / n - C) + C| := by rw [sub_add_cancel]
        _ ≤ _ := abs_add_le _ _
    linarith
  have h3 : |rnd (1 / n) * d - d / n| ≤ u * (104 / 100) := by
    have e : rnd (1 / n) * d - d / n = (rnd (1 / n) - 1 / n) * n * (d / n) := by field_simp
    rw [e, abs_mul, abs_mul, abs_of_pos hn]
    have h4 : |rnd (1 / n) - 1 / n| * n ≤ u := by
      have := mul_le_mul_of_nonneg_right (h (1 / n)) hn.le
      rwa [abs_of_pos (by positivity : 0 < 1 / n), mul_assoc, one_div_mul_cancel hn.ne', mul_one] at this
    exact mul_le_mul h4 hdn (abs_nonneg _) hu
  have h5 := h (rnd (1 / n) * d)
  have h6 : |rnd (1 / n) * d| ≤ 105 / 100 := by
    have : |rnd (1 / n) * d| ≤ |rnd (1 / n) * d - d / n| + |d / n| := by
      calc |rnd (1 / n) * d| = |(rnd (1 / n) * d - d / n) + d / n| := by rw [sub_add_cancel]
        _ ≤ _ := abs_add_le _ _
    linarith
  have h7 : |rnd (rnd (1 / n) * d) - rnd (1 / n) * d| ≤ u * (105 / 100) := h5.trans (mul_le_mul_of_nonneg_left h6 hu)
  have hγ : 0 ≤ γ := by have := (abs_nonneg _).trans h1; linarith
  calc |rnd (rnd (1 / n) * d) - C| = |(rnd (rnd (1 / n) * d) - rnd (1 / n) * d) + (rnd (1 / n) * d - d / n) + (d / n - C)| := by
        congr 1; ring
    _ ≤ |rnd (rnd (1 / n) * d) - rnd (1 / n) * d| + |rnd (1 / n) * d - d / n| + |d / n - C| := abs_add_three _ _ _
    _ ≤ _ := by linarith

/-- The numbers that are computed from normalised data are accurate enough. -/
theorem unit_bounds {rnd : ℝ → ℝ} {u : ℝ} (hu : 0 ≤ u) (h : RelativeError rnd u)
    {dot : Nat → (Nat → ℝ) → (Nat → ℝ) → ℝ} {X : Mat ℝ} {y : Nat → ℝ} {lamb tol γ : ℝ} {N : Nat} (hx : UnitScale X y)
    (hγ : 0 ≤ γ) (hγ1 : γ ≤ 1 / 100) (hd : DotError dot X.nr γ) (hn : rnd X.nr = X.nr) (hl : 0 < lamb) (hl1 : lamb ≤ 1)
    (hu1 : u ≤ 1 / 1000) (hN : 8 * (N * u) ≤ 1 / 100) (hE : N * crdError u γ lamb N ^ 2 ≤ 1 / 5) :
    CrdBounds X y (lassoProblemRnd rnd dot X y lamb tol pureLasso) u (11 / 10 * (γ + 2 * u)) (49 / 100) (102 / 100 / lamb)
      (11 / 10 / lamb) N := by
  have hnr : (0 : ℝ) < X.nr := by exact_mod_cast hx.rows
  have hM1 : 102 / 100 ≤ 102 / 100 / lamb := by
    rw [le_div_iff₀ hl]; nlinarith
  have hcov : ∀ i < X.nc, ∀ j < X.nc, |(empiricalCov X).get i j| ≤ 102 / 100 ∧
      |(lassoProblemRnd rnd dot X y lamb tol pureLasso).cov.get i j - (empiricalCov X).get i j| ≤ 11 / 10 * (γ + 2 * u) := by
    intro i hi j hj
    obtain ⟨h1, h2⟩ := unit_dot hγ hd hnr (fun r => X.get r i) (fun r => X.get r j) (hx.upper i hi) (hx.upper j hj)
    have e : (empiricalCov X).get i j = (∑ r ∈ range X.nr, X.get r i * X.get r j) / X.nr := by
      simp only [empiricalCov]; ring
    rw [e]
    refine ⟨h2, ?_⟩
    have := unit_cov hu hu1 h hnr hγ1 h1 h2
    simp only [lassoProblemRnd]
    rw [hn]
    exact this
  have hrhs : ∀ j < X.nc, |dot X.nr (fun r => X.get r j) y / X.nr - xTy X y j / X.nr| ≤ 102 / 100 * γ ∧
      |xTy X y j / X.nr| ≤ 102 / 100 := fun j hj =>
    unit_dot hγ hd hnr (fun r => X.get r j) y (hx.upper j hj) hx.response
  have he : 11 / 10 * (γ + 2 * u) ≤ 2 / 100 := by linarith
  exact {
    corr := rfl
    nr := rfl
    nFeat := rfl
    rows := hx.rows
    lamb := hl
    e0 := by positivity
    M0 := by positivity
    cov := fun i hi j hj => (hcov i hi j hj).2
    rhs := fun j hj => by
      refine (hrhs j hj).1.trans ?_
      have := mul_le_mul_of_nonneg_left hM1 (by positivity : 0 ≤ 11 / 10 * (γ + 2 * u))
      linarith
    entry := fun i hi j hj => by
      obtain ⟨h1, h2⟩ := hcov i hi j hj
      set z := (lassoProblemRnd rnd dot X y lamb tol pureLasso).cov.get i j
      set C := (empiricalCov X).get i j
      have h3 : |z| ≤ |z - C| + |C| := by
        calc |z| = |(z - C) + C| := by rw [sub_add_cancel]
          _ ≤ _ := abs_add_le _ _
      rw [← mul_div_assoc]
      exact div_le_div_of_nonneg_right (by linarith) hl.le
    size := fun j hj => by
      obtain ⟨h1, h2⟩ := hrhs j hj
      change |dot X.nr (fun r => X.get r j) y / X.nr| ≤ _
      set z := dot X.nr (fun r => X.get r j) y / X.nr
      set C := xTy X y j / X.nr
      have h3 : |z| ≤ |z - C| + |C| := by
        calc |z| = |(z - C) + C| := by rw [sub_add_cancel]
          _ ≤ _ := abs_add_le _ _
      rw [le_div_iff₀ hl]
      have := mul_le_mul_of_nonneg_left hl1 (abs_nonneg z)
      linarith
    diag := fun j h1 h2 => by
      have := hx.lower j h1 h2
      simp only [empiricalCov]
      rw [one_div, inv_mul_eq_div, le_div_iff₀ hnr]
      simpa only [pow_two] using this
    accurate := by linarith
    c0 := by norm_num
    steps := hN
    unit := hu1
    start := by
      rw [div_le_iff₀ hnr]
      have : lamb * (102 / 100 / lamb) = 102 / 100 := by field_simp
      change _ ≤ lamb * (102 / 100 / lamb) * X.nr
      rw [this]
      exact hx.response
    budget := by
      have e1 : lamb * (102 / 100 / lamb) = 102 / 100 := by field_simp
      change _ ≤ 49 / 100 * (lamb * (102 / 100 / lamb) / 2)
      rw [e1]
      have h1 : (8 * (N : ℝ) + 17) * (u * (11 / 10 / lamb)) + 2 * (11 / 10 * (γ + 2 * u) * (102 / 100 / lamb)) ≤
          crdError u γ lamb N := by
        have e2 : (8 * (N : ℝ) + 17) * (u * (11 / 10 / lamb)) + 2 * (11 / 10 * (γ + 2 * u) * (102 / 100 / lamb)) =
            ((8 * N + 17) * (u * (11 / 10)) + 2 * (11 / 10 * (γ + 2 * u) * (102 / 100))) / lamb := by ring
        rw [e2]
        refine div_le_div_of_nonneg_right ?_ hl.le
        have : 0 ≤ N * u := by positivity
        linarith
      have h2 := pow_le_pow_left₀ (by positivity) h1 2
      have h3 := mul_le_mul_of_nonneg_left h2 (Nat.cast_nonneg N : (0 : ℝ) ≤ N)
      linarith }

/-- Lasso on normalised data: the coefficients stay bounded, the objective does not go up beyond rounding errors, and when
convergence is reported the selected features satisfy their KKT conditions up to the tolerance and rounding errors. -/
theorem C140_normalised (rnd : ℝ → ℝ) (u : ℝ) (hu : 0 ≤ u) (h : RelativeError rnd u)
    (dot : Nat → (Nat → ℝ) → (Nat → ℝ) → ℝ) (X : Mat ℝ) (y : Nat → ℝ) (lamb tol γ : ℝ) (n : Nat) (hx : UnitScale X y)
    (hγ : 0 ≤ γ) (hγ1 : γ ≤ 1 / 100) (hd : DotError dot X.nr γ) (hn : rnd X.nr = X.nr) (hl : 0 < lamb) (hl1 : lamb ≤ 1)
    (htol : 0 ≤ tol) (hu1 : u ≤ 1 / 1000) (hN : 8 * ((n * X.nc : Nat) * u) ≤ 1 / 100)
    (hE : (n * X.nc : Nat) * crdError u γ lamb (n * X.nc) ^ 2 ≤ 1 / 5) :
    let r := lassoCrdDescRnd rnd (lassoProblemRnd rnd dot X y lamb tol pureLasso) () n
    ∑ j ∈ range X.nc, |r.1 j| ≤ 102 / 100 / lamb ∧
      lassoObjective X y lamb r.1 ≤ lassoObjective X y lamb (fun _ => 0) +
        3 * ((n * X.nc : Nat) * crdError u γ lamb (n * X.nc) ^ 2) ∧
      (r.2 = true → ∃ m, (∃ k < X.nc, |r.1 k| = m) ∧ ∀ j, 1 ≤ j → j < X.nc → |r.1 j| > rnd (1 / 10 ^ 16) →
        ∃ s, |s| ≤ lamb ∧ s * r.1 j = lamb * |r.1 j| ∧
          |gradient X y r.1 j - s| ≤ 104 / 100 * tol * m * X.nc + crdError u γ lamb (n * X.nc)) := by
  intro r
  have hb := unit_bounds (tol := tol) (y := y) hu h hx hγ hγ1 hd hn hl hl1 hu1 hN hE
  have hN0 : (0 : ℝ) ≤ (n * X.nc : Nat) * u := by positivity
  have e1 : ∀ a, (8 * ((n * X.nc : Nat) : ℝ) + 17) * (u * (11 / 10 / lamb)) + a * (11 / 10 * (γ + 2 * u) * (102 / 100 / lamb)) =
      ((8 * (n * X.nc : Nat) + 17) * (u * (11 / 10)) + a * (11 / 10 * (γ + 2 * u) * (102 / 100))) / lamb := by
    intro a; ring
  obtain ⟨h1, h2⟩ := C140_objective rnd X y _ u _ _ _ _ (n * X.nc) hu h hb hn n le_rfl
  refine ⟨h2, h1.trans ?_, fun hc => ?_⟩
  · refine add_le_add le_rfl ?_
    have h3 : ((8 * ((n * X.nc : Nat) : ℝ) + 17) * (u * (11 / 10 / lamb)) + 2 * (11 / 10 * (γ + 2 * u) * (102 / 100 / lamb))) ≤
        crdError u γ lamb (n * X.nc) := by
      rw [e1]
      exact div_le_div_of_nonneg_right (by linarith) hl.le
    have h4 := pow_le_pow_left₀ (by positivity) h3 2
    set A := (((8 * ((n * X.nc : Nat) : ℝ) + 17) * (u * (11 / 10 / lamb)) + 2 * (11 / 10 * (γ + 2 * u) * (102 / 100 / lamb)))) ^ 2
    set B := crdError u γ lamb (n * X.nc) ^ 2
    have hA : 0 ≤ A := sq_nonneg _
    have h5 : A / (49 / 100) ≤ 3 * B := by
      rw [div_le_iff₀ (by norm_num)]; linarith
    have h6 := mul_le_mul_of_nonneg_left h5 (Nat.cast_nonneg (n * X.nc) : (0 : ℝ) ≤ (n * X.nc : Nat))
    push_cast at h6 ⊢
    linarith
  · obtain ⟨m, ⟨k, hk, hm⟩, hj⟩ := C140_selected rnd X y _ u _ _ _ _ (n * X.nc) hu h hb hn n le_rfl hc
    refine ⟨m, ⟨k, hk, hm⟩, fun j g1 g2 g3 => ?_⟩
    obtain ⟨s, s1, s2, s3⟩ := hj j g1 g2 g3
    refine ⟨s, s1, s2, s3.trans (add_le_add ?_ ?_)⟩
    · have hnr : (0 : ℝ) < X.nr := by exact_mod_cast hx.rows
      have h3 : ∑ k ∈ range X.nc, |(empiricalCov X).get j k| ≤ 102 / 100 * X.nc := by
        calc ∑ k ∈ range X.nc, |(empiricalCov X).get j k| ≤ ∑ k ∈ range X.nc, (102 / 100 : ℝ) := by
              refine sum_le_sum (fun k hk => ?_)
              simp only [empiricalCov]
              rw [one_div, inv_mul_eq_div, abs_div, abs_of_pos hnr, div_le_iff₀ hnr]
              exact (abs_sum_le_sum_abs _ _).trans (sum_abs_mul_le _ _ _ _ (hx.upper j g2) (hx.upper k (mem_range.1 hk)))
          _ = _ := by rw [sum_const, card_range, nsmul_eq_mul, mul_comm]
      have hm0 : 0 ≤ m := hm ▸ abs_nonneg _
      have h4 := mul_le_mul_of_nonneg_left h3 (by positivity : 0 ≤ 101 / 100 * tol * m)
      have h5 : 0 ≤ tol * m * X.nc := by positivity
      change 101 / 100 * tol * m * _ ≤ _
      linarith
    · rw [e1]
      exact div_le_div_of_nonneg_right (by linarith) hl.le

/-! ### From raw data, in double precision -/

theorem sum_map_colOf (X : Mat ℝ) (c : Nat) (f : ℝ → ℝ) : ((colOf X c).map f).sum = ∑ r ∈ range X.nr, f (X.get r c) := by
  unfold colOf
  rw [List.map_map]
  induction X.nr with
  | zero => simp
  | succ n ih => rw [List.range_succ, List.map_append, List.sum_append, ih, sum_range_succ]; simp

/-- Every column has mean square at most about 1 after normalisation, constant columns too. -/
theorem column_upper {rnd : ℝ → ℝ} {u : ℝ} (hu : 0 ≤ u) (h : RelativeError rnd u) (v : List ℝ) (hv : 2 ≤ v.length)
    (hn : ∀ k : Nat, k ≤ v.length → rnd k = k) (hη : (v.length + 10) * u ≤ 1 / 100) :
    (v.map (fun x => (rnd (rnd (x - meanRnd rnd v) /
      (if stdRnd rnd v < rnd (1 / 10 ^ 10) then 1 else stdRnd rnd v))) ^ 2)).sum ≤ 102 / 100 * (v.length - 1) := by
  have hN : (2 : ℝ) ≤ v.length := by exact_mod_cast hv
  have hu1 : u ≤ 1 := by nlinarith
  have hn1 : rnd (v.length - 1 : ℝ) = v.length - 1 := by
    have := hn (v.length - 1) (by omega)
    rwa [Nat.cast_sub (by omega), Nat.cast_one] at this
  obtain ⟨b1, -, b3⟩ := stdRnd_bounds hu hu1 h v hv hn1
  obtain ⟨p1, p2⟩ := pow_bounds hu (v.length + 10) (by push_cast; exact le_rfl) hη
  have hu12 : u ≤ 1 / 1000 := by nlinarith
  set s := stdRnd rnd v with hs
  set m := meanRnd rnd v with hm
  set t : ℝ := if s < rnd (1 / 10 ^ 10) then 1 else s with ht
  have hr := rel_nonneg h (by positivity : (0 : ℝ) ≤ 1 / 10 ^ 10)
  have ht0 : 0 < t ∧ s ^ 2 ≤ t ^ 2 := by
    rw [ht]
    split
    · rename_i hlt
      have h1 : s ≤ 1 := by
        have : (1 + u) * (1 / 10 ^ 10) ≤ 1 := by nlinarith
        linarith [hr.2]
      exact ⟨one_pos, pow_le_pow_left₀ b3 h1 2⟩
    · rename_i hge
      have : 0 < (1 - u) * (1 / 10 ^ 10) := mul_pos (by linarith) (by positivity)
      exact ⟨by linarith [hr.1, not_lt.1 hge], le_rfl⟩
  obtain ⟨ht1, hst⟩ := ht0
  have hN1 : (0 : ℝ) < v.length - 1 := by linarith
  set P := (v.map (fun x => (x - m) ^ 2)).sum / (v.length - 1 : ℝ) with hP
  have hP0 : 0 ≤ P := by
    refine div_nonneg (List.sum_nonneg ?_) hN1.le
    intro x hx
    obtain ⟨y, -, rfl⟩ := List.mem_map.1 hx
    exact sq_nonneg _
  have h1 : 99 / 100 * P ≤ t ^ 2 := by
    have h2 : 99 / 100 ≤ (1 - u) ^ (v.length + 6) := by
      have := p1.trans (pow_le_pow_of_le_one (by linarith) (by linarith) (by omega : v.length + 6 ≤ v.length + 10))
      linarith
    have := mul_le_mul_of_nonneg_right h2 hP0
    linarith
  have hupp : (v.map (fun x => (rnd (rnd (x - m) / t)) ^ 2)).sum ≤ (v.map (fun x => 1007 / 1000 / t ^ 2 * (x - m) ^ 2)).sum := by
    refine sum_map_le fun x _ => ?_
    have h2 : |rnd (rnd (x - m) / t)| ≤ (1 + u) ^ 2 * |x - m| / t := by
      calc |rnd (rnd (x - m) / t)| ≤ (1 + u) * |rnd (x - m) / t| := rel_abs h _
        _ = (1 + u) * |rnd (x - m)| / t := by rw [abs_div, abs_of_pos ht1]; ring
        _ ≤ (1 + u) * ((1 + u) * |x - m|) / t :=
          div_le_div_of_nonneg_right (mul_le_mul_of_nonneg_left (rel_abs h _) (by linarith)) ht1.le
        _ = _ := by ring
    have h3 := pow_le_pow_left₀ (abs_nonneg _) h2 2
    rw [sq_abs, div_pow, mul_pow, sq_abs] at h3
    refine h3.trans ?_
    have h4 : ((1 + u) ^ 2) ^ 2 ≤ 1007 / 1000 := by
      have h5 : (1 + u) ^ 2 ≤ 10021 / 10000 := by nlinarith
      have := pow_le_pow_left₀ (sq_nonneg (1 + u)) h5 2
      linarith
    rw [div_mul_eq_mul_div]
    exact div_le_div_of_nonneg_right (mul_le_mul_of_nonneg_right h4 (sq_nonneg _)) (sq_nonneg _)
  rw [sum_map_mul] at hupp
  refine hupp.trans ?_
  have e : (v.map (fun x => (x - m) ^ 2)).sum = P * (v.length - 1) := by rw [hP, div_mul_cancel₀ _ hN1.ne']
  rw [e, ← mul_assoc]
  refine mul_le_mul_of_nonneg_right ?_ hN1.le
  rw [div_mul_eq_mul_div, div_le_iff₀ (by positivity)]
  linarith

/-- Normalised data have unit scale. -/
theorem dataset_unit {rnd : ℝ → ℝ} {u : ℝ} (hu : 0 ≤ u) (h : RelativeError rnd u) (X : Mat ℝ) (y : List ℝ)
    (hr : 2 ≤ X.nr) (hy : y.length = X.nr) (hn : ∀ k : Nat, k ≤ X.nr → rnd k = k) (hη : (X.nr + 10) * u ≤ 1 / 200)
    (hcols : ∀ c < X.nc, c ≠ 0 → 102 / 100 / 10 ^ 10 ≤ Real.sqrt (variance (colOf X c))) (hvar : 0 < variance y) :
    ∃ (d : NormalizedData) (w : List ℝ), newNormalizedDataRnd rnd X y = some d ∧ d.X.nr = X.nr ∧ d.X.nc = X.nc ∧
      d.y = w.map Fl.fin ∧
      w.length = X.nr ∧ UnitScale d.X (fun r => w.getD r 0) := by
  have hη1 : (X.nr + 10) * u ≤ 1 / 100 := by linarith
  obtain ⟨d, w, h1, h2, h3, h4, h5, h6⟩ := C139_dataset rnd u hu h X y hr hy hn hη1 hcols hvar
  have hN : (2 : ℝ) ≤ X.nr := by exact_mod_cast hr
  have hN1 : (0 : ℝ) < X.nr - 1 := by linarith
  have hwl : w.length = X.nr := by rw [h6.len, hy]
  refine ⟨d, w, h1, h2, h3, h5, hwl, ⟨by omega, ?_, ?_, ?_⟩⟩
  · intro c hc
    rw [h3] at hc
    rcases newNormalizedDataRnd_inv rnd X y with ⟨-, h7⟩ | ⟨d', h7, h8, -⟩
    · rw [h1] at h7; exact absurd h7 (by simp)
    · rw [h1] at h7
      obtain rfl : d = d' := Option.some.inj h7
      have h9 := column_upper hu h (colOf X c) (by rw [length_colOf]; exact hr) (by rw [length_colOf]; exact hn)
        (by rw [length_colOf]; exact hη1)
      rw [sum_map_colOf, length_colOf] at h9
      rw [h2]
      have : ∑ r ∈ range X.nr, d.X.get r c ^ 2 ≤ 102 / 100 * (X.nr - 1) := by
        refine le_trans (le_of_eq (sum_congr rfl fun r hr' => ?_)) h9
        rw [h8.done r c hc (mem_range.1 hr')]
      linarith
  · intro c h0 hc
    rw [h3] at hc
    have h7 := (h4 c hc (hcols c hc (by omega))).size
    rw [sum_map_colOf, length_colOf, abs_le] at h7
    have h8 : 98 / 100 ≤ (∑ r ∈ range d.X.nr, d.X.get r c ^ 2) / (X.nr - 1 : ℝ) := by linarith [h7.1]
    rw [le_div_iff₀ hN1] at h8
    rw [h2] at h8 ⊢
    linarith
  · have h7 := h6.size
    rw [hy, abs_le] at h7
    have h8 : (w.map (fun x => x ^ 2)).sum / (X.nr - 1 : ℝ) ≤ 102 / 100 := by linarith [h7.2]
    rw [div_le_iff₀ hN1] at h8
    have e : (w.map (fun x => x ^ 2)).sum = ∑ r ∈ range w.length, w.getD r 0 ^ 2 := by
      clear h5 h6 h7 h8 hwl
      induction w using List.reverseRecOn with
      | nil => simp
      | append_singleton l a ih =>
        rw [List.map_append, List.sum_append, ih, List.length_append, List.length_singleton, sum_range_succ]
        congr 1
        · refine sum_congr rfl fun r hr' => ?_
          rw [List.getD_eq_getElem?_getD, List.getD_eq_getElem?_getD, List.getElem?_append_left (mem_range.1 hr')]
        · simp
    rw [e, hwl] at h8
    rw [h2]
    linarith

/-- Raw data, normalised and fitted in double precision.  Inner products of `n` numbers may be added up in any order: all
that is assumed is the usual bound for their error. -/
theorem C140_binary64 (X : Mat ℝ) (y : List ℝ) (hr : 2 ≤ X.nr) (hbig : X.nr ≤ 2 ^ 45) (hy : y.length = X.nr)
    (hcols : ∀ c < X.nc, c ≠ 0 → 102 / 100 / 10 ^ 10 ≤ Real.sqrt (variance (colOf X c))) (hvar : 0 < variance y)
    (dot : Nat → (Nat → ℝ) → (Nat → ℝ) → ℝ) (hd : DotError dot X.nr ((1 + 1 / 2 ^ 53) ^ (X.nr + 1) - 1)) (lamb tol : ℝ)
    (hl : 0 < lamb) (hl1 : lamb ≤ 1) (htol : 0 ≤ tol) (n : Nat) (hN : n * X.nc ≤ 2 ^ 43)
    (hE : (n * X.nc : Nat) * ((9 * (n * X.nc : Nat) + 6 * X.nr + 40) / 2 ^ 53 / lamb) ^ 2 ≤ 1 / 5) :
    ∃ (d : NormalizedData) (w : List ℝ), newNormalizedDataRnd rnd53 X y = some d ∧ d.y = w.map Fl.fin ∧
      let z := fun r => w.getD r 0
      let r := lassoCrdDescRnd rnd53 (lassoProblemRnd rnd53 dot d.X z lamb tol pureLasso) () n
      ∑ j ∈ range X.nc, |r.1 j| ≤ 102 / 100 / lamb ∧
      (r.2 = true → ∃ m, (∃ k < X.nc, |r.1 k| = m) ∧ ∀ j, 1 ≤ j → j < X.nc → |r.1 j| > rnd53 (1 / 10 ^ 16) →
        ∃ s, |s| ≤ lamb ∧ s * r.1 j = lamb * |r.1 j| ∧
          |gradient d.X z r.1 j - s| ≤ 104 / 100 * tol * m * X.nc +
            (9 * (n * X.nc : Nat) + 6 * X.nr + 40) / 2 ^ 53 / lamb) := by
  have hb : (X.nr : ℝ) ≤ 2 ^ 45 := by exact_mod_cast hbig
  have hNb : ((n * X.nc : Nat) : ℝ) ≤ 2 ^ 43 := by exact_mod_cast hN
  obtain ⟨d, w, h1, h2, h3, h4, h5, h6⟩ := dataset_unit (u := 1 / 2 ^ 53) (by positivity) rnd53_rel X y hr hy
    (fun k hk => rnd53_nat (hk.trans (hbig.trans (by norm_num)))) (by
      rw [mul_one_div, div_le_iff₀ (by positivity)]
      have h1 : (2 : ℝ) ^ 45 + 10 ≤ 1 / 200 * 2 ^ 53 := by norm_num
      linarith) hcols hvar
  refine ⟨d, w, h1, h4, ?_⟩
  intro z r
  obtain ⟨u, hu⟩ : ∃ u : ℝ, u = 1 / 2 ^ 53 := ⟨_, rfl⟩
  have hrel : RelativeError rnd53 u := by rw [hu]; exact rnd53_rel
  rw [← hu] at hd
  have hu0 : 0 < u := by rw [hu]; positivity
  obtain ⟨γ, hγ⟩ : ∃ γ, γ = (1 + u) ^ (X.nr + 1) - 1 := ⟨_, rfl⟩
  rw [← hγ] at hd
  have hγ0 : 0 ≤ γ := by
    have : 1 ≤ (1 + u) ^ (X.nr + 1) := one_le_pow₀ (by linarith)
    linarith
  have hk : (X.nr + 1) * u ≤ 1 / 200 := by
    rw [hu, mul_one_div, div_le_iff₀ (by positivity)]
    have h1 : (2 : ℝ) ^ 45 + 1 ≤ 1 / 200 * 2 ^ 53 := by norm_num
    linarith
  have hγ1 : γ ≤ 102 / 100 * ((X.nr + 1) * u) := by
    obtain ⟨-, p2⟩ := pow_bounds hu0.le (X.nr + 1) (by push_cast; exact le_rfl) (hk.trans (by norm_num))
    set η := ((X.nr : ℝ) + 1) * u
    have hη0 : 0 ≤ η := by positivity
    by_contra hc
    rw [not_le] at hc
    have h7 : (1 + 102 / 100 * η) * (1 - η) < (1 + u) ^ (X.nr + 1) * (1 - η) :=
      mul_lt_mul_of_pos_right (by linarith) (by linarith)
    have h8 : 0 ≤ η * (1 - 200 * η) := mul_nonneg hη0 (by linarith)
    linarith
  have hε : ∀ N : Nat, crdError u γ lamb N ≤ (9 * N + 6 * X.nr + 40) / 2 ^ 53 / lamb := by
    intro N
    unfold crdError
    refine div_le_div_of_nonneg_right ?_ hl.le
    have : (9 * (N : ℝ) + 6 * X.nr + 40) / 2 ^ 53 = (9 * N + 6 * X.nr + 40) * u := by rw [hu]; ring
    rw [this]
    have : 0 ≤ X.nr * u := by positivity
    linarith
  have hε0 : ∀ N : Nat, 0 ≤ crdError u γ lamb N := fun N => by unfold crdError; positivity
  have key := C140_normalised rnd53 u hu0.le hrel dot d.X z lamb tol γ n h6 hγ0 (by linarith) (by rw [h2]; exact hd)
    (by rw [h2]; exact rnd53_nat (hbig.trans (by norm_num))) hl hl1 htol (by rw [hu]; norm_num) (by
      rw [h3]
      have : ((n * X.nc : Nat) : ℝ) * u ≤ 1 / 800 := by
        rw [hu, mul_one_div, div_le_iff₀ (by positivity)]
        refine hNb.trans (by norm_num)
      linarith) (by
      rw [h3]
      refine le_trans (mul_le_mul_of_nonneg_left (pow_le_pow_left₀ (hε0 _) (hε _) 2) (Nat.cast_nonneg _)) hE)
  rw [h3] at key
  refine ⟨key.1, fun hc => ?_⟩
  obtain ⟨m, hm, hj⟩ := key.2.2 hc
  refine ⟨m, hm, fun j g1 g2 g3 => ?_⟩
  obtain ⟨s, s1, s2, s3⟩ := hj j g1 g2 g3
  exact ⟨s, s1, s2, s3.trans (add_le_add le_rfl (hε _))⟩

/-! ### Examples -/

/-- Raw data: the bound is below `10 ^ (-11)` for 100 sweeps and `λ = 1/10`. -/
example (tol : ℝ) (htol : 0 ≤ tol) : ∃ (d : NormalizedData) (w : List ℝ),
    newNormalizedDataRnd rnd53 normX [1, 2, 4] = some d ∧ d.y = w.map Fl.fin ∧
      let z := fun r => w.getD r 0
      let r := lassoCrdDescRnd rnd53
        (lassoProblemRnd rnd53 (fun n x c => dotLoop rnd53 x c n) d.X z (1 / 10) tol pureLasso) () 100
      (r.2 = true → ∃ m, (∃ k < 2, |r.1 k| = m) ∧ (|r.1 1| > rnd53 (1 / 10 ^ 16) →
        ∃ s, |s| ≤ 1 / 10 ∧ s * r.1 1 = 1 / 10 * |r.1 1| ∧
          |gradient d.X z r.1 1 - s| ≤ 104 / 100 * tol * m * 2 + 1 / 10 ^ 11)) := by
  have hv : ∀ c < normX.nc, c ≠ 0 → 102 / 100 / 10 ^ 10 ≤ Real.sqrt (variance (colOf normX c)) := by
    intro c hc h0
    have : c = 1 := by have : c < 2 := hc; omega
    rw [this, normX_col, variance_123, Real.sqrt_one]
    norm_num
  obtain ⟨d, w, h1, h2, -, h4⟩ := C140_binary64 normX [1, 2, 4] (by decide) (by norm_num [normX]) rfl hv
    (by norm_num [variance, Spec.mean]) (fun n x c => dotLoop rnd53 x c n)
    (C136_dot rnd53 (1 / 2 ^ 53) (by positivity) rnd53_rel _) (1 / 10) tol (by norm_num) (by norm_num) htol 100
    (by norm_num [normX]) (by norm_num [normX])
  refine ⟨d, w, h1, h2, ?_⟩
  intro z r hc
  obtain ⟨m, hm, hj⟩ := h4 hc
  refine ⟨m, hm, fun g3 => ?_⟩
  obtain ⟨s, s1, s2, s3⟩ := hj 1 le_rfl (by decide) g3
  refine ⟨s, s1, s2, s3.trans (add_le_add (le_of_eq (by norm_num [normX])) (by norm_num [normX]))⟩

/-- Two rows with the feature `1, -1`, which is the response as well. -/
def crdX : Mat ℝ := ⟨2, 2, fun r c => if c = 0 then 0 else if r = 0 then 1 else -1⟩

theorem crdX_unit : UnitScale crdX (fun r => crdX.get r 1) where
  rows := by decide
  upper := by
    intro j hj
    have : j = 0 ∨ j = 1 := by have : j < 2 := hj; omega
    rcases this with rfl | rfl <;> norm_num [crdX, sum_range_succ]
  lower := by
    intro j h1 hj
    obtain rfl : j = 1 := by have : j < 2 := hj; omega
    norm_num [crdX, sum_range_succ]
  response := by norm_num [crdX, sum_range_succ]

/-- The problem without rounding, with `λ = 1/2`. -/
noncomputable def crdProblem : CDProblem ℝ Unit :=
  lassoProblemRnd id (fun n x c => dotLoop id x c n) crdX (fun r => crdX.get r 1) (1 / 2) (1 / 100) pureLasso

theorem crdProblem_sweep (st : CDState ℝ Unit) (h1 : st.iterIndices = [1]) (h2 : st.covDotBeta 1 = st.betaOld 1) :
    (cdSweepRnd id crdProblem st).beta 1 = 1 / 2 ∧ (cdSweepRnd id crdProblem st).covDotBeta 1 = 1 / 2 ∧
      (cdSweepRnd id crdProblem st).iterIndices = [1] ∧ (cdSweepRnd id crdProblem st).betaOld = st.betaOld := by
  have hc : crdProblem.cov.get 1 1 = 1 := by
    norm_num [crdProblem, lassoProblemRnd, crdX, dotLoop]
  have hx : crdProblem.XTy 1 = 2 := by norm_num [crdProblem, lassoProblemRnd, crdX, dotLoop]
  have hn : (crdProblem.nr : ℝ) = 2 := by norm_num [crdProblem, lassoProblemRnd, crdX]
  have hl : crdProblem.lamb = 1 / 2 := rfl
  have hd : ∀ b j, crdProblem.corr.deriv () b j = 0 := fun _ _ => rfl
  have hb : (cdCoordRnd id crdProblem st 1).beta 1 = 1 / 2 := by
    simp only [cdCoordRnd, id, hc, hx, hn, hl, hd, h2, Function.update_self, softThresholdRnd]
    norm_num
  refine ⟨by rw [cdSweepRnd, h1]; exact hb, ?_, ?_, ?_⟩
  · rw [cdSweepRnd, h1]
    simp only [List.foldl_cons, List.foldl_nil]
    simp only [cdCoordRnd, id, hc, hx, hn, hl, hd, h2, updateCovDotBetaRnd, softThresholdRnd]
    norm_num
  · rw [cdSweepRnd, h1]; exact h1
  · rw [cdSweepRnd, h1]; rfl

/-- Convergence is reported after two sweeps, with the feature selected. -/
theorem crdX_converges :
    (lassoCrdDescRnd id crdProblem () 2).2 = true ∧ (lassoCrdDescRnd id crdProblem () 2).1 1 = 1 / 2 := by
  obtain ⟨a1, a2, a3, a4⟩ := crdProblem_sweep (cdInitRnd id crdProblem ()) rfl (by
    norm_num [cdInitRnd, mulSliceRnd, crdProblem, lassoProblemRnd, crdX, dotLoop])
  have hbo : (cdInitRnd id crdProblem ()).betaOld 1 = 0 := rfl
  have ht : crdProblem.tol = 1 / 100 := rfl
  set s0 := cdInitRnd id crdProblem ()
  have e1 : cdIterRnd id crdProblem s0 =
      ({ beta := (cdSweepRnd id crdProblem s0).beta
         betaOld := (cdSweepRnd id crdProblem s0).beta
         covDotBeta := (cdSweepRnd id crdProblem s0).covDotBeta
         iterIndices := [1]
         converged := false
         corrState := () }, false) := by
    unfold cdIterRnd
    have hf : (decide (runMax (fun j => |(cdSweepRnd id crdProblem s0).beta j|) [1] ≠ 0) &&
        decide (id (runMax (fun j => |id ((cdSweepRnd id crdProblem s0).beta j - s0.betaOld j)|) [1] /
          runMax (fun j => |(cdSweepRnd id crdProblem s0).beta j|) [1]) < crdProblem.tol)) = false := by
      simp only [runMax, List.foldl_cons, List.foldl_nil, a1, hbo, id, ht]
      norm_num
    simp only [a3, a4, hf]
    have : List.filter (fun j => decide (|(cdSweepRnd id crdProblem s0).beta j| > id (1 / 10 ^ 16))) [1] = [1] := by
      simp only [List.filter_cons, a1, id, List.filter_nil]
      norm_num
    rw [this]
    rfl
  obtain ⟨b1, b2, b3, b4⟩ := crdProblem_sweep (cdIterRnd id crdProblem s0).1 (by rw [e1])
    (by rw [e1]; exact a2.trans a1.symm)
  have hb4 : (cdSweepRnd id crdProblem (cdIterRnd id crdProblem s0).1).betaOld 1 = 1 / 2 := by rw [b4, e1]; exact a1
  set s1 := (cdIterRnd id crdProblem s0).1 with hs1
  have e2 : (cdIterRnd id crdProblem s1).2 = true ∧ (cdIterRnd id crdProblem s1).1.beta 1 = 1 / 2 := by
    refine ⟨?_, by rw [(cdIterRnd_shape id crdProblem s1).1]; exact b1⟩
    unfold cdIterRnd
    have hf : (decide (runMax (fun j => |(cdSweepRnd id crdProblem s1).beta j|) [1] ≠ 0) &&
        decide (id (runMax (fun j => |id ((cdSweepRnd id crdProblem s1).beta j - (cdSweepRnd id crdProblem s1).betaOld j)|) [1] /
          runMax (fun j => |(cdSweepRnd id crdProblem s1).beta j|) [1]) < crdProblem.tol)) = true := by
      simp only [runMax, List.foldl_cons, List.foldl_nil, b1, hb4, id, ht]
      norm_num
    have hk : unsatisfiedKKTRnd id crdProblem.nFeat crdProblem.XTy (cdSweepRnd id crdProblem s1).covDotBeta
        (cdSweepRnd id crdProblem s1).beta crdProblem.lamb crdProblem.corr
        (crdProblem.corr.update (cdSweepRnd id crdProblem s1).corrState (cdSweepRnd id crdProblem s1).beta) = [] := by
      have hx : crdProblem.XTy 1 = 2 := by norm_num [crdProblem, lassoProblemRnd, crdX, dotLoop]
      have hl : crdProblem.lamb = 1 / 2 := rfl
      have hd : ∀ b j, crdProblem.corr.deriv () b j = 0 := fun _ _ => rfl
      have hnf : crdProblem.nFeat = 2 := rfl
      simp only [unsatisfiedKKTRnd, hnf, List.range_succ, List.range_zero, List.nil_append, List.cons_append,
        List.filter_cons, List.filter_nil, hx, hl, hd, b2, b1, id]
      norm_num
    simp only [b3, hf, hk]
    rfl
  have e3 : lassoCrdDescRnd id crdProblem () 2 = ((cdIterRnd id crdProblem s1).1.beta, true) := by
    have h1 : cdIterRnd id crdProblem s0 = (s1, false) := by rw [hs1, e1]
    have h2 : cdIterRnd id crdProblem s1 = ((cdIterRnd id crdProblem s1).1, true) := Prod.ext rfl e2.1
    change ((cdLoopRnd id crdProblem 2 s0).1.beta, (cdLoopRnd id crdProblem 2 s0).2) = _
    rw [cdLoopRnd, h1]
    simp only
    rw [cdLoopRnd, h2]
  rw [e3]
  exact ⟨rfl, e2.2⟩

/-- The feature is selected and satisfies its KKT condition up to the tolerance. -/
example : ∃ m, (∃ k < 2, |(lassoCrdDescRnd id crdProblem () 2).1 k| = m) ∧
    ∃ s, |s| ≤ 1 / 2 ∧ |gradient crdX (fun r => crdX.get r 1) (lassoCrdDescRnd id crdProblem () 2).1 1 - s| ≤
      104 / 100 * (1 / 100) * m * 2 := by
  have h0 : RelativeError id 0 := fun x => by simp
  have hd : DotError (fun n x c => dotLoop id x c n) crdX.nr 0 := by
    have := C136_dot id 0 le_rfl h0 crdX.nr
    simpa using this
  obtain ⟨-, -, h3⟩ := C140_normalised id 0 le_rfl h0 _ crdX (fun r => crdX.get r 1) (1 / 2) (1 / 100) 0 2 crdX_unit le_rfl
    (by norm_num) hd rfl (by norm_num) (by norm_num) (by norm_num) (by norm_num) (by norm_num)
    (by norm_num [crdError])
  obtain ⟨m, hm, hj⟩ := h3 crdX_converges.1
  obtain ⟨s, s1, -, s3⟩ := hj 1 le_rfl (by decide) (by
    change |(lassoCrdDescRnd id crdProblem () 2).1 1| > id (1 / 10 ^ 16)
    rw [crdX_converges.2]
    norm_num)
  refine ⟨m, hm, s, s1, s3.trans (le_of_eq ?_)⟩
  norm_num [crdError, crdX]

end GoSelect
