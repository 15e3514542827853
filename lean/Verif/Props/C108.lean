import Verif.Props.C104
import Verif.Props.C106

/-!
C108: the two algorithms of the lasso command, `LassoLars` and `LassoCrdDesc`.  The coefficients of a `LassoLars` node as a
function of the feature are `spread n.selection n.coeff`.
-/

namespace GoSelect

open Finset Spec

section
variable {K : Type} [Field K] [LinearOrder K] [IsStrictOrderedRing K]

theorem residual_mix (X : Mat K) (y b b' : Nat → K) (u : K) (r : Nat) :
    Spec.residual X y (fun j => (1 - u) * b j + u * b' j) r =
      (1 - u) * Spec.residual X y b r + u * Spec.residual X y b' r := by
  unfold Spec.residual
  have : ∑ j ∈ range X.nc, X.get r j * ((1 - u) * b j + u * b' j) =
      (1 - u) * ∑ j ∈ range X.nc, X.get r j * b j + u * ∑ j ∈ range X.nc, X.get r j * b' j := by
    rw [mul_sum, mul_sum, ← sum_add_distrib]
    exact sum_congr rfl fun j _ => by ring
  rw [this]
  ring

/-- The objective is convex, and strictly so in the predictions. -/
theorem lassoRisk_mix (X : Mat K) (y : Nat → K) {lamb : K} (hl : 0 ≤ lamb) (b b' : Nat → K) {u : K} (h0 : 0 ≤ u) (h1 : u ≤ 1) :
    lassoRisk X y lamb (fun j => (1 - u) * b j + u * b' j) ≤ (1 - u) * lassoRisk X y lamb b + u * lassoRisk X y lamb b' -
      u * (1 - u) * (1 / 2 * ∑ r ∈ range X.nr, (lin X b r - lin X b' r) ^ 2) := by
  have e1 : ∑ r ∈ range X.nr, Spec.residual X y (fun j => (1 - u) * b j + u * b' j) r ^ 2 =
      (1 - u) * ∑ r ∈ range X.nr, Spec.residual X y b r ^ 2 + u * ∑ r ∈ range X.nr, Spec.residual X y b' r ^ 2 -
        u * (1 - u) * ∑ r ∈ range X.nr, (lin X b r - lin X b' r) ^ 2 := by
    rw [mul_sum, mul_sum, mul_sum, ← sum_add_distrib, ← sum_sub_distrib]
    refine sum_congr rfl fun r _ => ?_
    rw [residual_mix]
    unfold Spec.residual lin
    ring
  have e2 : ∑ j ∈ range X.nc, |(1 - u) * b j + u * b' j| ≤
      (1 - u) * ∑ j ∈ range X.nc, |b j| + u * ∑ j ∈ range X.nc, |b' j| := by
    rw [mul_sum, mul_sum, ← sum_add_distrib]
    refine sum_le_sum fun j _ => (abs_add_le _ _).trans (le_of_eq ?_)
    rw [abs_mul, abs_mul, abs_of_nonneg h0, abs_of_nonneg (sub_nonneg.2 h1)]
  have e3 := mul_le_mul_of_nonneg_left e2 hl
  unfold lassoRisk
  rw [e1]
  linarith

/-- The objective of any vector exceeds the minimum by at least half the squared distance of the predictions. -/
theorem lasso_gap {X : Mat K} {y : Nat → K} {lamb : K} (hl : 0 ≤ lamb) {b : Nat → K} (hb : IsLassoMin X y lamb b)
    (b' : Nat → K) :
    lassoRisk X y lamb b + 1 / 2 * ∑ r ∈ range X.nr, (lin X b r - lin X b' r) ^ 2 ≤ lassoRisk X y lamb b' := by
  set D := ∑ r ∈ range X.nr, (lin X b r - lin X b' r) ^ 2 with hD
  have hD0 : 0 ≤ D := sum_nonneg fun _ _ => sq_nonneg _
  set g := lassoRisk X y lamb b' - lassoRisk X y lamb b with hg
  have hg0 : 0 ≤ g := sub_nonneg.2 (hb b')
  by_contra hn
  have hgD : g < 1 / 2 * D := by rw [not_le] at hn; linarith
  have hDpos : 0 < D := by linarith
  set u := (1 - 2 * g / D) / 2 with hu
  have hq0 : 0 ≤ 2 * g / D := by positivity
  have hq1 : 2 * g / D < 1 := by rw [div_lt_one hDpos]; linarith
  have hqD : 2 * g / D * D = 2 * g := div_mul_cancel₀ _ hDpos.ne'
  have hu0 : 0 < u := by rw [hu]; linarith
  have hu1 : u ≤ 1 := by rw [hu]; linarith
  have h1 := lassoRisk_mix X y hl b b' hu0.le hu1
  have h2 := hb (fun j => (1 - u) * b j + u * b' j)
  have h3 : u * ((1 - u) * (1 / 2 * D)) ≤ u * g := by
    rw [hg]
    linarith
  have h4 : (1 - u) * (1 / 2 * D) ≤ g := le_of_mul_le_mul_left h3 hu0
  have h5 : u * D = (D - 2 * g) / 2 := by
    rw [hu]
    linear_combination (-1 / 2 : K) * hqD
  linarith

/-- **C108 (one answer).** All solutions of a lasso problem predict the same; with a positive regularisation they also
have the same sum of absolute coefficients; and if the columns are independent there is only one. -/
theorem C108_unique (X : Mat K) (y : Nat → K) (lamb : K) (hl : 0 ≤ lamb) (b b' : Nat → K) (hb : IsLassoMin X y lamb b)
    (hb' : IsLassoMin X y lamb b') :
    (∀ r < X.nr, lin X b r = lin X b' r) ∧
    (0 < lamb → ∑ j ∈ range X.nc, |b j| = ∑ j ∈ range X.nc, |b' j|) ∧
    (Independent X (List.range X.nc) → ∀ j < X.nc, b j = b' j) := by
  have hgap := lasso_gap hl hb b'
  have heq := le_antisymm (hb b') (hb' b)
  have h0 : ∑ r ∈ range X.nr, (lin X b r - lin X b' r) ^ 2 = 0 :=
    le_antisymm (by linarith) (sum_nonneg fun _ _ => sq_nonneg _)
  have hlin : ∀ r < X.nr, lin X b r = lin X b' r := by
    intro r hr
    have := (sum_eq_zero_iff_of_nonneg fun r _ => sq_nonneg (lin X b r - lin X b' r)).1 h0 r (mem_range.2 hr)
    exact sub_eq_zero.1 (pow_eq_zero_iff two_ne_zero |>.1 this)
  refine ⟨hlin, fun hpos => ?_, fun hi j hj => ?_⟩
  · unfold lassoRisk at heq
    have e : ∑ r ∈ range X.nr, Spec.residual X y b r ^ 2 = ∑ r ∈ range X.nr, Spec.residual X y b' r ^ 2 :=
      sum_congr rfl fun r hr => by
        have := hlin r (mem_range.1 hr)
        unfold lin at this
        unfold Spec.residual
        rw [this]
    rw [e] at heq
    exact mul_left_cancel₀ hpos.ne' (add_left_cancel heq)
  · have := hi (fun j => if j < X.nc then b j - b' j else 0) (fun i hi => by
      rw [List.mem_range] at hi
      exact if_neg hi) (fun r hr => by
      have h1 := hlin r hr
      unfold lin at h1
      rw [← sub_eq_zero, ← sum_sub_distrib] at h1
      rw [← h1]
      refine sum_congr rfl fun j hj => ?_
      rw [if_pos (mem_range.1 hj)]
      ring) j
    rw [if_pos hj] at this
    exact sub_eq_zero.1 this

/-- **C108 (scales).** The regularisation of `LassoLars` is that of `LassoCrdDesc` times the number of rows. -/
theorem C108_scale (X : Mat K) (y : Nat → K) (lamb : K) (hnr : 0 < X.nr) (b : Nat → K) :
    lassoRisk X y (X.nr * lamb) b = X.nr * lassoObjective X y lamb b := by
  have h0 : (X.nr : K) ≠ 0 := by exact_mod_cast hnr.ne'
  unfold lassoRisk lassoObjective
  field_simp

end

/-- **C108 (partial).** Let `b` solve the lasso problem of `LassoLars` for the regularisation `X.nr * lamb`.  If every
feature that `LassoCrdDesc` (without a tolerance) gives up has the coefficient that it has in `b`, then with enough
iterations the predictions of `LassoCrdDesc` are as close to those of `b` as desired, and its coefficients to those of
`b` if the columns other than the first are independent (with the constant `c`).  Missing: that no feature is given up that
`b` uses, for which it is false (`C106_refuted`). -/
theorem C108_agree_partial (X : Mat ℝ) (y : Nat → ℝ) {lamb tol : ℝ} (hl : 0 < lamb) (ht : tol ≤ 0) (hnr : 0 < X.nr)
    (hdiag : ∀ j, 1 ≤ j → j < X.nc → 0 < (empiricalCov X).get j j) (b : Nat → ℝ) (hb : IsLassoMin X y (X.nr * lamb) b)
    (hdrop : ∀ n ≥ 1, ∀ j < X.nc, |lassoResult X y lamb tol pureLasso () n j| ≤ 1 / 10 ^ 16 →
      lassoResult X y lamb tol pureLasso () n j = b j) :
    (∀ ε > 0, ∃ M, ∀ n ≥ M, ∑ r ∈ range X.nr, (lin X b r - lin X (lassoResult X y lamb tol pureLasso () n) r) ^ 2 ≤ ε) ∧
    ∀ c > 0, (∀ w : Nat → ℝ, w 0 = 0 → c * ∑ j ∈ range X.nc, w j ^ 2 ≤ ∑ r ∈ range X.nr, lin X w r ^ 2) → ∀ ε > 0, ∃ M, ∀ n ≥ M,
      ∑ j ∈ range X.nc, (b j - lassoResult X y lamb tol pureLasso () n j) ^ 2 ≤ ε := by
  obtain ⟨N, h1, h2, h3⟩ := C106_limit_partial X y hl ht hnr hdiag
  have hn0 : (0 : ℝ) < X.nr := by exact_mod_cast hnr
  have key : ∀ ε > 0, ∃ M, ∀ n ≥ M,
      ∑ r ∈ range X.nr, (lin X b r - lin X (lassoResult X y lamb tol pureLasso () n) r) ^ 2 ≤ ε := by
    intro ε hε
    obtain ⟨M, hM⟩ := h3 (ε / (2 * X.nr)) (by positivity)
    refine ⟨M, fun n hn => ?_⟩
    have hagree : ∀ j < X.nc, |lassoResult X y lamb tol pureLasso () N j| ≤ 1 / 10 ^ 16 →
        b j = lassoResult X y lamb tol pureLasso () N j := by
      intro j hj hs
      have hs' : |lassoResult X y lamb tol pureLasso () (N + 1) j| ≤ 1 / 10 ^ 16 := by
        by_contra hc
        exact absurd ((h1 (N + 1) (by omega) j).1 (not_le.1 hc)) (not_lt.2 hs)
      rw [← hdrop (N + 1) (by omega) j hj hs', h2 (N + 1) (by omega) j hs]
    have h4 := hM n hn b hagree
    have h5 := lasso_gap (by positivity) hb (lassoResult X y lamb tol pureLasso () n)
    rw [C108_scale X y lamb hnr, C108_scale X y lamb hnr] at h5
    have h6 := mul_le_mul_of_nonneg_left h4 hn0.le
    have h7 : (X.nr : ℝ) * (ε / (2 * X.nr)) = ε / 2 := by field_simp
    rw [mul_add, h7] at h6
    linarith
  refine ⟨key, fun c hc hind ε hε => ?_⟩
  obtain ⟨M, hM⟩ := key (c * ε) (by positivity)
  refine ⟨max M 1, fun n hn => ?_⟩
  have hb0 : X.nc = 0 ∨ b 0 = 0 := by
    rcases Nat.eq_zero_or_pos X.nc with h | h
    · exact .inl h
    · right
      have := hdrop 1 (by omega) 0 h (by rw [C56_first_feature, abs_zero]; positivity)
      rw [C56_first_feature] at this
      exact this.symm
  rcases hb0 with h0 | h0
  · rw [h0, sum_range_zero]; exact hε.le
  have h1 := hind (fun j => b j - lassoResult X y lamb tol pureLasso () n j) (by
    show b 0 - lassoResult X y lamb tol pureLasso () n 0 = 0
    rw [C56_first_feature, h0, sub_zero])
  have h2 := hM n (le_of_max_le_left hn)
  have h3 : ∑ r ∈ range X.nr, lin X (fun j => b j - lassoResult X y lamb tol pureLasso () n j) r ^ 2 =
      ∑ r ∈ range X.nr, (lin X b r - lin X (lassoResult X y lamb tol pureLasso () n) r) ^ 2 :=
    sum_congr rfl fun r _ => by rw [lin_sub]
  rw [h3] at h1
  exact le_of_mul_le_mul_left (h1.trans h2) hc

/-- **C108 (partial), a path of `LassoLars`.** The previous statement for the nodes of a path without degenerate iterations:
`LassoCrdDesc` has to be called with the regularisation of the node divided by the number of rows. -/
theorem C108_path_partial (X : Mat ℝ) (y : Nat → ℝ) (larsTol lambMin : ℝ) (htol : 0 < larsTol) (htol' : larsTol < 10)
    (hmin : 0 ≤ lambMin) (est : Nat → List Nat → List ℝ → Option (List ℝ × List ℝ)) (path : List (LassoLarsNode ℝ))
    (hu : Spec.UniqueMax X y) (hok : ∀ s, LarsReach X y larsTol lambMin est s → LarsStepOk X y larsTol lambMin est s)
    (h : LarsReturns X y larsTol lambMin est path) (n : LassoLarsNode ℝ) (hn : n ∈ path) (hl : 0 < n.lamb) {tol : ℝ} (ht : tol ≤ 0)
    (hnr : 0 < X.nr) (hdiag : ∀ j, 1 ≤ j → j < X.nc → 0 < (empiricalCov X).get j j)
    (hdrop : ∀ m ≥ 1, ∀ j < X.nc, |lassoResult X y (n.lamb / X.nr) tol pureLasso () m j| ≤ 1 / 10 ^ 16 →
      lassoResult X y (n.lamb / X.nr) tol pureLasso () m j = spread n.selection n.coeff j) :
    ∀ ε > 0, ∃ M, ∀ m ≥ M, ∑ r ∈ range X.nr,
      (lin X (spread n.selection n.coeff) r - lin X (lassoResult X y (n.lamb / X.nr) tol pureLasso () m) r) ^ 2 ≤ ε := by
  have hn0 : (0 : ℝ) < X.nr := by exact_mod_cast hnr
  refine (C108_agree_partial X y (by positivity) ht hnr hdiag (spread n.selection n.coeff) ?_ hdrop).1
  rw [mul_div_cancel₀ _ hn0.ne']
  exact (C83_optimal_partial X y larsTol lambMin htol htol' hmin est path hu hok h).1 n hn

section
variable {K : Type} [Field K] [LinearOrder K] [IsStrictOrderedRing K]

theorem softThreshold_div (z : K) {m a : K} (hm : 0 ≤ m) (ha : 0 < a) :
    softThreshold (z / a) (m / a) = shrink z m / a := by
  have e1 : z / a < -(m / a) ↔ z < -m := by rw [← neg_div]; exact div_lt_div_iff_of_pos_right ha
  have e2 : z / a > m / a ↔ z > m := div_lt_div_iff_of_pos_right ha
  unfold softThreshold shrink
  simp only [e1, e2]
  by_cases h1 : z < -m
  · rw [if_pos h1, if_neg (by linarith : ¬ z > m), if_pos h1, add_div]
  · by_cases h2 : z > m
    · rw [if_neg h1, if_pos h2, if_pos h2, sub_div]
    · rw [if_neg h1, if_neg h2, if_neg h2, if_neg h1, zero_div]

/-- **C108 (partial), orthogonal columns.** Here both algorithms agree exactly, whatever the tolerance and the number of
iterations, on all features but the first (the other columns must not be zero).  Missing: the first feature, which
`LassoCrdDesc` never uses. -/
theorem C108_orthogonal_partial (X : Mat K) (y : Nat → K) (larsTol lambMin : K) (htol : 0 < larsTol) (hmin : 0 ≤ lambMin)
    (hr : 0 < X.nr) (hc : 0 < X.nc) (est : Nat → List Nat → List K → Option (List K × List K))
    (ho : OrthoColumns X) (hest : SolvesNonzero X y est)
    (hsmall : ∀ i < X.nc, -larsTol ≤ colDot X y i → colDot X y i < 0 → |colDot X y i| ≤ lambMin)
    (_hdiag : ∀ j, 1 ≤ j → j < X.nc → 0 < colSq X j)
    (path : List (LassoLarsNode K)) (h : LarsReturns X y larsTol lambMin est path) (n : LassoLarsNode K) (hn : n ∈ path)
    (tol : K) (m : Nat) (j : Nat) (h1 : 1 ≤ j) (h2 : j < X.nc) :
    lassoResult X y (n.lamb / X.nr) tol pureLasso () (m + 1) j = spread n.selection n.coeff j := by
  have hn0 : (0 : K) < X.nr := by exact_mod_cast hr
  have hl : 0 ≤ n.lamb := by
    have hn' := hn
    rw [(C104_path_partial X y larsTol lambMin htol hmin hr hc est ho hest hsmall path).1 h] at hn'
    obtain ⟨P, rfl, -⟩ := mem_softPath hn'
    exact abs_nonneg _
  rw [((C104_nodes_partial X y larsTol lambMin htol hmin hr hc est ho hest hsmall path h).1 n hn).1 j h2,
    crdDesc_orthogonal X y (n.lamb / X.nr) tol ?_ m j h1 h2]
  · rw [softThreshold_div _ hl hn0]
    have e : (empiricalCov X).get j j = colSq X j / X.nr := by
      simp only [empiricalCov, colSq, sq]
      rw [one_div, inv_mul_eq_div]
    rw [e, div_div_div_cancel_right₀ hn0.ne']
    rfl
  · intro i hi j hj hij
    simp only [empiricalCov]
    rw [ho i hi j hj hij, mul_zero]

end

namespace SolverExample

/-- Three orthogonal columns with mean 0 and variance 1; the first is not correlated with the response. -/
def threeX : Mat ℚ := ⟨5, 3, fun r c =>
  if c = 0 then [1, -1, -1, 1, 0].getD r 0 else if c = 1 then [1, 1, -1, -1, 0].getD r 0 else [1, -1, 1, -1, 0].getD r 0⟩

/-- The last two columns. -/
def twoX : Mat ℚ := ⟨5, 2, fun r c => threeX.get r (c + 1)⟩

/-- The response: 4/5 of the second column and 3/5 of the third. -/
def resp (r : Nat) : ℚ := 4 / 5 * threeX.get r 1 + 3 / 5 * threeX.get r 2

theorem ortho3 : OrthoColumns threeX := by unfold OrthoColumns; decide +kernel

theorem ortho2 : OrthoColumns twoX := by unfold OrthoColumns; decide +kernel

theorem path3 : LarsReturns threeX resp lassoTol 1 (OrthoExample.orthoEst threeX resp)
    [⟨[0], 16 / 5, [1]⟩, ⟨[1 / 5, 0], 12 / 5, [1, 2]⟩] := by
  rw [C104_path_partial threeX resp lassoTol 1 (by norm_num [lassoTol]) (by norm_num) (by decide) (by decide)
    (OrthoExample.orthoEst threeX resp) ortho3 (OrthoExample.orthoEst_solves resp ortho3) (by decide +kernel)]
  decide +kernel

theorem path2 : LarsReturns twoX resp lassoTol 1 (OrthoExample.orthoEst twoX resp)
    [⟨[0], 16 / 5, [0]⟩, ⟨[1 / 5, 0], 12 / 5, [0, 1]⟩] := by
  rw [C104_path_partial twoX resp lassoTol 1 (by norm_num [lassoTol]) (by norm_num) (by decide) (by decide)
    (OrthoExample.orthoEst twoX resp) ortho2 (OrthoExample.orthoEst_solves resp ortho2) (by decide +kernel)]
  decide +kernel

/-- The hypotheses of `C108_orthogonal_partial`, with a coefficient that is not zero. -/
example (tol : ℚ) (m : Nat) : lassoResult threeX resp (12 / 5 / 5) tol pureLasso () (m + 1) 1 = 1 / 5 := by
  have := C108_orthogonal_partial threeX resp lassoTol 1 (by norm_num [lassoTol]) (by norm_num) (by decide) (by decide)
    (OrthoExample.orthoEst threeX resp) ortho3 (OrthoExample.orthoEst_solves resp ortho3) (by decide +kernel)
    (fun j h1 h2 => by
      have : j = 1 ∨ j = 2 := by change j < 3 at h2; omega
      rcases this with rfl | rfl <;> decide +kernel) _ path3
    ⟨[1 / 5, 0], 12 / 5, [1, 2]⟩ (by simp) tol m 1 (by decide) (by decide)
  exact this.trans (by decide +kernel)

/-- The hypotheses of `C108_unique`. -/
example : IsLassoMin threeX resp (12 / 5) (fun j => if j = 1 then 1 / 5 else 0) ∧
    Independent threeX (List.range threeX.nc) := by
  constructor
  · apply lasso_min_of_kkt
    decide +kernel
  · intro w hw h i
    by_cases hi : i < 3
    · have h0 := h 0 (by decide)
      have h1 := h 1 (by decide)
      have h2 := h 2 (by decide)
      have h3 := h 3 (by decide)
      simp only [threeX, Finset.sum_range_succ, Finset.sum_range_zero] at h0 h1 h2 h3
      norm_num at h0 h1 h2 h3
      have : i = 0 ∨ i = 1 ∨ i = 2 := by omega
      rcases this with rfl | rfl | rfl <;> linarith
    · exact hw i (by simpa [threeX] using hi)

/-- The hypotheses of `C108_agree_partial`: the example of `C106_solution_partial` and its solution. -/
example : let X : Mat ℝ := ⟨4, 3, fun r c => if c = 1 ∧ r = 0 ∨ c = 2 ∧ r = 2 then 1
      else if c = 1 ∧ r = 1 ∨ c = 2 ∧ r = 3 then -1 else 0⟩
    let y : Nat → ℝ := fun r => if r = 0 ∨ r = 2 then 3 else -3
    let b : Nat → ℝ := fun j => if j = 0 then 0 else 1
    (∀ j, 1 ≤ j → j < X.nc → 0 < (empiricalCov X).get j j) ∧ IsLassoMin X y (X.nr * 1) b ∧
      (∀ n ≥ 1, ∀ j < X.nc, lassoResult X y 1 0 pureLasso () n j = b j) ∧
      ∀ w : Nat → ℝ, w 0 = 0 → 2 * ∑ j ∈ range X.nc, w j ^ 2 ≤ ∑ r ∈ range X.nr, lin X w r ^ 2 := by
  intro X y b
  have hd : ∀ j, 1 ≤ j → j < X.nc → (empiricalCov X).get j j = 1 / 2 ∧ xTy X y j / X.nr = 3 / 2 := by
    intro j h1 h2
    have : j = 1 ∨ j = 2 := by simp only [X] at h2; omega
    rcases this with rfl | rfl <;> simp [empiricalCov, xTy, X, y, Finset.sum_range_succ] <;> norm_num
  refine ⟨fun j h1 h2 => by rw [(hd j h1 h2).1]; norm_num, ?_, fun n hn j hj => ?_, fun w hw => ?_⟩
  · apply lasso_min_of_kkt
    intro i hi
    have hi' : i = 0 ∨ i = 1 ∨ i = 2 := by simp only [X] at hi; omega
    rcases hi' with rfl | rfl | rfl <;>
      simp [correlation, Spec.residual, X, y, b, Finset.sum_range_succ] <;> norm_num
  · rcases Nat.eq_zero_or_pos j with rfl | h1
    · rw [C56_first_feature]; rfl
    obtain ⟨m, rfl⟩ : ∃ m, n = m + 1 := ⟨n - 1, by omega⟩
    rw [crdDesc_orthogonal X y 1 0 ?_ m j h1 hj, (hd j h1 hj).1, (hd j h1 hj).2]
    · have : b j = 1 := if_neg (by omega)
      rw [this]
      norm_num [softThreshold]
    · intro i hi j hj hij
      have hi' : i = 0 ∨ i = 1 ∨ i = 2 := by simp only [X] at hi; omega
      have hj' : j = 0 ∨ j = 1 ∨ j = 2 := by simp only [X] at hj; omega
      rcases hi' with rfl | rfl | rfl <;> rcases hj' with rfl | rfl | rfl <;>
        first
          | exact absurd rfl hij
          | simp [empiricalCov, X, Finset.sum_range_succ]
  · simp [X, lin, Finset.sum_range_succ, hw]
    nlinarith [sq_nonneg (w 1), sq_nonneg (w 2)]

end SolverExample

/-- **C108 is false.** Normalised data with orthogonal columns.  First: at the regularisation of a node of `LassoLars`
coordinate descent returns 0 for a feature that has a positive coefficient in the node.  Second: without the uncorrelated
first column there is no regularisation, tolerance or number of iterations for which it returns the coefficients of the
node. -/
theorem C108_refuted :
    (∃ (X : Mat ℚ) (y : Nat → ℚ) (est : Nat → List Nat → List ℚ → Option (List ℚ × List ℚ)) (path : List (LassoLarsNode ℚ))
      (n : LassoLarsNode ℚ), Spec.IsNormalized X y ∧ SolvesNonzero X y est ∧ LarsReturns X y lassoTol 1 est path ∧ n ∈ path ∧
      0 < spread n.selection n.coeff 1 ∧ ∀ tol m, lassoResult X y n.lamb tol pureLasso () (m + 1) 1 = 0) ∧
    ∃ (X : Mat ℚ) (y : Nat → ℚ) (est : Nat → List Nat → List ℚ → Option (List ℚ × List ℚ)) (path : List (LassoLarsNode ℚ))
      (n : LassoLarsNode ℚ), Spec.IsNormalized X y ∧ SolvesNonzero X y est ∧ LarsReturns X y lassoTol 1 est path ∧ n ∈ path ∧
      ∀ lamb tol m, lassoResult X y lamb tol pureLasso () m 0 ≠ spread n.selection n.coeff 0 := by
  refine ⟨⟨SolverExample.threeX, SolverExample.resp, OrthoExample.orthoEst SolverExample.threeX SolverExample.resp, _,
    ⟨[1 / 5, 0], 12 / 5, [1, 2]⟩, ?_, OrthoExample.orthoEst_solves _ SolverExample.ortho3, SolverExample.path3, by simp,
    by decide +kernel, fun tol m => ?_⟩,
    ⟨SolverExample.twoX, SolverExample.resp, OrthoExample.orthoEst SolverExample.twoX SolverExample.resp, _,
    ⟨[1 / 5, 0], 12 / 5, [0, 1]⟩, ?_, OrthoExample.orthoEst_solves _ SolverExample.ortho2, SolverExample.path2, by simp,
    fun lamb tol m => ?_⟩⟩
  · unfold Spec.IsNormalized; decide +kernel
  · rw [crdDesc_orthogonal SolverExample.threeX SolverExample.resp (12 / 5) tol (by decide +kernel) m 1 (by decide)
      (by decide)]
    decide +kernel
  · unfold Spec.IsNormalized; decide +kernel
  · rw [C56_first_feature]
    decide +kernel

end GoSelect
