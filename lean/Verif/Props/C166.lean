import Verif.Props.C165

/-!
# C166: how much elastic nets change with the target values and the regularisation
-/

namespace GoSelect

open Finset Spec

section
variable {K : Type} [Field K] [LinearOrder K] [IsStrictOrderedRing K]

namespace Spec

/-- How much of the change of the target values feature `j` sees, `|x_jᵀ (y' - y)| / n`. -/
def influence (X : Mat K) (y y' : Nat → K) (j : Nat) : K :=
  |(1 / (X.nr : K)) * ∑ r ∈ range X.nr, X.get r j * (y' r - y r)|

/-- `b` has the smallest objective among the vectors that are zero for the features `F`. -/
def BestElastic (X : Mat K) (y : Nat → K) (lamb L : K) (F : Nat → Prop) (b : Nat → K) : Prop :=
  (∀ j, F j → b j = 0) ∧
    ∀ c : Nat → K, (∀ j, F j → c j = 0) → elasticObjective X y lamb L b ≤ elasticObjective X y lamb L c

end Spec

/-- Objectives of two vectors for two targets and two regularisations. -/
theorem elastic_exchange (X : Mat K) (y y' : Nat → K) (lamb lamb' L : K) (b b' : Nat → K) :
    elasticObjective X y lamb L b' - elasticObjective X y lamb L b +
      (elasticObjective X y' lamb' L b - elasticObjective X y' lamb' L b') ≤
    ∑ j ∈ range X.nc, (influence X y y' j + |lamb' - lamb|) * |b' j - b j| := by
  have hq : (1 / (2 * (X.nr : K))) * ∑ r ∈ range X.nr, residual X y b' r ^ 2 -
      (1 / (2 * (X.nr : K))) * ∑ r ∈ range X.nr, residual X y b r ^ 2 +
      ((1 / (2 * (X.nr : K))) * ∑ r ∈ range X.nr, residual X y' b r ^ 2 -
      (1 / (2 * (X.nr : K))) * ∑ r ∈ range X.nr, residual X y' b' r ^ 2) =
      ∑ j ∈ range X.nc, ((1 / (X.nr : K)) * ∑ r ∈ range X.nr, X.get r j * (y' r - y r)) * (b' j - b j) := by
    have e1 : ∑ j ∈ range X.nc, ((1 / (X.nr : K)) * ∑ r ∈ range X.nr, X.get r j * (y' r - y r)) * (b' j - b j) =
        (1 / (X.nr : K)) * ∑ r ∈ range X.nr, (y' r - y r) *
          (∑ j ∈ range X.nc, X.get r j * b' j - ∑ j ∈ range X.nc, X.get r j * b j) := by
      have e2 : ∀ r, (y' r - y r) * (∑ j ∈ range X.nc, X.get r j * b' j - ∑ j ∈ range X.nc, X.get r j * b j) =
          ∑ j ∈ range X.nc, X.get r j * (y' r - y r) * (b' j - b j) := by
        intro r
        rw [← Finset.sum_sub_distrib, Finset.mul_sum]
        exact Finset.sum_congr rfl (fun j _ => by ring)
      rw [Finset.sum_congr rfl (fun r _ => e2 r), Finset.sum_comm, Finset.mul_sum]
      refine Finset.sum_congr rfl (fun j _ => ?_)
      rw [mul_assoc, Finset.sum_mul]
    have e3 : (1 / (2 * (X.nr : K))) = (1 / (X.nr : K)) * (1 / 2) := by
      rw [div_mul_div_comm, one_mul, mul_comm (2 : K)]
    have e4 : (1 / 2 : K) * (∑ r ∈ range X.nr, residual X y b' r ^ 2 - ∑ r ∈ range X.nr, residual X y b r ^ 2 +
        (∑ r ∈ range X.nr, residual X y' b r ^ 2 - ∑ r ∈ range X.nr, residual X y' b' r ^ 2)) =
        ∑ r ∈ range X.nr, (y' r - y r) * (∑ j ∈ range X.nc, X.get r j * b' j - ∑ j ∈ range X.nc, X.get r j * b j) := by
      rw [← Finset.sum_sub_distrib, ← Finset.sum_sub_distrib, ← Finset.sum_add_distrib, Finset.mul_sum]
      refine Finset.sum_congr rfl (fun r _ => ?_)
      unfold Spec.residual
      ring
    rw [e1, e3]
    linear_combination (1 / (X.nr : K)) * e4
  have ha : lamb * ∑ j ∈ range X.nc, |b' j| - lamb * ∑ j ∈ range X.nc, |b j| +
      (lamb' * ∑ j ∈ range X.nc, |b j| - lamb' * ∑ j ∈ range X.nc, |b' j|) ≤
      ∑ j ∈ range X.nc, |lamb' - lamb| * |b' j - b j| := by
    have e : lamb * ∑ j ∈ range X.nc, |b' j| - lamb * ∑ j ∈ range X.nc, |b j| +
        (lamb' * ∑ j ∈ range X.nc, |b j| - lamb' * ∑ j ∈ range X.nc, |b' j|) =
        ∑ j ∈ range X.nc, (lamb' - lamb) * (|b j| - |b' j|) := by
      rw [← Finset.mul_sum, Finset.sum_sub_distrib]
      ring
    rw [e]
    refine Finset.sum_le_sum (fun j _ => (le_abs_self _).trans ?_)
    rw [abs_mul, abs_sub_comm (b' j)]
    exact mul_le_mul_of_nonneg_left (abs_abs_sub_abs_le _ _) (abs_nonneg _)
  have hi : ∑ j ∈ range X.nc, ((1 / (X.nr : K)) * ∑ r ∈ range X.nr, X.get r j * (y' r - y r)) * (b' j - b j) ≤
      ∑ j ∈ range X.nc, influence X y y' j * |b' j - b j| :=
    Finset.sum_le_sum (fun j _ => (le_abs_self _).trans (le_of_eq (abs_mul _ _)))
  have hsum : ∑ j ∈ range X.nc, (influence X y y' j + |lamb' - lamb|) * |b' j - b j| =
      ∑ j ∈ range X.nc, influence X y y' j * |b' j - b j| + ∑ j ∈ range X.nc, |lamb' - lamb| * |b' j - b j| := by
    rw [← Finset.sum_add_distrib]
    exact Finset.sum_congr rfl (fun j _ => by ring)
  rw [hsum]
  unfold elasticObjective lassoObjective
  linarith

/-- `L D ≤ Σ w |d|` gives `L² D ≤ Σ w²`. -/
theorem sq_sum_le_of_inner {n : Nat} {L : K} (hL : 0 < L) (d w : Nat → K)
    (h : L * ∑ j ∈ range n, d j ^ 2 ≤ ∑ j ∈ range n, w j * |d j|) :
    L ^ 2 * ∑ j ∈ range n, d j ^ 2 ≤ ∑ j ∈ range n, w j ^ 2 := by
  have h1 : 2 * (L * ∑ j ∈ range n, w j * |d j|) ≤ ∑ j ∈ range n, w j ^ 2 + L ^ 2 * ∑ j ∈ range n, d j ^ 2 := by
    rw [Finset.mul_sum, Finset.mul_sum, Finset.mul_sum, ← Finset.sum_add_distrib]
    refine Finset.sum_le_sum (fun j _ => ?_)
    rw [← sq_abs (d j)]
    nlinarith [sq_nonneg (w j - L * |d j|)]
  have h2 := mul_le_mul_of_nonneg_left h hL.le
  nlinarith

/-- The best vector is better than the others by their squared distance. -/
theorem best_elastic_gap (X : Mat K) (y : Nat → K) (lamb L : K) (hl : 0 ≤ lamb) (hL : 0 < L) (F : Nat → Prop) (b b' : Nat → K)
    (h : BestElastic X y lamb L F b) (hF : ∀ j, F j → b' j = 0) :
    elasticObjective X y lamb L b + L / 2 * ∑ j ∈ range X.nc, (b' j - b j) ^ 2 ≤ elasticObjective X y lamb L b' := by
  set D := ∑ j ∈ range X.nc, (b' j - b j) ^ 2 with hD
  have hD0 : 0 ≤ D := Finset.sum_nonneg (fun _ _ => sq_nonneg _)
  have key : ∀ t : K, 0 < t → t < 1 →
      elasticObjective X y lamb L b + L / 2 * (1 - t) * D ≤ elasticObjective X y lamb L b' := by
    intro t ht ht1
    have hmin := h.2 (fun j => (1 - t) * b j + t * b' j) (fun j hj => by rw [h.1 j hj, hF j hj]; ring)
    have hq : ∑ r ∈ range X.nr, residual X y (fun j => (1 - t) * b j + t * b' j) r ^ 2 ≤
        (1 - t) * ∑ r ∈ range X.nr, residual X y b r ^ 2 + t * ∑ r ∈ range X.nr, residual X y b' r ^ 2 := by
      rw [Finset.mul_sum, Finset.mul_sum, ← Finset.sum_add_distrib]
      refine Finset.sum_le_sum (fun r _ => ?_)
      have e : residual X y (fun j => (1 - t) * b j + t * b' j) r = (1 - t) * residual X y b r + t * residual X y b' r := by
        unfold Spec.residual
        have : ∑ j ∈ range X.nc, X.get r j * ((1 - t) * b j + t * b' j) =
            (1 - t) * ∑ j ∈ range X.nc, X.get r j * b j + t * ∑ j ∈ range X.nc, X.get r j * b' j := by
          rw [Finset.mul_sum, Finset.mul_sum, ← Finset.sum_add_distrib]
          exact Finset.sum_congr rfl (fun j _ => by ring)
        rw [this]
        ring
      rw [e]
      nlinarith [mul_nonneg (mul_nonneg ht.le (sub_nonneg.2 ht1.le)) (sq_nonneg (residual X y b r - residual X y b' r))]
    have ha : ∑ j ∈ range X.nc, |(1 - t) * b j + t * b' j| ≤
        (1 - t) * ∑ j ∈ range X.nc, |b j| + t * ∑ j ∈ range X.nc, |b' j| := by
      rw [Finset.mul_sum, Finset.mul_sum, ← Finset.sum_add_distrib]
      refine Finset.sum_le_sum (fun j _ => (abs_add_le _ _).trans (le_of_eq ?_))
      rw [abs_mul, abs_mul, abs_of_pos ht, abs_of_pos (sub_pos.2 ht1)]
    have hs : ∑ j ∈ range X.nc, ((1 - t) * b j + t * b' j) ^ 2 =
        (1 - t) * ∑ j ∈ range X.nc, b j ^ 2 + t * ∑ j ∈ range X.nc, b' j ^ 2 - t * (1 - t) * D := by
      rw [hD, Finset.mul_sum, Finset.mul_sum, Finset.mul_sum, ← Finset.sum_add_distrib, ← Finset.sum_sub_distrib]
      exact Finset.sum_congr rfl (fun j _ => by ring)
    have h1 := mul_le_mul_of_nonneg_left ha hl
    have h2 := mul_le_mul_of_nonneg_left hq (by positivity : 0 ≤ 1 / (2 * (X.nr : K)))
    have hconv : elasticObjective X y lamb L (fun j => (1 - t) * b j + t * b' j) ≤
        (1 - t) * elasticObjective X y lamb L b + t * elasticObjective X y lamb L b' - L / 2 * (t * (1 - t) * D) := by
      unfold elasticObjective lassoObjective
      rw [hs]
      nlinarith
    have h3 : t * (elasticObjective X y lamb L b + L / 2 * (1 - t) * D) ≤ t * elasticObjective X y lamb L b' := by
      nlinarith
    exact le_of_mul_le_mul_left h3 ht
  by_contra hlt
  push Not at hlt
  set G := elasticObjective X y lamb L b' - elasticObjective X y lamb L b with hG
  have hG0 : 0 ≤ G := sub_nonneg.2 (h.2 b' hF)
  have hLD : G < L / 2 * D := by linarith
  have hpos : 0 < L / 2 * D := lt_of_le_of_lt hG0 hLD
  have ht := key ((1 - G / (L / 2 * D)) / 2) (by
    have : G / (L / 2 * D) < 1 := (div_lt_one hpos).2 hLD
    linarith) (by
    have : 0 ≤ G / (L / 2 * D) := div_nonneg hG0 hpos.le
    linarith)
  have e : L / 2 * (1 - (1 - G / (L / 2 * D)) / 2) * D = (L / 2 * D + G) / 2 := by
    have : G / (L / 2 * D) * (L / 2 * D) = G := div_mul_cancel₀ _ hpos.ne'
    linear_combination (1 / 2) * this
  rw [e] at ht
  linarith

/-- **C166.** The best vectors of elastic nets of weight `L > 0` for two targets and two regularisations differ by little:
`L |b' - b|` is at most the length of the vector of influences plus the change of the regularisation. -/
theorem C166_best (X : Mat K) (y y' : Nat → K) (lamb lamb' L : K) (hl : 0 ≤ lamb) (hl' : 0 ≤ lamb') (hL : 0 < L)
    (F : Nat → Prop) (b b' : Nat → K) (h : BestElastic X y lamb L F b) (h' : BestElastic X y' lamb' L F b') :
    L ^ 2 * ∑ j ∈ range X.nc, (b' j - b j) ^ 2 ≤ ∑ j ∈ range X.nc, (influence X y y' j + |lamb' - lamb|) ^ 2 := by
  have h1 := best_elastic_gap X y lamb L hl hL F b b' h h'.1
  have h2 := best_elastic_gap X y' lamb' L hl' hL F b' b h' h.1
  have h3 := elastic_exchange X y y' lamb lamb' L b b'
  have e : ∑ j ∈ range X.nc, (b j - b' j) ^ 2 = ∑ j ∈ range X.nc, (b' j - b j) ^ 2 :=
    Finset.sum_congr rfl (fun j _ => by ring)
  rw [e] at h2
  exact sq_sum_le_of_inner hL (fun j => b' j - b j) _ (by linarith)

/-- **C166.** The same for what `LassoCrdDesc` returns when it reports convergence for both problems and the results agree on the
features that one of them does not select: the slacks of both runs are added.  `m` and `m'` are sizes of coefficients. -/
theorem C166_runs (X : Mat K) (y y' : Nat → K) (lamb lamb' tol tol' L : K) (hl : 0 ≤ lamb) (hl' : 0 ≤ lamb') (hL : 0 < L)
    (hnr : 0 < X.nr) (hdiag : ∀ j, 1 ≤ j → j < X.nc → 0 < (empiricalCov X).get j j) (n n' : Nat)
    (hconv : reportsConvergence X y lamb tol (elasticNet L) () n)
    (hconv' : reportsConvergence X y' lamb' tol' (elasticNet L) () n')
    (hs : SameUnselected X (lassoResult X y lamb tol (elasticNet L) () n) (lassoResult X y' lamb' tol' (elasticNet L) () n'))
    (hs' : SameUnselected X (lassoResult X y' lamb' tol' (elasticNet L) () n') (lassoResult X y lamb tol (elasticNet L) () n)) :
    let b := lassoResult X y lamb tol (elasticNet L) () n
    let b' := lassoResult X y' lamb' tol' (elasticNet L) () n'
    ∃ m m', (∃ k, |b k| = m) ∧ (∃ k, |b' k| = m') ∧
      L ^ 2 * ∑ j ∈ range X.nc, (b' j - b j) ^ 2 ≤
        ∑ j ∈ range X.nc, (influence X y y' j + |lamb' - lamb| + |slack X tol m L j| + |slack X tol' m' L j|) ^ 2 := by
  intro b b'
  obtain ⟨m, hm, h⟩ := elastic_selected X y lamb tol L hl hdiag n hconv
  obtain ⟨m', hm', h'⟩ := elastic_selected X y' lamb' tol' L hl' hdiag n' hconv'
  have hL' : |L| = L := abs_of_pos hL
  refine ⟨m, m', hm, hm', ?_⟩
  have h1 := elastic_near X y lamb L hL hnr b b' (slack X tol m L) (fun j hj hne => by
    obtain ⟨s, q1, q2, q3⟩ := h j (by
      by_contra h0
      exact hne (hs j hj (.inl (by omega)))) hj (by
      by_contra h0
      exact hne (hs j hj (.inr (not_lt.1 h0))))
    rw [hL'] at q3
    exact ⟨s, q1, q2, q3⟩)
  have h2 := elastic_near X y' lamb' L hL hnr b' b (slack X tol' m' L) (fun j hj hne => by
    obtain ⟨s, q1, q2, q3⟩ := h' j (by
      by_contra h0
      exact hne (hs' j hj (.inl (by omega)))) hj (by
      by_contra h0
      exact hne (hs' j hj (.inr (not_lt.1 h0))))
    rw [hL'] at q3
    exact ⟨s, q1, q2, q3⟩)
  have h3 := elastic_exchange X y y' lamb lamb' L b b'
  have e : ∑ j ∈ range X.nc, (b j - b' j) ^ 2 = ∑ j ∈ range X.nc, (b' j - b j) ^ 2 :=
    Finset.sum_congr rfl (fun j _ => by ring)
  have e2 : ∑ j ∈ range X.nc, |slack X tol' m' L j| * |b j - b' j| = ∑ j ∈ range X.nc, |slack X tol' m' L j| * |b' j - b j| :=
    Finset.sum_congr rfl (fun j _ => by rw [abs_sub_comm])
  rw [e, e2] at h2
  refine sq_sum_le_of_inner hL (fun j => b' j - b j) _ ?_
  have e3 : ∑ j ∈ range X.nc, (influence X y y' j + |lamb' - lamb| + |slack X tol m L j| + |slack X tol' m' L j|) * |b' j - b j| =
      ∑ j ∈ range X.nc, (influence X y y' j + |lamb' - lamb|) * |b' j - b j| +
      ∑ j ∈ range X.nc, |slack X tol m L j| * |b' j - b j| + ∑ j ∈ range X.nc, |slack X tol' m' L j| * |b' j - b j| := by
    rw [← Finset.sum_add_distrib, ← Finset.sum_add_distrib]
    exact Finset.sum_congr rfl (fun j _ => by ring)
  rw [e3]
  linarith

end

/-- A single feature: raising the target from 3 to 5 moves the best coefficient from 1 to 2, the bound is 2. -/
example :
    let X : Mat ℚ := ⟨1, 1, fun _ _ => 1⟩
    BestElastic X (fun _ => 3) 1 1 (fun _ => False) (fun _ => 1) ∧ BestElastic X (fun _ => 5) 1 1 (fun _ => False) (fun _ => 2) ∧
    (1 : ℚ) ^ 2 * ∑ _j ∈ range 1, ((2 : ℚ) - 1) ^ 2 ≤ ∑ j ∈ range 1, (influence X (fun _ => 3) (fun _ => 5) j + |(1 : ℚ) - 1|) ^ 2 := by
  intro X
  have h1 : BestElastic X (fun _ => 3) 1 1 (fun _ => False) (fun _ => 1) := by
    refine ⟨fun _ h => h.elim, fun c _ => ?_⟩
    simp only [elasticObjective, lassoObjective, Spec.residual, X, Finset.sum_range_succ, Finset.sum_range_zero]
    norm_num
    have := le_abs_self (c 0)
    nlinarith [sq_nonneg (c 0 - 1)]
  have h2 : BestElastic X (fun _ => 5) 1 1 (fun _ => False) (fun _ => 2) := by
    refine ⟨fun _ h => h.elim, fun c _ => ?_⟩
    simp only [elasticObjective, lassoObjective, Spec.residual, X, Finset.sum_range_succ, Finset.sum_range_zero]
    norm_num
    have := le_abs_self (c 0)
    nlinarith [sq_nonneg (c 0 - 2)]
  exact ⟨h1, h2, C166_best X _ _ 1 1 1 (by norm_num) (by norm_num) (by norm_num) _ _ _ h1 h2⟩

/-- Changed target values and a changed regularisation of the data of C154: both runs report convergence and select both features. -/
def groupY' : Nat → ℚ := fun r => groupY r + groupX.get r 1 / 2

example :
    let b := lassoResult groupX groupY 1 (1 / 10) (elasticNet (1 / 2)) () 8
    let b' := lassoResult groupX groupY' (9 / 10) (1 / 20) (elasticNet (1 / 2)) () 9
    b' 1 ≠ b 1 ∧ ∃ m m', (∃ k, |b k| = m) ∧ (∃ k, |b' k| = m') ∧
      (1 / 2) ^ 2 * ∑ j ∈ range 3, (b' j - b j) ^ 2 ≤ ∑ j ∈ range 3, (influence groupX groupY groupY' j + |(9 / 10 : ℚ) - 1| +
        |slack groupX (1 / 10) m (1 / 2) j| + |slack groupX (1 / 20) m' (1 / 2) j|) ^ 2 := by
  intro b b'
  exact ⟨by decide +kernel, C166_runs groupX groupY groupY' 1 (9 / 10) (1 / 10) (1 / 20) (1 / 2) (by norm_num) (by norm_num)
    (by norm_num) (by decide) (fun j h1 h2 => by
      have : j = 1 ∨ j = 2 := by simp only [groupX] at h2; omega
      rcases this with rfl | rfl <;> decide +kernel) 8 9
    (by unfold reportsConvergence; decide +kernel) (by unfold reportsConvergence; decide +kernel)
    (by unfold SameUnselected; decide +kernel) (by unfold SameUnselected; decide +kernel)⟩

end GoSelect
