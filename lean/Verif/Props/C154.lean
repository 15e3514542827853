import Verif.Proofs.FeatureCopies

/-!
# C154: the covariance lasso and groups of correlated features
-/

namespace GoSelect

open Finset Spec

section
variable {K : Type} [Field K] [LinearOrder K] [IsStrictOrderedRing K]

/-- C154, what the covariance lasso is: a call of `LassoCrdDesc` with a `CLasso` of weight `eta`, in whatever
state an earlier call left it, returns what the call with an `ElasticNet` of weight `eta` returns and prints the
warning when that one does, as long as no iteration of the latter produces coefficients that are not all zero
but have a sum of squares below 1e-10. -/
theorem C154_same (p : CDProblem K Unit) (eta : K) (hp : p.corr = elasticNet eta) (s : Nat → K) (x0 : Option (List K))
    (n : Nat) (hn : ∀ k ≤ n, ∀ b x, lassoCrdDesc p () x0 k = some (b, x) → NotTiny p.nFeat b) :
    lassoCrdDesc (withCLasso p eta) s x0 n = lassoCrdDesc p () x0 n ∧
      (lassoCrdDesc p () x0 n ≠ none → lassoWarns (withCLasso p eta) s n = lassoWarns p () n) := by
  by_cases hbad : p.nFeat = 0 ∨ p.cov.nc ≠ p.nFeat ∨ p.cov.nr ≠ p.nFeat
  · have h1 : lassoCrdDesc p () x0 n = none := by unfold lassoCrdDesc; rw [if_pos hbad]
    have h2 : lassoCrdDesc (withCLasso p eta) s x0 n = none := by
      unfold lassoCrdDesc
      rw [if_pos (show (withCLasso p eta).nFeat = 0 ∨ (withCLasso p eta).cov.nc ≠ (withCLasso p eta).nFeat ∨
        (withCLasso p eta).cov.nr ≠ (withCLasso p eta).nFeat from hbad)]
    rw [h1, h2]
    exact ⟨rfl, fun h => absurd rfl h⟩
  · have hloop := sameCL_loop (p := p) hp s n (fun k hk => by
      refine hn k hk _ (x0.map (fun x => goCopy x (List.replicate p.nFeat 0))) ?_
      unfold lassoCrdDesc
      rw [if_neg hbad])
    refine ⟨?_, fun _ => ?_⟩
    · unfold lassoCrdDesc
      rw [if_neg hbad, if_neg (show ¬ ((withCLasso p eta).nFeat = 0 ∨ (withCLasso p eta).cov.nc ≠ (withCLasso p eta).nFeat ∨
        (withCLasso p eta).cov.nr ≠ (withCLasso p eta).nFeat) from hbad), hloop.1.beta]
      rfl
    · unfold lassoWarns
      rw [hloop.1.conv]

theorem withCLasso_lasso (X : Mat K) (y : Nat → K) (lamb tol eta : K) :
    withCLasso (lassoProblem X y lamb tol (elasticNet eta)) eta = lassoProblem X y lamb tol (cLasso X.nc eta) := rfl

/-- C154, what is true of groups: when the elastic net reports convergence, the coefficients of two selected
features differ by little more than their correlations with the residual do, divided by the weight. -/
theorem C154_group_partial (X : Mat K) (y : Nat → K) (lamb tol L : K) (hl : 0 ≤ lamb)
    (hdiag : ∀ j, 1 ≤ j → j < X.nc → 0 < (empiricalCov X).get j j) (n : Nat)
    (hconv : reportsConvergence X y lamb tol (elasticNet L) () n) :
    let b := lassoResult X y lamb tol (elasticNet L) () n
    ∃ m, (∃ k, |b k| = m) ∧ ∀ i j, 1 ≤ i → i < X.nc → 1 ≤ j → j < X.nc → 1 / 10 ^ 16 < |b i| → 1 / 10 ^ 16 < |b j| →
      L * |b i - b j| ≤ |gradient X y b i - gradient X y b j| +
        tol * m * (∑ k ∈ range X.nc, |(empiricalCov X).get i k| + |L|) +
        tol * m * (∑ k ∈ range X.nc, |(empiricalCov X).get j k| + |L|) ∧
      (X.nr * (gradient X y b i - gradient X y b j)) ^ 2 ≤
        (∑ r ∈ range X.nr, (X.get r i - X.get r j) ^ 2) * ∑ r ∈ range X.nr, residual X y b r ^ 2 := by
  intro b
  obtain ⟨m, hm, h⟩ := elastic_selected X y lamb tol L hl hdiag n hconv
  refine ⟨m, hm, fun i j hi1 hi2 hj1 hj2 hbi hbj => ⟨?_, gradient_close X y b i j⟩⟩
  obtain ⟨si, a1, a2, a3⟩ := h i hi1 hi2 hbi
  obtain ⟨sj, b1, b2, b3⟩ := h j hj1 hj2 hbj
  exact group_of_near a1 a2 b1 b2 a3 b3

/-- C154: the same for the covariance lasso. -/
theorem C154_group_cLasso_partial (X : Mat K) (y : Nat → K) (lamb tol eta : K) (hl : 0 ≤ lamb)
    (hdiag : ∀ j, 1 ≤ j → j < X.nc → 0 < (empiricalCov X).get j j) (s : Nat → K) (n : Nat)
    (hn : ∀ k ≤ n, NotTiny X.nc (lassoResult X y lamb tol (elasticNet eta) () k))
    (hconv : reportsConvergence X y lamb tol (cLasso X.nc eta) s n) :
    let b := lassoResult X y lamb tol (cLasso X.nc eta) s n
    ∃ m, (∃ k, |b k| = m) ∧ ∀ i j, 1 ≤ i → i < X.nc → 1 ≤ j → j < X.nc → 1 / 10 ^ 16 < |b i| → 1 / 10 ^ 16 < |b j| →
      eta * |b i - b j| ≤ |gradient X y b i - gradient X y b j| +
        tol * m * (∑ k ∈ range X.nc, |(empiricalCov X).get i k| + |eta|) +
        tol * m * (∑ k ∈ range X.nc, |(empiricalCov X).get j k| + |eta|) := by
  obtain ⟨h1, h2⟩ := sameCL_loop (p := lassoProblem X y lamb tol (elasticNet eta)) (eta := eta) rfl s n hn
  rw [withCLasso_lasso] at h1 h2
  have hb : lassoResult X y lamb tol (cLasso X.nc eta) s n = lassoResult X y lamb tol (elasticNet eta) () n := h1.beta
  have hc : reportsConvergence X y lamb tol (elasticNet eta) () n := by
    unfold reportsConvergence at hconv ⊢
    rw [← h2]
    exact hconv
  rw [hb]
  obtain ⟨m, hm, h⟩ := C154_group_partial X y lamb tol eta hl hdiag n hc
  exact ⟨m, hm, fun i j hi1 hi2 hj1 hj2 hbi hbj => (h i j hi1 hi2 hj1 hj2 hbi hbj).1⟩

/-- C154, what happens to copies: if feature `j` is a copy of an earlier feature `i`, with either sign and possibly
shrunk, and feature `i` is uncorrelated with the features in between, if any, then `LassoCrdDesc` gives it the
coefficient zero, whatever the number of iterations and the correction, as long as the correction is zero at zero. -/
theorem C154_copy {S : Type} (X : Mat K) (y : Nat → K) (lamb tol : K) (corr : LassoCorrection K S) (s : S)
    (hl : 0 ≤ lamb) (hcorr : ∀ k, corr.deriv s (fun _ => 0) k = 0) {i j : Nat} {t : K} (hi : 1 ≤ i) (hij : i < j)
    (hj : j < X.nc) (ht : Shrinks X i j t) (hc : (empiricalCov X).get i i ≠ 0)
    (hun : ∀ k, i < k → k < j → (empiricalCov X).get i k = 0) (n : Nat) :
    lassoResult X y lamb tol corr s n j = 0 := by
  set p := lassoProblem X y lamb tol corr with hp
  refine (zero_forever p s j ?_ n).1
  obtain ⟨l₁, l₂, l₃, e, hl₂⟩ := split_range X.nc i j hi hij hj
  have hinv := cdInit_inv X p rfl s
  have hidx : (cdInit p s).iterIndices = l₁ ++ i :: (l₂ ++ j :: l₃) := e
  unfold cdSweep
  rw [hidx]
  refine FirstSweep.copy hl ht hc l₁ l₂ l₃ _ (fun k hk => ?_) ?_ (fun k hk => hun k (hl₂ k hk).1 (hl₂ k hk).2)
    ⟨hinv.sweep _, fun _ => rfl, hcorr⟩
  · rw [← hidx] at hk
    exact (hinv.idx k hk).2
  · rw [← hidx]
    exact hinv.nodup

/-- C154: none of the three corrections of the package gives a copy next to its original a coefficient. -/
theorem C154_never (X : Mat K) (y : Nat → K) (lamb tol : K) (hl : 0 ≤ lamb) {i : Nat} {t : K} (hi : 1 ≤ i)
    (hj : i + 1 < X.nc) (ht : Shrinks X i (i + 1) t) (hc : (empiricalCov X).get i i ≠ 0) (n : Nat) :
    (∀ (eta : K) (s : Nat → K), lassoResult X y lamb tol (cLasso X.nc eta) s n (i + 1) = 0) ∧
    (∀ L : K, lassoResult X y lamb tol (elasticNet L) () n (i + 1) = 0) ∧
    lassoResult X y lamb tol pureLasso () n (i + 1) = 0 := by
  refine ⟨fun eta s => ?_, fun L => ?_, ?_⟩
  · refine C154_copy X y lamb tol _ s hl (fun k => ?_) hi (Nat.lt_succ_self i) hj ht hc (fun k h1 h2 => by omega) n
    simp [cLasso]
  · refine C154_copy X y lamb tol _ () hl (fun k => ?_) hi (Nat.lt_succ_self i) hj ht hc (fun k h1 h2 => by omega) n
    simp [elasticNet]
  · exact C154_copy X y lamb tol _ () hl (fun k => rfl) hi (Nat.lt_succ_self i) hj ht hc (fun k h1 h2 => by omega) n

/-- C154, what a user expects: in every minimiser of the objective of the elastic net with positive weight two
identical features have the same coefficient. -/
theorem C154_optimum (X : Mat K) (y : Nat → K) (lamb L : K) (hl : 0 ≤ lamb) (hL : 0 < L) {i j : Nat} (hi : i < X.nc)
    (hj : j < X.nc) (hcol : ∀ r < X.nr, X.get r i = X.get r j) (b : Nat → K)
    (hmin : ∀ b' : Nat → K, (∀ k, k ≠ i → k ≠ j → b' k = b k) →
      elasticObjective X y lamb L b ≤ elasticObjective X y lamb L b') : b i = b j := by
  by_contra hne
  have hij : i ≠ j := fun h => hne (by rw [h])
  set v := (b i + b j) / 2 with hv
  set b' : Nat → K := fun k => if k = i ∨ k = j then v else b k with hb'
  have hsplit : ∀ f : Nat → K, ∑ k ∈ range X.nc, f k = f i + f j + ∑ k ∈ ((range X.nc).erase i).erase j, f k := by
    intro f
    rw [← Finset.add_sum_erase _ f (mem_range.2 hi), ← Finset.add_sum_erase ((range X.nc).erase i) f
      (mem_erase.2 ⟨hij.symm, mem_range.2 hj⟩)]
    ring
  have hrest : ∀ g : Nat → K → K, ∑ k ∈ ((range X.nc).erase i).erase j, g k (b' k) =
      ∑ k ∈ ((range X.nc).erase i).erase j, g k (b k) := by
    intro g
    refine Finset.sum_congr rfl (fun k hk => ?_)
    obtain ⟨h1, h2⟩ := mem_erase.1 hk
    have h3 := (mem_erase.1 h2).1
    simp [hb', h1, h3]
  have hbi : b' i = v := by simp [hb']
  have hbj : b' j = v := by simp [hb']
  have hres : ∀ r ∈ range X.nr, residual X y b' r ^ 2 = residual X y b r ^ 2 := by
    intro r hr
    unfold Spec.residual
    rw [hsplit (fun k => X.get r k * b' k), hsplit (fun k => X.get r k * b k), hrest (fun k z => X.get r k * z), hbi, hbj,
      hcol r (mem_range.1 hr), hv]
    ring
  have habs : ∑ k ∈ range X.nc, |b' k| ≤ ∑ k ∈ range X.nc, |b k| := by
    rw [hsplit (fun k => |b' k|), hsplit (fun k => |b k|), hrest (fun _ z => |z|), hbi, hbj]
    have : |v| + |v| ≤ |b i| + |b j| := by
      have h2 : |v| + |v| = |b i + b j| := by
        rw [hv, abs_div, abs_two]
        ring
      rw [h2]
      exact abs_add_le _ _
    linarith
  have hsq : ∑ k ∈ range X.nc, b' k ^ 2 < ∑ k ∈ range X.nc, b k ^ 2 := by
    rw [hsplit (fun k => b' k ^ 2), hsplit (fun k => b k ^ 2), hrest (fun _ z => z ^ 2), hbi, hbj]
    have h0 : 0 < (b i - b j) ^ 2 := by
      have := sub_ne_zero.2 hne
      positivity
    have : v ^ 2 + v ^ 2 = (b i ^ 2 + b j ^ 2) - (b i - b j) ^ 2 / 2 := by
      rw [hv]
      ring
    linarith
  have h := hmin b' (fun k h1 h2 => by simp [hb', h1, h2])
  unfold elasticObjective lassoObjective at h
  rw [Finset.sum_congr rfl hres] at h
  have h1 := mul_le_mul_of_nonneg_left habs hl
  have h2 := mul_lt_mul_of_pos_left hsq (half_pos hL)
  linarith

end

/-- Four rows, the constant column and twice the feature `(1, -1, 1, -1)`. -/
def copyX : Mat ℚ := ⟨4, 3, fun r c => if c = 0 then 0 else if r % 2 = 0 then 1 else -1⟩

def copyY : Nat → ℚ := fun r => if r % 2 = 0 then 3 else -3

theorem copyDiag : ∀ j, 1 ≤ j → j < copyX.nc → 0 < (empiricalCov copyX).get j j := by
  intro j h1 h2
  have : j = 1 ∨ j = 2 := by simp only [copyX] at h2; omega
  rcases this with rfl | rfl <;> decide +kernel

/-- C154 is false: with two identical features the covariance lasso reports convergence with a coefficient above 1
for the first and zero for the second, although the objective of the elastic net is smaller when both have the same. -/
theorem C154_refuted :
    (∀ r < copyX.nr, copyX.get r 1 = copyX.get r 2) ∧
    reportsConvergence copyX copyY 1 (1 / 10) (cLasso 3 (1 / 2)) newCLassoBeta 5 ∧
    1 < lassoResult copyX copyY 1 (1 / 10) (cLasso 3 (1 / 2)) newCLassoBeta 5 1 ∧
    (∀ n, lassoResult copyX copyY 1 (1 / 10) (cLasso 3 (1 / 2)) newCLassoBeta n 2 = 0) ∧
    elasticObjective copyX copyY 1 (1 / 2) (fun k => if k = 0 then 0 else 4 / 5) <
      elasticObjective copyX copyY 1 (1 / 2) (lassoResult copyX copyY 1 (1 / 10) (cLasso 3 (1 / 2)) newCLassoBeta 5) := by
  refine ⟨by decide, by unfold reportsConvergence; decide +kernel, by decide +kernel, fun n => ?_, by decide +kernel⟩
  exact (C154_never copyX copyY 1 (1 / 10) (by norm_num) (i := 1) (t := 1) le_rfl (by decide)
    ⟨by norm_num, by decide +kernel⟩ (by decide +kernel) n).1 (1 / 2) newCLassoBeta

/-- One feature whose coefficient is near 1e-6. -/
def tinyY : Nat → ℚ := fun r => if r = 0 then 1 / 10 ^ 6 else -(1 / 10 ^ 6)

/-- C154, why small coefficients are excluded in `C154_same`: `CLasso` drops the correction when their sum of squares
is below 1e-10. -/
theorem C154_tiny :
    lassoResult exX tinyY 0 (1 / 10 ^ 3) (elasticNet (1 / 2)) () 2 1 = 1 / (2 * 10 ^ 6) ∧
    lassoResult exX tinyY 0 (1 / 10 ^ 3) (cLasso 2 (1 / 2)) newCLassoBeta 2 1 = 1 / 10 ^ 6 := by
  decide +kernel

/-- The hypotheses of `C154_same` hold for two iterations with the data `exX`, whose coefficients are 2 and 1. -/
example : (lassoProblem exX exY 1 (1 / 10) (elasticNet (1 / 2))).corr = elasticNet (1 / 2) ∧
    (∀ k ≤ 2, ∀ b x, lassoCrdDesc (lassoProblem exX exY 1 (1 / 10) (elasticNet (1 / 2))) () none k = some (b, x) →
      NotTiny exX.nc b) ∧
    lassoResult exX exY 1 (1 / 10) (elasticNet (1 / 2)) () 2 1 = 1 := by
  have key : ∀ b x k, lassoCrdDesc (lassoProblem exX exY 1 (1 / 10) (elasticNet (1 / 2))) () none k = some (b, x) →
      b = lassoResult exX exY 1 (1 / 10) (elasticNet (1 / 2)) () k := by
    intro b x k h
    have e := lassoResult_spec exX exY 1 (1 / 10) (elasticNet (1 / 2)) () none k (by decide)
    rw [h] at e
    simpa using e
  refine ⟨rfl, fun k hk b x h => ?_, by decide +kernel⟩
  rw [key b x k h]
  have : k = 0 ∨ k = 1 ∨ k = 2 := by omega
  rcases this with rfl | rfl | rfl
  · exact .inl (fun i _ => rfl)
  · exact .inr (by decide +kernel)
  · exact .inr (by decide +kernel)

/-- Two orthogonal contrasts and a response that depends on both. -/
def groupX : Mat ℚ := ⟨4, 3, fun r c => if c = 0 then 0 else if c = 1 then (if r % 2 = 0 then 1 else -1) else if r < 2 then 1 else -1⟩

def groupY : Nat → ℚ := fun r => 3 * groupX.get r 1 + 2 * groupX.get r 2

/-- The hypotheses of `C154_group_partial` and `C154_group_cLasso_partial` hold for these data with two selected features. -/
example : (∀ j, 1 ≤ j → j < groupX.nc → 0 < (empiricalCov groupX).get j j) ∧
    reportsConvergence groupX groupY 1 (1 / 10) (elasticNet (1 / 2)) () 8 ∧
    reportsConvergence groupX groupY 1 (1 / 10) (cLasso groupX.nc (1 / 2)) newCLassoBeta 8 ∧
    (∀ k ≤ 8, NotTiny groupX.nc (lassoResult groupX groupY 1 (1 / 10) (elasticNet (1 / 2)) () k)) ∧
    1 / 10 ^ 16 < |lassoResult groupX groupY 1 (1 / 10) (elasticNet (1 / 2)) () 8 1| ∧
    1 / 10 ^ 16 < |lassoResult groupX groupY 1 (1 / 10) (elasticNet (1 / 2)) () 8 2| := by
  refine ⟨fun j h1 h2 => ?_, by unfold reportsConvergence; decide +kernel, by unfold reportsConvergence; decide +kernel,
    fun k hk => ?_, by decide +kernel, by decide +kernel⟩
  · have : j = 1 ∨ j = 2 := by simp only [groupX] at h2; omega
    rcases this with rfl | rfl <;> decide +kernel
  · rcases Nat.eq_zero_or_pos k with rfl | hk'
    · exact .inl (fun i _ => rfl)
    · refine .inr ?_
      have : ∀ k < 9, 0 < k → (1 : ℚ) / 10 ^ 10 ≤ ∑ i ∈ range groupX.nc,
          lassoResult groupX groupY 1 (1 / 10) (elasticNet (1 / 2)) () k i *
            lassoResult groupX groupY 1 (1 / 10) (elasticNet (1 / 2)) () k i := by decide +kernel
      exact this k (by omega) hk'

/-- The third feature is the first one with the other sign, the second one is orthogonal to both: the hypotheses of
`C154_copy` hold with `i = 1` and `j = 3`. -/
example :
    let X : Mat ℚ := ⟨4, 4, fun r c => if c = 3 then -groupX.get r 1 else groupX.get r c⟩
    Shrinks X 1 3 (-1) ∧ (empiricalCov X).get 1 1 ≠ 0 ∧ (∀ k, 1 < k → k < 3 → (empiricalCov X).get 1 k = 0) ∧
    lassoResult X groupY 1 (1 / 10) (elasticNet (1 / 2)) () 1 1 = 2 ∧
    ∀ n, lassoResult X groupY 1 (1 / 10) (elasticNet (1 / 2)) () n 3 = 0 := by
  intro X
  have h1 : Shrinks X 1 3 (-1) := ⟨by norm_num, by decide +kernel⟩
  have h2 : (empiricalCov X).get 1 1 ≠ 0 := by decide +kernel
  have h3 : ∀ k, 1 < k → k < 3 → (empiricalCov X).get 1 k = 0 := by
    intro k a b
    obtain rfl : k = 2 := by omega
    decide +kernel
  refine ⟨h1, h2, h3, by decide +kernel, fun n => ?_⟩
  exact C154_copy X groupY 1 (1 / 10) (elasticNet (1 / 2)) () (by norm_num) (fun k => by simp [elasticNet]) le_rfl
    (by norm_num) (by decide) h1 h2 h3 n

/-- The minimiser for the data `copyX` meets the hypothesis of `C154_optimum` and has equal coefficients. -/
example (b' : Nat → ℚ) :
    elasticObjective copyX copyY 1 (1 / 2) (fun k => if k = 0 then 0 else 4 / 5) ≤ elasticObjective copyX copyY 1 (1 / 2) b' := by
  have e : elasticObjective copyX copyY 1 (1 / 2) (fun k => if k = 0 then 0 else 4 / 5) = 29 / 10 := by decide +kernel
  rw [e]
  simp only [elasticObjective, lassoObjective, Spec.residual, copyX, copyY, sum_range_succ, sum_range_zero]
  norm_num
  have h0 := abs_nonneg (b' 0)
  have h1 := le_abs_self (b' 1)
  have h2 := le_abs_self (b' 2)
  nlinarith [sq_nonneg (b' 0), sq_nonneg (b' 1 - 4 / 5), sq_nonneg (b' 2 - 4 / 5), sq_nonneg (b' 1 + b' 2 - 8 / 5)]

end GoSelect
