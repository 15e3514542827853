import Verif.Props.C53_C54
import Mathlib.Topology.Instances.Real.Lemmas
import Mathlib.Order.Filter.AtTopBot.Archimedean
import Mathlib.Tactic.Positivity
import Mathlib.Tactic.FieldSimp
import Mathlib.Tactic.LinearCombination

/-!
# C75: a large elastic net weight makes coordinate descent diverge
-/

namespace GoSelect

open Finset Spec

section Step
variable {K : Type} [Field K] [LinearOrder K] [IsStrictOrderedRing K]

/-- The state of the loop with two features when the coefficient of the second one is `b`. -/
structure TwoState (X : Mat K) (b : K) (st : CDState K Unit) : Prop where
  beta : st.beta 1 = b
  old : st.betaOld 1 = b
  dot : st.covDotBeta 1 = (empiricalCov X).get 1 1 * b
  idx : st.iterIndices = [1]
  conv : st.converged = false

/-- One iteration in such a state. -/
theorem TwoState.step {X : Mat K} {y : Nat → K} {lamb tol L b b' : K} {st : CDState K Unit} (h : TwoState X b st)
    (hb' : softThreshold (xTy X y 1 / X.nr - L * b) lamb / (empiricalCov X).get 1 1 = b')
    (hz : 1 / 10 ^ 16 < |b'|) (ht : tol ≤ 1) (hch : |b'| ≤ |b' - b|) :
    TwoState X b' (cdIter (lassoProblem X y lamb tol (elasticNet L)) st).1 ∧
      (cdIter (lassoProblem X y lamb tol (elasticNet L)) st).2 = false := by
  set p := lassoProblem X y lamb tol (elasticNet L) with hp
  have hpos : 0 < |b'| := lt_trans (by positivity) hz
  have hnew : softThreshold (p.XTy 1 / p.nr - (st.covDotBeta 1 - st.betaOld 1 * p.cov.get 1 1)
      - p.corr.deriv st.corrState st.betaOld 1) p.lamb / p.cov.get 1 1 = b' := by
    rw [← hb']
    simp only [hp, lassoProblem, elasticNet, h.dot, h.old]
    congr 2
    ring
  have hsw : cdSweep p st = cdCoord p st 1 := by simp [cdSweep, h.idx]
  have s1 : (cdSweep p st).beta 1 = b' := by rw [hsw, ← hnew]; simp [cdCoord]
  have s2 : (cdSweep p st).betaOld 1 = b := by rw [hsw]; simp [cdCoord, h.old]
  have s3 : (cdSweep p st).covDotBeta 1 = (empiricalCov X).get 1 1 * b' := by
    rw [hsw]
    simp only [cdCoord, updateCovDotBeta]
    rw [hnew, h.dot, h.old]
    simp only [hp, lassoProblem]
    ring
  have s4 : (cdSweep p st).iterIndices = [1] := by rw [hsw]; simp [cdCoord, h.idx]
  have hch' : 0 < |b' - b| := lt_of_lt_of_le hpos hch
  have hconv : (decide (runMax (fun j => |(cdSweep p st).beta j|) (cdSweep p st).iterIndices ≠ 0) &&
      decide (runMax (fun j => |(cdSweep p st).beta j - (cdSweep p st).betaOld j|) (cdSweep p st).iterIndices /
        runMax (fun j => |(cdSweep p st).beta j|) (cdSweep p st).iterIndices < p.tol)) = false := by
    rw [s4]
    simp only [runMax, List.foldl_cons, List.foldl_nil, s1, s2, gt_iff_lt, hpos, hch', if_true]
    have : p.tol ≤ |b' - b| / |b'| := le_trans ht ((one_le_div hpos).2 hch)
    simp [not_lt.2 this]
  have hact : (cdSweep p st).iterIndices.filter (fun j => decide (|(cdSweep p st).beta j| > lassoCrdDescZero)) = [1] := by
    rw [s4]
    simp only [List.filter_cons, List.filter_nil, s1]
    rw [if_pos]
    simpa [lassoCrdDescZero] using hz
  unfold cdIter
  simp only [hconv]
  exact ⟨⟨s1, s1, s3, hact, rfl⟩, rfl⟩

end Step

/-- The start of the call. -/
theorem twoState_init {K : Type} [Field K] [LinearOrder K] [IsStrictOrderedRing K] {X : Mat K} (hnc : X.nc = 2) (y : Nat → K) (lamb tol L : K) :
    TwoState X 0 (cdInit (lassoProblem X y lamb tol (elasticNet L)) ()) := by
  refine ⟨rfl, rfl, ?_, ?_, rfl⟩
  · simp [cdInit, mulSlice]
  · simp [cdInit, lassoProblem, hnc]

theorem soft_above {K : Type} [Field K] [LinearOrder K] [IsStrictOrderedRing K] {x t : K} (ht : 0 ≤ t) (h : t < x) : softThreshold x t = x - t := by
  unfold softThreshold
  rw [if_neg (by linarith), if_pos h]

theorem soft_below {K : Type} [Field K] [LinearOrder K] {x t : K} (h : x < -t) : softThreshold x t = x + t := by
  unfold softThreshold
  rw [if_pos h]

theorem soft_neg {K : Type} [Field K] [LinearOrder K] [IsStrictOrderedRing K] {x t : K} (ht : 0 ≤ t) :
    softThreshold (-x) t = -softThreshold x t := by
  unfold softThreshold
  split_ifs <;> linarith

/-- The loop has not been left after `n` iterations and the coefficient is `b`. -/
def TwoLoop {K : Type} [Field K] [LinearOrder K] (X : Mat K) (y : Nat → K) (lamb tol L : K) (n : Nat) (b : K) : Prop :=
  TwoState X b (cdLoop (lassoProblem X y lamb tol (elasticNet L)) n (cdInit (lassoProblem X y lamb tol (elasticNet L)) ())).1 ∧
    (cdLoop (lassoProblem X y lamb tol (elasticNet L)) n (cdInit (lassoProblem X y lamb tol (elasticNet L)) ())).2 = false

section Loop
variable {K : Type} [Field K] [LinearOrder K] [IsStrictOrderedRing K] {X : Mat K} {y : Nat → K} {lamb tol L : K}

theorem TwoLoop.step {n : Nat} {b b' : K} (h : TwoLoop X y lamb tol L n b)
    (hb' : softThreshold (xTy X y 1 / X.nr - L * b) lamb / (empiricalCov X).get 1 1 = b')
    (hz : 1 / 10 ^ 16 < |b'|) (ht : tol ≤ 1) (hch : |b'| ≤ |b' - b|) : TwoLoop X y lamb tol L (n + 1) b' := by
  unfold TwoLoop
  rw [cdLoop_succ, if_neg (by simp [h.2])]
  exact h.1.step hb' hz ht hch

/-- The coefficient jumps from one side of zero to the other, further each time. -/
theorem two_grows {σ γ C : K} (hσ : σ = 1 ∨ σ = -1) (hγ : xTy X y 1 / X.nr = σ * γ) (hC : (empiricalCov X).get 1 1 = C)
    (hnc : X.nc = 2) (hl : 0 ≤ lamb) (ht : tol ≤ 1) (hC0 : 0 < C) (hL : 0 ≤ L) (ha : 1 / 10 ^ 16 < (γ - lamb) / C)
    (hq : 1 / 10 ^ 16 < (L * ((γ - lamb) / C) - (γ + lamb)) / C) (k : Nat) :
    ∃ p, (γ - lamb) / C + k * (L / C * ((L * ((γ - lamb) / C) - (γ + lamb)) / C)) ≤ p ∧
      TwoLoop X y lamb tol L (2 * k + 1) (σ * p) ∧
      TwoLoop X y lamb tol L (2 * k + 2) (-(σ * ((L * p - (γ + lamb)) / C))) := by
  have hσs : |σ| = 1 := by rcases hσ with rfl | rfl <;> simp
  have hsoft : ∀ x, softThreshold (σ * x) lamb = σ * softThreshold x lamb := by
    intro x
    rcases hσ with rfl | rfl
    · simp
    · rw [neg_one_mul, soft_neg hl, neg_one_mul]
  set a := (γ - lamb) / C with hadef
  set q := (L * a - (γ + lamb)) / C with hqdef
  have h16 : (0 : K) < 1 / 10 ^ 16 := by positivity
  have ha0 : 0 < a := lt_trans h16 ha
  have hq0 : 0 < q := lt_trans h16 hq
  have haC : γ - lamb = a * C := by rw [hadef]; field_simp
  have hqC : L * a - (γ + lamb) = q * C := by rw [hqdef]; field_simp
  -- from the side of the correlation to the other
  have down : ∀ n p, a ≤ p → TwoLoop X y lamb tol L n (σ * p) →
      TwoLoop X y lamb tol L (n + 1) (-(σ * ((L * p - (γ + lamb)) / C))) := by
    intro n p hp h
    have hLp : L * a ≤ L * p := mul_le_mul_of_nonneg_left hp hL
    have hbig : q ≤ (L * p - (γ + lamb)) / C := by
      rw [hqdef]; exact div_le_div_of_nonneg_right (by linarith) hC0.le
    have hpq : 0 < (L * p - (γ + lamb)) / C := lt_of_lt_of_le hq0 hbig
    refine h.step ?_ ?_ ht ?_
    · rw [hγ, hC, show σ * γ - L * (σ * p) = σ * (γ - L * p) by ring, hsoft, soft_below (by nlinarith [mul_pos hq0 hC0])]
      field_simp
      ring
    · rw [abs_neg, abs_mul, hσs, one_mul, abs_of_pos hpq]
      linarith
    · rw [show -(σ * ((L * p - (γ + lamb)) / C)) - σ * p = -(σ * ((L * p - (γ + lamb)) / C + p)) by ring, abs_neg, abs_neg,
        abs_mul, abs_mul, hσs, one_mul, one_mul, abs_of_pos hpq, abs_of_pos (by linarith)]
      linarith
  have up : ∀ n r, 0 ≤ r → TwoLoop X y lamb tol L n (-(σ * r)) → TwoLoop X y lamb tol L (n + 1) (σ * (a + L / C * r)) := by
    intro n r hr h
    have hLr : 0 ≤ L * r := mul_nonneg hL hr
    have hp0 : 0 ≤ L / C * r := mul_nonneg (div_nonneg hL hC0.le) hr
    refine h.step ?_ ?_ ht ?_
    · rw [hγ, hC, show σ * γ - L * (-(σ * r)) = σ * (γ + L * r) by ring, hsoft,
        soft_above hl (by nlinarith [mul_pos ha0 hC0]), hadef]
      field_simp
      ring
    · rw [abs_mul, hσs, one_mul, abs_of_pos (by linarith)]
      linarith
    · rw [show σ * (a + L / C * r) - -(σ * r) = σ * (a + L / C * r + r) by ring,
        abs_mul, abs_mul, hσs, one_mul, one_mul, abs_of_pos (by linarith), abs_of_pos (by linarith)]
      linarith
  induction k with
  | zero =>
    have h1 : TwoLoop X y lamb tol L 1 (σ * a) := by
      have h0 : TwoLoop X y lamb tol L 0 (-(σ * 0)) := by
        rw [mul_zero, neg_zero]
        exact ⟨twoState_init hnc y lamb tol L, rfl⟩
      have := up 0 0 le_rfl h0
      rwa [mul_zero, add_zero] at this
    exact ⟨a, by simp, h1, down _ _ le_rfl h1⟩
  | succ k ih =>
    obtain ⟨p, hp, -, h2⟩ := ih
    have hδ : 0 ≤ (k : K) * (L / C * q) := by positivity
    have hap : a ≤ p := by linarith
    have hLp : L * a ≤ L * p := mul_le_mul_of_nonneg_left hap hL
    have hbig : q ≤ (L * p - (γ + lamb)) / C := by
      rw [hqdef]; exact div_le_div_of_nonneg_right (by linarith) hC0.le
    have h3 := up _ _ (hq0.le.trans hbig) h2
    have hge : p + L / C * q ≤ a + L / C * ((L * p - (γ + lamb)) / C) := by
      -- L² p - L (γ+λ) + a C² - p C² - L (L a - (γ+λ)) = (L² - C²) (p - a)
      have e : a + L / C * ((L * p - (γ + lamb)) / C) - (p + L / C * q) = (L ^ 2 - C ^ 2) * (p - a) / C ^ 2 := by
        rw [hqdef]; field_simp; ring
      have hLC : C ≤ L := by
        have : C * a ≤ L * a := by nlinarith [mul_pos hq0 hC0]
        exact le_of_mul_le_mul_right this ha0
      have : 0 ≤ (L ^ 2 - C ^ 2) * (p - a) / C ^ 2 := by
        apply div_nonneg _ (by positivity)
        exact mul_nonneg (by nlinarith) (by linarith)
      linarith
    refine ⟨_, ?_, h3, down _ _ ?_ h3⟩
    · push_cast
      linarith
    · have : 0 ≤ L / C * q := by positivity
      linarith

end Loop

/-- C75: with a weight `Lamb` that is large compared with the variance of the only feature that may be selected, the
coefficient jumps from one side of zero to the other, further each time: it grows without bound with the number of
iterations, as does the elastic net objective, and the tolerance is never reached. -/
theorem C75_diverges (X : Mat ℝ) (y : Nat → ℝ) {lamb tol L C γ : ℝ} (hnc : X.nc = 2)
    (hC : (empiricalCov X).get 1 1 = C) (hγ : |(∑ r ∈ range X.nr, X.get r 1 * y r) / X.nr| = γ)
    (hl : 0 ≤ lamb) (ht : tol ≤ 1) (hC0 : 0 < C) (hL : 0 ≤ L) (ha : 1 / 10 ^ 16 < (γ - lamb) / C)
    (hq : 1 / 10 ^ 16 < (L * ((γ - lamb) / C) - (γ + lamb)) / C) :
    Filter.Tendsto (fun n => |lassoResult X y lamb tol (elasticNet L) () n 1|) Filter.atTop Filter.atTop ∧
      Filter.Tendsto (fun n => elasticObjective X y lamb L (lassoResult X y lamb tol (elasticNet L) () n)) Filter.atTop
        Filter.atTop ∧
      ∀ n, 1 ≤ n → lassoWarns (lassoProblem X y lamb tol (elasticNet L)) () n = true := by
  set g := (∑ r ∈ range X.nr, X.get r 1 * y r) / X.nr with hg
  obtain ⟨σ, hσ, hσg⟩ : ∃ σ : ℝ, (σ = 1 ∨ σ = -1) ∧ xTy X y 1 / X.nr = σ * γ := by
    change ∃ σ : ℝ, (σ = 1 ∨ σ = -1) ∧ g = σ * γ
    rcases le_total 0 g with h | h
    · exact ⟨1, .inl rfl, by rw [← hγ, abs_of_nonneg h, one_mul]⟩
    · exact ⟨-1, .inr rfl, by rw [← hγ, abs_of_nonpos h]; ring⟩
  have hσs : |σ| = 1 := by rcases hσ with rfl | rfl <;> simp
  have h16 : (0 : ℝ) < 1 / 10 ^ 16 := by positivity
  have ha0 := lt_trans h16 ha
  have hq0 := lt_trans h16 hq
  have hL0 : 0 < L := by
    rcases hL.lt_or_eq with h | h
    · exact h
    · exfalso
      rw [← h, zero_mul, zero_sub] at hq0
      have : γ - lamb = (γ - lamb) / C * C := by field_simp
      have : 0 < γ - lamb := this ▸ mul_pos ha0 hC0
      have : -(γ + lamb) / C ≤ 0 := div_nonpos_of_nonpos_of_nonneg (by linarith) hC0.le
      linarith
  set δ := L / C * ((L * ((γ - lamb) / C) - (γ + lamb)) / C) with hδ
  have hδ0 : 0 < δ := mul_pos (div_pos hL0 hC0) hq0
  have hLC : C ≤ L := by
    have e : L * ((γ - lamb) / C) - (γ + lamb) = (L * ((γ - lamb) / C) - (γ + lamb)) / C * C := by field_simp
    have e' : γ - lamb = (γ - lamb) / C * C := by field_simp
    have : C * ((γ - lamb) / C) ≤ L * ((γ - lamb) / C) := by nlinarith [mul_pos hq0 hC0]
    exact le_of_mul_le_mul_right this ha0
  have key : ∀ n, 1 ≤ n → ∃ b, TwoLoop X y lamb tol L n b ∧ ((n : ℝ) / 2 - 1) * δ ≤ |b| := by
    intro n hn
    obtain ⟨k, hk⟩ : ∃ k, n = 2 * k + 1 ∨ n = 2 * k + 2 := ⟨(n - 1) / 2, by omega⟩
    obtain ⟨p, hp, h1, h2⟩ := two_grows hσ hσg hC hnc hl ht hC0 hL ha hq k
    rw [← hδ] at hp
    have hkδ : 0 ≤ (k : ℝ) * δ := by positivity
    rcases hk with rfl | rfl
    · refine ⟨_, h1, ?_⟩
      rw [abs_mul, hσs, one_mul]
      refine le_trans ?_ (le_abs_self p)
      push_cast
      nlinarith
    · refine ⟨_, h2, ?_⟩
      rw [abs_neg, abs_mul, hσs, one_mul]
      refine le_trans ?_ (le_abs_self _)
      have e : (L * p - (γ + lamb)) / C =
          (L * ((γ - lamb) / C) - (γ + lamb)) / C + L / C * (p - (γ - lamb) / C) := by field_simp; ring
      have h1' : 1 ≤ L / C := (one_le_div hC0).2 hLC
      have : k * δ ≤ L / C * (p - (γ - lamb) / C) := by nlinarith
      rw [e]
      push_cast
      nlinarith
  have hlin : Filter.Tendsto (fun n : ℕ => ((n : ℝ) / 2 - 1) * δ) Filter.atTop Filter.atTop := by
    refine Filter.Tendsto.atTop_mul_const hδ0 ?_
    refine Filter.tendsto_atTop_add_const_right _ _ ?_
    exact Filter.Tendsto.atTop_div_const two_pos tendsto_natCast_atTop_atTop
  have habs : Filter.Tendsto (fun n => |lassoResult X y lamb tol (elasticNet L) () n 1|) Filter.atTop Filter.atTop := by
    refine Filter.tendsto_atTop_mono' _ ?_ hlin
    filter_upwards [Filter.eventually_ge_atTop 1] with n hn
    obtain ⟨b, hb, hle⟩ := key n hn
    rw [show lassoResult X y lamb tol (elasticNet L) () n 1 = b from hb.1.beta]
    exact hle
  refine ⟨habs, ?_, ?_⟩
  · have hsq : Filter.Tendsto (fun n => L / 2 * |lassoResult X y lamb tol (elasticNet L) () n 1| ^ 2) Filter.atTop
        Filter.atTop :=
      Filter.Tendsto.const_mul_atTop (by positivity) ((Filter.tendsto_pow_atTop two_ne_zero).comp habs)
    refine Filter.tendsto_atTop_mono (fun n => ?_) hsq
    unfold elasticObjective
    have h1 : 0 ≤ lassoObjective X y lamb (lassoResult X y lamb tol (elasticNet L) () n) := by
      unfold lassoObjective
      exact add_nonneg (mul_nonneg (by positivity) (sum_nonneg fun _ _ => sq_nonneg _))
        (mul_nonneg hl (sum_nonneg fun _ _ => abs_nonneg _))
    have h2 : |lassoResult X y lamb tol (elasticNet L) () n 1| ^ 2 ≤
        ∑ j ∈ range X.nc, lassoResult X y lamb tol (elasticNet L) () n j ^ 2 := by
      rw [sq_abs]
      exact single_le_sum (f := fun j => lassoResult X y lamb tol (elasticNet L) () n j ^ 2)
        (fun _ _ => sq_nonneg _) (mem_range.2 (by omega))
    nlinarith
  · intro n hn
    obtain ⟨b, hb, -⟩ := key n hn
    unfold lassoWarns
    rw [hb.1.conv]
    rfl

/-- Two rows, the feature `(1, -1)` and the response `(3, -3)`: the weight 3 is too large. -/
example :
    let X : Mat ℝ := ⟨2, 2, fun r c => if c = 0 then 0 else if r = 0 then 1 else -1⟩
    let y : Nat → ℝ := fun r => if r = 0 then 3 else -3
    Filter.Tendsto (fun n => |lassoResult X y 1 (1 / 1000) (elasticNet 3) () n 1|) Filter.atTop Filter.atTop := by
  intro X y
  refine (C75_diverges X y (C := 1) (γ := 3) rfl ?_ ?_ (by norm_num) (by norm_num) one_pos (by norm_num) ?_ ?_).1
  · norm_num [empiricalCov, X, sum_range_succ]
  · norm_num [X, y, sum_range_succ]
  · norm_num
  · norm_num

end GoSelect
