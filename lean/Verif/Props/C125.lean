import Verif.Proofs.LassoSupport
import Verif.Props.C83
import Mathlib.MeasureTheory.Integral.Bochner.Set
import Mathlib.MeasureTheory.Integral.Bochner.Basic

/-!
# C125: the lasso finds the features of a sparse signal
-/

namespace GoSelect

open Finset Spec

section
variable {K : Type} [Field K] [LinearOrder K] [IsStrictOrderedRing K] {X : Mat K} {y : Nat → K} {S : Finset Nat}
  {q μ ε lamb : K} {b β : Nat → K}

/-- C125: a solution of the lasso problem with a regularisation that is large compared with the correlations of the
noise gives no coefficient to a feature outside the signal. -/
theorem C125_support (hd : LassoDistinguishable X S q μ) (hs : SignalPlusNoise X y S b ε) (hε : 0 ≤ ε) (hl : 0 ≤ lamb)
    (hlamb : (1 + μ) * ε < lamb * (1 - (2 * S.card - 1) * μ)) (hmin : IsLassoMin X y lamb β)
    (j : Nat) (hj : j < X.nc) (hjS : j ∉ S) : β j = 0 :=
  lasso_support hd hs hlamb hl hε hmin j hj hjS

/-- C125: its coefficients are close to those of the signal. -/
theorem C125_error (hd : LassoDistinguishable X S q μ) (hs : SignalPlusNoise X y S b ε) (hε : 0 ≤ ε) (hl : 0 ≤ lamb)
    (hlamb : (1 + μ) * ε < lamb * (1 - (2 * S.card - 1) * μ)) (hmin : IsLassoMin X y lamb β)
    (i : Nat) (hi : i < X.nc) : |β i - b i| ≤ (lamb + ε) / (q * (1 - (S.card - 1) * μ)) := by
  have hp := mul_pos hd.pos (LassoDistinguishable.denom hd)
  rw [le_div_iff₀ hp, mul_comm]
  by_cases hiS : i ∈ S
  · exact lasso_error hd hs hlamb hl hε hmin i hiS
  · rw [lasso_support hd hs hlamb hl hε hmin i hi hiS, hs.zero i hiS, sub_zero, abs_zero, mul_zero]
    linarith

/-- C125: if moreover the regularisation is small compared with the coefficients of the signal, exactly its features are
used, with the right signs. -/
theorem C125_signs (hd : LassoDistinguishable X S q μ) (hs : SignalPlusNoise X y S b ε) (hε : 0 ≤ ε) (hl : 0 ≤ lamb)
    (hlamb : (1 + μ) * ε < lamb * (1 - (2 * S.card - 1) * μ)) (hmin : IsLassoMin X y lamb β)
    (hbig : ∀ i ∈ S, lamb + ε < q * (1 - (S.card - 1) * μ) * |b i|) :
    (∀ j, j < X.nc → (β j ≠ 0 ↔ j ∈ S)) ∧ ∀ i ∈ S, 0 < β i * b i := by
  have hp := mul_pos hd.pos (LassoDistinguishable.denom hd)
  have hsign : ∀ i ∈ S, 0 < β i * b i := by
    intro i hi
    have h1 := (lasso_error hd hs hlamb hl hε hmin i hi).trans_lt (hbig i hi)
    have h2 : |β i - b i| < |b i| := lt_of_mul_lt_mul_left h1 hp.le
    rcases lt_trichotomy (b i) 0 with h | h | h
    · rw [abs_of_neg h, abs_lt] at h2
      nlinarith [h2.2]
    · rw [h, abs_zero] at h2
      exact absurd h2 (not_lt.2 (abs_nonneg _))
    · rw [abs_of_pos h, abs_lt] at h2
      nlinarith [h2.1]
  refine ⟨fun j hj => ⟨fun h => ?_, fun h h0 => ?_⟩, hsign⟩
  · by_contra hjS
    exact h (lasso_support hd hs hlamb hl hε hmin j hj hjS)
  · have := hsign j h
    rw [h0, zero_mul] at this
    exact lt_irrefl _ this

/-- C125: the nodes of `LassoLars` and the points between them (no iteration being degenerate) use none but the features of
the signal as long as the regularisation is large compared with the correlations of the noise, and exactly these, with the
right signs, while it is also small compared with the coefficients of the signal. -/
theorem C125_lars (tol lambMin : K) (htol : 0 < tol) (htol' : tol < 10)
    (hmin : 0 ≤ lambMin) (est : Nat → List Nat → List K → Option (List K × List K)) (path : List (LassoLarsNode K))
    (hu : Spec.UniqueMax X y) (hok : ∀ s, LarsReach X y tol lambMin est s → LarsStepOk X y tol lambMin est s)
    (h : LarsReturns X y tol lambMin est path)
    (hd : LassoDistinguishable X S q μ) (hs : SignalPlusNoise X y S b ε) (hε : 0 ≤ ε)
    {k : Nat} {n n' : LassoLarsNode K} (hn : path[k]? = some n) (hn' : n' = n ∨ path[k + 1]? = some n') {u : K} (hu0 : 0 ≤ u)
    (hu1 : u ≤ 1) (hl : 0 ≤ (1 - u) * n.lamb + u * n'.lamb)
    (hlamb : (1 + μ) * ε < ((1 - u) * n.lamb + u * n'.lamb) * (1 - (2 * S.card - 1) * μ)) :
    let β := fun i => (1 - u) * spread n.selection n.coeff i + u * spread n'.selection n'.coeff i
    (∀ j, j < X.nc → j ∉ S → β j = 0) ∧
    ((∀ i ∈ S, (1 - u) * n.lamb + u * n'.lamb + ε < q * (1 - (S.card - 1) * μ) * |b i|) →
      (∀ j, j < X.nc → (β j ≠ 0 ↔ j ∈ S)) ∧ ∀ i ∈ S, 0 < β i * b i) := by
  intro β
  obtain ⟨h1, h2⟩ := C83_optimal_partial X y tol lambMin htol htol' hmin est path hu hok h
  have hm : IsLassoMin X y ((1 - u) * n.lamb + u * n'.lamb) β := by
    rcases hn' with rfl | hn'
    · have := h1 n' (List.mem_of_getElem? hn)
      have e1 : (1 - u) * n'.lamb + u * n'.lamb = n'.lamb := by ring
      have e2 : β = spread n'.selection n'.coeff := by funext i; simp only [β]; ring
      rw [e1, e2]
      exact this
    · exact h2 k n n' hn hn' u hu0 hu1
  exact ⟨fun j hj hjS => C125_support hd hs hε hl hlamb hm j hj hjS, fun hbig => C125_signs hd hs hε hl hlamb hm hbig⟩

end

/-- C125: if the noise in the rows is random, uncorrelated and of mean square at most `σ²`, the conditions on the noise
hold, except with probability `σ²/ε²` times the sum of the squared column lengths: then every lasso solution for every
large enough regularisation uses none but the features of the signal. -/
theorem C125_random {Ω : Type} [MeasurableSpace Ω] (P : MeasureTheory.Measure Ω) [MeasureTheory.IsProbabilityMeasure P]
    {X : Mat ℝ} {S : Finset Nat} {q μ ε σ : ℝ} {b : Nat → ℝ} (e : Nat → Ω → ℝ)
    (hint : ∀ r s, r < X.nr → s < X.nr → MeasureTheory.Integrable (fun ω => e r ω * e s ω) P)
    (hσ : ∀ r, r < X.nr → ∫ ω, e r ω * e r ω ∂P ≤ σ ^ 2)
    (huncorr : ∀ r s, r < X.nr → s < X.nr → r ≠ s → ∫ ω, e r ω * e s ω ∂P = 0)
    (hd : LassoDistinguishable X S q μ) (hb : ∀ i, i ∉ S → b i = 0) (hε : 0 < ε) :
    P.real {ω | ¬ ∀ lamb β, 0 ≤ lamb → (1 + μ) * ε < lamb * (1 - (2 * S.card - 1) * μ) →
      IsLassoMin X (fun r => lin X b r + e r ω) lamb β → ∀ j, j < X.nc → j ∉ S → β j = 0} ≤
    (∑ j ∈ range X.nc, colProd X j j) * σ ^ 2 / ε ^ 2 := by
  set c : Nat → Ω → ℝ := fun j ω => ∑ r ∈ range X.nr, X.get r j * e r ω with hc
  have hsq : ∀ j ω, c j ω ^ 2 = ∑ r ∈ range X.nr, ∑ s ∈ range X.nr, X.get r j * X.get s j * (e r ω * e s ω) := by
    intro j ω
    rw [hc, sq, Finset.sum_mul_sum]
    exact Finset.sum_congr rfl (fun r _ => Finset.sum_congr rfl (fun s _ => by ring))
  have hi1 : ∀ j, ∀ r ∈ range X.nr, ∀ s ∈ range X.nr,
      MeasureTheory.Integrable (fun ω => X.get r j * X.get s j * (e r ω * e s ω)) P :=
    fun j r hr s hs => (hint r s (mem_range.1 hr) (mem_range.1 hs)).const_mul _
  have hi2 : ∀ j, ∀ r ∈ range X.nr, MeasureTheory.Integrable
      (fun ω => ∑ s ∈ range X.nr, X.get r j * X.get s j * (e r ω * e s ω)) P :=
    fun j r hr => MeasureTheory.integrable_finsetSum _ (hi1 j r hr)
  have hi3 : ∀ j, MeasureTheory.Integrable (fun ω => c j ω ^ 2) P := by
    intro j
    simp only [hsq]
    exact MeasureTheory.integrable_finsetSum _ (hi2 j)
  have hmean : ∀ j, ∫ ω, c j ω ^ 2 ∂P ≤ colProd X j j * σ ^ 2 := by
    intro j
    simp only [hsq]
    rw [MeasureTheory.integral_finsetSum _ (hi2 j), colProd, Finset.sum_mul]
    refine Finset.sum_le_sum fun r hr => ?_
    rw [MeasureTheory.integral_finsetSum _ (hi1 j r hr), Finset.sum_eq_single r]
    · rw [MeasureTheory.integral_const_mul]
      exact mul_le_mul_of_nonneg_left (hσ r (mem_range.1 hr)) (mul_self_nonneg _)
    · intro s hs hsr
      rw [MeasureTheory.integral_const_mul, huncorr r s (mem_range.1 hr) (mem_range.1 hs) (Ne.symm hsr), mul_zero]
    · exact fun h => absurd hr h
  have hmarkov : ∀ j, P.real {ω | ε ^ 2 ≤ c j ω ^ 2} ≤ colProd X j j * σ ^ 2 / ε ^ 2 := by
    intro j
    rw [le_div_iff₀ (by positivity), mul_comm]
    exact (MeasureTheory.mul_meas_ge_le_integral_of_nonneg
      (Filter.Eventually.of_forall fun ω => sq_nonneg _) (hi3 j) (ε ^ 2)).trans (hmean j)
  have hsub : {ω | ¬ ∀ lamb β, 0 ≤ lamb → (1 + μ) * ε < lamb * (1 - (2 * S.card - 1) * μ) →
      IsLassoMin X (fun r => lin X b r + e r ω) lamb β → ∀ j, j < X.nc → j ∉ S → β j = 0} ⊆
      ⋃ j ∈ range X.nc, {ω | ε ^ 2 ≤ c j ω ^ 2} := by
    intro ω hω
    by_contra hn
    apply hω
    intro lamb β hl hlamb hmin j hj hjS
    refine C125_support hd ⟨hb, fun i hi => ?_⟩ hε.le hl hlamb hmin j hj hjS
    have h1 : ¬ ε ^ 2 ≤ c i ω ^ 2 := by
      intro h
      apply hn
      exact Set.mem_biUnion (x := i) (by simpa using hi) h
    have h2 : correlation X (fun r => lin X b r + e r ω) b i = c i ω := by
      unfold correlation
      refine Finset.sum_congr rfl (fun r _ => ?_)
      rw [residual_lin]
      ring
    rw [h2]
    exact (abs_lt_of_sq_lt_sq (not_le.1 h1) hε.le).le
  refine (MeasureTheory.measureReal_mono hsub (MeasureTheory.measure_ne_top _ _)).trans ((MeasureTheory.measureReal_biUnion_finset_le _ _).trans ?_)
  rw [Finset.sum_mul, Finset.sum_div]
  exact Finset.sum_le_sum fun j _ => hmarkov j

/-! ### Examples -/

namespace LassoSupportExample

/-- Two orthogonal columns, a third one that is close to orthogonal to them, and a response that is the first plus twice the
second column plus noise. -/
def X : Mat ℚ := ⟨3, 3, fun r c => if c = 2 then (if r = 2 then 1 else 1 / 8) else if r = c then 1 else 0⟩
def y (r : Nat) : ℚ := if r = 0 then 1 else if r = 1 then 2 else 1 / 100
def b (i : Nat) : ℚ := if i = 0 then 1 else if i = 1 then 2 else 0
def β (i : Nat) : ℚ := if i = 0 then 9 / 10 else if i = 1 then 19 / 10 else 0

theorem dist : LassoDistinguishable X {0, 1} 1 (1 / 8) := by
  refine ⟨by decide, by norm_num, by decide +kernel, by norm_num, ?_, by norm_num⟩
  intro i hi j hj hne
  have h1 : i = 0 ∨ i = 1 := by simpa using hi
  have h2 : j = 0 ∨ j = 1 ∨ j = 2 := by change j < 3 at hj; omega
  rcases h1 with rfl | rfl <;> rcases h2 with rfl | rfl | rfl <;> first | exact absurd rfl hne | decide +kernel

theorem signal : SignalPlusNoise X y {0, 1} b (1 / 100) := by
  refine ⟨?_, ?_⟩
  · intro i hi
    simp at hi
    simp [b, hi]
  · change ∀ j, j < 3 → _
    decide +kernel

theorem minimal : IsLassoMin X y (1 / 10) β := by
  apply lasso_min_of_kkt
  change ∀ j, j < 3 → _
  decide +kernel

example : (∀ j, j < 3 → (β j ≠ 0 ↔ j ∈ ({0, 1} : Finset Nat))) ∧ ∀ i ∈ ({0, 1} : Finset Nat), 0 < β i * b i := by
  refine C125_signs dist signal (by norm_num) (by norm_num) (by norm_num) minimal ?_
  decide +kernel

end LassoSupportExample

open LarsExample in
/-- The path of C83: with the noise in the first row, the path between the regularisations 1 and 2 uses the second feature
only. -/
example : ∃ path n n', LarsReturns X y lassoTol (1 / 2) (larsToyEst y) path ∧ path[0]? = some n ∧ path[1]? = some n' ∧
    ∀ u : ℚ, 1 / 2 < u → u < 1 → ∀ j, j < 2 →
      ((1 - u) * spread n.selection n.coeff j + u * spread n'.selection n'.coeff j ≠ 0 ↔ j ∈ ({1} : Finset Nat)) := by
  have hp : LarsReturns X y lassoTol (1 / 2) (larsToyEst y) [⟨[0], 3, [1]⟩, ⟨[0, -2], 1, [0, 1]⟩] := by
    refine ⟨_, rfl, runs_of_runFuel (n := 3) ?_⟩
    decide +kernel
  refine ⟨_, _, _, hp, rfl, rfl, fun u h0 h1 => ?_⟩
  have hd : LassoDistinguishable X {1} 1 0 := by
    refine ⟨by decide, one_pos, by decide +kernel, le_rfl, ?_, by norm_num⟩
    intro i hi j hj hne
    have h1 : i = 1 := by simpa using hi
    have h2 : j = 0 := by change j < 2 at hj; omega
    subst h1 h2
    decide +kernel
  have hs : SignalPlusNoise X y {1} (fun i => if i = 1 then -3 else 0) 1 := by
    refine ⟨fun i hi => ?_, ?_⟩
    · simp at hi
      simp [hi]
    · change ∀ j, j < 2 → _
      decide +kernel
  refine ((C125_lars lassoTol (1 / 2) (by norm_num [lassoTol]) (by norm_num [lassoTol])
    (by norm_num) _ _ unique ok hp hd hs zero_le_one (k := 0) rfl (.inr rfl) (by linarith) h1.le ?_ ?_).2 ?_).1
  · linarith
  · norm_num; linarith
  · intro i hi
    have : i = 1 := by simpa using hi
    subst this
    norm_num; linarith

end GoSelect
