import Verif.Props.C130
import Verif.Props.C99

/-! Residual sums of squares of right and wrong models on noisy data. -/

namespace GoSelect

open Finset Spec MeasureTheory

/-- What the model `m` leaves of the response `μ`. -/
noncomputable def leftover (svd : Mat ℝ → SVD ℝ) (X : Mat ℝ) (μ : Nat → ℝ) (m : List Bool) : ℝ :=
  sse (designOf X m) (fitCoeff (svd (designOf X m)) (designOf X m) μ) μ

theorem leftover_nonneg (svd : Mat ℝ → SVD ℝ) (X : Mat ℝ) (μ : Nat → ℝ) (m : List Bool) : 0 ≤ leftover svd X μ m := by
  unfold leftover sse
  exact sum_nonneg fun i _ => sq_nonneg _

/-- The product of the noise with the residuals of `μ`. -/
noncomputable def crossTerm (svd : Mat ℝ → SVD ℝ) (X : Mat ℝ) (μ e : Nat → ℝ) (m : List Bool) : ℝ :=
  ∑ i ∈ range X.nr, (lin (designOf X m) (fitCoeff (svd (designOf X m)) (designOf X m) μ) i - μ i) * e i

/-- What the fit of the model `m` takes up of the noise. -/
noncomputable def takenUp (svd : Mat ℝ → SVD ℝ) (X : Mat ℝ) (e : Nat → ℝ) (m : List Bool) : ℝ :=
  ∑ i ∈ range X.nr, e i * lin (designOf X m) (fitCoeff (svd (designOf X m)) (designOf X m) e) i

/-- The sum of squares of the noise. -/
def noiseSq (n : Nat) (e : Nat → ℝ) : ℝ := ∑ i ∈ range n, e i * e i

section
variable {svd : Mat ℝ → SVD ℝ} {X : Mat ℝ} {m : List Bool}

theorem takenUp_nonneg (h : ExactFit svd X m) (e : Nat → ℝ) : 0 ≤ takenUp svd X e m := by
  have h1 := orthogonal_of_isLeastSquares _ _ _ (fitCoeff_leastSquares h e)
    (fitCoeff (svd (designOf X m)) (designOf X m) e)
  have h2 : takenUp svd X e m =
      ∑ i ∈ range X.nr, lin (designOf X m) (fitCoeff (svd (designOf X m)) (designOf X m) e) i ^ 2 := by
    rw [← sub_eq_zero, ← neg_eq_zero, ← h1, takenUp, ← sum_sub_distrib, ← sum_neg_distrib]
    exact sum_congr rfl fun i _ => by ring
  rw [h2]
  exact sum_nonneg fun i _ => sq_nonneg _

variable {Ω : Type}

/-- The residual sum of squares of a model on noisy data. -/
theorem hasRss_noisy (h : ExactFit svd X m) {μ : Nat → ℝ} {e : Nat → Ω → ℝ} {ω : Ω} {r : ℝ}
    (hr : HasRss X (noisy X.nr μ e ω) m r) :
    r = leftover svd X μ m - 2 * crossTerm svd X μ (fun i => e i ω) m + noiseSq X.nr (fun i => e i ω) -
      takenUp svd X (fun i => e i ω) m := by
  obtain ⟨c, hc, rfl⟩ := hr
  have h1 : ∀ b, sse (designOf X m) b (vec (noisy X.nr μ e ω)) = sse (designOf X m) b (fun i => μ i + e i ω) :=
    fun b => sse_congr _ (fun _ _ => rfl) (fun i hi => vec_noisy _ _ _ _ hi)
  have h2 := fitCoeff_leastSquares h (fun i => μ i + e i ω)
  have h3 : sse (designOf X m) c (vec (noisy X.nr μ e ω)) = sse (designOf X m)
      (fitCoeff (svd (designOf X m)) (designOf X m) (fun i => μ i + e i ω)) (fun i => μ i + e i ω) := by
    apply le_antisymm
    · rw [← h1]; exact hc _
    · rw [h1]; exact h2 _
  rw [h3, sse_fit_split h]
  unfold leftover crossTerm noiseSq takenUp
  change _ - 2 * (∑ i ∈ range X.nr, _) + (∑ i ∈ range X.nr, _ - ∑ i ∈ range X.nr, _) = _
  ring

/-- A signal that the model can express. -/
def Spec.Expresses (X : Mat ℝ) (m : List Bool) (β : Nat → ℝ) : Prop := ∀ j < X.nc, β j ≠ 0 → HasFeature m j

theorem expresses_lin (hm : m.length = X.nc) {β : Nat → ℝ} (h : Expresses X m β) (i : Nat) :
    lin (designOf X m) (fun k => β ((features m).getD k 0)) i = lin X β i := by
  have h1 : ∀ i, lin X β i = lin X (fun j => if HasFeature m j then β j else 0) i := fun i =>
    lin_congr X (fun j hj => by
      by_cases hf : HasFeature m j
      · rw [if_pos hf]
      · rw [if_neg hf]
        by_contra hb
        exact hf (h j hj hb)) i
  rw [h1, designOf_eq, ← lin_restrict (features_nodup m) (fun j hj => hm ▸ features_lt hj)
    (fun j => if HasFeature m j then β j else 0) (fun j hj => if_neg fun h => hj ((mem_features m j).2 h)) i]
  refine lin_congr _ (fun k hk => ?_) i
  have hk' : k < (features m).length := hk
  have : HasFeature m ((features m).getD k 0) := by
    rw [← mem_features, List.getD_eq_getElem?_getD, List.getElem?_eq_getElem hk', Option.getD_some]
    exact List.getElem_mem hk'
  rw [if_pos this]

theorem expresses_rss (hm : m.length = X.nc) {β : Nat → ℝ} (h : Expresses X m β) {e : Nat → Ω → ℝ} {ω : Ω} {r : ℝ}
    (hr : HasRss X (noisy X.nr (lin X β) e ω) m r) : 0 ≤ r ∧ r ≤ noiseSq X.nr (fun i => e i ω) := by
  obtain ⟨c, hc, rfl⟩ := hr
  refine ⟨sum_nonneg fun i _ => sq_nonneg _, (hc (fun k => β ((features m).getD k 0))).trans (le_of_eq ?_)⟩
  refine sum_congr rfl fun i hi => ?_
  have hi' : i < X.nr := mem_range.1 hi
  rw [expresses_lin hm h, vec_noisy _ _ _ _ hi']
  ring

/-- A model that can express the signal leaves the noise, less what it takes up. -/
theorem expresses_rss_eq (hx : ExactFit svd X m) (hm : m.length = X.nc) {β : Nat → ℝ} (h : Expresses X m β)
    {e : Nat → Ω → ℝ} {ω : Ω} {r : ℝ} (hr : HasRss X (noisy X.nr (lin X β) e ω) m r) :
    r = noiseSq X.nr (fun i => e i ω) - takenUp svd X (fun i => e i ω) m := by
  have h0 : leftover svd X (lin X β) m = 0 := by
    refine le_antisymm ((fitCoeff_leastSquares hx (lin X β) (fun k => β ((features m).getD k 0))).trans (le_of_eq ?_))
      (leftover_nonneg svd X _ m)
    refine sum_eq_zero fun i _ => ?_
    rw [expresses_lin hm h]
    ring
  have h1 : crossTerm svd X (lin X β) (fun i => e i ω) m = 0 := by
    refine sum_eq_zero fun i hi => ?_
    unfold leftover sse at h0
    have := (sum_eq_zero_iff_of_nonneg fun i _ => sq_nonneg _).1 h0 i hi
    rw [pow_eq_zero_iff two_ne_zero |>.1 this, zero_mul]
  rw [hasRss_noisy hx hr, h0, h1]
  ring

end

/-! ### Criteria -/

/-- A penalty plus `n` times the logarithm of the residual sum of squares, `-∞` when that is 0. -/
noncomputable def critExt (pen : ℝ) (n : Nat) (r : ℝ) : EReal := if r = 0 then ⊥ else ((pen + n * Real.log r : ℝ) : EReal)

theorem critExt_lt {pen pen' : ℝ} {n : Nat} {r r' : ℝ} (hr : 0 < r) (h : 0 < r' → pen' + n * Real.log r' < pen + n * Real.log r)
    (hr' : 0 ≤ r') : critExt pen' n r' < critExt pen n r := by
  unfold critExt
  rw [if_neg hr.ne']
  by_cases h0 : r' = 0
  · rw [if_pos h0]; exact EReal.bot_lt_coe _
  · rw [if_neg h0, EReal.coe_lt_coe_iff]
    exact h (lt_of_le_of_ne hr' (Ne.symm h0))

/-- A model that lacks a feature of the signal is worse than one that can express it. -/
theorem underfit_worse {pen penT : ℝ} {n : Nat} {r rT N D h : ℝ} (hn : 0 < n) (hD : 0 < D) (hpen : 0 ≤ pen) (hT : 0 ≤ rT)
    (hTN : rT ≤ N) (hN : N ≤ n * h) (hr : N + D / 2 ≤ r) (hbig : penT < n * Real.log (1 + D / (2 * (n * h)))) :
    critExt penT n rT < critExt pen n r := by
  refine critExt_lt (by linarith) (fun h0 => ?_) hT
  have hN0 : 0 < N := h0.trans_le hTN
  have hn' : (0 : ℝ) < n := by exact_mod_cast hn
  have h1 : Real.log rT ≤ Real.log N := Real.log_le_log h0 hTN
  have h2 : Real.log (N + D / 2) ≤ Real.log r := Real.log_le_log (by linarith) hr
  have h3 : Real.log (N + D / 2) = Real.log N + Real.log (1 + D / (2 * N)) := by
    rw [← Real.log_mul hN0.ne' (by positivity)]
    congr 1
    field_simp
  have h4 : Real.log (1 + D / (2 * (n * h))) ≤ Real.log (1 + D / (2 * N)) := by
    have hnh : 0 < n * h := hN0.trans_le hN
    refine Real.log_le_log (by positivity) ?_
    have : D / (2 * (n * h)) ≤ D / (2 * N) := by
      apply div_le_div_of_nonneg_left hD.le (by positivity)
      linarith
    linarith
  have h5 : (n : ℝ) * Real.log (1 + D / (2 * (n * h))) ≤ n * (Real.log r - Real.log rT) :=
    mul_le_mul_of_nonneg_left (by linarith) hn'.le
  rw [mul_sub] at h5
  linarith

/-- A model with more features than the signal needs is worse than the right one, for the penalty `k log n`. -/
theorem overfit_worse {k kT : ℝ} {n : Nat} {r rT N Q v : ℝ} (hn : 2 ≤ n) (hv : 0 < v) (hk : kT + 1 ≤ k) (hT : 0 ≤ rT)
    (hTN : rT ≤ N) (hN : v * n ≤ N) (hr : r = N - Q) (hQ : Q < v * Real.log n / 4) :
    critExt (kT * Real.log n) n rT < critExt (k * Real.log n) n r := by
  have hn' : (2 : ℝ) ≤ n := by exact_mod_cast hn
  have hlog : 0 < Real.log n := Real.log_pos (by linarith)
  have hlog' : Real.log n ≤ n - 1 := Real.log_le_sub_one_of_pos (by linarith)
  have h1 : v * Real.log n ≤ v * n := mul_le_mul_of_nonneg_left (by linarith) hv.le
  have hr0 : 3 / 4 * (v * n) < r := by linarith
  have hvn : 0 < v * n := mul_pos hv (by linarith)
  have hrpos : 0 < r := by linarith
  refine critExt_lt hrpos (fun h0 => ?_) hT
  have h2 : Real.log rT - Real.log r ≤ rT / r - 1 := by
    rw [← Real.log_div h0.ne' hrpos.ne']
    exact Real.log_le_sub_one_of_pos (div_pos h0 hrpos)
  have h3 : n * (rT / r - 1) ≤ n * (v * Real.log n / 4) / (3 / 4 * (v * n)) := by
    have e : n * (rT / r - 1) = n * (rT - r) / r := by field_simp
    rw [e]
    refine (div_le_div_of_nonneg_right (mul_le_mul_of_nonneg_left (show rT - r ≤ v * Real.log n / 4 by linarith)
      (by linarith)) hrpos.le).trans ?_
    apply div_le_div_of_nonneg_left (by positivity) (by positivity) hr0.le
  have h4 : n * (v * Real.log n / 4) / (3 / 4 * (v * n)) = Real.log n / 3 := by
    field_simp
  have h5 : (n : ℝ) * (Real.log rT - Real.log r) ≤ n * (rT / r - 1) := mul_le_mul_of_nonneg_left h2 (by linarith)
  have h6 : (kT + 1) * Real.log n ≤ k * Real.log n := mul_le_mul_of_nonneg_right hk hlog.le
  rw [mul_sub] at h5
  linarith

/-! ### Probabilities -/

section
variable {Ω : Type} [MeasurableSpace Ω] {P : Measure Ω} [IsProbabilityMeasure P] {e : Nat → Ω → ℝ} {σ : ℝ} {n : Nat}

omit [IsProbabilityMeasure P] in
theorem markov {f : Ω → ℝ} (hf : Integrable f P) (h0 : ∀ ω, 0 ≤ f ω) {a : ℝ} (ha : 0 < a) :
    P.real {ω | a ≤ f ω} ≤ (∫ ω, f ω ∂P) / a := by
  rw [le_div_iff₀ ha, mul_comm]
  exact mul_meas_ge_le_integral_of_nonneg (Filter.Eventually.of_forall h0) hf a

omit [IsProbabilityMeasure P] in
/-- Loud noise is rare. -/
theorem loud (he : WhiteNoise P n e σ) (hn : 0 < n) {h : ℝ} (hh : 0 < h) :
    P.real {ω | n * h ≤ noiseSq n (fun i => e i ω)} ≤ σ ^ 2 / h := by
  have hi : ∀ r ∈ range n, Integrable (fun ω => e r ω * e r ω) P :=
    fun r hr => he.int2 r (mem_range.1 hr) r (mem_range.1 hr)
  have hn' : (0 : ℝ) < n := by exact_mod_cast hn
  refine (markov (integrable_finsetSum _ hi) (fun ω => sum_nonneg fun i _ => mul_self_nonneg _) (mul_pos hn' hh)).trans
    (le_of_eq ?_)
  rw [integral_finsetSum _ hi, sum_congr rfl fun r hr => he.var r (mem_range.1 hr), sum_const, card_range, nsmul_eq_mul]
  field_simp

variable {svd : Mat ℝ → SVD ℝ} {X : Mat ℝ} {m : List Bool}

omit [IsProbabilityMeasure P] in
/-- The mean of what a fit takes up of the noise. -/
theorem takenUp_mean (he : WhiteNoise P X.nr e σ) (hx : ExactFit svd X m) :
    Integrable (fun ω => takenUp svd X (fun i => e i ω) m) P ∧
      ∫ ω, takenUp svd X (fun i => e i ω) m ∂P ≤ Spec.card m * σ ^ 2 := by
  set D := designOf X m with hD
  have h : ∀ ω, takenUp svd X (fun i => e i ω) m =
      ∑ i ∈ range X.nr, ∑ s ∈ range X.nr, (∑ j ∈ range D.nc, D.get i j * fitWeight (svd D) j s) * (e i ω * e s ω) := by
    intro ω
    refine sum_congr rfl fun i _ => ?_
    simp only [lin, fitCoeff, mul_sum, sum_mul]
    rw [sum_comm]
    exact sum_congr rfl fun s _ => sum_congr rfl fun j _ => by ring
  simp only [h]
  obtain ⟨h1, h2⟩ := noise_quadratic he (fun i s => ∑ j ∈ range D.nc, D.get i j * fitWeight (svd D) j s)
  refine ⟨h1, ?_⟩
  rw [h2]
  refine mul_le_mul_of_nonneg_right ?_ (sq_nonneg _)
  have hx' : Untruncated (svd D) D := hx
  have h3 : ∀ i ∈ range X.nr, ∑ j ∈ range D.nc, D.get i j * fitWeight (svd D) j i =
      ∑ k ∈ range (svd D).p, (svd D).u i k * (svd D).u i k * ((svd D).s k * invSigma ((svd D).s k)) := by
    intro i hi
    have e1 : ∑ j ∈ range D.nc, D.get i j * fitWeight (svd D) j i = lin D (fun j => fitWeight (svd D) j i) i := rfl
    rw [e1, svd_lin hx'.1 _ (show i < D.nr from mem_range.1 hi)]
    refine sum_congr rfl fun k hk => ?_
    have e2 : ∑ j ∈ range D.nc, (svd D).v j k * fitWeight (svd D) j i = invSigma ((svd D).s k) * (svd D).u i k := by
      have := orth_expand hx'.1.vOrth (fun l => invSigma ((svd D).s l) * (svd D).u i l) (mem_range.1 hk)
      rw [← this]
      refine sum_congr rfl fun j _ => ?_
      congr 1
      exact sum_congr rfl fun l _ => by ring
    rw [e2]
    ring
  rw [sum_congr rfl h3, sum_comm]
  have h4 : ∀ k ∈ range (svd D).p, ∑ i ∈ range X.nr, (svd D).u i k * (svd D).u i k *
      ((svd D).s k * invSigma ((svd D).s k)) ≤ 1 := by
    intro k hk
    have h5 := hx'.1.uOrth k k (mem_range.1 hk) (mem_range.1 hk)
    rw [if_pos rfl] at h5
    change ∑ i ∈ range X.nr, _ = _ at h5
    rw [← sum_mul, h5, one_mul]
    have : (svd D).s k = 0 ∨ (svd D).s k * invSigma ((svd D).s k) = 1 := by
      refine invSigma_spec ?_
      rcases hx'.2 k (mem_range.1 hk) with h0 | h0
      · exact .inl h0
      · exact .inr (h0.trans_le (le_abs_self _))
    rcases this with h0 | h0
    · rw [h0, zero_mul]; exact zero_le_one
    · exact h0.le
  refine (sum_le_sum h4).trans ?_
  rw [sum_const, card_range, nsmul_eq_mul, mul_one]
  have : (svd D).p ≤ Spec.card m := by
    rw [hx'.1.size]
    exact min_le_right _ _
  exact_mod_cast this

omit [IsProbabilityMeasure P] in
/-- A fit rarely takes up much of the noise. -/
theorem takenUp_rare (he : WhiteNoise P X.nr e σ) (hx : ExactFit svd X m) {a : ℝ} (ha : 0 < a) :
    P.real {ω | a ≤ takenUp svd X (fun i => e i ω) m} ≤ Spec.card m * σ ^ 2 / a := by
  obtain ⟨h1, h2⟩ := takenUp_mean he hx
  exact (markov h1 (fun ω => takenUp_nonneg hx _) ha).trans (div_le_div_of_nonneg_right h2 ha.le)

/-- The noise is rarely correlated with what a model leaves of the signal. -/
theorem crossTerm_rare (he : WhiteNoise P X.nr e σ) (μ : Nat → ℝ) (hpos : 0 < leftover svd X μ m) :
    P.real {ω | leftover svd X μ m / 8 ≤ |crossTerm svd X μ (fun i => e i ω) m|} ≤ 64 * σ ^ 2 / leftover svd X μ m := by
  obtain ⟨h1, h2⟩ := noise_square he
    (fun i => lin (designOf X m) (fitCoeff (svd (designOf X m)) (designOf X m) μ) i - μ i)
  have h3 : {ω | leftover svd X μ m / 8 ≤ |crossTerm svd X μ (fun i => e i ω) m|} ⊆
      {ω | (leftover svd X μ m / 8) ^ 2 ≤ crossTerm svd X μ (fun i => e i ω) m ^ 2} := by
    intro ω hω
    have : leftover svd X μ m / 8 ≤ |crossTerm svd X μ (fun i => e i ω) m| := hω
    simp only [Set.mem_setOf_eq]
    rw [← sq_abs (crossTerm svd X μ (fun i => e i ω) m)]
    exact pow_le_pow_left₀ (by positivity) this 2
  refine (measureReal_mono h3 (measure_ne_top _ _)).trans ((markov h1 (fun ω => sq_nonneg _) (by positivity)).trans (le_of_eq ?_))
  rw [h2]
  have : ∑ r ∈ range X.nr, (lin (designOf X m) (fitCoeff (svd (designOf X m)) (designOf X m) μ) r - μ r) ^ 2 =
      leftover svd X μ m := rfl
  rw [this]
  field_simp
  ring

end

end GoSelect
