import Verif.Proofs.RoundedFit
import Verif.Props.C111

/-!
C136: how far rounding errors can be off in predictions, residual sums of squares and criteria, and what this means for
the model that `SelectModel` reports.
-/

namespace GoSelect

open Finset Spec

/-! ### Predictions -/

/-- `PredictOne` is off by at most `(1 + u) ^ (p + 1) - 1`, relative to the sum of the absolute values of its products. -/
theorem C136_predict (rnd : ℝ → ℝ) (u : ℝ) (hu : 0 ≤ u) (h : RelativeError rnd u) (x coeff : List ℝ)
    (hl : x.length ≤ coeff.length) : ∃ p, predictOneRnd rnd x coeff = some p ∧
      |p - ∑ j ∈ range x.length, vec x j * vec coeff j| ≤
        ((1 + u) ^ (x.length + 1) - 1) * ∑ j ∈ range x.length, |vec x j * vec coeff j| := by
  refine ⟨_, by rw [predictOneRnd, if_neg (by omega)], ?_⟩
  exact dotLoop_err hu h _ _ _

/-- Inner products that are computed one term after the other meet the contract for gonum's inner products. -/
theorem C136_dot (rnd : ℝ → ℝ) (u : ℝ) (hu : 0 ≤ u) (h : RelativeError rnd u) (p : Nat) :
    DotError (fun n x c => dotLoop rnd x c n) p ((1 + u) ^ (p + 1) - 1) := fun x c => dotLoop_err hu h x c p

/-! ### Residual sums of squares -/

/-- What the prediction of row `i` adds up in absolute value. -/
noncomputable def Spec.absPred (X : Mat ℝ) (c : Nat → ℝ) (i : Nat) : ℝ := ∑ j ∈ range X.nc, |X.get i j * c j|

/-- The computed residual sum of squares against the exact one of the same coefficients. -/
theorem C136_rss (rnd : ℝ → ℝ) (u γ : ℝ) (hu : 0 ≤ u) (hu1 : u ≤ 1) (h : RelativeError rnd u) (hγ : 0 ≤ γ)
    (dot : Nat → (Nat → ℝ) → (Nat → ℝ) → ℝ) (X : Mat ℝ) (coeff y : List ℝ) (hdot : DotError dot X.nc γ)
    (hc : coeff.length = X.nc) (hy : y.length = X.nr) : ∃ R, rssRnd rnd dot X coeff y = some R ∧
      R ≤ (1 + u) ^ (X.nr + 3) *
        (Real.sqrt (sse X (vec coeff) (vec y)) + γ * Spec.len X.nr (absPred X (vec coeff))) ^ 2 ∧
      (γ * Spec.len X.nr (absPred X (vec coeff)) ≤ Real.sqrt (sse X (vec coeff) (vec y)) →
        (1 - u) ^ (X.nr + 3) *
          (Real.sqrt (sse X (vec coeff) (vec y)) - γ * Spec.len X.nr (absPred X (vec coeff))) ^ 2 ≤ R) := by
  refine ⟨_, by rw [rssRnd, if_neg (not_not.2 hc), if_neg (not_not.2 hy)], ?_⟩
  rw [hy]
  obtain ⟨h1, h2⟩ := rssLoop_err hu hu1 h (fun i => dot X.nc (X.get i) (coeff.getD · 0)) (y.getD · 0) X.nr
  set R := rssLoop rnd (fun i => dot X.nc (X.get i) (coeff.getD · 0)) (y.getD · 0) X.nr
  set f : Nat → ℝ := fun i => dot X.nc (X.get i) (coeff.getD · 0) - y.getD i 0 with hf
  set g : Nat → ℝ := fun i => lin X (vec coeff) i - vec y i with hg
  have hs : Real.sqrt (sse X (vec coeff) (vec y)) = Spec.len X.nr g := rfl
  have hQ : ∑ i ∈ range X.nr, (dot X.nc (X.get i) (coeff.getD · 0) - y.getD i 0) ^ 2 = Spec.len X.nr f ^ 2 := by
    rw [len_sq]
  have hfg : Spec.len X.nr (fun i => f i - g i) ≤ γ * Spec.len X.nr (absPred X (vec coeff)) := by
    rw [← len_mul _ hγ]
    refine len_mono fun i _ => ?_
    have : f i - g i = dot X.nc (X.get i) (coeff.getD · 0) - ∑ j ∈ range X.nc, X.get i j * vec coeff j := by
      simp only [hf, hg, lin, vec]
      ring
    rw [this]
    exact (hdot (X.get i) (vec coeff)).trans (le_abs_self _)
  have hfg' : Spec.len X.nr (fun i => g i - f i) ≤ γ * Spec.len X.nr (absPred X (vec coeff)) := by
    rw [← len_neg]
    simpa using hfg
  rw [hQ] at h1 h2
  rw [hs]
  have d1 := len_diff X.nr f g
  have d2 := len_diff X.nr g f
  constructor
  · refine h2.trans (mul_le_mul_of_nonneg_left ?_ (by positivity))
    exact pow_le_pow_left₀ (len_nonneg _ _) (by linarith) 2
  · intro hle
    refine le_trans (mul_le_mul_of_nonneg_left ?_ (pow_nonneg (by linarith) _)) h1
    exact pow_le_pow_left₀ (by linarith) (by linarith) 2

/-! ### Criteria -/

theorem err_step {u a x y B : ℝ} {rnd : ℝ → ℝ} (hu : 0 ≤ u) (h : RelativeError rnd u) (hxy : |x - y| ≤ a * B)
    (hy : |y| ≤ B) : |rnd x - y| ≤ ((1 + u) * (1 + a) - 1) * B := by
  have h1 := h x
  have h2 : |x| ≤ |x - y| + |y| := by
    calc |x| = |(x - y) + y| := by ring_nf
      _ ≤ _ := abs_add_le _ _
  have h3 : |rnd x - y| ≤ |rnd x - x| + |x - y| := by
    calc |rnd x - y| = |(rnd x - x) + (x - y)| := by ring_nf
      _ ≤ _ := abs_add_le _ _
  have h4 : u * |x| ≤ u * (a * B + B) := mul_le_mul_of_nonneg_left (by linarith) hu
  nlinarith

/-- The correction term of AICc. -/
noncomputable def Spec.correction (k n : Nat) : ℝ :=
  ((2 * k * k + 2 * k : Nat) : ℝ) / ((if n ≤ k + 1 then 1 else n - k - 1 : Nat) : ℝ)

/-- The computed AICc against the exact one, for the same residual sum of squares `L`.  `ln` is `math.Log`, off by at
most the relative error `v`; the whole numbers that occur are numbers of the format. -/
theorem C136_aicc (rnd ln : ℝ → ℝ) (u v : ℝ) (hu : 0 ≤ u) (hv : 0 ≤ v) (h : RelativeError rnd u) (k n : Nat) (hk : k < n)
    (hint : ∀ j : Nat, j ≤ 2 * n * n → rnd j = j) (L : ℝ) (hln : |ln L - Real.log L| ≤ v * |Real.log L|) :
    |aiccRnd rnd ln k n L - aicc k n L| ≤
      ((1 + u) ^ 3 * (1 + v) - 1) * (2 * k + n * |Real.log L| + correction k n) := by
  have hn1 : 1 ≤ n := by omega
  have e0 : n ≤ 2 * n * n := by nlinarith
  have e1 : rnd k = k := hint k (by omega)
  have e2 : rnd n = n := hint n e0
  have e3 : rnd (2 * k) = 2 * k := by
    have := hint (2 * k) (by nlinarith)
    push_cast at this
    exact this
  have e4 : rnd ((2 * k * k + 2 * k : Nat) : ℝ) = ((2 * k * k + 2 * k : Nat) : ℝ) := hint _ (by nlinarith)
  have e5 : (if (k : Int) ≥ (n : Int) - 1 then (1 : ℝ) else rnd (((n : Int) - k - 1 : Int) : ℝ)) =
      ((if n ≤ k + 1 then 1 else n - k - 1 : Nat) : ℝ) := by
    by_cases hkn : n ≤ k + 1
    · rw [if_pos (by omega), if_pos hkn]; norm_num
    · rw [if_neg (by omega), if_neg hkn]
      have : ((n : Int) - k - 1 : Int) = ((n - k - 1 : Nat) : Int) := by omega
      rw [this, Int.cast_natCast]
      exact hint _ (by omega)
  have hnn : (0 : ℝ) ≤ n := Nat.cast_nonneg _
  have hkk : (0 : ℝ) ≤ k := Nat.cast_nonneg _
  have hc0 : 0 ≤ correction k n := by unfold correction; positivity
  have hL := abs_nonneg (Real.log L)
  -- n * log L
  have s1 : |n * ln L - n * Real.log L| ≤ v * (n * |Real.log L|) := by
    rw [← mul_sub, abs_mul, abs_of_nonneg hnn]
    nlinarith
  have s2 := err_step hu h s1 (by rw [abs_mul, abs_of_nonneg hnn])
  -- aic
  have s3 : |(2 * k + rnd (n * ln L)) - (2 * k + n * Real.log L)| ≤
      ((1 + u) * (1 + v) - 1) * (2 * k + n * |Real.log L|) := by
    rw [add_sub_add_left_eq_sub]
    refine s2.trans (mul_le_mul_of_nonneg_left (by linarith) ?_)
    nlinarith
  have habs : |2 * k + n * Real.log L| ≤ 2 * k + n * |Real.log L| := by
    refine (abs_add_le _ _).trans ?_
    rw [abs_of_nonneg (by positivity : (0 : ℝ) ≤ 2 * k), abs_mul, abs_of_nonneg hnn]
  have s4 := err_step hu h s3 habs
  -- correction
  have s5 := h (correction k n)
  rw [abs_of_nonneg hc0] at s5
  have s6 : |(rnd (2 * k + rnd (n * ln L)) + rnd (correction k n)) - (2 * k + n * Real.log L + correction k n)| ≤
      ((1 + u) ^ 2 * (1 + v) - 1) * (2 * k + n * |Real.log L| + correction k n) := by
    have h1 : |(rnd (2 * k + rnd (n * ln L)) + rnd (correction k n)) - (2 * k + n * Real.log L + correction k n)| ≤
        |rnd (2 * k + rnd (n * ln L)) - (2 * k + n * Real.log L)| + |rnd (correction k n) - correction k n| := by
      refine le_trans (le_of_eq ?_) (abs_add_le _ _)
      ring_nf
    have h2 : u * correction k n ≤ ((1 + u) ^ 2 * (1 + v) - 1) * correction k n := by
      refine mul_le_mul_of_nonneg_right ?_ hc0
      nlinarith [mul_nonneg hu hu, mul_nonneg hu hv, mul_nonneg (mul_nonneg hu hu) hv]
    have e : (1 + u) * (1 + ((1 + u) * (1 + v) - 1)) - 1 = (1 + u) ^ 2 * (1 + v) - 1 := by ring
    rw [e] at s4
    linarith
  have s7 := err_step hu h s6 (by
    refine (abs_add_le _ _).trans ?_
    rw [abs_of_nonneg hc0]
    linarith)
  have e : (1 + u) * (1 + ((1 + u) ^ 2 * (1 + v) - 1)) - 1 = (1 + u) ^ 3 * (1 + v) - 1 := by ring
  rw [e] at s7
  have f1 : aicc k n L = 2 * k + n * Real.log L + correction k n := by
    rw [aicc_eq]
    rfl
  have f2 : aiccRnd rnd ln k n L = rnd (rnd (2 * k + rnd (n * ln L)) + rnd (correction k n)) := by
    simp only [aiccRnd, aicRnd, e1, e2, e3, e4, e5, correction]
  rw [f1, f2]
  exact s7

/-- Whatever the model, the numbers in `C136_aicc` are at most `2 n ^ 2` and the size of `n log L`. -/
theorem C136_penalty (k n : Nat) (hk : k < n) : 2 * (k : ℝ) + correction k n ≤ 2 * n ^ 2 := by
  unfold correction
  have hk' : (k : ℝ) + 1 ≤ n := by exact_mod_cast hk
  have hkk : (0 : ℝ) ≤ k := Nat.cast_nonneg _
  have h1 : ((2 * k * k + 2 * k : Nat) : ℝ) / ((if n ≤ k + 1 then 1 else n - k - 1 : Nat) : ℝ) ≤
      ((2 * k * k + 2 * k : Nat) : ℝ) := by
    refine div_le_self (Nat.cast_nonneg _) ?_
    have : 1 ≤ (if n ≤ k + 1 then 1 else n - k - 1 : Nat) := by split <;> omega
    exact_mod_cast this
  push_cast at h1 ⊢
  nlinarith

/-! ### The search -/

/-- The relative error of a computed residual sum of squares. -/
noncomputable def Spec.rssError (n : Nat) (u e θ : ℝ) : ℝ := (1 + u) ^ (n + 3) * (1 + e) ^ 2 * (1 + θ) - 1

theorem prod_pow {u : ℝ} (hu : 0 ≤ u) (hu1 : u ≤ 1) (k : Nat) (P Q : ℝ) (hPQ : Q ≤ P) (hQ : 0 ≤ Q) (h2 : 2 ≤ P + Q) :
    (1 - u) ^ k * Q ≤ (1 + u) ^ k * P ∧ 0 ≤ (1 - u) ^ k * Q ∧ 2 ≤ (1 + u) ^ k * P + (1 - u) ^ k * Q := by
  induction k with
  | zero => simpa using ⟨hPQ, hQ, h2⟩
  | succ k ih =>
    obtain ⟨h3, h4, h5⟩ := ih
    set p := (1 + u) ^ k * P
    set q := (1 - u) ^ k * Q
    have e1 : (1 + u) ^ (k + 1) * P = (1 + u) * p := by simp only [p]; ring
    have e2 : (1 - u) ^ (k + 1) * Q = (1 - u) * q := by simp only [q]; ring
    rw [e1, e2]
    refine ⟨by nlinarith, mul_nonneg (by linarith) h4, by nlinarith⟩

/-- The lower error is at most the upper one. -/
theorem rssError_lower (n : Nat) {u e θ : ℝ} (hu : 0 ≤ u) (hu1 : u ≤ 1) (he : 0 ≤ e) (he1 : e ≤ 1) (hθ : 0 ≤ θ) :
    1 - rssError n u e θ ≤ (1 - u) ^ (n + 3) * (1 - e) ^ 2 := by
  obtain ⟨a1, a2, a3⟩ := prod_pow he he1 2 1 1 (le_refl _) (by norm_num) (by norm_num)
  rw [mul_one, mul_one] at a1 a3
  rw [mul_one] at a2
  obtain ⟨b1, b2, b3⟩ := prod_pow hu hu1 (n + 3) _ _ a1 a2 a3
  unfold rssError
  have : (1 + u) ^ (n + 3) * (1 + e) ^ 2 ≤ (1 + u) ^ (n + 3) * (1 + e) ^ 2 * (1 + θ) :=
    le_mul_of_one_le_right (by positivity) (by linarith)
  linarith

/-- `SelectModel` with rounding after every operation (`rnd`, relative error `u`; `math.Log` with relative error `v`;
inner products with error `γ`).  `r m` is the least sum of squares of the model `m`.  The coefficients that `Fit`
computes have a sum of squares at most `1 + θ` times the least one, and the errors of the predictions are small compared
to the residuals (`e`); `Λ` bounds the logarithms of the computed residual sums of squares.  Then the AICc of the model
that is reported first exceeds that of every other model by at most twice
`((1 + u) ^ 3 (1 + v) - 1) (2 n ^ 2 + n Λ) + n log (1 / (1 - δ))` with `δ = (1 + u) ^ (n + 3) (1 + e) ^ 2 (1 + θ) - 1`. -/
theorem C136_search (X : Mat ℝ) (y : List ℝ) (hy : y.length = X.nr) (r : List Bool → ℝ) (fit : List Bool → List ℝ)
    (rnd ln : ℝ → ℝ) (dot : Nat → (Nat → ℝ) → (Nat → ℝ) → ℝ) (u v γ e θ Λ : ℝ) (hu : 0 ≤ u) (hu1 : u ≤ 1) (hv : 0 ≤ v)
    (hγ : 0 ≤ γ) (he : 0 ≤ e) (he1 : e ≤ 1) (hθ : 0 ≤ θ) (hδ : rssError X.nr u e θ < 1)
    (hrnd : RelativeError rnd u) (hint : ∀ j : Nat, j ≤ 2 * X.nr * X.nr → rnd j = j)
    (hln : ∀ x, 0 < x → |ln x - Real.log x| ≤ v * |Real.log x|) (hdot : ∀ p, p ≤ X.nc → DotError dot p γ)
    (hr : ∀ m, m.length = X.nc → 0 < Spec.card m → Spec.card m < X.nr → HasRss X y m (r m) ∧ 0 < r m)
    (htol : X.nr ≤ X.nc → ∀ m, m.length = X.nc → 0 < Spec.card m → Spec.card m < X.nr → rssTol ≤ r m)
    (hfit : ∀ m, m.length = X.nc → 0 < Spec.card m → Spec.card m < X.nr → (fit m).length = Spec.card m ∧
      sse (designOf X m) (vec (fit m)) (vec y) ≤ (1 + θ) * r m ∧
      γ * Spec.len X.nr (absPred (designOf X m) (vec (fit m))) ≤
        e * Real.sqrt (sse (designOf X m) (vec (fit m)) (vec y)))
    (hΛ : ∀ m, m.length = X.nc → 0 < Spec.card m → Spec.card m < X.nr →
      |Real.log (rssOfModel rnd dot fit X y m)| ≤ Λ) (hΛ' : X.nr ≤ X.nc → |Real.log rssTol| ≤ Λ)
    (husual : ∀ m, m.length = X.nc → 0 < Spec.card m → Spec.card m < X.nr →
      |aicc (Spec.card m) X.nr (r m)| + (((1 + u) ^ 3 * (1 + v) - 1) * (2 * X.nr ^ 2 + X.nr * Λ) +
        X.nr * Real.log (1 / (1 - rssError X.nr u e θ))) ≤ 10 ^ 100)
    (root : List Bool) (hroot : root = List.replicate X.nc false ∨ X.nc < X.nr) (maxQueue : Int) (cutoff : ℝ) (M : Int)
    (hM : 2 ≤ M) (s : SState ℝ)
    (h : SelectReaches (computedSearch X.nr X.nc fit (rssOfModel rnd dot fit X y) (aiccRnd rnd ln) root maxQueue cutoff)
      M [] s)
    (hd : s.main = .done) (ht : s.torn = false) (ho : s.overflows = 0)
    (m : List Bool) (hlen : m.length = X.nc) (hpos : 0 < Spec.card m) (hrows : Spec.card m < X.nr) (hmr : m ≠ root) :
    ∃ n rest, s.hs.items = n :: rest ∧ n.model.length = X.nc ∧ 0 < Spec.card n.model ∧ Spec.card n.model < X.nr ∧
      n.coeff = fit n.model ∧
      aicc (Spec.card n.model) X.nr (r n.model) ≤ aicc (Spec.card m) X.nr (r m) +
        2 * (((1 + u) ^ 3 * (1 + v) - 1) * (2 * X.nr ^ 2 + X.nr * Λ) +
          X.nr * Real.log (1 / (1 - rssError X.nr u e θ))) := by
  set δ := rssError X.nr u e θ with hδd
  have hδ0 : 0 ≤ δ := by
    rw [hδd]
    unfold rssError
    have h1 : 1 ≤ (1 + u) ^ (X.nr + 3) := one_le_pow₀ (by linarith)
    have h2 : 1 ≤ (1 + e) ^ 2 := one_le_pow₀ (by linarith)
    have h3 : 1 ≤ (1 + u) ^ (X.nr + 3) * (1 + e) ^ 2 := one_le_mul_of_one_le_of_one_le h1 h2
    have := one_le_mul_of_one_le_of_one_le h3 (by linarith : 1 ≤ 1 + θ)
    linarith
  have hnn : (0 : ℝ) ≤ X.nr := Nat.cast_nonneg _
  have hcr0 : 0 ≤ (1 + u) ^ 3 * (1 + v) - 1 := by
    have h1 : 1 ≤ (1 + u) ^ 3 := one_le_pow₀ (by linarith)
    have := one_le_mul_of_one_le_of_one_le h1 (by linarith : 1 ≤ 1 + v)
    linarith
  have hrss : ∀ m, m.length = X.nc → 0 < Spec.card m → Spec.card m < X.nr →
      |rssOfModel rnd dot fit X y m - r m| ≤ δ * r m := by
    intro m h1 h2 h3
    obtain ⟨⟨c, hls, hrc⟩, hr0⟩ := hr m h1 h2 h3
    obtain ⟨f1, f2, f3⟩ := hfit m h1 h2 h3
    have hcard : Spec.card m ≤ X.nc := by
      have : Spec.card m ≤ m.length := by rw [card_eq_count]; exact List.count_le_length
      omega
    obtain ⟨R, g1, g2, g3⟩ := C136_rss rnd u γ hu hu1 hrnd hγ dot (designOf X m) (fit m) y (hdot _ hcard) f1 hy
    have hval : rssOfModel rnd dot fit X y m = R := by
      unfold rssOfModel
      rw [getDesignMatrix_some h2 h1.le]
      show (rssRnd rnd dot (designOf X m) (fit m) y).getD 0 = R
      rw [g1]
      rfl
    rw [hval]
    set R0 := sse (designOf X m) (vec (fit m)) (vec y) with hR0
    have hmin : r m ≤ R0 := by rw [hrc]; exact hls _
    have hR00 : 0 ≤ R0 := hr0.le.trans hmin
    have hsq : Real.sqrt R0 ^ 2 = R0 := Real.sq_sqrt hR00
    have hs0 := Real.sqrt_nonneg R0
    set a := γ * Spec.len X.nr (absPred (designOf X m) (vec (fit m)))
    have ha0 : 0 ≤ a := mul_nonneg hγ (len_nonneg _ _)
    have hnr : (designOf X m).nr = X.nr := rfl
    rw [hnr] at g2 g3
    have hale : a ≤ Real.sqrt R0 := f3.trans (by nlinarith)
    have g3 := g3 hale
    have up : R ≤ (1 + δ) * r m := by
      calc R ≤ (1 + u) ^ (X.nr + 3) * (Real.sqrt R0 + a) ^ 2 := g2
        _ ≤ (1 + u) ^ (X.nr + 3) * ((1 + e) * Real.sqrt R0) ^ 2 := by
          refine mul_le_mul_of_nonneg_left (pow_le_pow_left₀ (by linarith) (by linarith) 2) (by positivity)
        _ = (1 + u) ^ (X.nr + 3) * (1 + e) ^ 2 * R0 := by rw [mul_pow, hsq]; ring
        _ ≤ (1 + u) ^ (X.nr + 3) * (1 + e) ^ 2 * ((1 + θ) * r m) := mul_le_mul_of_nonneg_left f2 (by positivity)
        _ = (1 + δ) * r m := by rw [hδd]; unfold rssError; ring
    have lo : (1 - δ) * r m ≤ R := by
      have hlow := rssError_lower X.nr hu hu1 he he1 hθ
      have hp0 : 0 ≤ (1 - u) ^ (X.nr + 3) * (1 - e) ^ 2 := mul_nonneg (pow_nonneg (by linarith) _) (sq_nonneg _)
      calc (1 - δ) * r m ≤ (1 - u) ^ (X.nr + 3) * (1 - e) ^ 2 * r m := mul_le_mul_of_nonneg_right hlow hr0.le
        _ ≤ (1 - u) ^ (X.nr + 3) * (1 - e) ^ 2 * R0 := mul_le_mul_of_nonneg_left hmin hp0
        _ = (1 - u) ^ (X.nr + 3) * ((1 - e) * Real.sqrt R0) ^ 2 := by rw [mul_pow, hsq]; ring
        _ ≤ (1 - u) ^ (X.nr + 3) * (Real.sqrt R0 - a) ^ 2 := by
          refine mul_le_mul_of_nonneg_left (pow_le_pow_left₀ (mul_nonneg (by linarith) hs0) (by linarith) 2)
            (pow_nonneg (by linarith) _)
        _ ≤ R := g3
    rw [abs_le]
    constructor <;> linarith
  have hpos' : ∀ m, m.length = X.nc → 0 < Spec.card m → Spec.card m < X.nr → 0 < rssOfModel rnd dot fit X y m := by
    intro m h1 h2 h3
    have := abs_le.1 (hrss m h1 h2 h3)
    have hr0 := (hr m h1 h2 h3).2
    nlinarith [this.1]
  have hcr : ∀ k L, k < X.nr → 0 < L → |Real.log L| ≤ Λ →
      |aiccRnd rnd ln k X.nr L - aicc k X.nr L| ≤ ((1 + u) ^ 3 * (1 + v) - 1) * (2 * X.nr ^ 2 + X.nr * Λ) := by
    intro k L hk hL hL'
    refine (C136_aicc rnd ln u v hu hv hrnd k X.nr hk hint L (hln L hL)).trans (mul_le_mul_of_nonneg_left ?_ hcr0)
    have h1 := C136_penalty k X.nr hk
    have h2 : (X.nr : ℝ) * |Real.log L| ≤ X.nr * Λ := mul_le_mul_of_nonneg_left hL' hnn
    linarith
  exact C111_rounding X y r fit _ _ δ _ hδ0 hδ hr htol hrss
    (fun m h1 h2 h3 k hk => hcr k _ hk (hpos' m h1 h2 h3) (hΛ m h1 h2 h3))
    (fun hnc k hk => hcr k _ hk rssTol_pos (hΛ' hnc)) husual root hroot maxQueue cutoff M hM s h hd ht ho m hlen hpos
    hrows hmr

/-- The size of this bound: for up to 1000 rows, double precision, prediction errors of at most 1e-9 of the residuals,
fits within 1e-9 of the optimum, and logarithms up to 700, it is less than 1e-5. -/
theorem C136_numbers (n : Nat) (hn : n ≤ 1000) :
    rssError n (1 / 2 ^ 53) (1 / 10 ^ 9) (1 / 10 ^ 9) < 1 ∧
    2 * (((1 + 1 / 2 ^ 53) ^ 3 * (1 + 1 / 2 ^ 52) - 1) * (2 * n ^ 2 + n * 700) +
      n * Real.log (1 / (1 - rssError n (1 / 2 ^ 53) (1 / 10 ^ 9) (1 / 10 ^ 9)))) < 1 / 10 ^ 5 := by
  have hb : ∀ k : Nat, k ≤ 1003 → (1 + 1 / 2 ^ 53 : ℝ) ^ k ≤ 1 + 2 * k / 2 ^ 53 := by
    intro k
    induction k with
    | zero => intro _; simp
    | succ k ih =>
      intro hk
      have ih := ih (by omega)
      have hk' : (k : ℝ) ≤ 1003 := by
        have : k ≤ 1003 := by omega
        exact_mod_cast this
      rw [pow_succ]
      have : (1 + 1 / 2 ^ 53 : ℝ) ^ k * (1 + 1 / 2 ^ 53) ≤ (1 + 2 * k / 2 ^ 53) * (1 + 1 / 2 ^ 53) :=
        mul_le_mul_of_nonneg_right ih (by positivity)
      refine this.trans ?_
      push_cast
      norm_num
      linarith
  have hp := hb (n + 3) (by omega)
  have hn' : (n : ℝ) ≤ 1000 := by exact_mod_cast hn
  have hn0 : (0 : ℝ) ≤ n := Nat.cast_nonneg _
  have hp' : (1 + 1 / 2 ^ 53 : ℝ) ^ (n + 3) ≤ 1 + 1 / 10 ^ 12 := by
    refine hp.trans ?_
    push_cast
    norm_num
    linarith
  have hδ : rssError n (1 / 2 ^ 53) (1 / 10 ^ 9) (1 / 10 ^ 9) ≤ 31 / 10 ^ 10 := by
    unfold rssError
    have : (1 + 1 / 2 ^ 53 : ℝ) ^ (n + 3) * (1 + 1 / 10 ^ 9) ^ 2 * (1 + 1 / 10 ^ 9) ≤
        (1 + 1 / 10 ^ 12) * (1 + 1 / 10 ^ 9) ^ 2 * (1 + 1 / 10 ^ 9) :=
      mul_le_mul_of_nonneg_right (mul_le_mul_of_nonneg_right hp' (by positivity)) (by positivity)
    refine (sub_le_sub_right this 1).trans ?_
    norm_num
  set δ := rssError n (1 / 2 ^ 53) (1 / 10 ^ 9) (1 / 10 ^ 9)
  have hδ1 : δ < 1 := lt_of_le_of_lt hδ (by norm_num)
  refine ⟨hδ1, ?_⟩
  have hlog : Real.log (1 / (1 - δ)) ≤ 32 / 10 ^ 10 := by
    have h0 : 0 < 1 - δ := by linarith
    have h1 := Real.log_le_sub_one_of_pos (x := 1 / (1 - δ)) (by positivity)
    refine h1.trans ?_
    rw [sub_le_iff_le_add, div_le_iff₀ h0]
    nlinarith
  have h1 : ((1 + 1 / 2 ^ 53 : ℝ) ^ 3 * (1 + 1 / 2 ^ 52) - 1) * (2 * n ^ 2 + n * 700) ≤ 6 / 2 ^ 53 * 2700000 := by
    refine mul_le_mul ?_ ?_ (by positivity) (by positivity)
    · norm_num
    · nlinarith
  have h2 : n * Real.log (1 / (1 - δ)) ≤ 1000 * (32 / 10 ^ 10) := by
    have : n * Real.log (1 / (1 - δ)) ≤ n * (32 / 10 ^ 10) := mul_le_mul_of_nonneg_left hlog hn0
    refine this.trans (mul_le_mul_of_nonneg_right hn' (by norm_num))
  norm_num at h1 h2 ⊢
  linarith

/-! ### Concrete cases -/

/-- The hypotheses on the arithmetic: double precision without underflow, 1000 rows, 20 columns, inner products computed
one term after the other, `math.Log` correctly rounded. -/
example : RelativeError rnd53 (1 / 2 ^ 53) ∧ (∀ j : Nat, j ≤ 2 * 1000 * 1000 → rnd53 j = j) ∧
    (∀ x, 0 < x → |rnd53 (Real.log x) - Real.log x| ≤ 1 / 2 ^ 53 * |Real.log x|) ∧
    (∀ p, p ≤ 20 → DotError (fun n x c => dotLoop rnd53 x c n) p ((1 + 1 / 2 ^ 53) ^ (20 + 1) - 1)) := by
  refine ⟨rnd53_rel, fun j hj => rnd53_nat (by omega), fun x _ => rnd53_rel _, fun p hp x c => ?_⟩
  refine (dotLoop_err (by positivity) rnd53_rel x c p).trans (mul_le_mul_of_nonneg_right ?_ ?_)
  · exact sub_le_sub_right (pow_le_pow_right₀ (by norm_num) (by omega)) 1
  · exact sum_nonneg fun _ _ => abs_nonneg _

/-- The hypotheses on the data, for the mean of 1, 2 and 3: the coefficient 2 has the least sum of squares 2, and the
products are small compared to the residuals. -/
example : let X : Mat ℝ := ⟨3, 1, fun _ _ => 1⟩
    HasRss X [1, 2, 3] [true] 2 ∧ sse (designOf X [true]) (vec [2]) (vec ([1, 2, 3] : List ℝ)) ≤ (1 + 0) * 2 ∧
    1 / 10 ^ 12 * Spec.len X.nr (absPred (designOf X [true]) (vec [2])) ≤
      1 / 10 ^ 9 * Real.sqrt (sse (designOf X [true]) (vec [2]) (vec ([1, 2, 3] : List ℝ))) := by
  intro X
  have hcard : Spec.card [true] = 1 := by decide
  have hsse : ∀ b, sse (designOf X [true]) b (vec ([1, 2, 3] : List ℝ)) = (b 0 - 1) ^ 2 + (b 0 - 2) ^ 2 + (b 0 - 3) ^ 2 := by
    intro b
    simp [sse, lin, designOf, hcard, X, sum_range_succ, vec]
  have h2 : sse (designOf X [true]) (vec [2]) (vec ([1, 2, 3] : List ℝ)) = 2 := by
    rw [hsse]
    norm_num [vec]
  refine ⟨⟨vec [2], fun b => ?_, h2.symm⟩, by rw [h2]; norm_num, ?_⟩
  · rw [h2, hsse]
    nlinarith [sq_nonneg (b 0 - 2)]
  · rw [h2]
    have h1 : Spec.len X.nr (absPred (designOf X [true]) (vec [2])) ≤ 4 := by
      unfold Spec.len
      refine Real.sqrt_le_iff.2 ⟨by norm_num, ?_⟩
      norm_num [absPred, designOf, hcard, X, sum_range_succ, vec]
    have h3 : 1 ≤ Real.sqrt 2 := Real.le_sqrt_of_sq_le (by norm_num)
    linarith

end GoSelect
