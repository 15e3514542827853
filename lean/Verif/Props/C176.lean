import Verif.Props.C107
import Verif.Props.C170
import Verif.Props.C173

/-!
# C176: repeated data lead to larger models
-/

namespace GoSelect

open Finset Spec

/-- The data with all rows `k` times. -/
structure Spec.Repeated (k : Nat) (X X' : Mat ℝ) (y y' : List ℝ) : Prop where
  nr : X'.nr = k * X.nr
  nc : X'.nc = X.nc
  get : ∀ i < X'.nr, ∀ j < X.nc, X'.get i j = X.get (i % X.nr) j
  resp : ∀ i < X'.nr, vec y' i = vec y (i % X.nr)

theorem sum_repeat (k n : Nat) (f : Nat → ℝ) : ∑ i ∈ range (k * n), f (i % n) = k * ∑ i ∈ range n, f i := by
  induction k with
  | zero => simp
  | succ k ih =>
    rw [Nat.succ_mul, sum_range_add, ih]
    have : ∑ x ∈ range n, f ((k * n + x) % n) = ∑ i ∈ range n, f i := by
      refine sum_congr rfl fun x hx => ?_
      rw [Nat.mul_comm, Nat.mul_add_mod, Nat.mod_eq_of_lt (mem_range.1 hx)]
    rw [this]
    push_cast
    ring

section fit
variable {k : Nat} {X X' : Mat ℝ} {y y' : List ℝ}

theorem Spec.Repeated.mod_lt (h : Repeated k X X' y y') {i : Nat} (hi : i < X'.nr) : i % X.nr < X.nr := by
  refine Nat.mod_lt _ ?_
  rcases Nat.eq_zero_or_pos X.nr with h0 | h0
  · rw [h.nr, h0] at hi
    simp at hi
  · exact h0

theorem Spec.Repeated.design (h : Repeated k X X' y y') {m : List Bool} (hm : m.length = X.nc) {i : Nat} (hi : i < X'.nr)
    {j : Nat} (hj : j < Spec.card m) : (designOf X' m).get i j = (designOf X m).get (i % X.nr) j := by
  refine h.get i hi _ ?_
  have hj' : j < (features m).length := hj
  rw [List.getD_eq_getElem?_getD, List.getElem?_eq_getElem hj']
  exact (features_lt (List.getElem_mem hj')).trans_le hm.le

theorem Spec.Repeated.linDesign (h : Repeated k X X' y y') {m : List Bool} (hm : m.length = X.nc) (b : Nat → ℝ) {i : Nat}
    (hi : i < X'.nr) : lin (designOf X' m) b i = lin (designOf X m) b (i % X.nr) :=
  sum_congr rfl fun _ hj => by rw [h.design hm hi (mem_range.1 hj)]

theorem Spec.Repeated.sseDesign (h : Repeated k X X' y y') {m : List Bool} (hm : m.length = X.nc) (b : Nat → ℝ) :
    sse (designOf X' m) b (vec y') = k * sse (designOf X m) b (vec y) := by
  have e : sse (designOf X' m) b (vec y') =
      ∑ i ∈ range (k * X.nr), (lin (designOf X m) b (i % X.nr) - vec y (i % X.nr)) ^ 2 := by
    have : (designOf X' m).nr = k * X.nr := h.nr
    unfold Spec.sse
    rw [this]
    refine sum_congr rfl fun i hi => ?_
    have hi' : i < X'.nr := by rw [h.nr]; exact mem_range.1 hi
    rw [h.linDesign hm b hi', h.resp i hi']
  rw [e]
  exact sum_repeat k X.nr (fun i => (lin (designOf X m) b i - vec y i) ^ 2)

theorem Spec.Repeated.gramDesign (h : Repeated k X X' y y') {m : List Bool} (hm : m.length = X.nc) {i j : Nat}
    (hi : i < Spec.card m) (hj : j < Spec.card m) :
    ∑ r ∈ range (designOf X' m).nr, (designOf X' m).get r i * (designOf X' m).get r j =
      k * ∑ r ∈ range (designOf X m).nr, (designOf X m).get r i * (designOf X m).get r j := by
  have e : (designOf X' m).nr = k * X.nr := h.nr
  rw [e]
  refine Eq.trans (sum_congr rfl fun r hr => ?_)
    (sum_repeat k X.nr (fun r => (designOf X m).get r i * (designOf X m).get r j))
  have hr' : r < X'.nr := by rw [h.nr]; exact mem_range.1 hr
  rw [h.design hm hr' hi, h.design hm hr' hj]

/-- If all sums of products are `k` times as large, no singular value becomes smaller. -/
theorem untruncated_of_gram {A A' : Mat ℝ} {d d' : SVD ℝ} (hd : Untruncated d A) (hd' : d'.Of A') (hk : 1 ≤ k)
    (hnc : A'.nc = A.nc) (hg : ∀ i j, i < A.nc → j < A.nc → ∑ r ∈ range A'.nr, A'.get r i * A'.get r j =
      k * ∑ r ∈ range A.nr, A.get r i * A.get r j) : Untruncated d' A' := by
  refine ⟨hd', fun t ht => ?_⟩
  by_cases h0 : d'.s t = 0
  · exact Or.inl h0
  right
  have hk' : (1 : ℝ) ≤ k := by exact_mod_cast hk
  set c : Nat → ℝ := fun l => ∑ j ∈ range A.nc, d.v j l * d'.v j t with hc
  have e1 : ∀ i < A.nc, d'.v i t * d'.s t ^ 2 = k * ∑ l ∈ range d.p, d.v i l * (d.s l ^ 2 * c l) := by
    intro i hi
    have g1 := gram_svd hd' (fun j => d'.v j t) (i := i) (by omega)
    have g2 := gram_svd hd.1 (fun j => d'.v j t) hi
    rw [hnc] at g1
    rw [sum_congr rfl fun j hj => by rw [hg i j hi (mem_range.1 hj)]] at g1
    have g3 : ∑ l ∈ range d'.p, d'.v i l * (d'.s l ^ 2 * ∑ j ∈ range A.nc, d'.v j l * d'.v j t) =
        d'.v i t * d'.s t ^ 2 := by
      rw [sum_eq_single t]
      · have := hd'.vOrth t t ht ht
        rw [hnc] at this
        rw [this]; simp
      · intro l hl hlt
        have := hd'.vOrth l t (mem_range.1 hl) ht
        rw [hnc] at this
        rw [this]; simp [hlt]
      · intro hn; exact absurd (mem_range.2 ht) hn
    rw [← g3, ← g1, ← g2, mul_sum]
    exact sum_congr rfl fun j _ => by ring
  have e2 : ∀ l < d.p, d'.s t ^ 2 * c l = k * (d.s l ^ 2 * c l) := by
    intro l hl
    have e3 := orth_expand hd.1.vOrth (fun l => d.s l ^ 2 * c l) hl
    rw [← e3, mul_sum, hc]
    simp only []
    rw [mul_sum]
    refine sum_congr rfl fun i hi => ?_
    have := e1 i (mem_range.1 hi)
    rw [show (k : ℝ) * (d.v i l * ∑ l ∈ range d.p, d.v i l * (d.s l ^ 2 * c l)) =
      d.v i l * (k * ∑ l ∈ range d.p, d.v i l * (d.s l ^ 2 * c l)) by ring, ← this]
    ring
  have hex : ∃ l < d.p, c l ≠ 0 ∧ d.s l ≠ 0 := by
    by_contra hne
    push Not at hne
    have z : ∀ i < A.nc, d'.v i t = 0 := by
      intro i hi
      have := e1 i hi
      rw [sum_eq_zero (fun l hl => ?_), mul_zero] at this
      · rcases mul_eq_zero.1 this with h | h
        · exact h
        · exact absurd (pow_eq_zero_iff (two_ne_zero)|>.1 h) h0
      · by_cases hcl : c l = 0
        · rw [hcl]; ring
        · rw [hne l (mem_range.1 hl) hcl]; ring
    have := hd'.vOrth t t ht ht
    rw [hnc, sum_eq_zero (fun i hi => by rw [z i (mem_range.1 hi)]; ring)] at this
    simp at this
  obtain ⟨l, hl, hcl, hsl⟩ := hex
  have h1 : d'.s t ^ 2 = k * d.s l ^ 2 := by
    have := e2 l hl
    rw [← mul_assoc] at this
    exact mul_right_cancel₀ hcl this
  have h2 : 1 / 10 ^ 6 < d.s l := (hd.2 l hl).resolve_left hsl
  have h3 : d.s l ≤ d'.s t := by
    refine le_of_sq_le_sq ?_ (hd'.nonneg t ht)
    rw [h1]
    nlinarith [sq_nonneg (d.s l)]
  exact h2.trans_le h3

/-- **C176 (fits).** With all rows `k` times the residual sum of squares of a model is `k` times as large, and the predictions are the same; so
are the coefficients if the columns are independent. -/
theorem C176_fit (svd : Mat ℝ → SVD ℝ) (hsvd : ∀ A, (svd A).Of A) (hk : 1 ≤ k) (h : Repeated k X X' y y') (hy : y.length = X.nr)
    (hy' : y'.length = X'.nr) {m : List Bool} (hm : m.length = X.nc) (hpos : 0 < Spec.card m) (he : ExactFit svd X m) :
    ∃ c r c', fitModel svd X y m = some (c, r) ∧ fitModel svd X' y' m = some (c', k * r) ∧
      (∀ i < X'.nr, lin (designOf X' m) (vec c') i = lin (designOf X m) (vec c) (i % X.nr)) ∧
      ((∀ b, (∀ i < X.nr, lin (designOf X m) b i = 0) → ∀ j < Spec.card m, b j = 0) → c' = c) := by
  have he' : ExactFit svd X' m := untruncated_of_gram he (hsvd _) hk rfl fun i j hi hj => h.gramDesign hm hi hj
  have hm' : m.length = X'.nc := by rw [hm, h.nc]
  obtain ⟨c, f1, f2, f3⟩ := fitModel_eq_some (svd := svd) hy hpos hm.le
  obtain ⟨c', g1, g2, g3⟩ := fitModel_eq_some (svd := svd) hy' hpos hm'.le
  have hc := fit_leastSquares he f2
  have hc' := fit_leastSquares he' g2
  have hk' : (0 : ℝ) < k := by exact_mod_cast hk
  have hls : IsLeastSquares (designOf X m) (vec c') (vec y) := by
    intro b
    have := hc' b
    rw [h.sseDesign hm, h.sseDesign hm] at this
    exact le_of_mul_le_mul_left this hk'
  have hlin : ∀ i < X.nr, lin (designOf X m) (vec c') i = lin (designOf X m) (vec c) i :=
    fun i hi => leastSquares_lin_unique hls hc hi
  refine ⟨c, _, c', f1, ?_, fun i hi => ?_, fun hind => ?_⟩
  · rw [g1, h.sseDesign hm, le_antisymm (hls (vec c)) (hc (vec c'))]
  · rw [h.linDesign hm _ hi, hlin _ (h.mod_lt hi)]
  · have h3 := hind (fun j => vec c' j - vec c j) (fun i hi => by rw [lin_sub, hlin i hi, sub_self])
    refine List.ext_getElem (by rw [f3, g3]) fun j h1 h2 => ?_
    have := sub_eq_zero.1 (h3 j (by omega))
    simpa [vec, List.getD_eq_getElem?_getD, h1, h2] using this

end fit

/-- Candidates that are best by criteria of the form penalty plus `n log rss`, for the data and for the repeated data. -/
theorem larger_of_repeated {n k : Nat} (hn : 0 < n) (hk : 2 ≤ k) {g h : Nat → ℝ} {p q : Nat × ℝ} (hmono : p.1 ≤ q.1 → h p.1 ≤ h q.1)
    (hp0 : 0 < p.2) (hq0 : 0 < q.2) (hpen : q.1 < p.1 → h p.1 - h q.1 < k * (g p.1 - g q.1))
    (hp : g p.1 + n * Real.log p.2 ≤ g q.1 + n * Real.log q.2)
    (hq : h q.1 + (k * n : Nat) * Real.log (k * q.2) ≤ h p.1 + (k * n : Nat) * Real.log (k * p.2)) :
    p.1 ≤ q.1 ∧ q.2 ≤ p.2 := by
  have hk0 : (0 : ℝ) < k := by exact_mod_cast (by omega : 0 < k)
  have hle : p.1 ≤ q.1 := by
    by_contra hlt
    have h1 := hpen (not_le.1 hlt)
    have h2 := mul_le_mul_of_nonneg_left hp hk0.le
    rw [Real.log_mul hk0.ne' hq0.ne', Real.log_mul hk0.ne' hp0.ne'] at hq
    push_cast at hq
    nlinarith
  refine ⟨hle, ?_⟩
  exact le_of_mul_le_mul_left (rss_le_of_pref (Nat.mul_pos (by omega) hn) (mul_pos hk0 hq0) (mul_pos hk0 hp0) (hmono hle) hq) hk0

/-- The candidates as they are on repeated data. -/
def Spec.onRepeated (k : Nat) (C : Nat × ℝ → Prop) (p : Nat × ℝ) : Prop := ∃ q, C q ∧ p = (q.1, k * q.2)

/-- **C176.** `Aic`: on data with every row `k` times the choice has at least as many features, and fits at least as well. -/
theorem C176_aic {n k : Nat} (hn : 0 < n) (hk : 2 ≤ k) (C : Nat × ℝ → Prop) (hC : ∀ q, C q → 0 < q.2) {p q : Nat × ℝ}
    (hp : BestBy aic n C p) (hq : BestBy aic (k * n) (onRepeated k C) q) : p.1 ≤ q.1 ∧ q.2 ≤ k * p.2 := by
  obtain ⟨⟨q, hq0, rfl⟩, hq⟩ := hq
  have h1 := hp.2 q hq0
  have h2 := hq _ ⟨p, hp.1, rfl⟩
  have hk1 : (2 : ℝ) ≤ k := by exact_mod_cast hk
  unfold aic at h1 h2
  obtain ⟨r1, r2⟩ := larger_of_repeated (g := fun a => 2 * (a : ℝ)) (h := fun a => 2 * (a : ℝ)) hn hk
    (fun hab => by have : (p.1 : ℝ) ≤ q.1 := by exact_mod_cast hab
                   simpa using this) (hC p hp.1) (hC q hq0)
    (fun hlt => by have : (q.1 : ℝ) < p.1 := by exact_mod_cast hlt
                   nlinarith) h1 h2
  exact ⟨r1, mul_le_mul_of_nonneg_left r2 (by linarith)⟩

/-- **C176.** `Bic`. -/
theorem C176_bic {n k : Nat} (hn : 3 ≤ n) (hk : 2 ≤ k) (C : Nat × ℝ → Prop) (hC : ∀ q, C q → 0 < q.2) {p q : Nat × ℝ}
    (hp : BestBy bic n C p) (hq : BestBy bic (k * n) (onRepeated k C) q) : p.1 ≤ q.1 ∧ q.2 ≤ k * p.2 := by
  obtain ⟨⟨q, hq0, rfl⟩, hq⟩ := hq
  have h1 := hp.2 q hq0
  have h2 := hq _ ⟨p, hp.1, rfl⟩
  have hk1 : (2 : ℝ) ≤ k := by exact_mod_cast hk
  have hn1 : (3 : ℝ) ≤ n := by exact_mod_cast hn
  have hl : 1 < Real.log n := by
    rw [Real.lt_log_iff_exp_lt (by linarith)]
    have := Real.exp_one_lt_d9
    linarith
  have hlk : Real.log k ≤ k - 1 := Real.log_le_sub_one_of_pos (by linarith)
  have hlk0 : 0 ≤ Real.log k := Real.log_nonneg (by linarith)
  have hkn : Real.log (k * n : Nat) = Real.log k + Real.log n := by
    push_cast
    exact Real.log_mul (by linarith) (by linarith)
  unfold bic at h1 h2
  obtain ⟨r1, r2⟩ := larger_of_repeated (g := fun a => (a : ℝ) * Real.log n) (h := fun a => (a : ℝ) * Real.log (k * n : Nat)) (by omega) hk
    (fun hab => by have : (p.1 : ℝ) ≤ q.1 := by exact_mod_cast hab
                   rw [hkn]
                   nlinarith) (hC p hp.1) (hC q hq0)
    (fun hlt => by have h3 : (0 : ℝ) < p.1 - q.1 := by
                     have : (q.1 : ℝ) < p.1 := by exact_mod_cast hlt
                     linarith
                   have h4 : Real.log k + Real.log n < k * Real.log n := by nlinarith
                   have := mul_lt_mul_of_pos_left h4 h3
                   rw [hkn]
                   nlinarith) h1 h2
  exact ⟨r1, mul_le_mul_of_nonneg_left r2 (by linarith)⟩

/-- The correction of `Aicc` grows less with the number of features if there are more data. -/
theorem correction_data {n N q p : Nat} (hN : n ≤ N) (hqp : q < p) (hp : p + 1 < n) :
    (2 * (p : ℝ) ^ 2 + 2 * p) / ((N : ℝ) - p - 1) - (2 * (q : ℝ) ^ 2 + 2 * q) / ((N : ℝ) - q - 1) ≤
      (2 * (p : ℝ) ^ 2 + 2 * p) / ((n : ℝ) - p - 1) - (2 * (q : ℝ) ^ 2 + 2 * q) / ((n : ℝ) - q - 1) := by
  have h1 : (q : ℝ) < p := by exact_mod_cast hqp
  have h2 : (p : ℝ) + 1 < n := by exact_mod_cast hp
  have h3 : (n : ℝ) ≤ N := by exact_mod_cast hN
  have h0 : (0 : ℝ) ≤ q := Nat.cast_nonneg q
  have key : (2 * (q : ℝ) ^ 2 + 2 * q) * (1 / ((n : ℝ) - q - 1) - 1 / ((N : ℝ) - q - 1)) ≤
      (2 * (p : ℝ) ^ 2 + 2 * p) * (1 / ((n : ℝ) - p - 1) - 1 / ((N : ℝ) - p - 1)) := by
    have e : ∀ x : ℝ, x + 1 < n → 1 / ((n : ℝ) - x - 1) - 1 / ((N : ℝ) - x - 1) = (N - n) / (((n : ℝ) - x - 1) * ((N : ℝ) - x - 1)) := by
      intro x hx
      rw [div_sub_div _ _ (by linarith) (by linarith)]
      congr 1
      ring
    have e1 := e q (by linarith)
    have e2 := e p h2
    rw [e1, e2]
    refine mul_le_mul (by nlinarith) ?_ (div_nonneg (by linarith) (mul_nonneg (by linarith) (by linarith))) (by nlinarith)
    exact div_le_div_of_nonneg_left (by linarith) (mul_pos (by linarith) (by linarith))
      (mul_le_mul (by linarith) (by linarith) (by linarith) (by linarith))
  simp only [mul_sub, mul_one_div] at key
  linarith

/-- **C176.** `Aicc`, for models with fewer features than data points minus 1. -/
theorem C176_aicc {n k : Nat} (hk : 2 ≤ k) (C : Nat × ℝ → Prop) (hC : ∀ q, C q → 0 < q.2 ∧ q.1 + 1 < n) {p q : Nat × ℝ}
    (hp : BestBy aicc n C p) (hq : BestBy aicc (k * n) (onRepeated k C) q) : p.1 ≤ q.1 ∧ q.2 ≤ k * p.2 := by
  obtain ⟨⟨q, hq0, rfl⟩, hq⟩ := hq
  have h1 := hp.2 q hq0
  have h2 := hq _ ⟨p, hp.1, rfl⟩
  obtain ⟨p0, p1⟩ := hC p hp.1
  obtain ⟨q0, q1⟩ := hC q hq0
  have hnk : n ≤ k * n := Nat.le_mul_of_pos_left n (by omega)
  have hk1 : (2 : ℝ) ≤ k := by exact_mod_cast hk
  rw [C02_aicc_formula _ _ _ p1, C02_aicc_formula _ _ _ q1] at h1
  rw [C02_aicc_formula _ _ _ (by show q.1 + 1 < _; omega), C02_aicc_formula _ _ _ (by show p.1 + 1 < _; omega)] at h2
  have cmono : ∀ {a b N : Nat}, a < b → b + 1 < N →
      (2 * (a : ℝ) ^ 2 + 2 * a) / ((N : ℝ) - a - 1) ≤ (2 * (b : ℝ) ^ 2 + 2 * b) / ((N : ℝ) - b - 1) := by
    intro a b N hab hbN
    have a1 : (a : ℝ) < b := by exact_mod_cast hab
    have a2 : (b : ℝ) + 1 < N := by exact_mod_cast hbN
    have a0 : (0 : ℝ) ≤ a := Nat.cast_nonneg a
    exact div_le_div₀ (by nlinarith) (by nlinarith) (by linarith) (by linarith)
  have key : p.1 ≤ q.1 ∧ q.2 ≤ p.2 := by
    refine larger_of_repeated (n := n) (k := k)
      (g := fun a => 2 * (a : ℝ) + (2 * (a : ℝ) ^ 2 + 2 * a) / ((n : ℝ) - a - 1))
      (h := fun a => 2 * (a : ℝ) + (2 * (a : ℝ) ^ 2 + 2 * a) / (((k * n : Nat) : ℝ) - a - 1)) (by omega) hk
      (fun hab => ?_) p0 q0 (fun hlt => ?_) ?_ ?_
    · rcases hab.eq_or_lt with e | e
      · rw [e]
      · have a1 : (p.1 : ℝ) < q.1 := by exact_mod_cast e
        have := cmono (N := k * n) e (by omega)
        linarith
    · have a1 : (q.1 : ℝ) < p.1 := by exact_mod_cast hlt
      have c1 := correction_data hnk hlt p1
      have c2 := cmono hlt p1
      nlinarith
    · linarith
    · simp only [] at h2
      linarith
  exact ⟨key.1, mul_le_mul_of_nonneg_left key.2 (by linarith)⟩

/-- The first entry of `BruteForceSelect` is best by `Aicc`. -/
theorem brute_best (svd : Mat ℝ → SVD ℝ) {X : Mat ℝ} {y : List ℝ} (hy : y.length = X.nr) (hs : Highscore ℝ)
    (h : BruteForceReturns (regressionProblem svd X y) hs) (a : Node ℝ) (ha : hs.items.head? = some a) :
    ∃ r, fitModel svd X y a.model = some (a.coeff, r) ∧ BestBy aicc X.nr (IsModelOf svd X y) (Spec.card a.model, r) := by
  obtain ⟨h0, a1, -, a3, -⟩ := C06_every_model_once (regressionProblem svd X y)
  cases h.unique a1
  have ham : a ∈ hs.items := List.mem_of_mem_head? ha
  obtain ⟨l1, l2⟩ := (a3 a.model).1 (List.mem_map_of_mem ham)
  obtain ⟨c, f1, -⟩ := fitModel_eq_some (svd := svd) hy l2 (le_of_eq l1)
  have own := C06_own_score _ hs h a ham
  have ec : a.coeff = c := by rw [own.1]; simp [regressionProblem, f1]
  have es : a.score = -aicc (Spec.card a.model) X.nr (sse (designOf X a.model) (vec c) (vec y)) := by
    rw [own.2]; simp [regressionProblem, f1]
  have hbest : hs.bestScore = a.score := by
    cases hi : hs.items with
    | nil => rw [hi] at ha; cases ha
    | cons b bs =>
      rw [hi] at ha
      cases ha
      simp [Highscore.bestScore, hi]
  have hnc : 0 < X.nc := by
    have : Spec.card a.model ≤ a.model.length := by rw [card_eq_count]; exact List.count_le_length
    have l1' : a.model.length = X.nc := l1
    omega
  refine ⟨sse (designOf X a.model) (vec c) (vec y), by rw [ec]; exact f1, ⟨a.model, c, l1, l2, rfl, f1⟩, ?_⟩
  rintro ⟨k, r⟩ ⟨m, c', q1, q2, rfl, q3⟩
  have k1 := (C07_best (regressionProblem svd X y) hnc hs h).2 m q1 q2
  have e : (regressionProblem svd X y).rss m = r := by
    simp only [regressionProblem, q3]
    rfl
  rw [hbest, es, e] at k1
  have : -aicc (Spec.card m) X.nr r ≤ -aicc (Spec.card a.model) X.nr (sse (designOf X a.model) (vec c) (vec y)) := k1
  exact neg_le_neg_iff.1 this

/-- The models of repeated data. -/
theorem isModelOf_repeated (svd : Mat ℝ → SVD ℝ) (hsvd : ∀ A, (svd A).Of A) {k : Nat} (hk : 1 ≤ k) {X X' : Mat ℝ} {y y' : List ℝ}
    (h : Repeated k X X' y y') (hy : y.length = X.nr) (hy' : y'.length = X'.nr)
    (he : ∀ m, m.length = X.nc → 0 < Spec.card m → ExactFit svd X m) (q : Nat × ℝ) :
    IsModelOf svd X' y' q ↔ onRepeated k (IsModelOf svd X y) q := by
  obtain ⟨q1, q2⟩ := q
  constructor
  · rintro ⟨m, c, m1, m2, m3, m4⟩
    have m1' : m.length = X.nc := m1.trans h.nc
    obtain ⟨c0, r0, c0', g1, g2, -⟩ := C176_fit svd hsvd hk h hy hy' m1' m2 (he m m1' m2)
    rw [g2] at m4
    simp only [Option.some.injEq, Prod.mk.injEq] at m4 m3
    exact ⟨(q1, r0), ⟨m, c0, m1', m2, m3, g1⟩, by rw [← m4.2]⟩
  · rintro ⟨⟨p1, p2⟩, ⟨m, c, m1, m2, m3, m4⟩, e⟩
    obtain ⟨c0, r0, c0', g1, g2, -⟩ := C176_fit svd hsvd hk h hy hy' m1 m2 (he m m1 m2)
    rw [g1] at m4
    simp only [Option.some.injEq, Prod.mk.injEq] at m4 m3 e
    exact ⟨m, c0', m1.trans h.nc.symm, m2, m3.trans e.1.symm, by rw [g2, e.2, m4.2]⟩

/-- **C176 (search).** `BruteForceSelect` on data with every row `k` times: the first model has at least as many features as the first model
for the data themselves, and fits these at least as well. -/
theorem C176_brute (svd : Mat ℝ → SVD ℝ) (hsvd : ∀ A, (svd A).Of A) {k : Nat} (hk : 2 ≤ k) {X X' : Mat ℝ} {y y' : List ℝ}
    (h : Repeated k X X' y y') (hy : y.length = X.nr) (hy' : y'.length = X'.nr) (hsize : X.nc + 1 < X.nr)
    (he : ∀ m, m.length = X.nc → 0 < Spec.card m → ExactFit svd X m) (hpos : ∀ q, IsModelOf svd X y q → 0 < q.2)
    (hs hs' : Highscore ℝ) (hr : BruteForceReturns (regressionProblem svd X y) hs)
    (hr' : BruteForceReturns (regressionProblem svd X' y') hs') (a a' : Node ℝ) (ha : hs.items.head? = some a)
    (ha' : hs'.items.head? = some a') :
    ∃ r r' c, fitModel svd X y a.model = some (a.coeff, r) ∧ fitModel svd X y a'.model = some (c, r') ∧
      Spec.card a.model ≤ Spec.card a'.model ∧ r' ≤ r := by
  obtain ⟨r, f1, b1⟩ := brute_best svd hy hs hr a ha
  obtain ⟨s, f2, b2⟩ := brute_best svd hy' hs' hr' a' ha'
  have hk0 : (0 : ℝ) < k := by exact_mod_cast (by omega : 0 < k)
  have hC := isModelOf_repeated svd hsvd (by omega) h hy hy' he
  have b2' : BestBy aicc (k * X.nr) (onRepeated k (IsModelOf svd X y)) (Spec.card a'.model, s) := by
    rw [← h.nr]
    exact ⟨(hC _).1 b2.1, fun q hq => b2.2 q ((hC q).2 hq)⟩
  have hlt : ∀ q, IsModelOf svd X y q → 0 < q.2 ∧ q.1 + 1 < X.nr := by
    intro q hq
    refine ⟨hpos q hq, ?_⟩
    obtain ⟨m, c, m1, m2, m3, m4⟩ := hq
    have : Spec.card m ≤ m.length := by rw [card_eq_count]; exact List.count_le_length
    omega
  obtain ⟨r1, r2⟩ := C176_aicc hk _ hlt b1 b2'
  obtain ⟨m, c, m1, m2, m3, m4⟩ := b2.1
  have l1 : a'.model.length = X.nc := by
    obtain ⟨h0, a1, -, a3, -⟩ := C06_every_model_once (regressionProblem svd X' y')
    cases hr'.unique a1
    exact ((a3 a'.model).1 (List.mem_map_of_mem (List.mem_of_mem_head? ha'))).1.trans h.nc
  have l2 : 0 < Spec.card a'.model := by simp only [] at m3; omega
  obtain ⟨c0, r0, c0', g1, g2, -⟩ := C176_fit svd hsvd (by omega) h hy hy' l1 l2 (he _ l1 l2)
  rw [g2] at f2
  simp only [Option.some.injEq, Prod.mk.injEq] at f2
  refine ⟨r, r0, c0, f1, g1, r1, ?_⟩
  simp only [] at r2
  rw [← f2.2] at r2
  exact le_of_mul_le_mul_left r2 hk0

/-- The best entries of `SelectModel`, started from the empty model, are best by `Aicc`. -/
theorem select_best (svd : Mat ℝ → SVD ℝ) {X : Mat ℝ} {y : List ℝ} (hdata : GoodData svd X y) (hsize : X.nc < X.nr) {q : Int} {cutoff : ℝ}
    {M : Int} (hM : 2 ≤ M) {st : SState ℝ} (h : SelectReaches (regressionSearch svd X y (List.replicate X.nc false) q cutoff) M [] st)
    (hd : st.main = .done) (ht : st.torn = false) (ho : st.overflows = 0) (n : Node ℝ) (hn : n ∈ st.hs.items)
    (hb : n.score = st.hs.bestScore) :
    n.model.length = X.nc ∧ 0 < Spec.card n.model ∧
      ∃ r, fitModel svd X y n.model = some (n.coeff, r) ∧ BestBy aicc X.nr (IsModelOf svd X y) (Spec.card n.model, r) := by
  obtain ⟨l1, l2, l3⟩ := (C13_each_model_once _ M (by omega) st h).2 n hn
  have l1' : n.model.length = X.nc := l1
  have hpos : 0 < Spec.card n.model := by
    rcases Nat.eq_zero_or_pos (Spec.card n.model) with h0 | h0
    · refine absurd ?_ l2
      rw [card_eq_count, List.count_eq_zero] at h0
      show n.model = List.replicate X.nc false
      refine List.eq_replicate_iff.2 ⟨l1', fun b hb => ?_⟩
      cases b
      · rfl
      · exact absurd hb h0
    · exact h0
  obtain ⟨c, f1, -⟩ := fitModel_eq_some (svd := svd) hdata.rows hpos l1'.le
  obtain ⟨es, ec⟩ := (C13_own_score _ M (by omega) st h n hn).1 hpos
  have ec' : n.coeff = c := by rw [ec]; simp [regressionSearch, regressionProblem, f1]
  have es' : n.score = -aicc (Spec.card n.model) X.nr (sse (designOf X n.model) (vec c) (vec y)) := by
    rw [es]; simp [regressionSearch, regressionProblem, f1]
  refine ⟨l1', hpos, sse (designOf X n.model) (vec c) (vec y), by rw [ec']; exact f1, ⟨n.model, c, l1', hpos, rfl, f1⟩, ?_⟩
  rintro ⟨k, r⟩ ⟨m, c', q1, q2, rfl, q3⟩
  have hc : Spec.card m ≤ m.length := by rw [card_eq_count]; exact List.count_le_length
  have hmr : m ≠ List.replicate X.nc false := by
    rintro rfl
    rw [card_eq_count, List.count_replicate] at q2
    simp at q2
  obtain ⟨b, s, g1, g2, -, g4⟩ := C12_regression svd X y hdata _ (Or.inl rfl) q cutoff M hM [] st h hd ht ho m q1 q2 (by omega) hmr
  obtain ⟨b', k1, k2, k3⟩ := fitModel_eq_some (svd := svd) hdata.rows q2 q1.le
  rw [k2, Option.some.injEq] at g1
  subst g1
  have k4 := C04_rss (designOf X m) b' y k3 hdata.rows
  rw [k4, Option.some.injEq] at g2
  rw [q3, Option.some.injEq, Prod.mk.injEq] at k1
  have e : r = s := k1.2.trans g2
  rw [← hb, es', ← e] at g4
  exact neg_le_neg_iff.1 g4

/-- **C173.** The best models of `SelectModel` have at most as many features as any model with the smallest `Aic`, and fit no better. -/
theorem C173_select (svd : Mat ℝ → SVD ℝ) {X : Mat ℝ} {y : List ℝ} (hdata : GoodData svd X y) (hsize : X.nc < X.nr)
    (hpos : ∀ q, IsModelOf svd X y q → 0 < q.2) (q : Int) (cutoff : ℝ) (M : Int) (hM : 2 ≤ M) (st : SState ℝ)
    (h : SelectReaches (regressionSearch svd X y (List.replicate X.nc false) q cutoff) M [] st)
    (hd : st.main = .done) (ht : st.torn = false) (ho : st.overflows = 0) (n : Node ℝ) (hn : n ∈ st.hs.items)
    (hb : n.score = st.hs.bestScore) {p : Nat × ℝ} (hp : BestBy aic X.nr (IsModelOf svd X y) p) :
    ∃ r, fitModel svd X y n.model = some (n.coeff, r) ∧ Spec.card n.model ≤ p.1 ∧ p.2 ≤ r := by
  obtain ⟨-, -, r, f1, b1⟩ := select_best svd hdata hsize hM h hd ht ho n hn hb
  obtain ⟨r1, r2⟩ := C173_aicc (by omega) _ hpos hp b1
  exact ⟨r, f1, r1, r2⟩

/-- **C176 (search).** `SelectModel`, started from the empty model and without overflow message and torn read, whatever the options and
schedules: the best models for data with every row `k` times have at least as many features as those for the data, and fit these at least
as well. -/
theorem C176_select (svd : Mat ℝ → SVD ℝ) (hsvd : ∀ A, (svd A).Of A) {k : Nat} (hk : 2 ≤ k) {X X' : Mat ℝ} {y y' : List ℝ}
    (h : Repeated k X X' y y') (hdata : GoodData svd X y) (hdata' : GoodData svd X' y') (hsize : X.nc + 1 < X.nr)
    (hpos : ∀ q, IsModelOf svd X y q → 0 < q.2) (q q' : Int) (cutoff cutoff' : ℝ) (M M' : Int) (hM : 2 ≤ M) (hM' : 2 ≤ M')
    (st st' : SState ℝ)
    (h1 : SelectReaches (regressionSearch svd X y (List.replicate X.nc false) q cutoff) M [] st)
    (h2 : st.main = .done) (h3 : st.torn = false) (h4 : st.overflows = 0)
    (h1' : SelectReaches (regressionSearch svd X' y' (List.replicate X'.nc false) q' cutoff') M' [] st')
    (h2' : st'.main = .done) (h3' : st'.torn = false) (h4' : st'.overflows = 0) (n n' : Node ℝ) (hn : n ∈ st.hs.items)
    (hb : n.score = st.hs.bestScore) (hn' : n' ∈ st'.hs.items) (hb' : n'.score = st'.hs.bestScore) :
    ∃ r r' c, fitModel svd X y n.model = some (n.coeff, r) ∧ fitModel svd X y n'.model = some (c, r') ∧
      Spec.card n.model ≤ Spec.card n'.model ∧ r' ≤ r := by
  have hnk : X.nr ≤ X'.nr := by rw [h.nr]; exact Nat.le_mul_of_pos_left _ (by omega)
  have hcard : ∀ m : List Bool, m.length = X.nc → Spec.card m ≤ X.nc := by
    intro m hm
    rw [card_eq_count, ← hm]
    exact List.count_le_length
  have he : ∀ m, m.length = X.nc → 0 < Spec.card m → ExactFit svd X m :=
    fun m hm hp => hdata.exact m hm hp ((hcard m hm).trans_lt (by omega))
  obtain ⟨-, -, r, f1, b1⟩ := select_best svd hdata (by omega) hM h1 h2 h3 h4 n hn hb
  obtain ⟨l1, l2, s, f2, b2⟩ := select_best svd hdata' (by rw [h.nc]; omega) hM' h1' h2' h3' h4' n' hn' hb'
  have hC := isModelOf_repeated svd hsvd (by omega) h hdata.rows hdata'.rows he
  have b2' : BestBy aicc (k * X.nr) (onRepeated k (IsModelOf svd X y)) (Spec.card n'.model, s) := by
    rw [← h.nr]
    exact ⟨(hC _).1 b2.1, fun q hq => b2.2 q ((hC q).2 hq)⟩
  obtain ⟨r1, r2⟩ := C176_aicc hk _ (fun q hq => ⟨hpos q hq, by
    obtain ⟨m, c, m1, m2, m3, m4⟩ := hq
    have := hcard m m1
    omega⟩) b1 b2'
  rw [h.nc] at l1
  obtain ⟨c0, r0, c0', g1, g2, -⟩ := C176_fit svd hsvd (by omega) h hdata.rows hdata'.rows l1 l2 (he _ l1 l2)
  rw [g2] at f2
  simp only [Option.some.injEq, Prod.mk.injEq] at f2
  refine ⟨r, r0, c0, f1, g1, r1, ?_⟩
  simp only [] at r2
  rw [← f2.2] at r2
  exact le_of_mul_le_mul_left r2 (by exact_mod_cast (by omega : 0 < k))

theorem repeated_example : Repeated 2 UnitExample.X ⟨10, 3, fun i j => UnitExample.X.get (i % 5) j⟩ UnitExample.y
    (UnitExample.y ++ UnitExample.y) := by
  refine ⟨rfl, rfl, fun i _ j _ => rfl, fun i hi => ?_⟩
  have hi : i < 10 := hi
  show vec _ i = vec _ (i % 5)
  interval_cases i <;> simp [vec, UnitExample.y]

/-- Hypotheses of `C176_fit`, `C176_brute`, `C176_select` and `C173_select`: the example of C107 with every row twice. -/
example (svd : Mat ℝ → SVD ℝ) (hd : ∀ A, (svd A).Of A) : UnitExample.X.nc + 1 < UnitExample.X.nr ∧
    (∀ m, m.length = UnitExample.X.nc → 0 < Spec.card m → ExactFit svd UnitExample.X m) ∧
    (∀ q, IsModelOf svd UnitExample.X UnitExample.y q → 0 < q.2) ∧ GoodData svd UnitExample.X UnitExample.y ∧
    GoodData svd ⟨10, 3, fun i j => UnitExample.X.get (i % 5) j⟩ (UnitExample.y ++ UnitExample.y) := by
  refine ⟨by show 3 + 1 < 5; omega, fun m hm _ => UnitExample.exact hd hm, ?_, UnitExample.good hd, ?_⟩
  · rintro q ⟨m, c, h1, h2, h3, h4⟩
    exact one_pos.trans_le (UnitExample.fit_ge hd h1 h2 h4).1
  · exact
      { rows := rfl
        small := by show (10 : Nat) ≤ 2 ^ 63; norm_num
        exact := fun m hm _ _ => untruncated_of_gram (UnitExample.exact hd hm) (hd _) (by omega : 1 ≤ 2) rfl
          fun i j hi hj => repeated_example.gramDesign hm hi hj
        tiny := fun m c r hm hp _ hf => by
          obtain ⟨c0, r0, c0', g1, g2, -⟩ := C176_fit svd hd (by omega) repeated_example rfl rfl hm hp (UnitExample.exact hd hm)
          rw [hf, Option.some.injEq, Prod.mk.injEq] at g2
          have h1 := (UnitExample.fit_ge hd hm hp g1).1
          have h2 : 1 ≤ r := by rw [g2.2]; push_cast; linarith
          refine smallestFloat_le_tol.trans (le_trans ?_ h2)
          unfold rssTol
          norm_num
        tol := fun h => absurd h (by show ¬ 10 ≤ 3; omega) }

/-- Hypotheses of `C176_aic`, `C176_bic` and `C176_aicc`: of two models the smaller one is best for 4 data points, and the larger one by `Aic`
and `Bic` if these are repeated. -/
example : ∃ C : Nat × ℝ → Prop, (∀ q, C q → 0 < q.2 ∧ q.1 + 1 < 4) ∧ BestBy aic 4 C (1, Real.exp (1 / 3)) ∧
    BestBy aic (2 * 4) (onRepeated 2 C) (2, 2 * 1) ∧ BestBy bic 4 C (1, Real.exp (1 / 3)) ∧
    BestBy bic (2 * 4) (onRepeated 2 C) (2, 2 * 1) ∧ BestBy aicc 4 C (1, Real.exp (1 / 3)) ∧
    BestBy aicc (2 * 4) (onRepeated 2 C) (1, 2 * Real.exp (1 / 3)) := by
  have hl1 := Real.log_two_gt_d9
  have hl2 := Real.log_two_lt_d9
  have e4 : Real.log 4 = 2 * Real.log 2 := by
    rw [show (4 : ℝ) = 2 ^ 2 by norm_num, Real.log_pow]; norm_num
  have e8 : Real.log 8 = 3 * Real.log 2 := by
    rw [show (8 : ℝ) = 2 ^ 3 by norm_num, Real.log_pow]; norm_num
  have ex : Real.log (2 * Real.exp (1 / 3)) = Real.log 2 + 1 / 3 := by
    rw [Real.log_mul (by norm_num) (Real.exp_pos _).ne', Real.log_exp]
  refine ⟨fun q => q = (1, Real.exp (1 / 3)) ∨ q = (2, 1), ?_, ⟨Or.inl rfl, ?_⟩, ⟨⟨_, Or.inr rfl, by norm_num⟩, ?_⟩, ⟨Or.inl rfl, ?_⟩,
    ⟨⟨_, Or.inr rfl, by norm_num⟩, ?_⟩, ⟨Or.inl rfl, ?_⟩, ⟨⟨_, Or.inl rfl, by norm_num⟩, ?_⟩⟩
  · rintro q (rfl | rfl)
    · exact ⟨Real.exp_pos _, by norm_num⟩
    · norm_num
  · rintro q (rfl | rfl)
    · exact le_rfl
    · simp only [aic, Real.log_exp, Real.log_one]
      norm_num
  · rintro _ ⟨q, (rfl | rfl), rfl⟩
    · simp only [aic, Nat.cast_ofNat, ex, mul_one]
      norm_num
      linarith
    · norm_num
  · rintro q (rfl | rfl)
    · exact le_rfl
    · simp only [bic, Real.log_exp, Real.log_one]
      norm_num
      linarith
  · rintro _ ⟨q, (rfl | rfl), rfl⟩
    · simp only [bic, Nat.cast_ofNat, ex, mul_one]
      norm_num
      linarith
    · norm_num
  · rintro q (rfl | rfl)
    · exact le_rfl
    · rw [C02_aicc_formula _ _ _ (by norm_num), C02_aicc_formula _ _ _ (by norm_num)]
      simp only [Real.log_exp, Real.log_one]
      norm_num
  · rintro _ ⟨q, (rfl | rfl), rfl⟩
    · exact le_of_eq (by norm_num)
    · rw [C02_aicc_formula _ _ _ (by norm_num), C02_aicc_formula _ _ _ (by norm_num)]
      simp only [Nat.cast_ofNat, ex, mul_one]
      norm_num
      linarith

end GoSelect
