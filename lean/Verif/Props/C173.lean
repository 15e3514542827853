import Verif.Props.C02
import Verif.Props.C67_C68
import Verif.Props.C172

/-!
# C173: stricter criteria choose smaller models
-/

namespace GoSelect

open Finset Spec

/-- `p` (number of features and residual sum of squares) is a best candidate by a criterion for `n` data points. -/
def Spec.BestBy (crit : Nat → Nat → ℝ → ℝ) (n : Nat) (C : Nat × ℝ → Prop) (p : Nat × ℝ) : Prop :=
  C p ∧ ∀ q, C q → crit p.1 n p.2 ≤ crit q.1 n q.2

/-- A model that is not larger and is not preferred by a criterion of the form penalty plus `n log rss` fits no better. -/
theorem rss_le_of_pref {a b : ℝ} {n : Nat} (hn : 0 < n) {r s : ℝ} (hr : 0 < r) (hs : 0 < s) (hab : b ≤ a)
    (h : a + n * Real.log r ≤ b + n * Real.log s) : r ≤ s := by
  have hn' : (0 : ℝ) < n := by exact_mod_cast hn
  have : Real.log r ≤ Real.log s := by
    by_contra hlt
    have := mul_lt_mul_of_pos_left (not_le.1 hlt) hn'
    linarith
  exact (Real.log_le_log_iff hr hs).1 this

theorem log_eight : 2 < Real.log 8 := by
  have h := Real.log_two_gt_d9
  have e : Real.log 8 = 3 * Real.log 2 := by
    rw [show (8 : ℝ) = 2 ^ 3 by norm_num, Real.log_pow]
    norm_num
  rw [e]
  linarith

/-- **C173.** With at least 8 data points, the choice of `Bic` has at most as many features as that of `Aic`, and fits no better. -/
theorem C173_bic {n : Nat} (hn : 8 ≤ n) (C : Nat × ℝ → Prop) (hC : ∀ q, C q → 0 < q.2) {p q : Nat × ℝ} (hp : BestBy aic n C p)
    (hq : BestBy bic n C q) : q.1 ≤ p.1 ∧ p.2 ≤ q.2 := by
  have h1 := hp.2 q hq.1
  have h2 := hq.2 p hp.1
  have hl : 2 < Real.log n := log_eight.trans_le (Real.log_le_log (by norm_num) (by exact_mod_cast hn))
  unfold aic at h1
  unfold bic at h2
  have hk : q.1 ≤ p.1 := by
    by_contra hlt
    have hlt' : (p.1 : ℝ) < q.1 := by exact_mod_cast not_le.1 hlt
    nlinarith
  have hk' : (q.1 : ℝ) ≤ p.1 := by exact_mod_cast hk
  exact ⟨hk, rss_le_of_pref (by omega) (hC p hp.1) (hC q hq.1) (by linarith) h1⟩

/-- The correction of `Aicc` grows with the number of features. -/
theorem correction_lt {n k l : Nat} (h : k < l) :
    ((2 * k * k + 2 * k : Nat) : ℝ) / ((if n ≤ k + 1 then 1 else n - k - 1 : Nat) : ℝ) <
      ((2 * l * l + 2 * l : Nat) : ℝ) / ((if n ≤ l + 1 then 1 else n - l - 1 : Nat) : ℝ) := by
  have h1 : (if n ≤ l + 1 then 1 else n - l - 1 : Nat) ≤ (if n ≤ k + 1 then 1 else n - k - 1 : Nat) := by
    split_ifs <;> omega
  have h2 : 0 < (if n ≤ l + 1 then 1 else n - l - 1 : Nat) := by split_ifs <;> omega
  have h3 : 2 * k * k + 2 * k < 2 * l * l + 2 * l := by nlinarith
  have h2' : (0 : ℝ) < ((if n ≤ l + 1 then 1 else n - l - 1 : Nat) : ℝ) := by exact_mod_cast h2
  refine (div_le_div_of_nonneg_left (Nat.cast_nonneg _) h2' (by exact_mod_cast h1)).trans_lt ?_
  exact div_lt_div_of_pos_right (by exact_mod_cast h3) h2'

/-- **C173.** The choice of `Aicc` has at most as many features as that of `Aic`, and fits no better. -/
theorem C173_aicc {n : Nat} (hn : 0 < n) (C : Nat × ℝ → Prop) (hC : ∀ q, C q → 0 < q.2) {p q : Nat × ℝ} (hp : BestBy aic n C p)
    (hq : BestBy aicc n C q) : q.1 ≤ p.1 ∧ p.2 ≤ q.2 := by
  have h1 := hp.2 q hq.1
  have h2 := hq.2 p hp.1
  rw [aicc_eq, aicc_eq] at h2
  have hk : q.1 ≤ p.1 := by
    by_contra hlt
    have := correction_lt (n := n) (not_le.1 hlt)
    linarith
  unfold aic at h1
  have hk' : (q.1 : ℝ) ≤ p.1 := by exact_mod_cast hk
  exact ⟨hk, rss_le_of_pref hn (hC p hp.1) (hC q hq.1) (by linarith) h1⟩

/-- How much the correction of `Aicc` grows per feature, for at most `K` features. -/
theorem correction_slope {n K k l : Nat} (hK : 2 * K + 1 ≤ n) (hn : 2 ≤ n) (hkl : k ≤ l) (hl : l ≤ K) :
    (2 * (l : ℝ) ^ 2 + 2 * l) / ((n : ℝ) - l - 1) - (2 * (k : ℝ) ^ 2 + 2 * k) / ((n : ℝ) - k - 1) ≤
      (l - k) * (8 * (2 * K + 1) / ((n : ℝ) - 1)) := by
  have hn' : (2 : ℝ) ≤ n := by exact_mod_cast hn
  have hK' : 2 * (K : ℝ) + 1 ≤ n := by exact_mod_cast hK
  have hkl' : (k : ℝ) ≤ l := by exact_mod_cast hkl
  have hl' : (l : ℝ) ≤ K := by exact_mod_cast hl
  have hk0 : (0 : ℝ) ≤ k := Nat.cast_nonneg _
  have pl : ((n : ℝ) - 1) / 2 ≤ (n : ℝ) - l - 1 := by linarith
  have pk : ((n : ℝ) - 1) / 2 ≤ (n : ℝ) - k - 1 := by linarith
  have pn : (0 : ℝ) < (n : ℝ) - 1 := by linarith
  have pl0 : (0 : ℝ) < (n : ℝ) - l - 1 := by linarith
  have pk0 : (0 : ℝ) < (n : ℝ) - k - 1 := by linarith
  have e : (2 * (l : ℝ) ^ 2 + 2 * l) / ((n : ℝ) - l - 1) - (2 * (k : ℝ) ^ 2 + 2 * k) / ((n : ℝ) - k - 1) =
      (l - k) * (2 * (((n : ℝ) - 1) * (k + l + 1) - k * l) / (((n : ℝ) - l - 1) * ((n : ℝ) - k - 1))) := by
    field_simp
    ring
  rw [e]
  refine mul_le_mul_of_nonneg_left ?_ (by linarith)
  rw [div_le_div_iff₀ (mul_pos pl0 pk0) pn]
  have h1 : ((n : ℝ) - 1) / 2 * (((n : ℝ) - 1) / 2) ≤ ((n : ℝ) - l - 1) * ((n : ℝ) - k - 1) :=
    mul_le_mul pl pk (by linarith) pl0.le
  have h2 : ((n : ℝ) - 1) * (k + l + 1) - k * l ≤ ((n : ℝ) - 1) * (2 * K + 1) := by
    have : 0 ≤ (k : ℝ) * l := by positivity
    have := mul_le_mul_of_nonneg_left (show (k : ℝ) + l + 1 ≤ 2 * K + 1 by linarith) pn.le
    linarith
  have h3 := mul_le_mul_of_nonneg_left h1 (show (0 : ℝ) ≤ 8 * (2 * K + 1) by positivity)
  have h4 := mul_le_mul_of_nonneg_right h2 pn.le
  nlinarith

/-- **C173.** Among models with at most `K` features, at most half of the number of data points: if this is large compared to `K`, the choice
of `Bic` has at most as many features as that of `Aicc`, and fits no better. -/
theorem C173_bic_aicc {n K : Nat} (hK : 2 * K + 1 ≤ n) (hlog : 2 + 8 * (2 * K + 1) / ((n : ℝ) - 1) < Real.log n) (hn : 2 ≤ n)
    (C : Nat × ℝ → Prop) (hC : ∀ q, C q → 0 < q.2 ∧ q.1 ≤ K) {p q : Nat × ℝ} (hp : BestBy aicc n C p) (hq : BestBy bic n C q) :
    q.1 ≤ p.1 ∧ p.2 ≤ q.2 := by
  have h1 := hp.2 q hq.1
  have h2 := hq.2 p hp.1
  have bp := (hC p hp.1).2
  have bq := (hC q hq.1).2
  unfold bic at h2
  have hk : q.1 ≤ p.1 := by
    by_contra hlt
    rw [C02_aicc_formula _ _ _ (by omega), C02_aicc_formula _ _ _ (by omega)] at h1
    have hs := correction_slope hK hn (not_le.1 hlt).le bq
    have hlt' : (p.1 : ℝ) < q.1 := by exact_mod_cast not_le.1 hlt
    have := mul_lt_mul_of_pos_left hlog (show (0 : ℝ) < q.1 - p.1 by linarith)
    nlinarith
  refine ⟨hk, ?_⟩
  have hk' : (q.1 : ℝ) ≤ p.1 := by exact_mod_cast hk
  rw [aicc_eq, aicc_eq] at h1
  unfold aic at h1
  have hc : ((2 * q.1 * q.1 + 2 * q.1 : Nat) : ℝ) / ((if n ≤ q.1 + 1 then 1 else n - q.1 - 1 : Nat) : ℝ) ≤
      ((2 * p.1 * p.1 + 2 * p.1 : Nat) : ℝ) / ((if n ≤ p.1 + 1 then 1 else n - p.1 - 1 : Nat) : ℝ) := by
    rcases hk.eq_or_lt with e | e
    · rw [e]
    · exact (correction_lt e).le
  refine rss_le_of_pref (a := 2 * p.1 + ((2 * p.1 * p.1 + 2 * p.1 : Nat) : ℝ) / ((if n ≤ p.1 + 1 then 1 else n - p.1 - 1 : Nat) : ℝ))
    (b := 2 * q.1 + ((2 * q.1 * q.1 + 2 * q.1 : Nat) : ℝ) / ((if n ≤ q.1 + 1 then 1 else n - q.1 - 1 : Nat) : ℝ))
    (by omega : 0 < n) (hC p hp.1).1 (hC q hq.1).1 ?_ ?_
  · linarith
  · linarith

/-- A model of the data with its number of features and residual sum of squares. -/
def Spec.IsModelOf (svd : Mat ℝ → SVD ℝ) (X : Mat ℝ) (y : List ℝ) (p : Nat × ℝ) : Prop :=
  ∃ m c, m.length = X.nc ∧ 0 < Spec.card m ∧ Spec.card m = p.1 ∧ fitModel svd X y m = some (c, p.2)

/-- **C173.** The first model of `BruteForceSelect` has at most as many features as any model with the smallest `Aic`, and fits no better. -/
theorem C173_brute (svd : Mat ℝ → SVD ℝ) {X : Mat ℝ} {y : List ℝ} (hy : y.length = X.nr) (hn : 0 < X.nr)
    (hpos : ∀ q, IsModelOf svd X y q → 0 < q.2) (hs : Highscore ℝ) (h : BruteForceReturns (regressionProblem svd X y) hs) (a : Node ℝ)
    (ha : hs.items.head? = some a) {p : Nat × ℝ} (hp : BestBy aic X.nr (IsModelOf svd X y) p) :
    ∃ r, fitModel svd X y a.model = some (a.coeff, r) ∧ Spec.card a.model ≤ p.1 ∧ p.2 ≤ r := by
  obtain ⟨h0, a1, -, a3, -⟩ := C06_every_model_once (regressionProblem svd X y)
  cases h.unique a1
  have ham : a ∈ hs.items := List.mem_of_mem_head? ha
  obtain ⟨l1, l2⟩ := (a3 a.model).1 (List.mem_map_of_mem ham)
  obtain ⟨c, f1, -⟩ := fitModel_eq_some (svd := svd) hy l2 (le_of_eq l1)
  have own := C06_own_score _ hs h a ham
  have ec : a.coeff = c := by rw [own.1]; simp [regressionProblem, f1]
  have es : a.score = -aicc (Spec.card a.model) X.nr (sse (designOf X a.model) (vec c) (vec y)) := by
    rw [own.2]; simp [regressionProblem, f1]
  have hbest : hs.bestScore = a.score := by
    cases hi : hs.items with
    | nil => rw [hi] at ha; cases ha
    | cons b bs =>
      rw [hi] at ha
      cases ha
      simp [Highscore.bestScore, hi]
  have hnc : 0 < X.nc := by
    have : Spec.card a.model ≤ a.model.length := by rw [card_eq_count]; exact List.count_le_length
    have l1' : a.model.length = X.nc := l1
    omega
  have hb : BestBy aicc X.nr (IsModelOf svd X y) (Spec.card a.model, sse (designOf X a.model) (vec c) (vec y)) := by
    refine ⟨⟨a.model, c, l1, l2, rfl, f1⟩, ?_⟩
    rintro ⟨k, r⟩ ⟨m, c', q1, q2, rfl, q3⟩
    have k1 := (C07_best (regressionProblem svd X y) hnc hs h).2 m q1 q2
    have e : (regressionProblem svd X y).rss m = r := by
      simp only [regressionProblem, q3]
      rfl
    rw [hbest, es, e] at k1
    have : -aicc (Spec.card m) X.nr r ≤ -aicc (Spec.card a.model) X.nr (sse (designOf X a.model) (vec c) (vec y)) := k1
    linarith
  obtain ⟨r1, r2⟩ := C173_aicc hn _ hpos hp hb
  exact ⟨_, by rw [ec]; exact f1, r1, r2⟩

/-- **C173.** `GetCriteria` with `Aicc` and `Bic` along a path: if there are enough data, the best node by `Bic` has at most as many features as
the best one by `Aicc`. -/
theorem C173_path {X : Mat ℝ} {y : List ℝ} (nodes : List (LassoLarsNode ℝ)) {K : Nat} (hy : y.length = X.nr)
    (h : ∀ n ∈ nodes, n.selection ≠ [] ∧ n.selection.Pairwise (· < ·) ∧ (∀ v ∈ n.selection, v < X.nc) ∧
      n.coeff.length = n.selection.length)
    (hfit : ∀ n ∈ nodes, 0 < sse X (coeffOf n) (vec y) ∧ n.selection.length ≤ K) (hK : 2 * K + 1 ≤ X.nr) (hn : 2 ≤ X.nr)
    (hlog : 2 + 8 * (2 * K + 1) / ((X.nr : ℝ) - 1) < Real.log X.nr) :
    ∃ A B, getCriteria X y nodes aicc = some A ∧ getCriteria X y nodes bic = some B ∧
      ∀ (i j : Nat) (n m : LassoLarsNode ℝ) (a b : ℝ), nodes[i]? = some n → nodes[j]? = some m → A[i]? = some a → B[j]? = some b →
        (∀ x ∈ A, a ≤ x) → (∀ x ∈ B, b ≤ x) →
        m.selection.length ≤ n.selection.length ∧ sse X (coeffOf n) (vec y) ≤ sse X (coeffOf m) (vec y) := by
  refine ⟨_, _, C68_criteria_partial X y nodes aicc hy h, C68_criteria_partial X y nodes bic hy h, ?_⟩
  intro i j n m a b hi hj ha hb hA hB
  rw [List.getElem?_map, hi, Option.map_some, Option.some.injEq] at ha
  rw [List.getElem?_map, hj, Option.map_some, Option.some.injEq] at hb
  have mn := List.mem_of_getElem? hi
  have mm := List.mem_of_getElem? hj
  refine C173_bic_aicc (n := X.nr) (K := K) hK hlog hn
    (fun q => ∃ x ∈ nodes, q = (x.selection.length, sse X (coeffOf x) (vec y))) ?_
    (p := (n.selection.length, sse X (coeffOf n) (vec y))) (q := (m.selection.length, sse X (coeffOf m) (vec y))) ?_ ?_
  · rintro q ⟨x, hx, rfl⟩
    exact hfit x hx
  · refine ⟨⟨n, mn, rfl⟩, ?_⟩
    rintro q ⟨x, hx, rfl⟩
    rw [← ha] at hA
    exact hA _ (List.mem_map_of_mem hx)
  · refine ⟨⟨m, mm, rfl⟩, ?_⟩
    rintro q ⟨x, hx, rfl⟩
    rw [← hb] at hB
    exact hB _ (List.mem_map_of_mem hx)

theorem log_hundred : 3 < Real.log 100 := by
  rw [Real.lt_log_iff_exp_lt (by norm_num)]
  have h1 := Real.exp_one_lt_d9
  have h2 : Real.exp 3 = Real.exp 1 ^ 3 := by rw [← Real.exp_nat_mul]; norm_num
  rw [h2]
  calc Real.exp 1 ^ 3 < (2.7182818286 : ℝ) ^ 3 := by gcongr
    _ < 100 := by norm_num

/-- One or two features of 100 data points; the second feature reduces the logarithm of the residual sum of squares by 0.03: `Aic` and
`Aicc` take both, `Bic` one. -/
example : ∃ C : Nat × ℝ → Prop, (∀ q, C q → 0 < q.2 ∧ q.1 ≤ 2) ∧ BestBy aic 100 C (2, 1) ∧ BestBy aicc 100 C (2, 1) ∧
    BestBy bic 100 C (1, Real.exp (3 / 100)) ∧ 2 + 8 * (2 * (2 : Nat) + 1) / (((100 : Nat) : ℝ) - 1) < Real.log (100 : Nat) := by
  have hl := log_hundred
  refine ⟨fun q => q = (2, 1) ∨ q = (1, Real.exp (3 / 100)), ?_, ⟨Or.inl rfl, ?_⟩, ⟨Or.inl rfl, ?_⟩, ⟨Or.inr rfl, ?_⟩, ?_⟩
  · rintro q (rfl | rfl)
    · norm_num
    · exact ⟨Real.exp_pos _, by norm_num⟩
  · rintro q (rfl | rfl)
    · exact le_rfl
    · norm_num [aic]
  · rintro q (rfl | rfl)
    · exact le_rfl
    · norm_num [aicc, aic]
  · rintro q (rfl | rfl)
    · norm_num [bic]
      linarith
    · exact le_rfl
  · push_cast
    refine lt_trans ?_ hl
    norm_num

/-- With 4 data points `Aic` takes two features and `Aicc` one. -/
example : ∃ C : Nat × ℝ → Prop, (∀ q, C q → 0 < q.2) ∧ BestBy aic 4 C (2, 1) ∧ BestBy aicc 4 C (1, Real.exp (3 / 4)) := by
  refine ⟨fun q => q = (2, 1) ∨ q = (1, Real.exp (3 / 4)), ?_, ⟨Or.inl rfl, ?_⟩, ⟨Or.inr rfl, ?_⟩⟩
  · rintro q (rfl | rfl)
    · norm_num
    · exact Real.exp_pos _
  · rintro q (rfl | rfl)
    · exact le_rfl
    · norm_num [aic]
  · rintro q (rfl | rfl)
    · norm_num [aicc, aic]
    · exact le_rfl

/-- Data for `BruteForceSelect`. -/
example (svd : Mat ℝ → SVD ℝ) (hd : ∀ A, (svd A).Of A) : (∀ q, IsModelOf svd UnitExample.X UnitExample.y q → 0 < q.2) ∧
    BestBy aic UnitExample.X.nr (IsModelOf svd UnitExample.X UnitExample.y) (1, 1) := by
  have key : ∀ q, IsModelOf svd UnitExample.X UnitExample.y q → 1 ≤ q.1 ∧ 1 ≤ q.2 := by
    rintro q ⟨m, c, h1, h2, h3, h4⟩
    exact ⟨h3 ▸ h2, (UnitExample.fit_ge hd h1 h2 h4).1⟩
  refine ⟨fun q hq => one_pos.trans_le (key q hq).2, ⟨[true, false, false], ?_⟩, fun q hq => ?_⟩
  · have hp : 0 < Spec.card [true, false, false] := by decide
    obtain ⟨c, f1, -⟩ := fitModel_eq_some (svd := svd) (X := UnitExample.X) (y := UnitExample.y) rfl hp (show 3 ≤ 3 from le_rfl)
    have e := (UnitExample.fit_ge hd (rfl : [true, false, false].length = 3) hp f1).2 rfl
    rw [e] at f1
    exact ⟨c, rfl, hp, by decide, f1⟩
  · obtain ⟨h1, h2⟩ := key q hq
    have h1' : (1 : ℝ) ≤ q.1 := by exact_mod_cast h1
    have h3 : 0 ≤ (UnitExample.X.nr : ℝ) * Real.log q.2 := mul_nonneg (Nat.cast_nonneg _) (Real.log_nonneg h2)
    unfold aic
    rw [Real.log_one]
    push_cast
    linarith

/-- A path of two nodes for 100 rows. -/
example : ∃ (X : Mat ℝ) (y : List ℝ) (nodes : List (LassoLarsNode ℝ)), y.length = X.nr ∧ nodes.length = 2 ∧
    (∀ n ∈ nodes, n.selection ≠ [] ∧ n.selection.Pairwise (· < ·) ∧ (∀ v ∈ n.selection, v < X.nc) ∧
      n.coeff.length = n.selection.length) ∧ (∀ n ∈ nodes, 0 < sse X (coeffOf n) (vec y) ∧ n.selection.length ≤ 2) ∧
    2 * 2 + 1 ≤ X.nr ∧ 2 + 8 * (2 * (2 : Nat) + 1) / ((X.nr : ℝ) - 1) < Real.log X.nr := by
  refine ⟨unitX 100 2, List.replicate 100 1, [⟨[1], 1, [1]⟩, ⟨[1, 2], 1 / 2, [0, 1]⟩], rfl, rfl, ?_, ?_, ?_, ?_⟩
  · intro n hn
    fin_cases hn <;> simp [unitX]
  · intro n hn
    refine ⟨?_, by fin_cases hn <;> simp⟩
    refine lt_of_lt_of_le ?_ (Finset.single_le_sum (f := fun i => (lin (unitX 100 2) (coeffOf n) i - vec (List.replicate 100 1) i) ^ 2)
      (fun i _ => sq_nonneg _) (mem_range.2 (by show 99 < 100; omega) : 99 ∈ range (unitX 100 2 : Mat ℝ).nr))
    have : lin (unitX 100 2) (coeffOf n) 99 = 0 := by simp [lin, unitX, Finset.sum_range_succ]
    simp only [this]
    norm_num [vec]
  · show 2 * 2 + 1 ≤ 100
    norm_num
  · have : ((unitX 100 2 : Mat ℝ).nr : ℝ) = 100 := by norm_num [unitX]
    rw [this]
    refine lt_trans ?_ log_hundred
    norm_num

end GoSelect
