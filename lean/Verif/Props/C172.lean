import Verif.Props.C128
import Verif.Props.C107
import Verif.Props.C118_C119
import Mathlib.Analysis.Real.Sqrt
import Mathlib.Analysis.Complex.ExponentialBounds

/-!
# C172: small changes of the response do not change a clear choice of the model
-/

namespace GoSelect

open Finset Spec

/-- The triangle inequality. -/
theorem sqrt_sum_sq_le (n : Nat) (a b : Nat → ℝ) :
    √(∑ i ∈ range n, a i ^ 2) ≤ √(∑ i ∈ range n, b i ^ 2) + √(∑ i ∈ range n, (a i - b i) ^ 2) := by
  have hB : 0 ≤ ∑ i ∈ range n, b i ^ 2 := sum_nonneg fun i _ => sq_nonneg _
  have hC : 0 ≤ ∑ i ∈ range n, (a i - b i) ^ 2 := sum_nonneg fun i _ => sq_nonneg _
  rw [Real.sqrt_le_iff]
  refine ⟨by positivity, ?_⟩
  rw [add_sq, Real.sq_sqrt hB, Real.sq_sqrt hC]
  have h := Real.sum_mul_le_sqrt_mul_sqrt (range n) b (fun i => a i - b i)
  have e : ∑ i ∈ range n, a i ^ 2 = ∑ i ∈ range n, b i ^ 2 + 2 * ∑ i ∈ range n, b i * (a i - b i) + ∑ i ∈ range n, (a i - b i) ^ 2 := by
    rw [Finset.mul_sum, ← sum_add_distrib, ← sum_add_distrib]
    exact sum_congr rfl fun i _ => by ring
  linarith

theorem rss_change_le (svd : Mat ℝ → SVD ℝ) {X : Mat ℝ} {y y' : List ℝ} (hy : y.length = X.nr) (hy' : y'.length = X.nr) {m : List Bool}
    (hm : m.length = X.nc) (hpos : 0 < Spec.card m) (hd : (svd (designOf X m)).Of (designOf X m)) {c c' : List ℝ} {r r' : ℝ}
    (h : fitModel svd X y m = some (c, r)) (h' : fitModel svd X y' m = some (c', r')) :
    √r ≤ √r' + √(∑ i ∈ range X.nr, (vec y i - vec y' i) ^ 2) := by
  obtain ⟨b, f1, f2, -⟩ := fitModel_eq_some (svd := svd) hy hpos hm.le
  obtain ⟨b', g1, g2, -⟩ := fitModel_eq_some (svd := svd) hy' hpos hm.le
  rw [h, Option.some.injEq, Prod.mk.injEq] at f1
  rw [h', Option.some.injEq, Prod.mk.injEq] at g1
  rw [f1.2, g1.2]
  have k := (C128_fit _ _ hd y y' b b' f2 g2).2.1
  refine (sqrt_sum_sq_le _ _ _).trans (add_le_add le_rfl (Real.sqrt_le_sqrt (le_trans (le_of_eq ?_) k)))
  exact sum_congr rfl fun i _ => by ring

/-- **C172.** The root of the residual sum of squares of a model changes by at most the length of the change of the response, also if
singular values are discarded. -/
theorem C172_rss (svd : Mat ℝ → SVD ℝ) {X : Mat ℝ} {y y' : List ℝ} (hy : y.length = X.nr) (hy' : y'.length = X.nr) {m : List Bool}
    (hm : m.length = X.nc) (hpos : 0 < Spec.card m) (hd : (svd (designOf X m)).Of (designOf X m)) {c c' : List ℝ} {r r' : ℝ}
    (h : fitModel svd X y m = some (c, r)) (h' : fitModel svd X y' m = some (c', r')) :
    |√r' - √r| ≤ √(∑ i ∈ range X.nr, (vec y i - vec y' i) ^ 2) := by
  have h1 := rss_change_le svd hy hy' hm hpos hd h h'
  have h2 := rss_change_le svd hy' hy hm hpos hd h' h
  have e : ∑ i ∈ range X.nr, (vec y' i - vec y i) ^ 2 = ∑ i ∈ range X.nr, (vec y i - vec y' i) ^ 2 :=
    sum_congr rfl fun i _ => by ring
  rw [e] at h2
  rw [abs_le]
  constructor <;> linarith

/-- The logarithm of a sum of squares, if its root changes by at most `ε` and both roots are at least `ρ`. -/
theorem log_change_le {r r' ρ ε : ℝ} (hρ : 0 < ρ) (h : ρ ≤ √r) (h' : ρ ≤ √r') (he : |√r' - √r| ≤ ε) :
    |Real.log r' - Real.log r| ≤ 2 * ε / ρ := by
  have key : ∀ a b : ℝ, ρ ≤ √a → ρ ≤ √b → √b - √a ≤ ε → Real.log b - Real.log a ≤ 2 * ε / ρ := by
    intro a b ha hb hab
    have pa : 0 < √a := hρ.trans_le ha
    have pb : 0 < √b := hρ.trans_le hb
    have la : Real.log a = 2 * Real.log √a := by rw [Real.log_sqrt (Real.sqrt_pos.1 pa).le]; ring
    have lb : Real.log b = 2 * Real.log √b := by rw [Real.log_sqrt (Real.sqrt_pos.1 pb).le]; ring
    have h1 := Real.log_le_sub_one_of_pos (div_pos pb pa)
    rw [Real.log_div pb.ne' pa.ne'] at h1
    have h2 : √b / √a - 1 = (√b - √a) / √a := by field_simp
    have he0 : 0 ≤ ε := (abs_nonneg _).trans he
    have h3 : (√b - √a) / √a ≤ ε / ρ :=
      (div_le_div_of_nonneg_right hab pa.le).trans (div_le_div_of_nonneg_left he0 hρ ha)
    rw [la, lb, mul_div_assoc]
    linarith
  have h1 := key r r' h h' ((le_abs_self _).trans he)
  have h2 := key r' r h' h ((neg_sub √r' √r ▸ neg_le_abs _).trans he)
  rw [abs_le]
  constructor <;> linarith

/-- The residual sum of squares of every model is at least `ρ ^ 2`. -/
def Spec.NoCloseFit (svd : Mat ℝ → SVD ℝ) (X : Mat ℝ) (y : List ℝ) (ρ : ℝ) : Prop :=
  ∀ m c r, m.length = X.nc → 0 < Spec.card m → fitModel svd X y m = some (c, r) → ρ ^ 2 ≤ r

/-- The criterion of a model. -/
noncomputable def modelAicc (svd : Mat ℝ → SVD ℝ) (X : Mat ℝ) (y : List ℝ) (m : List Bool) : ℝ :=
  aicc (Spec.card m) X.nr (((fitModel svd X y m).map (·.2)).getD 0)

theorem aicc_change_le (svd : Mat ℝ → SVD ℝ) {X : Mat ℝ} {y y' : List ℝ} (hy : y.length = X.nr) (hy' : y'.length = X.nr) {m : List Bool}
    (hm : m.length = X.nc) (hpos : 0 < Spec.card m) (hd : (svd (designOf X m)).Of (designOf X m)) {ρ ε : ℝ} (hε : 0 ≤ ε) (hρ : ε < ρ)
    (hr : NoCloseFit svd X y ρ) (hyy : ∑ i ∈ range X.nr, (vec y i - vec y' i) ^ 2 ≤ ε ^ 2) :
    |modelAicc svd X y' m - modelAicc svd X y m| ≤ 2 * X.nr * ε / (ρ - ε) := by
  obtain ⟨c, f1, -⟩ := fitModel_eq_some (svd := svd) hy hpos hm.le
  obtain ⟨c', g1, -⟩ := fitModel_eq_some (svd := svd) hy' hpos hm.le
  have h1 := hr m _ _ hm hpos f1
  have h2 := (C172_rss svd hy hy' hm hpos hd f1 g1).trans (Real.sqrt_le_iff.2 ⟨hε, hyy⟩)
  have h3 := Real.le_sqrt_of_sq_le h1
  have h4 := abs_le.1 h2
  have h5 := log_change_le (ρ := ρ - ε) (by linarith) (by linarith) (by linarith) h2
  have e1 : modelAicc svd X y m = aicc (Spec.card m) X.nr (sse (designOf X m) (vec c) (vec y)) := by
    simp [modelAicc, f1]
  have e2 : modelAicc svd X y' m = aicc (Spec.card m) X.nr (sse (designOf X m) (vec c') (vec y')) := by
    simp [modelAicc, g1]
  rw [e1, e2]
  unfold aicc aic
  have h6 : |(X.nr : ℝ) * (Real.log (sse (designOf X m) (vec c') (vec y')) - Real.log (sse (designOf X m) (vec c) (vec y)))| ≤
      X.nr * (2 * ε / (ρ - ε)) := by
    rw [abs_mul, abs_of_nonneg (Nat.cast_nonneg _ : (0 : ℝ) ≤ X.nr)]
    exact mul_le_mul_of_nonneg_left h5 (Nat.cast_nonneg _)
  refine le_trans (le_of_eq ?_) (h6.trans (le_of_eq ?_))
  · congr 1
    ring
  · ring

/-- **C172.** If no model fits closely, the scores of `BruteForceSelect` change little with the response. -/
theorem C172_scores (svd : Mat ℝ → SVD ℝ) (hd : ∀ A, (svd A).Of A) {X : Mat ℝ} {y y' : List ℝ} (hy : y.length = X.nr)
    (hy' : y'.length = X.nr) {ρ ε : ℝ} (hε : 0 ≤ ε) (hρ : ε < ρ) (hr : NoCloseFit svd X y ρ)
    (hyy : ∑ i ∈ range X.nr, (vec y i - vec y' i) ^ 2 ≤ ε ^ 2) (hs hs' : Highscore ℝ)
    (h : BruteForceReturns (regressionProblem svd X y) hs) (h' : BruteForceReturns (regressionProblem svd X y') hs') :
    hs'.len = hs.len ∧ (∀ n ∈ hs.items, ∃ n' ∈ hs'.items, n'.model = n.model) ∧
    ∀ n ∈ hs.items, ∀ n' ∈ hs'.items, n'.model = n.model → |n'.score - n.score| ≤ 2 * X.nr * ε / (ρ - ε) := by
  obtain ⟨h0, a1, -, a3, a4⟩ := C06_every_model_once (regressionProblem svd X y)
  obtain ⟨h0', b1, -, b3, b4⟩ := C06_every_model_once (regressionProblem svd X y')
  cases h.unique a1
  cases h'.unique b1
  have hnc : (regressionProblem svd X y').ncols = (regressionProblem svd X y).ncols := rfl
  refine ⟨by rw [hnc] at b4; omega, fun n hn => ?_, fun n hn n' hn' e => ?_⟩
  · obtain ⟨n', hn', e⟩ := List.mem_map.1 ((b3 n.model).2 ((a3 n.model).1 (List.mem_map_of_mem hn)))
    exact ⟨n', hn', e⟩
  · obtain ⟨l1, l2⟩ := (a3 n.model).1 (List.mem_map_of_mem hn)
    have k := aicc_change_le svd hy hy' l1 l2 (hd _) hε hρ hr hyy
    have e1 : n.score = -modelAicc svd X y n.model := (C06_own_score _ hs h n hn).2
    have e2 : n'.score = -modelAicc svd X y' n.model := by
      rw [← e]
      exact (C06_own_score _ hs' h' n' hn').2
    rw [e1, e2, ← abs_neg]
    refine le_trans (le_of_eq ?_) k
    congr 1
    ring

/-- The first model of the list leads the others by more than `δ`. -/
def Spec.ClearWinner (hs : Highscore ℝ) (m : List Bool) (δ : ℝ) : Prop :=
  ∃ n ∈ hs.items, n.model = m ∧ ∀ n' ∈ hs.items, n'.model ≠ m → n'.score + δ < n.score

theorem winner_stays (svd : Mat ℝ → SVD ℝ) (hd : ∀ A, (svd A).Of A) {X : Mat ℝ} {y y' : List ℝ} (hy : y.length = X.nr)
    (hy' : y'.length = X.nr) {ρ ε : ℝ} (hε : 0 ≤ ε) (hρ : ε < ρ) (hr : NoCloseFit svd X y ρ)
    (hyy : ∑ i ∈ range X.nr, (vec y i - vec y' i) ^ 2 ≤ ε ^ 2) (hs : Highscore ℝ)
    (h : BruteForceReturns (regressionProblem svd X y) hs) {m : List Bool} (hw : ClearWinner hs m (4 * X.nr * ε / (ρ - ε))) :
    (m.length = X.nc ∧ 0 < Spec.card m) ∧ ∀ m', m'.length = X.nc → 0 < Spec.card m' → m' ≠ m →
      modelAicc svd X y' m < modelAicc svd X y' m' := by
  obtain ⟨h0, a1, -, a3, -⟩ := C06_every_model_once (regressionProblem svd X y)
  cases h.unique a1
  obtain ⟨n, hn, rfl, hlead⟩ := hw
  obtain ⟨l1, l2⟩ := (a3 n.model).1 (List.mem_map_of_mem hn)
  refine ⟨⟨l1, l2⟩, fun m' hm' hp' hne => ?_⟩
  obtain ⟨n2, hn2, rfl⟩ := List.mem_map.1 ((a3 m').2 ⟨hm', hp'⟩)
  have k := hlead n2 hn2 hne
  have e1 : n.score = -modelAicc svd X y n.model := (C06_own_score _ hs h n hn).2
  have e2 : n2.score = -modelAicc svd X y n2.model := (C06_own_score _ hs h n2 hn2).2
  have k1 := abs_le.1 (aicc_change_le svd hy hy' l1 l2 (hd _) hε hρ hr hyy)
  have k2 := abs_le.1 (aicc_change_le svd hy hy' hm' hp' (hd _) hε hρ hr hyy)
  have e3 : 4 * (X.nr : ℝ) * ε / (ρ - ε) = 2 * (2 * X.nr * ε / (ρ - ε)) := by ring
  rw [e1, e2, e3] at k
  linarith [k1.2, k2.1]

/-- **C172.** If one model clearly wins, `BruteForceSelect` puts it first also after a small change of the response. -/
theorem C172_best (svd : Mat ℝ → SVD ℝ) (hd : ∀ A, (svd A).Of A) {X : Mat ℝ} {y y' : List ℝ} (hy : y.length = X.nr)
    (hy' : y'.length = X.nr) {ρ ε : ℝ} (hε : 0 ≤ ε) (hρ : ε < ρ) (hr : NoCloseFit svd X y ρ)
    (hyy : ∑ i ∈ range X.nr, (vec y i - vec y' i) ^ 2 ≤ ε ^ 2) (hs hs' : Highscore ℝ)
    (h : BruteForceReturns (regressionProblem svd X y) hs) (h' : BruteForceReturns (regressionProblem svd X y') hs')
    {m : List Bool} (hw : ClearWinner hs m (4 * X.nr * ε / (ρ - ε))) : ∃ a, hs'.items.head? = some a ∧ a.model = m := by
  obtain ⟨⟨l1, l2⟩, hlt⟩ := winner_stays svd hd hy hy' hε hρ hr hyy hs h hw
  obtain ⟨h0', b1, -, b3, -⟩ := C06_every_model_once (regressionProblem svd X y')
  cases h'.unique b1
  obtain ⟨n, hn, rfl⟩ := List.mem_map.1 ((b3 m).2 ⟨l1, l2⟩)
  cases hi : hs'.items with
  | nil => rw [hi] at hn; cases hn
  | cons a as =>
    refine ⟨a, rfl, ?_⟩
    by_contra hne
    have ha : a ∈ hs'.items := by simp [hi]
    obtain ⟨q1, q2⟩ := (b3 a.model).1 (List.mem_map_of_mem ha)
    have k := hlt _ q1 q2 hne
    have hle : n.score ≤ a.score := by
      have hsort := C07_sorted _ hs' h'
      rw [Highscore.scores, hi, List.map_cons, List.pairwise_cons] at hsort
      rw [hi] at hn
      rcases List.mem_cons.1 hn with rfl | hn
      · exact le_rfl
      · exact hsort.1 _ (List.mem_map_of_mem hn)
    have e1 : n.score = -modelAicc svd X y' n.model := (C06_own_score _ hs' h' n hn).2
    have e2 : a.score = -modelAicc svd X y' a.model := (C06_own_score _ hs' h' a ha).2
    rw [e1, e2] at hle
    linarith

/-- **C172.** The same for `SelectModel` on the changed response. -/
theorem C172_search (svd : Mat ℝ → SVD ℝ) (hd : ∀ A, (svd A).Of A) {X : Mat ℝ} {y y' : List ℝ} (hy : y.length = X.nr)
    (hdata : GoodData svd X y') (hrows : X.nc < X.nr) {ρ ε : ℝ} (hε : 0 ≤ ε) (hρ : ε < ρ) (hr : NoCloseFit svd X y ρ)
    (hyy : ∑ i ∈ range X.nr, (vec y i - vec y' i) ^ 2 ≤ ε ^ 2) (hs : Highscore ℝ)
    (h : BruteForceReturns (regressionProblem svd X y) hs) {m : List Bool} (hw : ClearWinner hs m (4 * X.nr * ε / (ρ - ε)))
    (maxQueue : Int) (cutoff : ℝ) (M : Int) (hM : 2 ≤ M) (s : SState ℝ)
    (hsr : SelectReaches (regressionSearch svd X y' (List.replicate X.nc false) maxQueue cutoff) M [] s)
    (hdone : s.main = .done) (ht : s.torn = false) (ho : s.overflows = 0) :
    ∃ a, s.hs.items.head? = some a ∧ a.model = m := by
  obtain ⟨⟨l1, l2⟩, hlt⟩ := winner_stays svd hd hy hdata.rows hε hρ hr hyy hs h hw
  obtain ⟨hb, hbf, -, -, -⟩ := C06_every_model_once (regressionProblem svd X y')
  obtain ⟨hlen, he⟩ := C119_regression svd X y' hdata hrows maxQueue cutoff M hM s hsr hdone ht ho hb hbf
  have hnc : 0 < X.nc := by
    have : Spec.card m ≤ m.length := by rw [card_eq_count]; exact List.count_le_length
    omega
  have hbest := (C07_best (regressionProblem svd X y') hnc hb hbf).2 m l1 l2
  cases hi : s.hs.items with
  | nil => simp [Highscore.len, hi] at hlen
  | cons a as =>
    refine ⟨a, rfl, ?_⟩
    by_contra hne
    have ha : a ∈ s.hs.items := by simp [hi]
    obtain ⟨q1, q2, -⟩ := (C13_each_model_once _ M (by omega) s hsr).2 a ha
    have hap : 0 < Spec.card a.model := by
      rcases Nat.eq_zero_or_pos (Spec.card a.model) with h0 | h0
      · exact absurd (eq_replicate_of_card q1 h0) q2
      · exact h0
    have k := hlt _ q1 hap hne
    have e1 : s.hs.bestScore = a.score := by simp [Highscore.bestScore, hi]
    have e2 : a.score = -modelAicc svd X y' a.model := ((C13_own_score _ M (by omega) s hsr a ha).1 hap).1
    have e3 : -modelAicc svd X y' m ≤ hb.bestScore := hbest
    rw [← he, e1, e2] at e3
    linarith

/-- The response of `UnitExample`, a little changed: the first feature alone is a clear winner. -/
example (svd : Mat ℝ → SVD ℝ) (hd : ∀ A, (svd A).Of A) : NoCloseFit svd UnitExample.X UnitExample.y 1 ∧
    ∑ i ∈ range UnitExample.X.nr, (vec UnitExample.y i - vec [100 + 1 / 10, 0, 0, 0, 1] i) ^ 2 ≤ (1 / 10) ^ 2 ∧
    GoodData svd UnitExample.X [100 + 1 / 10, 0, 0, 0, 1] ∧ UnitExample.X.nc < UnitExample.X.nr ∧
    ∃ hs, BruteForceReturns (regressionProblem svd UnitExample.X UnitExample.y) hs ∧
      ClearWinner hs [true, false, false] (4 * UnitExample.X.nr * (1 / 10) / (1 - 1 / 10)) := by
  have hfit : ∀ (y : List ℝ) (m c r), y.length = 5 → m.length = 3 → 0 < Spec.card m → fitModel svd UnitExample.X y m = some (c, r) →
      r = ∑ i ∈ range 5, if HasFeature m i then 0 else vec y i ^ 2 := by
    intro y m c r hy hm hpos hf
    obtain ⟨c', f1, f2, -⟩ := fitModel_eq_some (svd := svd) (X := UnitExample.X) (y := y) hy hpos hm.le
    rw [hf, Option.some.injEq, Prod.mk.injEq] at f1
    rw [f1.2]
    exact unitX_sse (fit_leastSquares (UnitExample.exact hd hm) f2)
  have h4 : ∀ m : List Bool, m.length = 3 → ¬ HasFeature m 4 := fun m hm h => by have := hasFeature_lt h; omega
  refine ⟨fun m c r hm hpos hf => ?_, ?_, ?_, by show 3 < 5; omega, ?_⟩
  · rw [one_pow]
    exact (UnitExample.fit_ge hd hm hpos hf).1
  · show ∑ i ∈ range 5, _ ≤ _
    simp only [sum_range_succ, sum_range_zero]
    norm_num [vec, UnitExample.y]
  · refine ⟨rfl, by show (5 : Nat) ≤ 2 ^ 63; norm_num, fun m hm _ _ => UnitExample.exact hd hm, fun m c r hm hp _ hf => ?_,
      fun h => absurd h (by show ¬ 5 ≤ 3; omega)⟩
    have h1 : 1 ≤ r := by
      rw [hfit _ m c r rfl hm hp hf]
      have := Finset.single_le_sum (s := range 5) (f := fun i => if HasFeature m i then 0 else vec [100 + 1 / 10, 0, 0, 0, (1 : ℝ)] i ^ 2)
        (fun i _ => by positivity) (mem_range.2 (by omega : 4 < 5))
      refine le_trans ?_ this
      rw [if_neg (h4 m hm)]
      norm_num [vec]
    refine smallestFloat_le_tol.trans (le_trans ?_ h1)
    unfold rssTol
    norm_num
  · obtain ⟨hs, a1, -, a3, -⟩ := C06_every_model_once (regressionProblem svd UnitExample.X UnitExample.y)
    refine ⟨hs, a1, ?_⟩
    have score : ∀ n ∈ hs.items, ∃ r, n.model.length = 3 ∧ 0 < Spec.card n.model ∧
        n.score = -aicc (Spec.card n.model) 5 r ∧ r = ∑ i ∈ range 5, if HasFeature n.model i then 0 else vec UnitExample.y i ^ 2 := by
      intro n hn
      obtain ⟨l1, l2⟩ := (a3 n.model).1 (List.mem_map_of_mem hn)
      obtain ⟨c, f1, -⟩ := fitModel_eq_some (svd := svd) (X := UnitExample.X) (y := UnitExample.y) rfl l2 (le_of_eq l1)
      refine ⟨_, l1, l2, ?_, hfit _ _ _ _ rfl l1 l2 f1⟩
      rw [(C06_own_score _ hs a1 n hn).2]
      simp only [regressionProblem, f1]
      rfl
    obtain ⟨n, hn, e⟩ := List.mem_map.1 ((a3 [true, false, false]).2 ⟨rfl, by decide⟩)
    refine ⟨n, hn, e, fun n' hn' hne => ?_⟩
    obtain ⟨r, l1, l2, s1, s2⟩ := score n hn
    obtain ⟨r', l1', l2', s1', s2'⟩ := score n' hn'
    have hr : r = 1 := by
      rw [s2, e]
      simp only [sum_range_succ, sum_range_zero]
      simp [vec, UnitExample.y, HasFeature]
    have hδ : 4 * (UnitExample.X.nr : ℝ) * (1 / 10) / (1 - 1 / 10) = 20 / 9 := by
      have : (UnitExample.X.nr : ℝ) = 5 := by norm_num [UnitExample.X, unitX]
      rw [this]
      norm_num
    have hbest : n.score = -(10 / 3) := by
      rw [s1, e, hr]
      have : Spec.card [true, false, false] = 1 := by decide
      rw [this]
      norm_num [aicc, aic]
    rw [hδ, hbest, s1']
    generalize n'.model = m at *
    rcases m with _ | ⟨a, _ | ⟨b, _ | ⟨c, _ | ⟨d, m⟩⟩⟩⟩
    · simp at l1'
    · simp at l1'
    · simp at l1'
    · have hexp : Real.exp 1 ≤ 10001 := by
        have := Real.exp_one_lt_d9
        linarith
      have hlog : 1 ≤ Real.log 10001 := by
        rw [Real.le_log_iff_exp_le (by norm_num)]
        exact hexp
      simp only [sum_range_succ, sum_range_zero] at s2'
      cases a <;> cases b <;> cases c <;>
        simp [vec, UnitExample.y, HasFeature] at s2' <;> (try norm_num at s2') <;>
        first
          | exact absurd rfl hne
          | exact absurd l2' (by decide)
          | (have hc : Spec.card [true, false, true] = 2 := by decide
             have hc' : Spec.card [true, true, false] = 2 := by decide
             have hc'' : Spec.card [true, true, true] = 3 := by decide
             have hc1 : Spec.card [false, false, true] = 1 := by decide
             have hc2 : Spec.card [false, true, false] = 1 := by decide
             have hc3 : Spec.card [false, true, true] = 2 := by decide
             rw [s2']
             first
               | (simp only [hc, hc', hc'', hc1, hc2, hc3]
                  norm_num [aicc, aic]
                  done)
               | (simp only [hc, hc', hc'', hc1, hc2, hc3]
                  norm_num [aicc, aic]
                  linarith))
    · simp at l1'

end GoSelect
