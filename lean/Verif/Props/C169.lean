import Verif.Props.C111
import Verif.Props.C168

/-!
# C169: `SelectModel` on nearly singular data
-/

namespace GoSelect

open Finset Spec

/-- The least residual sum of squares of the model `m` is `r > 0`, reached by coefficients whose length is at most `1e6 τ √r`. -/
def Spec.ModerateFit (X : Mat ℝ) (y : List ℝ) (τ : ℝ) (m : List Bool) (r : ℝ) : Prop :=
  0 < r ∧ ∃ c, IsLeastSquares (designOf X m) c (vec y) ∧ sse (designOf X m) c (vec y) = r ∧
    (1 / 10 ^ 6) ^ 2 * ∑ j ∈ range (Spec.card m), c j ^ 2 ≤ τ ^ 2 * r

theorem Spec.ModerateFit.hasRss {X : Mat ℝ} {y : List ℝ} {τ : ℝ} {m : List Bool} {r : ℝ} (h : ModerateFit X y τ m r) : HasRss X y m r := by
  obtain ⟨-, c, h1, h2, -⟩ := h
  exact ⟨c, h1, h2.symm⟩

/-- The residual sum of squares of the fit. -/
theorem Spec.ModerateFit.rss {svd : Mat ℝ → SVD ℝ} {X : Mat ℝ} {y : List ℝ} {τ : ℝ} (hτ : 0 < τ) {m : List Bool} {r : ℝ}
    (h : ModerateFit X y τ m r) (hd : (svd (designOf X m)).Of (designOf X m)) {b : List ℝ}
    (hf : fit (svd (designOf X m)) (designOf X m) y = some b) :
    r ≤ sse (designOf X m) (vec b) (vec y) ∧ sse (designOf X m) (vec b) (vec y) ≤ (1 + τ) ^ 2 * r := by
  obtain ⟨-, c, h1, h2, h3⟩ := h
  refine ⟨h2 ▸ h1 (vec b), ?_⟩
  have h4 := (C168_near _ _ hd c y b hf τ hτ).1
  rw [h2] at h4
  have hn : (designOf X m).nc = Spec.card m := rfl
  rw [hn] at h4
  have h5 := mul_le_mul_of_nonneg_left h3 (by positivity : 0 ≤ 1 + 1 / τ)
  have e : (1 + 1 / τ) * (τ ^ 2 * r) = (τ ^ 2 + τ) * r := by
    field_simp
  rw [e] at h5
  linarith

/-- **C169.** `SelectModel` on data whose fits discard singular values.  If the least-squares coefficients of every model are at most
`1e6 τ` times as long as its residuals, then on return (no overflow message, no torn read) the AICc of the first model of the list,
computed from the fit that `Fit` returns, exceeds that of the exact least-squares fit of any other model by at most
`2 n log (1 + τ)`. -/
theorem C169_search (svd : Mat ℝ → SVD ℝ) (X : Mat ℝ) (y : List ℝ) (hy : y.length = X.nr) (r : List Bool → ℝ) (τ : ℝ) (hτ : 0 < τ)
    (hsvd : ∀ m, m.length = X.nc → 0 < Spec.card m → Spec.card m < X.nr → (svd (designOf X m)).Of (designOf X m))
    (hr : ∀ m, m.length = X.nc → 0 < Spec.card m → Spec.card m < X.nr → ModerateFit X y τ m (r m))
    (htol : X.nr ≤ X.nc → ∀ m, m.length = X.nc → 0 < Spec.card m → Spec.card m < X.nr → rssTol ≤ r m)
    (husual : ∀ m, m.length = X.nc → 0 < Spec.card m → Spec.card m < X.nr →
      |aicc (Spec.card m) X.nr (r m)| + 2 * X.nr * Real.log (1 + τ) ≤ 10 ^ 100)
    (root : List Bool) (hroot : root = List.replicate X.nc false ∨ X.nc < X.nr) (maxQueue : Int) (cutoff : ℝ) (M : Int)
    (hM : 2 ≤ M) (s : SState ℝ) (h : SelectReaches (regressionSearch svd X y root maxQueue cutoff) M [] s)
    (hd : s.main = .done) (ht : s.torn = false) (ho : s.overflows = 0)
    (m : List Bool) (hlen : m.length = X.nc) (hpos : 0 < Spec.card m) (hrows : Spec.card m < X.nr) (hmr : m ≠ root) :
    ∃ n rest r', s.hs.items = n :: rest ∧ n.model.length = X.nc ∧ 0 < Spec.card n.model ∧ Spec.card n.model < X.nr ∧
      fitModel svd X y n.model = some (n.coeff, r') ∧
      aicc (Spec.card n.model) X.nr r' ≤ aicc (Spec.card m) X.nr (r m) + 2 * X.nr * Real.log (1 + τ) := by
  set S := regressionSearch svd X y root maxQueue cutoff with hS
  have hlog : 0 ≤ Real.log (1 + τ) := Real.log_nonneg (by linarith)
  have hnn : (0 : ℝ) ≤ X.nr := Nat.cast_nonneg _
  have hη : 0 ≤ 2 * X.nr * Real.log (1 + τ) := by positivity
  have fitted : ∀ m, m.length = X.nc → 0 < Spec.card m → Spec.card m < X.nr →
      ∃ c, fitModel svd X y m = some (c, S.rss m) ∧ S.fit m = c ∧ r m ≤ S.rss m ∧ S.rss m ≤ (1 + τ) ^ 2 * r m := by
    intro m h1 h2 h3
    obtain ⟨c, hc, hf, -⟩ := fitModel_eq_some (svd := svd) hy h2 h1.le
    have e1 : S.rss m = sse (designOf X m) (vec c) (vec y) := by simp [hS, regressionSearch, regressionProblem, hc]
    have e2 : S.fit m = c := by simp [hS, regressionSearch, regressionProblem, hc]
    obtain ⟨a, b⟩ := (hr m h1 h2 h3).rss hτ (hsvd m h1 h2 h3) hf
    rw [← e1] at hc a b
    exact ⟨c, hc, e2, a, b⟩
  have herr : ∀ m, m.length = X.nc → 0 < Spec.card m → Spec.card m < X.nr → ∀ k,
      aicc k X.nr (S.rss m) ≤ aicc k X.nr (r m) + 2 * X.nr * Real.log (1 + τ) := by
    intro m h1 h2 h3 k
    obtain ⟨c, -, -, ha, hb⟩ := fitted m h1 h2 h3
    have hr0 := (hr m h1 h2 h3).1
    have hl : Real.log (S.rss m) ≤ 2 * Real.log (1 + τ) + Real.log (r m) := by
      have e : 2 * Real.log (1 + τ) + Real.log (r m) = Real.log ((1 + τ) ^ 2 * r m) := by
        rw [Real.log_mul (by positivity) hr0.ne', Real.log_pow]
        norm_num
      rw [e]
      exact Real.log_le_log (lt_of_lt_of_le hr0 ha) hb
    rw [aicc_sub k X.nr (S.rss m) (r m)]
    nlinarith
  have hv : BoundsUpTo S [] (fun m => aicc (Spec.card m) X.nr (r m) + 2 * X.nr * Real.log (1 + τ)) := by
    refine ⟨fun p l m hp hl hpp hpm ⟨h1, h2, h3⟩ => ?_, fun m ⟨h1, h2, h3⟩ v _ hlt => ?_, fun m ⟨h1, h2, h3⟩ => herr m h1 h2 h3 _⟩
    · have hb := (C111_exact_search svd X y hy root maxQueue cutoff p l hp hl hpp).2.1
      have h1' : m.length = X.nc := h1
      rw [← hb]
      refine computedBounds_le (nc := X.nc) hp hl hpm h2 (fun g k g1 g2 g3 g4 hk => ?_) fun k hnc hk => ?_
      · refine (herr g g1 (h2.trans_le g2) g3 k).trans (add_le_add_left ?_ _)
        exact C02_aicc_mono _ _ _ _ _ hk (hr g g1 (h2.trans_le g2) g3).1
          (sse_contained h1'.le g1.le g4 (hr m h1 h2 h3).hasRss (hr g g1 (h2.trans_le g2) g3).hasRss)
      · have := C02_aicc_mono k (Spec.card m) X.nr rssTol (r m) hk rssTol_pos (htol hnc m h1 h2 h3)
        linarith
    · have hu := husual m h1 h2 h3
      have ha := abs_le.1 (le_refl |aicc (Spec.card m) X.nr (r m)|)
      have hlt' : -v < -(10 : ℝ) ^ 100 := hlt
      have := ha.1
      show -v ≤ aicc (Spec.card m) X.nr (r m) + 2 * X.nr * Real.log (1 + τ)
      linarith
  obtain ⟨h1, h2⟩ := all_beaten hM hv hroot h hd ht ho m ⟨hlen, hpos, hrows⟩ hmr
  cases hit : s.hs.items with
  | nil => exact absurd hit h1
  | cons n rest =>
    have hn : n ∈ s.hs.items := by simp [hit]
    have hb : s.hs.bestScore = n.score := by simp [Highscore.bestScore, hit]
    rw [hb] at h2
    obtain ⟨a1, a2⟩ := C13_own_score S M (by omega) s h n hn
    obtain ⟨b1, b2, b3⟩ := (C13_each_model_once S M (by omega) s h).2 n hn
    rcases Nat.eq_zero_or_pos (Spec.card n.model) with hz | hz
    · rw [a2 hz] at h2
      have hu := husual m hlen hpos hrows
      have ha := abs_le.1 (le_refl |aicc (Spec.card m) X.nr (r m)|)
      have h3 : maxFloat64 ≤ aicc (Spec.card m) X.nr (r m) + 2 * X.nr * Real.log (1 + τ) := neg_le_neg_iff.1 h2
      have := huge_lt_maxFloat
      exact absurd h3 (not_le.2 (by linarith [ha.2]))
    · obtain ⟨a3, a4⟩ := a1 hz
      rw [a3, neg_le_neg_iff] at h2
      obtain ⟨c, f1, f2, -, -⟩ := fitted n.model b1 hz b3
      exact ⟨n, rest, S.rss n.model, rfl, b1, hz, b3, by rw [f1, a4, f2], h2⟩

/-- A single column with the singular value 1e-7, which is discarded. -/
noncomputable def tinyColumn : Mat ℝ := ⟨3, 1, fun i _ => if i = 0 then 1 / 10 ^ 7 else 0⟩

noncomputable def tinyColumnSvd (_ : Mat ℝ) : SVD ℝ := ⟨1, fun i _ => if i = 0 then 1 else 0, fun _ => 1 / 10 ^ 7, fun _ _ => 1⟩

theorem tiny_discarded : invSigma ((tinyColumnSvd tinyColumn).s 0) = 0 := by
  unfold invSigma tinyColumnSvd
  rw [if_neg]
  rw [abs_of_pos (by positivity)]
  norm_num

theorem tiny_svd (m : List Bool) (h1 : m.length = 1) (h2 : 0 < Spec.card m) :
    (tinyColumnSvd (designOf tinyColumn m)).Of (designOf tinyColumn m) := by
  have hm : m = [true] := by
    match m, h1 with
    | [true], _ => rfl
    | [false], _ => exact absurd h2 (by decide)
  subst hm
  have e : designOf tinyColumn [true] = ⟨3, 1, fun j k => tinyColumn.get j ([0].getD k 0)⟩ := rfl
  rw [e]
  refine ⟨rfl, ?_, ?_, ?_, ?_, ?_⟩
  · intro i j _ _
    simp [tinyColumnSvd, tinyColumn]
  · intro k l hk hl
    have : k = 0 := Nat.lt_one_iff.1 hk
    have : l = 0 := Nat.lt_one_iff.1 hl
    subst k l
    simp [tinyColumnSvd, sum_range_succ]
  · intro k l hk hl
    have : k = 0 := Nat.lt_one_iff.1 hk
    have : l = 0 := Nat.lt_one_iff.1 hl
    subst k l
    simp [tinyColumnSvd]
  · intro k _; simp [tinyColumnSvd]
  · intro k l _ _; simp [tinyColumnSvd]

theorem tiny_moderate (m : List Bool) (h1 : m.length = 1) (h2 : 0 < Spec.card m) :
    ModerateFit tinyColumn [1 / 1000, 1, 1] (1 / 100) m 2 := by
  have hm : m = [true] := by
    match m, h1 with
    | [true], _ => rfl
    | [false], _ => exact absurd h2 (by decide)
  subst hm
  have e : designOf tinyColumn [true] = ⟨3, 1, fun j k => tinyColumn.get j ([0].getD k 0)⟩ := rfl
  refine ⟨by norm_num, fun _ => 10 ^ 4, ?_, ?_, ?_⟩
  · rw [e]
    intro b
    simp [sse, lin, sum_range_succ, vec, tinyColumn]
    norm_num
    positivity
  · rw [e]
    simp [sse, lin, sum_range_succ, vec, tinyColumn]
    norm_num
  · have : Spec.card [true] = 1 := rfl
    rw [this, sum_range_one]
    norm_num

/-- These data meet the hypotheses of `C169_search`: the fit returns 0 instead of 10000, and the AICc is off by at most
`6 log (1 + 1 / 100)`. -/
example (maxQueue : Int) (cutoff : ℝ) (s : SState ℝ)
    (h : SelectReaches (regressionSearch tinyColumnSvd tinyColumn [1 / 1000, 1, 1] [false] maxQueue cutoff) 10 [] s)
    (hd : s.main = .done) (ht : s.torn = false) (ho : s.overflows = 0) :
    ∃ n rest r', s.hs.items = n :: rest ∧ n.model.length = 1 ∧ 0 < Spec.card n.model ∧ Spec.card n.model < 3 ∧
      fitModel tinyColumnSvd tinyColumn [1 / 1000, 1, 1] n.model = some (n.coeff, r') ∧
      aicc (Spec.card n.model) 3 r' ≤ aicc (Spec.card [true]) 3 2 + 2 * (3 : Nat) * Real.log (1 + 1 / 100) :=
  C169_search tinyColumnSvd tinyColumn [1 / 1000, 1, 1] rfl (fun _ => 2) (1 / 100) (by norm_num)
    (fun m h1 h2 _ => tiny_svd m h1 h2) (fun m h1 h2 _ => tiny_moderate m h1 h2) (fun h => absurd h (by decide))
    (fun m h1 h2 _ => by
      have hm : m = [true] := by
        match m, h1 with
        | [true], _ => rfl
        | [false], _ => exact absurd h2 (by decide)
      subst hm
      have l1 : Real.log 2 ≤ 1 := by
        have := Real.log_le_sub_one_of_pos (x := 2) (by norm_num)
        linarith
      have l0 : 0 ≤ Real.log 2 := Real.log_nonneg (by norm_num)
      have l2 : Real.log (1 + 1 / 100) ≤ 1 := by
        have := Real.log_le_sub_one_of_pos (x := 1 + 1 / 100) (by norm_num)
        linarith
      have e : aicc (Spec.card [true]) tinyColumn.nr 2 = 2 + 3 * Real.log 2 + 4 := by
        have c1 : Spec.card [true] = 1 := rfl
        have c2 : tinyColumn.nr = 3 := rfl
        rw [c1, c2]
        norm_num [aicc, aic]
      rw [e, abs_of_nonneg (by linarith)]
      have c2 : (tinyColumn.nr : ℝ) = 3 := by
        show ((3 : Nat) : ℝ) = 3
        norm_num
      rw [c2]
      have : (100 : ℝ) ≤ 10 ^ 100 := by
        calc (100 : ℝ) = 10 ^ 2 := by norm_num
          _ ≤ 10 ^ 100 := pow_le_pow_right₀ (by norm_num) (by norm_num)
      linarith)
    [false] (.inl rfl) maxQueue cutoff 10 (by norm_num) s h hd ht ho [true] rfl (by decide) (by decide) (by decide)

end GoSelect
