import Verif.Proofs.Overfit

/-!
# C149: whether the criterion of the commands selects the right model

As C131 for `Bic`: with many rows the right model should be the one of smallest AICc.  It is not: with normal noise a superfluous
feature is preferred with a probability of at least 1/200, however many rows there are.
-/

namespace GoSelect

open Finset MeasureTheory Filter Topology Spec

section
variable {Ω : Type} [MeasurableSpace Ω] {P : Measure Ω} {e : Nat → Ω → ℝ} {σ : ℝ} {svd : Mat ℝ → SVD ℝ} {X : Mat ℝ} {β : Nat → ℝ}
  {t : List Bool} {j : Nat}

/-- The event of overfitting contains one that can be measured and has a probability of at least 1/200. -/
theorem overfit_event (hlen : t.length = X.nc) (hpos : 0 < Spec.card t) (hexp : Expresses X t β) (hnew : NewColumn X t j)
    (hfit : ∀ m, m.length = X.nc → 0 < Spec.card m → ExactFit svd X m) (hn : 1000 ≤ X.nr)
    (hn' : 5 * (Spec.card t + 1) * (Spec.card t + 2) + Spec.card t + 2 ≤ X.nr) (he : NormalNoise P e σ) (hσ : σ ≠ 0) :
    ∃ A : Set Ω, NullMeasurableSet A P ∧ 1 / 200 ≤ P.real A ∧ ∀ ω ∈ A, Overfits X (noisy X.nr (lin X β) e ω) t := by
  have hP : IsProbabilityMeasure P := (he.law 0).hasGaussianLaw.isProbabilityMeasure
  have hj : j < t.length := by rw [hlen]; exact hnew.lt
  set m := t.set j true with hm
  have hml : m.length = X.nc := by rw [hm, List.length_set, hlen]
  have hmc : Spec.card m = Spec.card t + 1 := card_set_new hj hnew.out
  have hmx := hfit m hml (by omega)
  have htx := hfit t hlen hpos
  set c := fitCoeff (svd (designOf X t)) (designOf X t) (fun i => X.get i j) with hc
  have hcl : IsLeastSquares (designOf X t) c (fun i => X.get i j) := fitCoeff_leastSquares htx _
  set z : Nat → ℝ := fun i => lin (designOf X t) c i - X.get i j with hz
  have hZ : 0 < ∑ i ∈ range X.nr, z i ^ 2 := by
    obtain ⟨i, hi, hne⟩ := hnew.new c
    refine sum_pos' (fun i _ => sq_nonneg _) ⟨i, mem_range.2 hi, ?_⟩
    have : z i ≠ 0 := sub_ne_zero.2 hne
    positivity
  have h1 := he.combination hσ X.nr z hZ
  have h2 := he.quiet hσ (n := X.nr) (by omega)
  set T := {ω | (11 / 5) ^ 2 * σ ^ 2 * ∑ i ∈ range X.nr, z i ^ 2 < (∑ i ∈ range X.nr, z i * e i ω) ^ 2} with hT
  set L := {ω | 2 * (X.nr * σ ^ 2) < noiseSq X.nr (fun i => e i ω)} with hL
  have hem : ∀ r, AEMeasurable (e r) P := fun r => (he.law r).aemeasurable
  have mT : NullMeasurableSet T P := by
    refine nullMeasurableSet_lt aemeasurable_const ?_
    exact (Finset.aemeasurable_fun_sum _ fun i _ => (hem i).const_mul (z i)).pow_const 2
  have mL : NullMeasurableSet L P := by
    refine nullMeasurableSet_lt aemeasurable_const ?_
    exact Finset.aemeasurable_fun_sum _ fun i _ => (hem i).mul (hem i)
  have h4 : (2 : ℝ) / X.nr ≤ 2 / 1000 := div_le_div_of_nonneg_left (by norm_num) (by norm_num) (by exact_mod_cast hn)
  refine ⟨T \ L, mT.diff mL, ?_, ?_⟩
  · have h3 : T ⊆ T \ L ∪ L := by
      intro ω hω
      by_cases h : ω ∈ L
      · exact .inr h
      · exact .inl ⟨hω, h⟩
    have h5 := (measureReal_mono h3 (measure_ne_top P _)).trans (measureReal_union_le _ _)
    linarith
  · rintro ω ⟨hω, hq⟩
    have hr : HasRss X (noisy X.nr (lin X β) e ω) m _ := ⟨_, fitCoeff_leastSquares hmx _, rfl⟩
    have hrT : HasRss X (noisy X.nr (lin X β) e ω) t _ := ⟨_, fitCoeff_leastSquares htx _, rfl⟩
    refine ⟨m, _, _, hml, fun i hi => (hasFeature_insert hj i).2 (.inr hi), fun h => ?_, hr, hrT, ?_⟩
    · have := congrArg Spec.card h
      omega
    · rw [aiccExt_crit, aiccExt_crit]
      have hg := superfluous_gain hlen hexp hnew.lt hcl hr hrT hZ
      have hω' : (11 / 5) ^ 2 * σ ^ 2 * ∑ i ∈ range X.nr, z i ^ 2 < (∑ i ∈ range X.nr, z i * e i ω) ^ 2 := hω
      have hσ2 : 0 < σ ^ 2 := by positivity
      refine gain_better (v := σ ^ 2) (g := 121 / 25 * σ ^ 2) (by omega) hσ2 ?_ (sum_nonneg fun i _ => sq_nonneg _) le_rfl ?_ ?_
      · rw [hmc]; exact aicc_step hn'
      · have h3 := hω'.le.trans hg
        have h4 := le_of_mul_le_mul_right h3 hZ
        linarith
      · exact (expresses_rss hlen hexp hrT).2.trans (not_lt.1 hq)

/-- **C149 (overfitting).** With independent normal noise and a column that is not a combination of those of the signal: the
probability that a model with superfluous features has a smaller AICc than the right one is at least 1/200, for every number of rows
from a bound on. -/
theorem C149_overfit (hlen : t.length = X.nc) (hpos : 0 < Spec.card t) (hexp : Expresses X t β) (hnew : NewColumn X t j)
    (hfit : ∀ m, m.length = X.nc → 0 < Spec.card m → ExactFit svd X m) (hn : 1000 ≤ X.nr)
    (hn' : 5 * (Spec.card t + 1) * (Spec.card t + 2) + Spec.card t + 2 ≤ X.nr) (he : NormalNoise P e σ) (hσ : σ ≠ 0) :
    1 / 200 ≤ P.real {ω | Overfits X (noisy X.nr (lin X β) e ω) t} := by
  have hP : IsProbabilityMeasure P := (he.law 0).hasGaussianLaw.isProbabilityMeasure
  obtain ⟨A, _, h1, h2⟩ := overfit_event hlen hpos hexp hnew hfit hn hn' he hσ
  exact h1.trans (measureReal_mono h2 (measure_ne_top _ _))

omit [MeasurableSpace Ω] in
theorem hasRss_unique {y : List ℝ} {m : List Bool} {r r' : ℝ} (h : HasRss X y m r) (h' : HasRss X y m r') : r = r' := by
  obtain ⟨c, hc, rfl⟩ := h
  obtain ⟨c', hc', rfl⟩ := h'
  exact le_antisymm (hc c') (hc' c)

omit [MeasurableSpace Ω] in
/-- Then `SelectModel` does not return the right model as its best. -/
theorem overfits_select {y : List ℝ} (hlen : t.length = X.nc) (hpos : 0 < Spec.card t) (hrows : X.nc < X.nr)
    (hdata : GoodData svd X y) (ho : Overfits X y t) (maxQueue : Int) (cutoff : ℝ) (M : Int) (hM : 2 ≤ M) (s : SState ℝ)
    (hreach : SelectReaches (regressionSearch svd X y (List.replicate X.nc false) maxQueue cutoff) M [] s) (hd : s.main = .done)
    (ht : s.torn = false) (hov : s.overflows = 0) (x : Node ℝ) (hx : s.hs.items.head? = some x) : x.model ≠ t := by
  rintro hxt
  obtain ⟨m, r, rT, hml, hsub, hne, hr, hrT, hlt⟩ := ho
  have hxm : x ∈ s.hs.items := List.mem_of_mem_head? hx
  have hbest : s.hs.bestScore = x.score := by
    unfold Highscore.bestScore
    cases hi : s.hs.items with
    | nil => rw [hi] at hx; cases hx
    | cons a l => rw [hi] at hx; cases hx; rfl
  have hct : Spec.card t < X.nr := lt_of_le_of_lt (hlen ▸ card_le_length t) hrows
  have hcm : Spec.card m < X.nr := lt_of_le_of_lt (hml ▸ card_le_length m) hrows
  have hposm : 0 < Spec.card m := by
    refine hpos.trans_le ?_
    exact ((features_nodup t).subperm fun i hi => (mem_features m i).2 (hsub i ((mem_features t i).1 hi))).length_le
  have hmr : m ≠ List.replicate X.nc false := by
    rintro rfl
    rw [card_eq_count] at hposm
    simp [List.count_replicate] at hposm
  obtain ⟨c, r', f1, f2, f3, f4⟩ := C12_regression svd X _ hdata _ (.inl rfl) maxQueue cutoff M hM [] s hreach hd ht hov m
    hml hposm hcm hmr
  obtain ⟨cT, k1, k2, k3⟩ := fitModel_eq_some (svd := svd) hdata.rows hpos hlen.le
  obtain ⟨cm, g1, g2, g3⟩ := fitModel_eq_some (svd := svd) hdata.rows hposm hml.le
  have hsc := ((C13_own_score _ M (by omega) s hreach x hxm).1 (by rw [hxt]; exact hpos)).1
  rw [hxt] at hsc
  have e1 : (regressionSearch svd X y (List.replicate X.nc false) maxQueue cutoff).aicc (Spec.card t)
      (regressionSearch svd X y (List.replicate X.nc false) maxQueue cutoff).nrows
      ((regressionSearch svd X y (List.replicate X.nc false) maxQueue cutoff).rss t) =
      aicc (Spec.card t) X.nr (sse (designOf X t) (vec cT) (vec y)) := by
    simp [regressionSearch, regressionProblem, k1]
  rw [e1] at hsc
  rw [hbest, hsc, neg_le_neg_iff] at f4
  have hcc : cm = c := by rw [g2] at f1; exact Option.some.inj f1
  subst hcc
  rw [rss_eq_some (X := designOf X m) g3 hdata.rows] at f2
  have hr' : r' = sse (designOf X m) (vec cm) (vec y) := (Option.some.inj f2).symm
  have u1 : r = r' := hasRss_unique hr ⟨vec cm, f3, hr'⟩
  have u2 : rT = sse (designOf X t) (vec cT) (vec y) :=
    hasRss_unique hrT ⟨vec cT, fit_leastSquares (hdata.exact t hlen hpos hct) k2, rfl⟩
  have p1 : 0 < r := by
    rw [u1, hr']
    exact smallestFloat_pos.trans_le (hdata.tiny _ _ _ hml hposm hcm g1)
  have p2 : 0 < rT := by
    rw [u2]
    exact smallestFloat_pos.trans_le (hdata.tiny _ _ _ hlen hpos hct k1)
  unfold aiccExt at hlt
  rw [if_neg p1.ne', if_neg p2.ne', u2, u1] at hlt
  exact absurd (EReal.coe_lt_coe_iff.1 hlt) (not_lt.2 f4)

/-- **C149 (`SelectModel`).** With a probability of at least 1/200 no run of `SelectModel` that starts with no features and returns (no
overflow message, no torn read) has the right model first in its list, whatever the schedule. -/
theorem C149_select (hlen : t.length = X.nc) (hpos : 0 < Spec.card t) (hexp : Expresses X t β) (hnew : NewColumn X t j)
    (hfit : ∀ m, m.length = X.nc → 0 < Spec.card m → ExactFit svd X m) (hrows : X.nc < X.nr) (hn : 1000 ≤ X.nr)
    (hn' : 5 * (Spec.card t + 1) * (Spec.card t + 2) + Spec.card t + 2 ≤ X.nr) (he : NormalNoise P e σ) (hσ : σ ≠ 0) :
    1 / 200 ≤ P.real {ω | GoodData svd X (noisy X.nr (lin X β) e ω) → ∀ (maxQueue : Int) (cutoff : ℝ) (M : Int) (s : SState ℝ)
      (x : Node ℝ), 2 ≤ M → SelectReaches (regressionSearch svd X (noisy X.nr (lin X β) e ω) (List.replicate X.nc false)
        maxQueue cutoff) M [] s → s.main = .done → s.torn = false → s.overflows = 0 → s.hs.items.head? = some x →
      x.model ≠ t} := by
  have hP : IsProbabilityMeasure P := (he.law 0).hasGaussianLaw.isProbabilityMeasure
  refine (C149_overfit hlen hpos hexp hnew hfit hn hn' he hσ).trans (measureReal_mono ?_ (measure_ne_top _ _))
  intro ω hω hdata maxQueue cutoff M s x hM hreach hd ht hov hx
  exact overfits_select hlen hpos hrows hdata hω maxQueue cutoff M hM s hreach hd ht hov x hx

end

/-! ### Many rows -/

section
variable {Ω : Type} [MeasurableSpace Ω] {P : Measure Ω} {σ : ℝ} {svd : Mat ℝ → SVD ℝ} {X : ℕ → Mat ℝ} {β : Nat → ℝ} {t : List Bool}
  {p : Nat} {c : ℝ}

/-- The right model is the only one of smallest AICc. -/
def Spec.RightIsBest (X : Mat ℝ) (y : List ℝ) (t : List Bool) : Prop :=
  ∀ m r rT, m.length = X.nc → 0 < Spec.card m → m ≠ t → HasRss X y m r → HasRss X y t rT →
    aiccExt (Spec.card t) X.nr rT < aiccExt (Spec.card m) X.nr r

/-- Full claim: with probability tending to one the right model is the only one of smallest AICc, under the conditions of C131.
Proved when all features belong to the signal; `C149_inconsistent` shows that it fails when there are others. -/
theorem C149_consistent_partial [IsProbabilityMeasure P] {e : ℕ → ℕ → Ω → ℝ} (hnr : ∀ n, (X n).nr = n) (hnc : ∀ n, (X n).nc = p)
    (hc : 0 < c) (hs : ∀ᶠ n in atTop, SignalModel svd (X n) β t (c * n)) (he : ∀ n, WhiteNoise P n (e n) σ)
    (hall : ∀ j < p, HasFeature t j) :
    Tendsto (fun n => P.real {ω | RightIsBest (X n) (noisy n (lin (X n) β) (e n) ω) t}) atTop (𝓝 1) := by
  have h0 := (C131_tends_aicc (P := P) hnr hnc hc hs he).const_sub 1
  rw [sub_zero] at h0
  refine tendsto_of_tendsto_of_tendsto_of_le_of_le' h0 tendsto_const_nhds ?_ (Eventually.of_forall fun n => measureReal_le_one)
  filter_upwards [hs] with n hsn
  set A := {ω | ∃ m r rT, m.length = p ∧ 0 < Spec.card m ∧ Misses (X n) β m ∧
      HasRss (X n) (noisy n (lin (X n) β) (e n) ω) m r ∧ HasRss (X n) (noisy n (lin (X n) β) (e n) ω) t rT ∧
      aiccExt (Spec.card m) n r ≤ aiccExt (Spec.card t) n rT} with hA
  have hcover : (Set.univ : Set Ω) ⊆ A ∪ {ω | RightIsBest (X n) (noisy n (lin (X n) β) (e n) ω) t} := by
    intro ω _
    by_cases hω : ω ∈ A
    · exact .inl hω
    · right
      intro m r rT h1 h2 h3 h4 h5
      by_contra h6
      rw [hnr] at h6
      rw [hnc] at h1
      refine hω ⟨m, r, rT, h1, h2, ?_, h4, h5, not_lt.1 h6⟩
      by_contra hmiss
      have hx := expresses_of_not_misses hmiss
      refine h3 (List.ext_getElem? fun i => ?_)
      have hlt : t.length = p := hsn.len.trans (hnc n)
      by_cases hi : i < p
      · have ht := hall i hi
        rw [ht]
        exact hx i (by rw [hnc]; exact hi) ((hsn.signal i (by rw [hnc]; exact hi)).1 ht)
      · rw [List.getElem?_eq_none (by omega), List.getElem?_eq_none (by omega)]
  have h1 := (measureReal_mono hcover (measure_ne_top P _)).trans (measureReal_union_le _ _)
  rw [probReal_univ] at h1
  exact sub_le_iff_le_add'.2 h1

/-- **C149 (the claim fails).** When some column outside the signal is not a combination of those of the signal and the noise is
normal, the probability that the right model is the one of smallest AICc stays below 199/200. -/
theorem C149_inconsistent {e : ℕ → Ω → ℝ} (hnr : ∀ n, (X n).nr = n) (hnc : ∀ n, (X n).nc = p)
    (hs : ∀ᶠ n in atTop, SignalModel svd (X n) β t (c * n)) (he : NormalNoise P e σ) (hσ : σ ≠ 0)
    (hnew : ∀ᶠ n in atTop, ∃ j, NewColumn (X n) t j) :
    (∀ᶠ n in atTop, P.real {ω | RightIsBest (X n) (noisy n (lin (X n) β) e ω) t} ≤ 199 / 200) ∧
    ¬ Tendsto (fun n => P.real {ω | RightIsBest (X n) (noisy n (lin (X n) β) e ω) t}) atTop (𝓝 1) := by
  have hP : IsProbabilityMeasure P := (he.law 0).hasGaussianLaw.isProbabilityMeasure
  have key : ∀ᶠ n in atTop, P.real {ω | RightIsBest (X n) (noisy n (lin (X n) β) e ω) t} ≤ 199 / 200 := by
    filter_upwards [hs, hnew, eventually_ge_atTop 1000,
      eventually_ge_atTop (5 * (Spec.card t + 1) * (Spec.card t + 2) + Spec.card t + 2)] with n hsn hnewn hn hn'
    obtain ⟨j, hj⟩ := hnewn
    obtain ⟨A, hA, h1, h2⟩ := overfit_event (X := X n) (e := e) hsn.len hsn.some hsn.expresses hj hsn.exact
      (by rw [hnr]; exact hn) (by rw [hnr]; exact hn') he hσ
    have hsub : {ω | RightIsBest (X n) (noisy n (lin (X n) β) e ω) t} ⊆ Aᶜ := by
      intro ω hω hωA
      obtain ⟨m, r, rT, h3, h4, h5, h6, h7, h8⟩ := h2 ω hωA
      rw [hnr] at h6 h7
      refine absurd h8 (not_lt.2 (hω m r rT h3 ?_ h5 h6 h7).le)
      refine hsn.some.trans_le ?_
      exact ((features_nodup t).subperm fun i hi => (mem_features m i).2 (h4 i ((mem_features t i).1 hi))).length_le
    refine (measureReal_mono hsub (measure_ne_top _ _)).trans ?_
    rw [probReal_compl_eq_one_sub₀ hA]
    linarith
  refine ⟨key, fun h => ?_⟩
  have := h.eventually (lt_mem_nhds (show (199 / 200 : ℝ) < 1 by norm_num))
  obtain ⟨n, h1, h2⟩ := (this.and key).exists
  exact absurd h1 (not_lt.2 h2)

end

/-! ### Example: normal noise and alternating columns -/

namespace NormalRows

open ProbabilityTheory

/-- Standard normal noise for every row. -/
noncomputable def rows : Measure (ℕ → ℝ) := Measure.infinitePi fun _ => gaussianReal 0 1

instance : IsProbabilityMeasure rows := by unfold rows; infer_instance

/-- The noise of row `r`. -/
def e (r : ℕ) (ω : ℕ → ℝ) : ℝ := ω r

theorem noise : NormalNoise rows e 1 := by
  refine ⟨fun r => ⟨(measurable_pi_apply r).aemeasurable, ?_⟩, ?_⟩
  · have := Measure.infinitePi_map_eval (fun _ : ℕ => gaussianReal 0 1) r
    rw [show ((1 : ℝ) ^ 2).toNNReal = 1 by simp]
    exact this
  · exact (iIndepFun_infinitePi (P := fun _ : ℕ => gaussianReal 0 1) (X := fun _ x => x) (fun _ => measurable_id))

/-- The second column is not a multiple of the first. -/
theorem column {n : ℕ} (hn : 2 ≤ n) : NewColumn (CoinRows.alt n) [true, false] 1 := by
  refine ⟨show 1 < 2 by norm_num, by simp [HasFeature], fun b => ⟨1, hn, ?_⟩⟩
  have h1 : lin (designOf (CoinRows.alt n) [true, false]) b 1 = (CoinRows.alt n).get 1 0 * b 0 := by
    change ∑ j ∈ range 1, (CoinRows.alt n).get 1 ((features [true, false]).getD j 0) * b j = _
    rw [sum_range_one]
    rfl
  have h2 : (CoinRows.alt n).get 1 0 = 0 := by simp [CoinRows.alt]
  have h3 : (CoinRows.alt n).get 1 1 = 1 := by
    have : 1 < 2 * (n / 2) := by omega
    simp [CoinRows.alt, this]
  rw [h1, h2, h3]
  simp

/-- The first column is the signal; with 1000 or more rows and normal noise the second is preferred too. -/
example {n : ℕ} (hn : 1000 ≤ n) :
    1 / 200 ≤ rows.real {ω | Overfits (CoinRows.alt n) (noisy n (lin (CoinRows.alt n) CoinRows.β) e ω) [true, false]} := by
  have hs := CoinRows.signal (n := n) (by omega)
  have hcard : Spec.card [true, false] = 1 := by decide
  exact C149_overfit (X := CoinRows.alt n) hs.len hs.some hs.expresses (column (by omega)) hs.exact hn
    (by rw [hcard]; exact le_trans (by norm_num) hn) noise one_ne_zero

/-- Both columns are the signal. -/
theorem both {n : ℕ} (hn : 3 ≤ n) : SignalModel CoinRows.levelSvd (CoinRows.alt n) (fun _ => 1) [true, true] (1 / 4 * n) := by
  refine ⟨rfl, fun j hj => ?_, by decide, hn, fun m hm hpos => CoinRows.alt_exact (by omega) hm hpos, fun m hm hpos hmiss b => ?_⟩
  · change j < 2 at hj
    have hj' : j = 0 ∨ j = 1 := by omega
    rcases hj' with rfl | rfl <;> simp [HasFeature]
  · obtain ⟨j, hj, _, hf⟩ := hmiss
    change j < 2 at hj
    change m.length = 2 at hm
    have hzero : ∀ i, i % 2 = j → lin (designOf (CoinRows.alt n) m) b i = 0 := by
      intro i hi
      refine sum_eq_zero fun k hk => ?_
      have hk' : k < (features m).length := mem_range.1 hk
      have hfk : HasFeature m ((features m).getD k 0) := by
        rw [← mem_features, List.getD_eq_getElem?_getD, List.getElem?_eq_getElem hk', Option.getD_some]
        exact List.getElem_mem hk'
      have hne : i % 2 ≠ (features m).getD k 0 := by
        intro h
        rw [← h, hi] at hfk
        exact hf hfk
      change (CoinRows.alt n).get i ((features m).getD k 0) * b k = 0
      simp only [CoinRows.alt]
      rw [if_neg (fun h => hne h.2), zero_mul]
    have h1 : ((n / 2 : ℕ) : ℝ) ≤ sse (designOf (CoinRows.alt n) m) b (lin (CoinRows.alt n) fun _ => 1) := by
      have h2 := CoinRows.alt_prod n j j hj hj
      rw [if_pos rfl] at h2
      rw [← h2]
      refine sum_le_sum fun i _ => ?_
      by_cases hi : i < 2 * (n / 2) ∧ i % 2 = j
      · rw [hzero i hi.2]
        have h3 : lin (CoinRows.alt n) (fun _ => 1) i = 1 := by
          change ∑ k ∈ range 2, (CoinRows.alt n).get i k * 1 = 1
          have hj' : j = 0 ∨ j = 1 := by omega
          simp only [sum_range_succ, sum_range_zero, CoinRows.alt]
          rcases hj' with rfl | rfl
          · rw [if_pos hi, if_neg (by omega)]; norm_num
          · rw [if_pos hi, if_neg (by omega)]; norm_num
        rw [h3]
        simp only [CoinRows.alt]
        rw [if_pos hi]
        norm_num
      · have h3 : (CoinRows.alt n).get i j = 0 := if_neg hi
        rw [h3]
        have := sq_nonneg (lin (designOf (CoinRows.alt n) m) b i - lin (CoinRows.alt n) (fun _ => 1) i)
        linarith
    refine le_trans ?_ h1
    have : n ≤ 4 * (n / 2) := by omega
    have : (n : ℝ) ≤ 4 * ((n / 2 : ℕ) : ℝ) := by exact_mod_cast this
    linarith

/-- Without superfluous columns the right model is found. -/
example : Tendsto (fun n => rows.real {ω | RightIsBest (CoinRows.alt n) (noisy n (lin (CoinRows.alt n) fun _ => 1) e ω) [true, true]})
    atTop (𝓝 1) := by
  have hs : ∀ᶠ n in atTop, SignalModel CoinRows.levelSvd (CoinRows.alt n) (fun _ => 1) [true, true] (1 / 4 * n) :=
    eventually_atTop.2 ⟨3, fun _ hn => both hn⟩
  have hc : (0 : ℝ) < 1 / 4 := by norm_num
  refine C149_consistent_partial (X := CoinRows.alt) (p := 2) (e := fun _ => e) (fun _ => rfl) (fun _ => rfl) hc hs
    (fun n => noise.independent.white n) (fun j hj => ?_)
  have hj' : j = 0 ∨ j = 1 := by omega
  rcases hj' with rfl | rfl <;> simp [HasFeature]

end NormalRows

open NormalRows in
/-- **C149 (refuted).** Under the conditions under which `Bic` finds the right model (C131), the criterion of the commands does not. -/
theorem C149_refuted :
    ¬ Tendsto (fun n => rows.real {ω | RightIsBest (CoinRows.alt n) (noisy n (lin (CoinRows.alt n) CoinRows.β) e ω) [true, false]})
      atTop (𝓝 1) ∧
    Tendsto (fun n => rows.real {ω | ∀ m r rT, m.length = 2 → 0 < Spec.card m → m ≠ [true, false] →
      HasRss (CoinRows.alt n) (noisy n (lin (CoinRows.alt n) CoinRows.β) e ω) m r →
      HasRss (CoinRows.alt n) (noisy n (lin (CoinRows.alt n) CoinRows.β) e ω) [true, false] rT →
      bicExt 1 n rT < bicExt (Spec.card m) n r}) atTop (𝓝 1) := by
  have hs : ∀ᶠ n in atTop, SignalModel CoinRows.levelSvd (CoinRows.alt n) CoinRows.β [true, false] (1 / 4 * n) :=
    eventually_atTop.2 ⟨3, fun _ hn => CoinRows.signal hn⟩
  have hnew : ∀ᶠ n in atTop, ∃ j, NewColumn (CoinRows.alt n) [true, false] j :=
    eventually_atTop.2 ⟨2, fun _ hn => ⟨1, column hn⟩⟩
  have hc : (0 : ℝ) < 1 / 4 := by norm_num
  refine ⟨(C149_inconsistent (X := CoinRows.alt) (p := 2) (fun _ => rfl) (fun _ => rfl) hs noise one_ne_zero hnew).2, ?_⟩
  exact C131_consistent (X := CoinRows.alt) (p := 2) (fun _ => rfl) (fun _ => rfl) hc one_ne_zero hs noise.independent

end GoSelect
