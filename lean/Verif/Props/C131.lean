import Verif.Proofs.Consistency
import Verif.Props.C123
import Mathlib.Analysis.SpecialFunctions.Pow.Asymptotics
import Mathlib.Probability.Independence.Integration

/-!
# C131: whether the selected model has the features of the signal

The response is a combination of some columns plus noise.  A model that lacks one of them is unlikely to be selected when there
are many rows, and with the Bayesian criterion no other model is.
-/

namespace GoSelect

open Finset MeasureTheory

namespace Spec

/-- The model `m` lacks a feature of the signal `β`. -/
def Misses (X : Mat ℝ) (β : Nat → ℝ) (m : List Bool) : Prop := ∃ j < X.nc, β j ≠ 0 ∧ ¬ HasFeature m j

/-- The features of the signal `β` are those of the model `t`, and every model that lacks one of them leaves at least `D` of
the signal.  There are more rows than columns, and fits are exact. -/
structure SignalModel (svd : Mat ℝ → SVD ℝ) (X : Mat ℝ) (β : Nat → ℝ) (t : List Bool) (D : ℝ) : Prop where
  len : t.length = X.nc
  signal : ∀ j < X.nc, HasFeature t j ↔ β j ≠ 0
  some : 0 < card t
  rows : X.nc < X.nr
  exact : ∀ m, m.length = X.nc → 0 < card m → ExactFit svd X m
  left : ∀ m, m.length = X.nc → 0 < card m → Misses X β m → ∀ b, D ≤ sse (designOf X m) b (lin X β)

/-- The Bayesian criterion of a residual sum of squares, `-∞` when that is 0. -/
noncomputable def bicExt (k n : Nat) (r : ℝ) : EReal := if r = 0 then ⊥ else (bic k n r : ℝ)

end Spec

open Spec

theorem aiccExt_crit (k n : Nat) (r : ℝ) : aiccExt k n r = critExt (aicc k n 1) n r := by
  unfold aiccExt critExt aicc aic
  simp only [Real.log_one, mul_zero, add_zero]
  by_cases h : r = 0
  · rw [if_pos h, if_pos h]
  · rw [if_neg h, if_neg h, EReal.coe_eq_coe_iff]
    ring

theorem bicExt_crit (k n : Nat) (r : ℝ) : bicExt k n r = critExt (k * Real.log n) n r := rfl

theorem aicc_one_nonneg (k n : Nat) : 0 ≤ aicc k n 1 := by
  unfold aicc aic
  simp only [Real.log_one, mul_zero, add_zero]
  refine add_nonneg (by positivity) (div_nonneg (by positivity) ?_)
  split
  · exact zero_le_one
  · rename_i h
    have : (0 : Int) ≤ (n : Int) - k - 1 := by omega
    exact_mod_cast this

section
variable {Ω : Type} [MeasurableSpace Ω] {P : Measure Ω} [IsProbabilityMeasure P] {e : Nat → Ω → ℝ} {σ : ℝ}

theorem models_union {nc : Nat} (B : List Bool → Set Ω) {b : ℝ} (hb : ∀ m, m.length = nc → P.real (B m) ≤ b) :
    P.real {ω | ∃ m, m.length = nc ∧ ω ∈ B m} ≤ 2 ^ nc * b := by
  have h1 : {ω | ∃ m, m.length = nc ∧ ω ∈ B m} ⊆ ⋃ f ∈ (Finset.univ : Finset (Fin nc → Bool)), B (List.ofFn f) := by
    rintro ω ⟨m, rfl, hω⟩
    refine Set.mem_biUnion (x := fun i => m[i]) (Finset.mem_coe.2 (Finset.mem_univ _)) ?_
    rw [show List.ofFn (fun i : Fin m.length => m[i]) = m from List.ofFn_getElem]
    exact hω
  refine (measureReal_mono h1 (measure_ne_top _ _)).trans ((measureReal_biUnion_finset_le _ _).trans ?_)
  refine (Finset.sum_le_sum fun f _ => hb (List.ofFn f) (List.length_ofFn)).trans (le_of_eq ?_)
  simp

variable {svd : Mat ℝ → SVD ℝ} {X : Mat ℝ} {β : Nat → ℝ} {t : List Bool} {D h v : ℝ}

/-- The noise is not loud, and it hides no feature of the signal. -/
def Revealing (svd : Mat ℝ → SVD ℝ) (X : Mat ℝ) (β : Nat → ℝ) (h : ℝ) (e : Nat → ℝ) : Prop :=
  noiseSq X.nr e < X.nr * h ∧ ∀ m, m.length = X.nc → 0 < Spec.card m → Misses X β m →
    |crossTerm svd X (lin X β) e m| < leftover svd X (lin X β) m / 8 ∧ takenUp svd X e m < leftover svd X (lin X β) m / 4

/-- The noise is not silent, and no model takes up much of it. -/
def Modest (svd : Mat ℝ → SVD ℝ) (X : Mat ℝ) (v : ℝ) (e : Nat → ℝ) : Prop :=
  v * X.nr ≤ noiseSq X.nr e ∧ ∀ m, m.length = X.nc → 0 < Spec.card m → takenUp svd X e m < v * Real.log X.nr / 4

theorem revealing_prob (hs : SignalModel svd X β t D) (he : WhiteNoise P X.nr e σ) (hD : 0 < D) (hh : 0 < h) :
    P.real {ω | ¬ Revealing svd X β h (fun i => e i ω)} ≤ 2 ^ X.nc * ((64 + 4 * X.nc) * σ ^ 2 / D) + σ ^ 2 / h := by
  have hn : 0 < X.nr := (Nat.zero_le _).trans_lt hs.rows
  set B : List Bool → Set Ω := fun m => {ω | (0 < Spec.card m ∧ Misses X β m) ∧
    (leftover svd X (lin X β) m / 8 ≤ |crossTerm svd X (lin X β) (fun i => e i ω) m| ∨
      leftover svd X (lin X β) m / 4 ≤ takenUp svd X (fun i => e i ω) m)} with hB
  have h1 : {ω | ¬ Revealing svd X β h (fun i => e i ω)} ⊆
      {ω | ∃ m, m.length = X.nc ∧ ω ∈ B m} ∪ {ω | X.nr * h ≤ noiseSq X.nr (fun i => e i ω)} := by
    intro ω hω
    by_contra hn
    rw [Set.mem_union, not_or] at hn
    refine hω ⟨not_le.1 hn.2, fun m hm hpos hmiss => ?_⟩
    have h2 : ¬ (leftover svd X (lin X β) m / 8 ≤ |crossTerm svd X (lin X β) (fun i => e i ω) m| ∨
      leftover svd X (lin X β) m / 4 ≤ takenUp svd X (fun i => e i ω) m) := fun h3 => hn.1 ⟨m, hm, ⟨hpos, hmiss⟩, h3⟩
    rw [not_or, not_le, not_le] at h2
    exact h2
  have h2 : ∀ m, m.length = X.nc → P.real (B m) ≤ (64 + 4 * X.nc) * σ ^ 2 / D := by
    intro m hm
    by_cases hc : 0 < Spec.card m ∧ Misses X β m
    · have hA : D ≤ leftover svd X (lin X β) m := hs.left m hm hc.1 hc.2 _
      have hA0 := hD.trans_le hA
      have h3 := crossTerm_rare (svd := svd) (m := m) he (lin X β) hA0
      have h4 := takenUp_rare he (hs.exact m hm hc.1) (a := leftover svd X (lin X β) m / 4) (by positivity)
      have h5 : B m ⊆ {ω | leftover svd X (lin X β) m / 8 ≤ |crossTerm svd X (lin X β) (fun i => e i ω) m|} ∪
          {ω | leftover svd X (lin X β) m / 4 ≤ takenUp svd X (fun i => e i ω) m} := fun ω hω => hω.2
      refine (measureReal_mono h5 (measure_ne_top _ _)).trans ((measureReal_union_le _ _).trans ((add_le_add h3 h4).trans ?_))
      have hk : (Spec.card m : ℝ) ≤ X.nc := by exact_mod_cast hm ▸ card_le_length m
      have e1 : 64 * σ ^ 2 / leftover svd X (lin X β) m + Spec.card m * σ ^ 2 / (leftover svd X (lin X β) m / 4) =
          (64 + 4 * Spec.card m) * σ ^ 2 / leftover svd X (lin X β) m := by
        field_simp
      rw [e1]
      refine (div_le_div_of_nonneg_left (by positivity) hD hA).trans ?_
      refine div_le_div_of_nonneg_right (mul_le_mul_of_nonneg_right (by linarith) (sq_nonneg _)) hD.le
    · have : B m = ∅ := by
        ext ω
        simp only [hB, Set.mem_setOf_eq, Set.mem_empty_iff_false, iff_false]
        exact fun hω => hc hω.1
      rw [this, measureReal_empty]
      positivity
  refine (measureReal_mono h1 (measure_ne_top _ _)).trans ((measureReal_union_le _ _).trans ?_)
  exact add_le_add (models_union B h2) (loud he hn hh)

theorem modest_prob (hs : SignalModel svd X β t D) (he : WhiteNoise P X.nr e σ) (hv : 0 < v) (hn : 2 ≤ X.nr) :
    P.real {ω | ¬ Modest svd X v (fun i => e i ω)} ≤
      2 ^ X.nc * (4 * X.nc * σ ^ 2 / (v * Real.log X.nr)) + P.real {ω | noiseSq X.nr (fun i => e i ω) < v * X.nr} := by
  have hlog : 0 < Real.log X.nr := Real.log_pos (by exact_mod_cast hn)
  set B : List Bool → Set Ω := fun m => {ω | 0 < Spec.card m ∧ v * Real.log X.nr / 4 ≤ takenUp svd X (fun i => e i ω) m} with hB
  have h1 : {ω | ¬ Modest svd X v (fun i => e i ω)} ⊆
      {ω | ∃ m, m.length = X.nc ∧ ω ∈ B m} ∪ {ω | noiseSq X.nr (fun i => e i ω) < v * X.nr} := by
    intro ω hω
    by_contra hn
    rw [Set.mem_union, not_or] at hn
    exact hω ⟨not_lt.1 hn.2, fun m hm hpos => not_le.1 fun h3 => hn.1 ⟨m, hm, hpos, h3⟩⟩
  have h2 : ∀ m, m.length = X.nc → P.real (B m) ≤ 4 * X.nc * σ ^ 2 / (v * Real.log X.nr) := by
    intro m hm
    by_cases hc : 0 < Spec.card m
    · have h4 := takenUp_rare he (hs.exact m hm hc) (a := v * Real.log X.nr / 4) (by positivity)
      have h5 : B m ⊆ {ω | v * Real.log X.nr / 4 ≤ takenUp svd X (fun i => e i ω) m} := fun ω hω => hω.2
      refine (measureReal_mono h5 (measure_ne_top _ _)).trans (h4.trans ?_)
      have hk : (Spec.card m : ℝ) ≤ X.nc := by exact_mod_cast hm ▸ card_le_length m
      have e1 : Spec.card m * σ ^ 2 / (v * Real.log X.nr / 4) = 4 * Spec.card m * σ ^ 2 / (v * Real.log X.nr) := by
        field_simp
      rw [e1]
      exact div_le_div_of_nonneg_right (mul_le_mul_of_nonneg_right (by linarith) (sq_nonneg _)) (by positivity)
    · have : B m = ∅ := by
        ext ω
        simp only [hB, Set.mem_setOf_eq, Set.mem_empty_iff_false, iff_false]
        exact fun hω => hc hω.1
      rw [this, measureReal_empty]
      positivity
  refine (measureReal_mono h1 (measure_ne_top _ _)).trans ((measureReal_union_le _ _).trans ?_)
  exact add_le_add (models_union B h2) le_rfl

omit [MeasurableSpace Ω] in
theorem Spec.SignalModel.expresses (hs : SignalModel svd X β t D) : Expresses X t β := fun j hj hb => (hs.signal j hj).2 hb

omit [MeasurableSpace Ω] in
theorem expresses_of_not_misses {m : List Bool} (h : ¬ Misses X β m) : Expresses X m β := by
  intro j hj hb
  by_contra hf
  exact h ⟨j, hj, hb, hf⟩

omit [MeasurableSpace Ω] in
/-- When the noise reveals the signal, a model that lacks a feature is worse than the right one. -/
theorem revealing_worse (hs : SignalModel svd X β t D) (hD : 0 < D) {ω : Ω} (hg : Revealing svd X β h (fun i => e i ω))
    {m : List Bool} (hm : m.length = X.nc) (hpos : 0 < Spec.card m) (hmiss : Misses X β m) {r rT : ℝ}
    (hr : HasRss X (noisy X.nr (lin X β) e ω) m r) (hrT : HasRss X (noisy X.nr (lin X β) e ω) t rT) {pen penT : ℝ}
    (hpen : 0 ≤ pen) (hbig : penT < X.nr * Real.log (1 + D / (2 * (X.nr * h)))) :
    critExt penT X.nr rT < critExt pen X.nr r := by
  have hn : 0 < X.nr := (Nat.zero_le _).trans_lt hs.rows
  obtain ⟨h1, h2⟩ := expresses_rss hs.len hs.expresses hrT
  obtain ⟨h3, h4⟩ := hg.2 m hm hpos hmiss
  have hA : D ≤ leftover svd X (lin X β) m := hs.left m hm hpos hmiss _
  refine underfit_worse hn hD hpen h1 h2 hg.1.le ?_ hbig
  rw [hasRss_noisy (hs.exact m hm hpos) hr]
  have := (abs_lt.1 h3).2
  linarith

/-- **C131 (no feature is missed).** The probability that the AICc of some model that lacks a feature of the signal is at most
that of the right model is small when what such models leave of the signal is large. -/
theorem C131_underfit (hs : SignalModel svd X β t D) (he : WhiteNoise P X.nr e σ) (hD : 0 < D) (hh : 0 < h)
    (hbig : aicc (Spec.card t) X.nr 1 < X.nr * Real.log (1 + D / (2 * (X.nr * h)))) :
    P.real {ω | ∃ m r rT, m.length = X.nc ∧ 0 < Spec.card m ∧ Misses X β m ∧ HasRss X (noisy X.nr (lin X β) e ω) m r ∧
      HasRss X (noisy X.nr (lin X β) e ω) t rT ∧ aiccExt (Spec.card m) X.nr r ≤ aiccExt (Spec.card t) X.nr rT} ≤
    2 ^ X.nc * ((64 + 4 * X.nc) * σ ^ 2 / D) + σ ^ 2 / h := by
  refine (measureReal_mono ?_ (measure_ne_top _ _)).trans (revealing_prob hs he hD hh)
  rintro ω ⟨m, r, rT, hm, hpos, hmiss, hr, hrT, hle⟩ hg
  rw [aiccExt_crit, aiccExt_crit] at hle
  exact absurd hle (not_le.2 (revealing_worse hs hD hg hm hpos hmiss hr hrT (aicc_one_nonneg _ _) hbig))

/-- **C131 (`SelectModel`).** The same for the first model in the highscore list of a run of `SelectModel` that starts with no
features and returns (no overflow message, no torn read), under every schedule. -/
theorem C131_select (hs : SignalModel svd X β t D) (he : WhiteNoise P X.nr e σ) (hD : 0 < D) (hh : 0 < h)
    (hbig : aicc (Spec.card t) X.nr 1 < X.nr * Real.log (1 + D / (2 * (X.nr * h)))) :
    P.real {ω | GoodData svd X (noisy X.nr (lin X β) e ω) ∧ ∃ (maxQueue : Int) (cutoff : ℝ) (M : Int) (s : SState ℝ)
      (x : Node ℝ), 2 ≤ M ∧ SelectReaches (regressionSearch svd X (noisy X.nr (lin X β) e ω) (List.replicate X.nc false)
        maxQueue cutoff) M [] s ∧ s.main = .done ∧ s.torn = false ∧ s.overflows = 0 ∧ s.hs.items.head? = some x ∧
      Misses X β x.model} ≤
    2 ^ X.nc * ((64 + 4 * X.nc) * σ ^ 2 / D) + σ ^ 2 / h := by
  refine (measureReal_mono ?_ (measure_ne_top _ _)).trans (C131_underfit hs he hD hh hbig)
  rintro ω ⟨hdata, maxQueue, cutoff, M, s, x, hM, hreach, hd, ht, ho, hx, hmiss⟩
  obtain ⟨h1, h2⟩ := C13_each_model_once _ M (by omega) s hreach
  have hxm : x ∈ s.hs.items := List.mem_of_mem_head? hx
  obtain ⟨h3, h4, h5⟩ := h2 x hxm
  have hlen : x.model.length = X.nc := h3
  have hpos : 0 < Spec.card x.model := by
    rcases Nat.eq_zero_or_pos (Spec.card x.model) with h0 | h0
    · refine absurd ?_ h4
      change x.model = List.replicate X.nc false
      rw [← hlen]; exact card_eq_zero h0
    · exact h0
  have hbest : s.hs.bestScore = x.score := by
    unfold Highscore.bestScore
    cases hi : s.hs.items with
    | nil => rw [hi] at hx; cases hx
    | cons a l => rw [hi] at hx; cases hx; rfl
  have hrows : X.nc < X.nr := hs.rows
  have hct : Spec.card t < X.nr := lt_of_le_of_lt (hs.len ▸ card_le_length t) hrows
  have htr : t ≠ List.replicate X.nc false := by
    rintro rfl
    have := hs.some
    rw [card_eq_count] at this
    simp [List.count_replicate] at this
  obtain ⟨cT, rT, f1, f2, f3, f4⟩ := C12_regression svd X _ hdata _ (.inl rfl) maxQueue cutoff M hM [] s hreach hd ht ho t
    hs.len hs.some hct htr
  obtain ⟨c, g1, g2, g3⟩ := fitModel_eq_some (svd := svd) hdata.rows hpos hlen.le
  obtain ⟨cT', k1, k2, k3⟩ := fitModel_eq_some (svd := svd) hdata.rows hs.some hs.len.le
  have hcx : Spec.card x.model < X.nr := h5
  have hsc := ((C13_own_score _ M (by omega) s hreach x hxm).1 hpos).1
  have e1 : (regressionSearch svd X (noisy X.nr (lin X β) e ω) (List.replicate X.nc false) maxQueue cutoff).aicc
      (Spec.card x.model) (regressionSearch svd X (noisy X.nr (lin X β) e ω) (List.replicate X.nc false) maxQueue cutoff).nrows
      ((regressionSearch svd X (noisy X.nr (lin X β) e ω) (List.replicate X.nc false) maxQueue cutoff).rss x.model) =
      aicc (Spec.card x.model) X.nr (sse (designOf X x.model) (vec c) (vec (noisy X.nr (lin X β) e ω))) := by
    simp [regressionSearch, regressionProblem, g1]
  rw [e1] at hsc
  rw [hbest, hsc, neg_le_neg_iff] at f4
  have hrss := rss_eq_some (X := designOf X t) (c := cT) (y := noisy X.nr (lin X β) e ω) (by
    rw [k2] at f1; cases f1; exact k3) hdata.rows
  rw [hrss] at f2
  have p1 : 0 < sse (designOf X x.model) (vec c) (vec (noisy X.nr (lin X β) e ω)) :=
    smallestFloat_pos.trans_le (hdata.tiny _ _ _ hlen hpos hcx g1)
  have p2 : 0 < rT := by
    refine smallestFloat_pos.trans_le (hdata.tiny t cT rT hs.len hs.some hct ?_)
    rw [k1]
    rw [k2] at f1
    cases f1
    cases f2
    rfl
  refine ⟨x.model, _, rT, hlen, hpos, hmiss,
    ⟨vec c, fit_leastSquares (hdata.exact _ hlen hpos hcx) g2, rfl⟩, ⟨vec cT, f3, (Option.some.inj f2).symm⟩, ?_⟩
  unfold aiccExt
  rw [if_neg p1.ne', if_neg p2.ne']
  exact_mod_cast f4

/-! ### The Bayesian criterion -/

omit [MeasurableSpace Ω] in
theorem card_lt_of_expresses (hs : SignalModel svd X β t D) {m : List Bool} (hm : m.length = X.nc) (hx : Expresses X m β)
    (hne : m ≠ t) : Spec.card t < Spec.card m := by
  have hsub : ∀ j, HasFeature t j → HasFeature m j := by
    intro j hj
    have hlt : j < X.nc := by
      rw [← hs.len]
      exact (List.getElem?_eq_some_iff.1 hj).1
    exact hx j hlt ((hs.signal j hlt).1 hj)
  have hs' : features t ⊆ features m := fun i hi => (mem_features m i).2 (hsub i ((mem_features t i).1 hi))
  have hsp := (features_nodup t).subperm hs'
  refine lt_of_le_of_ne hsp.length_le fun heq => hne ?_
  have hperm := hsp.perm_of_length_le (le_of_eq heq.symm)
  refine features_inj (hm.trans hs.len.symm) ?_
  exact (List.Perm.eq_of_pairwise (le := (· ≤ ·)) (fun a b _ _ h1 h2 => le_antisymm h1 h2)
    ((features_sorted t).imp le_of_lt) ((features_sorted m).imp le_of_lt) hperm).symm

omit [MeasurableSpace Ω] in
/-- When the noise reveals the signal and is modest, every other model has a larger Bayesian criterion. -/
theorem modest_worse (hs : SignalModel svd X β t D) (hD : 0 < D) (hv : 0 < v) (hn : 2 ≤ X.nr) {ω : Ω}
    (hg : Revealing svd X β h (fun i => e i ω)) (hq : Modest svd X v (fun i => e i ω)) {m : List Bool}
    (hm : m.length = X.nc) (hpos : 0 < Spec.card m) (hne : m ≠ t) {r rT : ℝ}
    (hr : HasRss X (noisy X.nr (lin X β) e ω) m r) (hrT : HasRss X (noisy X.nr (lin X β) e ω) t rT)
    (hbig : Spec.card t * Real.log X.nr < X.nr * Real.log (1 + D / (2 * (X.nr * h)))) :
    bicExt (Spec.card t) X.nr rT < bicExt (Spec.card m) X.nr r := by
  rw [bicExt_crit, bicExt_crit]
  have hlog : 0 ≤ Real.log X.nr := Real.log_natCast_nonneg _
  by_cases hmiss : Misses X β m
  · exact revealing_worse hs hD hg hm hpos hmiss hr hrT (by positivity) hbig
  · have hx := expresses_of_not_misses hmiss
    obtain ⟨h1, h2⟩ := expresses_rss hs.len hs.expresses hrT
    refine overfit_worse hn hv ?_ h1 h2 hq.1 (expresses_rss_eq (hs.exact m hm hpos) hm hx hr) (hq.2 m hm hpos)
    exact_mod_cast card_lt_of_expresses hs hm hx hne

omit [MeasurableSpace Ω] in
/-- On such noise no residual sum of squares is small. -/
theorem modest_rss (hs : SignalModel svd X β t D) (hD : 0 < D) (hv : 0 < v) (hn : 2 ≤ X.nr) {ω : Ω}
    (hg : Revealing svd X β h (fun i => e i ω)) (hq : Modest svd X v (fun i => e i ω)) {m : List Bool}
    (hm : m.length = X.nc) (hpos : 0 < Spec.card m) {r : ℝ} (hr : HasRss X (noisy X.nr (lin X β) e ω) m r) : v ≤ r := by
  have hn' : (2 : ℝ) ≤ X.nr := by exact_mod_cast hn
  have h1 : v * 2 ≤ v * X.nr := mul_le_mul_of_nonneg_left hn' hv.le
  by_cases hmiss : Misses X β m
  · obtain ⟨h3, h4⟩ := hg.2 m hm hpos hmiss
    have hA : D ≤ leftover svd X (lin X β) m := hs.left m hm hpos hmiss _
    rw [hasRss_noisy (hs.exact m hm hpos) hr]
    have := (abs_lt.1 h3).2
    have := hq.1
    linarith
  · have hx := expresses_of_not_misses hmiss
    rw [expresses_rss_eq (hs.exact m hm hpos) hm hx hr]
    have h2 := hq.2 m hm hpos
    have h3 := hq.1
    have hlog' : Real.log X.nr ≤ X.nr - 1 := Real.log_le_sub_one_of_pos (by linarith)
    have h4 : v * Real.log X.nr ≤ v * X.nr := mul_le_mul_of_nonneg_left (by linarith) hv.le
    linarith

/-- The two bounds together. -/
theorem both_prob (hs : SignalModel svd X β t D) (he : WhiteNoise P X.nr e σ) (hD : 0 < D) (hh : 0 < h) (hv : 0 < v)
    (hn : 2 ≤ X.nr) :
    P.real {ω | ¬ (Revealing svd X β h (fun i => e i ω) ∧ Modest svd X v (fun i => e i ω))} ≤
    2 ^ X.nc * ((64 + 4 * X.nc) * σ ^ 2 / D) + σ ^ 2 / h + (2 ^ X.nc * (4 * X.nc * σ ^ 2 / (v * Real.log X.nr)) +
      P.real {ω | noiseSq X.nr (fun i => e i ω) < v * X.nr}) := by
  refine (measureReal_mono ?_ (measure_ne_top _ _)).trans ((measureReal_union_le _ _).trans
    (add_le_add (revealing_prob hs he hD hh) (modest_prob hs he hv hn)))
  intro ω hω
  by_contra hc
  rw [Set.mem_union, not_or] at hc
  exact hω ⟨not_not.1 hc.1, not_not.1 hc.2⟩

/-- **C131 (the right model).** The probability that the Bayesian criterion of some other model is at most that of the right
model is small when what models with missing features leave of the signal is large, there are many rows, and the noise is
not silent. -/
theorem C131_bic (hs : SignalModel svd X β t D) (he : WhiteNoise P X.nr e σ) (hD : 0 < D) (hh : 0 < h) (hv : 0 < v)
    (hn : 2 ≤ X.nr) (hbig : Spec.card t * Real.log X.nr < X.nr * Real.log (1 + D / (2 * (X.nr * h)))) :
    P.real {ω | ∃ m r rT, m.length = X.nc ∧ 0 < Spec.card m ∧ m ≠ t ∧ HasRss X (noisy X.nr (lin X β) e ω) m r ∧
      HasRss X (noisy X.nr (lin X β) e ω) t rT ∧ bicExt (Spec.card m) X.nr r ≤ bicExt (Spec.card t) X.nr rT} ≤
    2 ^ X.nc * ((64 + 4 * X.nc) * σ ^ 2 / D) + σ ^ 2 / h + (2 ^ X.nc * (4 * X.nc * σ ^ 2 / (v * Real.log X.nr)) +
      P.real {ω | noiseSq X.nr (fun i => e i ω) < v * X.nr}) := by
  refine (measureReal_mono ?_ (measure_ne_top _ _)).trans (both_prob hs he hD hh hv hn)
  rintro ω ⟨m, r, rT, hm, hpos, hne, hr, hrT, hle⟩ hg
  exact absurd hle (not_le.2 (modest_worse hs hD hv hn hg.1 hg.2 hm hpos hne hr hrT hbig))

/-- The probability that the noise is silent is small if the squares of the noise are uncorrelated too. -/
theorem C131_silent {n : Nat} (hn : 0 < n) (hσ : σ ≠ 0) {κ : ℝ} (hκ : WhiteNoise P n (fun r ω => e r ω * e r ω - σ ^ 2) κ) :
    P.real {ω | noiseSq n (fun i => e i ω) < σ ^ 2 / 2 * n} ≤ 4 * κ ^ 2 / (n * σ ^ 4) := by
  obtain ⟨h1, h2⟩ := noise_square hκ (fun _ => 1)
  have hn' : (0 : ℝ) < n := by exact_mod_cast hn
  have h3 : {ω | noiseSq n (fun i => e i ω) < σ ^ 2 / 2 * n} ⊆
      {ω | (σ ^ 2 / 2 * n) ^ 2 ≤ (∑ r ∈ range n, 1 * (e r ω * e r ω - σ ^ 2)) ^ 2} := by
    intro ω hω
    have h4 : noiseSq n (fun i => e i ω) < σ ^ 2 / 2 * n := hω
    have h5 : ∑ r ∈ range n, 1 * (e r ω * e r ω - σ ^ 2) = noiseSq n (fun i => e i ω) - n * σ ^ 2 := by
      simp [noiseSq, sum_sub_distrib]
    have h6 : 0 ≤ σ ^ 2 / 2 * n := by positivity
    simp only [Set.mem_setOf_eq]
    rw [h5]
    nlinarith
  refine (measureReal_mono h3 (measure_ne_top _ _)).trans ((markov h1 (fun ω => sq_nonneg _) (by positivity)).trans (le_of_eq ?_))
  rw [h2]
  simp
  field_simp
  ring

end

/-! ### Simulated annealing -/

section
variable {Ω : Type} [MeasurableSpace Ω] {P : Measure Ω} [IsProbabilityMeasure P] {e : Nat → Ω → ℝ} {σ : ℝ}
  {svd : Mat ℝ → SVD ℝ} {X : Mat ℝ} {β : Nat → ℝ} {t : List Bool} {D h v : ℝ}

/-- A fit of the annealing search, as residual sum of squares. -/
theorem isFit_rss {Q : SaInput} (hrows : Q.y.length = Q.X.nr) {m : List Bool} (hx : ExactFit Q.svd Q.X m) {c : List ℝ} {s : ℝ}
    (hf : IsFit Q m c s) : ∃ r, HasRss Q.X Q.y m r ∧ s = Q.cost (Spec.card m) Q.X.nr (max r rssTol) := by
  obtain ⟨r, h1, h2, h3⟩ := hf
  refine ⟨r, ⟨vec c, fit_leastSquares hx h1, ?_⟩, h3⟩
  have hc : c.length = (designOf Q.X m).nc := by
    rw [fit_eq_some (show (designOf Q.X m).nr = Q.y.length from hrows.symm), Option.some.injEq] at h1
    rw [← h1]; simp
  rw [rss_eq_some hc hrows, Option.some.injEq] at h2
  exact h2.symm

/-- **C131 (`SelectModelSA` with `Bic`).** When the search returns the best models (C123: it does with a probability that tends
to one with the number of sweeps), `BestItem` is the right model, except for a small probability. -/
theorem C131_sa_bic (hs : SignalModel svd X β t D) (he : WhiteNoise P X.nr e σ) (hD : 0 < D) (hh : 0 < h) (hv : rssTol ≤ v)
    (hn : X.nc < X.nr / 2) (hbig : Spec.card t * Real.log X.nr < X.nr * Real.log (1 + D / (2 * (X.nr * h)))) (sweeps : Int) :
    P.real {ω | SaData ⟨svd, X, noisy X.nr (lin X β) e ω, sweeps, bic⟩ ∧
      ∃ res b, SaReturns ⟨svd, X, noisy X.nr (lin X β) e ω, sweeps, bic⟩ res ∧
        BestListed ⟨svd, X, noisy X.nr (lin X β) e ω, sweeps, bic⟩ res ∧ res.scores.best = some b ∧
        (res.scores.heap b).selection ≠ (features t).map Int.ofNat} ≤
    2 ^ X.nc * ((64 + 4 * X.nc) * σ ^ 2 / D) + σ ^ 2 / h + (2 ^ X.nc * (4 * X.nc * σ ^ 2 / (v * Real.log X.nr)) +
      P.real {ω | noiseSq X.nr (fun i => e i ω) < v * X.nr}) := by
  have htol : 0 < rssTol := by unfold rssTol; positivity
  have hv0 := htol.trans_le hv
  have hn2 : 2 ≤ X.nr := by omega
  refine (measureReal_mono ?_ (measure_ne_top _ _)).trans (both_prob hs he hD hh hv0 hn2)
  rintro ω ⟨hd, res, b, hret, hlist, hb, hsel⟩ hg
  set Q : SaInput := ⟨svd, X, noisy X.nr (lin X β) e ω, sweeps, bic⟩ with hQ
  obtain ⟨b', hb', -, x, hx, hx1, hx2⟩ := C29_best_item_partial Q hd res hret
  obtain rfl : b = b' := Option.some.inj (hb.symm.trans hb')
  obtain ⟨s', hi, -, hrs⟩ := saReturns_inv hd hret
  have hxs : x ∈ s'.acc := by rw [hrs] at hx; exact hx
  obtain ⟨m, hm, hpos, -, hms, hfit⟩ := hi.items x hxs
  have hm' : m.length = X.nc := hm
  obtain ⟨b'', hb'', hall⟩ := hlist
  obtain rfl : b = b'' := Option.some.inj (hb.symm.trans hb'')
  obtain ⟨cT, g1, g2, g3⟩ := fitModel_eq_some (svd := svd) (X := X) (y := noisy X.nr (lin X β) e ω) (m := t) hd.rows hs.some
    hs.len.le
  have hfT : IsFit Q t cT (bic (Spec.card t) X.nr (max (sse (designOf X t) (vec cT) (vec (noisy X.nr (lin X β) e ω))) rssTol)) :=
    ⟨_, g2, rss_eq_some g3 hd.rows, rfl⟩
  have hle := (hall t cT _ hs.len hs.some ((card_le_length t).trans_lt (hs.len ▸ hn)) hfT).1
  have hne : m ≠ t := by
    rintro rfl
    exact hsel (hx1 ▸ hms)
  obtain ⟨r, hr, hr2⟩ := isFit_rss hd.rows (hs.exact m hm' hpos) hfit
  obtain ⟨rT, hrT, hrT2⟩ := isFit_rss hd.rows (hs.exact t hs.len hs.some) hfT
  have h1 := hv.trans (modest_rss hs hD hv0 hn2 hg.1 hg.2 hm' hpos hr)
  have h2 := hv.trans (modest_rss hs hD hv0 hn2 hg.1 hg.2 hs.len hs.some hrT)
  have h3 := modest_worse hs hD hv0 hn2 hg.1 hg.2 hm' hpos hne hr hrT hbig
  unfold bicExt at h3
  rw [if_neg (htol.trans_le h1).ne', if_neg (htol.trans_le h2).ne', EReal.coe_lt_coe_iff] at h3
  rw [← hx2, hr2, hrT2, max_eq_left h1, max_eq_left h2] at hle
  exact absurd hle (not_le.2 h3)

/-- **C131 (`SelectModelSA` with `Aicc`).** The same for the criterion of the commands: no feature of the signal is missed. -/
theorem C131_sa_aicc (hs : SignalModel svd X β t D) (he : WhiteNoise P X.nr e σ) (hD : 0 < D) (hh : 0 < h) (hv : rssTol ≤ v)
    (hn : X.nc < X.nr / 2) (hbig : aicc (Spec.card t) X.nr 1 < X.nr * Real.log (1 + D / (2 * (X.nr * h)))) (sweeps : Int) :
    P.real {ω | SaData ⟨svd, X, noisy X.nr (lin X β) e ω, sweeps, aicc⟩ ∧
      ∃ res b j, SaReturns ⟨svd, X, noisy X.nr (lin X β) e ω, sweeps, aicc⟩ res ∧
        BestListed ⟨svd, X, noisy X.nr (lin X β) e ω, sweeps, aicc⟩ res ∧ res.scores.best = some b ∧
        j < X.nc ∧ β j ≠ 0 ∧ (j : Int) ∉ (res.scores.heap b).selection} ≤
    2 ^ X.nc * ((64 + 4 * X.nc) * σ ^ 2 / D) + σ ^ 2 / h + (2 ^ X.nc * (4 * X.nc * σ ^ 2 / (v * Real.log X.nr)) +
      P.real {ω | noiseSq X.nr (fun i => e i ω) < v * X.nr}) := by
  have htol : 0 < rssTol := by unfold rssTol; positivity
  have hv0 := htol.trans_le hv
  have hn2 : 2 ≤ X.nr := by omega
  refine (measureReal_mono ?_ (measure_ne_top _ _)).trans (both_prob hs he hD hh hv0 hn2)
  rintro ω ⟨hd, res, b, j, hret, hlist, hb, hj, hβ, hsel⟩ hg
  set Q : SaInput := ⟨svd, X, noisy X.nr (lin X β) e ω, sweeps, aicc⟩ with hQ
  obtain ⟨b', hb', -, x, hx, hx1, hx2⟩ := C29_best_item_partial Q hd res hret
  obtain rfl : b = b' := Option.some.inj (hb.symm.trans hb')
  obtain ⟨s', hi, -, hrs⟩ := saReturns_inv hd hret
  have hxs : x ∈ s'.acc := by rw [hrs] at hx; exact hx
  obtain ⟨m, hm, hpos, -, hms, hfit⟩ := hi.items x hxs
  have hm' : m.length = X.nc := hm
  obtain ⟨b'', hb'', hall⟩ := hlist
  obtain rfl : b = b'' := Option.some.inj (hb.symm.trans hb'')
  obtain ⟨cT, g1, g2, g3⟩ := fitModel_eq_some (svd := svd) (X := X) (y := noisy X.nr (lin X β) e ω) (m := t) hd.rows hs.some
    hs.len.le
  have hfT : IsFit Q t cT (aicc (Spec.card t) X.nr (max (sse (designOf X t) (vec cT) (vec (noisy X.nr (lin X β) e ω))) rssTol)) :=
    ⟨_, g2, rss_eq_some g3 hd.rows, rfl⟩
  have hle := (hall t cT _ hs.len hs.some ((card_le_length t).trans_lt (hs.len ▸ hn)) hfT).1
  have hmiss : Misses X β m := by
    refine ⟨j, hj, hβ, fun hf => hsel ?_⟩
    rw [← hx1, hms]
    exact List.mem_map.2 ⟨j, (mem_features m j).2 hf, rfl⟩
  obtain ⟨r, hr, hr2⟩ := isFit_rss hd.rows (hs.exact m hm' hpos) hfit
  obtain ⟨rT, hrT, hrT2⟩ := isFit_rss hd.rows (hs.exact t hs.len hs.some) hfT
  have h1 := hv.trans (modest_rss hs hD hv0 hn2 hg.1 hg.2 hm' hpos hr)
  have h2 := hv.trans (modest_rss hs hD hv0 hn2 hg.1 hg.2 hs.len hs.some hrT)
  have h3 := revealing_worse hs hD hg.1 hm' hpos hmiss hr hrT (aicc_one_nonneg (Spec.card m) X.nr) hbig
  rw [← aiccExt_crit, ← aiccExt_crit] at h3
  unfold aiccExt at h3
  rw [if_neg (htol.trans_le h1).ne', if_neg (htol.trans_le h2).ne', EReal.coe_lt_coe_iff] at h3
  rw [← hx2, hr2, hrT2, max_eq_left h1, max_eq_left h2] at hle
  exact absurd hle (not_le.2 h3)

end

/-! ### Many rows -/

section
open Filter Topology

theorem aicc_one_le (k n : Nat) : aicc k n 1 ≤ 2 * k + (2 * k * k + 2 * k) := by
  unfold aicc aic
  simp only [Real.log_one, mul_zero, add_zero]
  have h1 : (1 : ℝ) ≤ if (k : Int) ≥ (n : Int) - 1 then (1 : ℝ) else (((n : Int) - k - 1 : Int) : ℝ) := by
    split
    · exact le_rfl
    · rename_i h
      have : (1 : Int) ≤ (n : Int) - k - 1 := by omega
      exact_mod_cast this
  have h2 : (((2 * k * k + 2 * k : Nat) : ℝ) / if (k : Int) ≥ (n : Int) - 1 then (1 : ℝ) else (((n : Int) - k - 1 : Int) : ℝ)) ≤
      ((2 * k * k + 2 * k : Nat) : ℝ) := div_le_self (by positivity) h1
  push_cast at h2 ⊢
  linarith

theorem sqrt_tendsto : Tendsto (fun n : ℕ => Real.sqrt n) atTop atTop :=
  Real.tendsto_sqrt_atTop.comp tendsto_natCast_atTop_atTop

/-- The gain of a good fit grows faster than the penalties. -/
theorem gain_grows {c : ℝ} (hc : 0 < c) (K : ℝ) (hK : 0 ≤ K) :
    ∀ᶠ n : ℕ in atTop, K + K * Real.log n < n * Real.log (1 + c * n / (2 * (n * Real.sqrt n))) := by
  have h1 : ∀ᶠ n : ℕ in atTop, c ≤ Real.sqrt n := sqrt_tendsto.eventually_ge_atTop c
  have h2 : ∀ᶠ n : ℕ in atTop, 12 * K / c + 1 ≤ Real.sqrt n := sqrt_tendsto.eventually_ge_atTop _
  have h3 : ∀ᶠ n : ℕ in atTop, ‖Real.log n‖ ≤ c / (12 * (K + 1)) * ‖(n : ℝ) ^ (1 / 2 : ℝ)‖ :=
    tendsto_natCast_atTop_atTop.eventually ((isLittleO_log_rpow_atTop (r := 1 / 2) (by norm_num)).def (by positivity))
  filter_upwards [h1, h2, h3, eventually_gt_atTop 0] with n h1 h2 h3 hn
  have hn' : (0 : ℝ) < n := by exact_mod_cast hn
  have hs : 0 < Real.sqrt n := Real.sqrt_pos.2 hn'
  rw [← Real.sqrt_eq_rpow, Real.norm_eq_abs, Real.norm_eq_abs, abs_of_pos hs] at h3
  have h4 : Real.log n ≤ c / (12 * (K + 1)) * Real.sqrt n := (le_abs_self _).trans h3
  have h5 : c * n / (2 * (n * Real.sqrt n)) = c / (2 * Real.sqrt n) := by field_simp
  have h6 := Real.one_sub_inv_le_log_of_pos (show (0 : ℝ) < 1 + c / (2 * Real.sqrt n) by positivity)
  have h7 : 1 - (1 + c / (2 * Real.sqrt n))⁻¹ = c / (2 * Real.sqrt n + c) := by
    have : (2 * Real.sqrt n + c) ≠ 0 := by positivity
    field_simp
    ring
  have h8 : c / (3 * Real.sqrt n) ≤ c / (2 * Real.sqrt n + c) := by
    apply div_le_div_of_nonneg_left hc.le (by positivity)
    linarith
  have h9 : n * (c / (3 * Real.sqrt n)) = c * Real.sqrt n / 3 := by
    have := Real.mul_self_sqrt hn'.le
    field_simp
    linear_combination -this
  have h10 : n * (c / (3 * Real.sqrt n)) ≤ n * Real.log (1 + c / (2 * Real.sqrt n)) :=
    mul_le_mul_of_nonneg_left (by linarith) hn'.le
  have h11 : K * Real.log n ≤ c * Real.sqrt n / 12 := by
    refine (mul_le_mul_of_nonneg_left h4 hK).trans ?_
    have : K * (c / (12 * (K + 1)) * Real.sqrt n) = K / (K + 1) * (c * Real.sqrt n / 12) := by
      field_simp
    rw [this]
    refine mul_le_of_le_one_left (by positivity) ?_
    rw [div_le_one (by linarith)]
    linarith
  have h12 : K ≤ c * Real.sqrt n / 12 := by
    have h13 : 12 * K / c ≤ Real.sqrt n := by linarith
    rw [div_le_iff₀ hc] at h13
    linarith
  rw [h5]
  have : 0 < c * Real.sqrt n := by positivity
  linarith

variable {Ω : Type} [MeasurableSpace Ω] {P : Measure Ω} [IsProbabilityMeasure P] {σ c v : ℝ} {p : Nat}
  {svd : Mat ℝ → SVD ℝ} {X : ℕ → Mat ℝ} {β : Nat → ℝ} {t : List Bool} {e : ℕ → ℕ → Ω → ℝ}

theorem const_div_tendsto (K : ℝ) : Tendsto (fun n : ℕ => K / n) atTop (𝓝 0) :=
  tendsto_const_div_atTop_nhds_zero_nat K

theorem underfit_bound_tendsto (hc : 0 < c) (p : Nat) (σ : ℝ) :
    Tendsto (fun n : ℕ => (2 : ℝ) ^ p * ((64 + 4 * p) * σ ^ 2 / (c * n)) + σ ^ 2 / Real.sqrt n) atTop (𝓝 0) := by
  have h1 : Tendsto (fun n : ℕ => (2 : ℝ) ^ p * ((64 + 4 * p) * σ ^ 2 / (c * n))) atTop (𝓝 0) := by
    have := const_div_tendsto ((2 : ℝ) ^ p * ((64 + 4 * p) * σ ^ 2) / c)
    refine this.congr fun n => ?_
    rw [div_div, mul_div_assoc]
  have h2 : Tendsto (fun n : ℕ => σ ^ 2 / Real.sqrt n) atTop (𝓝 0) := Tendsto.const_div_atTop sqrt_tendsto _
  simpa using h1.add h2

/-- **C131 (many rows).** When the part of the signal that models with missing features leave grows in proportion to the
number of rows, the probability that the AICc prefers one of them to the right model tends to zero. -/
theorem C131_tends_aicc (hnr : ∀ n, (X n).nr = n) (hnc : ∀ n, (X n).nc = p) (hc : 0 < c)
    (hs : ∀ᶠ n in atTop, SignalModel svd (X n) β t (c * n)) (he : ∀ n, WhiteNoise P n (e n) σ) :
    Tendsto (fun n => P.real {ω | ∃ m r rT, m.length = p ∧ 0 < Spec.card m ∧ Misses (X n) β m ∧
      HasRss (X n) (noisy n (lin (X n) β) (e n) ω) m r ∧ HasRss (X n) (noisy n (lin (X n) β) (e n) ω) t rT ∧
      aiccExt (Spec.card m) n r ≤ aiccExt (Spec.card t) n rT}) atTop (𝓝 0) := by
  refine squeeze_zero' (Eventually.of_forall fun n => measureReal_nonneg) ?_ (underfit_bound_tendsto hc p σ)
  set K : ℝ := 2 * Spec.card t + (2 * Spec.card t * Spec.card t + 2 * Spec.card t) with hK
  filter_upwards [hs, gain_grows hc K (by positivity), eventually_gt_atTop 0] with n hsn hbig hn
  have hn' : (0 : ℝ) < n := by exact_mod_cast hn
  have h1 := C131_underfit (P := P) (e := e n) (σ := σ) (h := Real.sqrt n) hsn (by rw [hnr]; exact he n) (by positivity)
    (Real.sqrt_pos.2 hn') ?_
  · rw [hnr, hnc] at h1
    exact h1
  · rw [hnr]
    refine (aicc_one_le _ _).trans_lt (lt_of_le_of_lt ?_ hbig)
    have : 0 ≤ Real.log (n : ℝ) := Real.log_natCast_nonneg _
    have : 0 ≤ K * Real.log n := by positivity
    linarith

/-- **C131 (many rows, Bayesian criterion).** If moreover the noise is not silent, the probability that another model has a
Bayesian criterion of at most that of the right model tends to zero. -/
theorem C131_tends_bic (hnr : ∀ n, (X n).nr = n) (hnc : ∀ n, (X n).nc = p) (hc : 0 < c) (hv : 0 < v)
    (hs : ∀ᶠ n in atTop, SignalModel svd (X n) β t (c * n)) (he : ∀ n, WhiteNoise P n (e n) σ)
    (hq : Tendsto (fun n => P.real {ω | ∑ i ∈ range n, e n i ω * e n i ω < v * n}) atTop (𝓝 0)) :
    Tendsto (fun n => P.real {ω | ∃ m r rT, m.length = p ∧ 0 < Spec.card m ∧ m ≠ t ∧
      HasRss (X n) (noisy n (lin (X n) β) (e n) ω) m r ∧ HasRss (X n) (noisy n (lin (X n) β) (e n) ω) t rT ∧
      bicExt (Spec.card m) n r ≤ bicExt (Spec.card t) n rT}) atTop (𝓝 0) := by
  have h2 : Tendsto (fun n : ℕ => (2 : ℝ) ^ p * (4 * p * σ ^ 2 / (v * Real.log n))) atTop (𝓝 0) := by
    have h3 : Tendsto (fun n : ℕ => v * Real.log n) atTop atTop :=
      (Real.tendsto_log_atTop.comp tendsto_natCast_atTop_atTop).const_mul_atTop hv
    have := (Tendsto.const_div_atTop h3 (4 * p * σ ^ 2)).const_mul ((2 : ℝ) ^ p)
    simpa using this
  have h4 := (underfit_bound_tendsto hc p σ).add (h2.add hq)
  rw [add_zero, add_zero] at h4
  refine squeeze_zero' (Eventually.of_forall fun n => measureReal_nonneg) ?_ h4
  filter_upwards [hs, gain_grows hc (Spec.card t) (by positivity), eventually_ge_atTop 2] with n hsn hbig hn
  have hn' : (0 : ℝ) < n := by exact_mod_cast (show 0 < n by omega)
  have h1 := C131_bic (P := P) (e := e n) (σ := σ) (h := Real.sqrt n) hsn (by rw [hnr]; exact he n) (by positivity)
    (Real.sqrt_pos.2 hn') hv (by rw [hnr]; exact hn) ?_
  · rw [hnr, hnc] at h1
    exact h1
  · rw [hnr]
    refine lt_of_le_of_lt ?_ hbig
    have : (0 : ℝ) ≤ Spec.card t := by positivity
    linarith

end

/-! ### Independent noise -/

/-- Noise that is independent between any two rows, with mean 0, variance `σ²` and finite fourth moments, the same in every
row. -/
structure Spec.IndependentNoise {Ω : Type} [MeasurableSpace Ω] (P : Measure Ω) (e : ℕ → Ω → ℝ) (σ κ : ℝ) : Prop where
  int : ∀ r, Integrable (e r) P
  int2 : ∀ r, Integrable (fun ω => e r ω * e r ω) P
  int4 : ∀ r, Integrable (fun ω => (e r ω * e r ω - σ ^ 2) * (e r ω * e r ω - σ ^ 2)) P
  mean : ∀ r, ∫ ω, e r ω ∂P = 0
  var : ∀ r, ∫ ω, e r ω * e r ω ∂P = σ ^ 2
  fourth : ∀ r, ∫ ω, (e r ω * e r ω - σ ^ 2) * (e r ω * e r ω - σ ^ 2) ∂P = κ ^ 2
  indep : ∀ r s, r ≠ s → ProbabilityTheory.IndepFun (e r) (e s) P

section
open Filter Topology
variable {Ω : Type} [MeasurableSpace Ω] {P : Measure Ω} [IsProbabilityMeasure P] {e : ℕ → Ω → ℝ} {σ κ : ℝ}

omit [IsProbabilityMeasure P] in
theorem Spec.IndependentNoise.white (h : IndependentNoise P e σ κ) (n : Nat) : WhiteNoise P n e σ := by
  refine ⟨fun r _ => h.int r, fun r _ => h.mean r, fun r _ s _ => ?_, fun r _ => h.var r, fun r _ s _ hrs => ?_⟩
  · by_cases hrs : r = s
    · subst hrs; exact h.int2 r
    · exact (h.indep r s hrs).integrable_mul (h.int r) (h.int s)
  · rw [(h.indep r s hrs).integral_fun_mul_eq_mul_integral (h.int r).aestronglyMeasurable (h.int s).aestronglyMeasurable,
      h.mean r, zero_mul]

theorem Spec.IndependentNoise.squares (h : IndependentNoise P e σ κ) (n : Nat) :
    WhiteNoise P n (fun r ω => e r ω * e r ω - σ ^ 2) κ := by
  have hi : ∀ r, Integrable (fun ω => e r ω * e r ω - σ ^ 2) P := fun r => (h.int2 r).sub (integrable_const _)
  have hm : ∀ r, ∫ ω, (e r ω * e r ω - σ ^ 2) ∂P = 0 := fun r => by
    rw [integral_sub (h.int2 r) (integrable_const _), h.var r, integral_const]
    simp
  have hg : Measurable fun x : ℝ => x * x - σ ^ 2 := by fun_prop
  have hind : ∀ r s, r ≠ s → ProbabilityTheory.IndepFun (fun ω => e r ω * e r ω - σ ^ 2) (fun ω => e s ω * e s ω - σ ^ 2) P :=
    fun r s hrs => (h.indep r s hrs).comp hg hg
  refine ⟨fun r _ => hi r, fun r _ => hm r, fun r _ s _ => ?_, fun r _ => h.fourth r, fun r _ s _ hrs => ?_⟩
  · by_cases hrs : r = s
    · subst hrs; exact h.int4 r
    · exact (hind r s hrs).integrable_mul (hi r) (hi s)
  · rw [(hind r s hrs).integral_fun_mul_eq_mul_integral (hi r).aestronglyMeasurable (hi s).aestronglyMeasurable,
      hm r, zero_mul]

/-- **C131 (consistency).** For independent noise with variance `σ² > 0` and equal fourth moments, and a signal whose
missing features stay visible as rows are added: with probability tending to one the right model is the only one of minimal
Bayesian criterion. -/
theorem C131_consistent {p : Nat} {c : ℝ} {svd : Mat ℝ → SVD ℝ} {X : ℕ → Mat ℝ} {β : Nat → ℝ} {t : List Bool}
    (hnr : ∀ n, (X n).nr = n) (hnc : ∀ n, (X n).nc = p) (hc : 0 < c) (hσ : σ ≠ 0)
    (hs : ∀ᶠ n in atTop, SignalModel svd (X n) β t (c * n)) (he : IndependentNoise P e σ κ) :
    Tendsto (fun n => P.real {ω | ∀ m r rT, m.length = p → 0 < Spec.card m → m ≠ t →
      HasRss (X n) (noisy n (lin (X n) β) e ω) m r → HasRss (X n) (noisy n (lin (X n) β) e ω) t rT →
      bicExt (Spec.card t) n rT < bicExt (Spec.card m) n r}) atTop (𝓝 1) := by
  have hq : Tendsto (fun n : ℕ => P.real {ω | ∑ i ∈ range n, e i ω * e i ω < σ ^ 2 / 2 * n}) atTop (𝓝 0) := by
    refine squeeze_zero' (Eventually.of_forall fun n => measureReal_nonneg) ?_ (const_div_tendsto (4 * κ ^ 2 / σ ^ 4))
    filter_upwards [eventually_gt_atTop 0] with n hn
    refine (C131_silent hn hσ (he.squares n)).trans (le_of_eq ?_)
    rw [div_div, mul_comm (n : ℝ)]
  have h0 := C131_tends_bic (P := P) (e := fun _ => e) hnr hnc hc (v := σ ^ 2 / 2) (by positivity) hs (fun n => he.white n) hq
  have h0' := h0.const_sub 1
  rw [sub_zero] at h0'
  refine tendsto_of_tendsto_of_tendsto_of_le_of_le h0' tendsto_const_nhds (fun n => ?_) (fun n => measureReal_le_one)
  have hcover : (Set.univ : Set Ω) ⊆ {ω | ∃ m r rT, m.length = p ∧ 0 < Spec.card m ∧ m ≠ t ∧
      HasRss (X n) (noisy n (lin (X n) β) e ω) m r ∧ HasRss (X n) (noisy n (lin (X n) β) e ω) t rT ∧
      bicExt (Spec.card m) n r ≤ bicExt (Spec.card t) n rT} ∪ {ω | ∀ m r rT, m.length = p → 0 < Spec.card m → m ≠ t →
      HasRss (X n) (noisy n (lin (X n) β) e ω) m r → HasRss (X n) (noisy n (lin (X n) β) e ω) t rT →
      bicExt (Spec.card t) n rT < bicExt (Spec.card m) n r} := by
    intro ω _
    by_cases hω : ∃ m r rT, m.length = p ∧ 0 < Spec.card m ∧ m ≠ t ∧
      HasRss (X n) (noisy n (lin (X n) β) e ω) m r ∧ HasRss (X n) (noisy n (lin (X n) β) e ω) t rT ∧
      bicExt (Spec.card m) n r ≤ bicExt (Spec.card t) n rT
    · exact .inl hω
    · right
      intro m r rT h1 h2 h3 h4 h5
      by_contra h6
      exact hω ⟨m, r, rT, h1, h2, h3, h4, h5, not_lt.1 h6⟩
  have h1 := (measureReal_mono hcover (measure_ne_top P _)).trans (measureReal_union_le _ _)
  rw [probReal_univ] at h1
  exact sub_le_iff_le_add'.2 h1

end

/-! ### Example: coins and alternating columns -/

namespace CoinRows

open Filter Topology

/-- A fair coin for every row. -/
noncomputable def coins : Measure (ℕ → Bool) := Measure.infinitePi fun _ => ProbabilityTheory.uniformOn Set.univ

instance : IsProbabilityMeasure (ProbabilityTheory.uniformOn (Set.univ : Set Bool)) :=
  ProbabilityTheory.isProbabilityMeasure_uniformOn Set.finite_univ Set.univ_nonempty

instance : IsProbabilityMeasure coins := by unfold coins; infer_instance

/-- Row `r` is disturbed by 1 or -1. -/
def e (r : ℕ) (ω : ℕ → Bool) : ℝ := if ω r then 1 else -1

theorem e_sq (r : ℕ) (ω : ℕ → Bool) : e r ω * e r ω = 1 := by
  unfold e; split <;> norm_num

theorem e_mean (r : ℕ) : ∫ ω, e r ω ∂coins = 0 := by
  have hm : Measurable fun b : Bool => if b then (1 : ℝ) else -1 := Measurable.of_discrete
  have h1 : ∫ ω, e r ω ∂coins = ∫ b, (if b then (1 : ℝ) else -1) ∂(coins.map fun ω => ω r) := by
    rw [integral_map (measurable_pi_apply r).aemeasurable hm.aestronglyMeasurable]
    rfl
  have h2 : coins.map (fun ω => ω r) = ProbabilityTheory.uniformOn (Set.univ : Set Bool) := by
    exact Measure.infinitePi_map_eval (fun _ : ℕ => ProbabilityTheory.uniformOn (Set.univ : Set Bool)) r
  have h3 : ∀ b : Bool, (ProbabilityTheory.uniformOn (Set.univ : Set Bool)).real {b} = 1 / 2 := by
    intro b
    rw [measureReal_def, ProbabilityTheory.uniformOn_univ]
    simp
  rw [h1, h2, integral_fintype Integrable.of_finite]
  rw [Fintype.sum_bool, h3, h3]
  norm_num

theorem noise : IndependentNoise coins e 1 0 := by
  have hm : Measurable fun b : Bool => if b then (1 : ℝ) else -1 := Measurable.of_discrete
  have hme : ∀ r, Measurable (e r) := fun r => hm.comp (measurable_pi_apply r)
  have hint : ∀ r, Integrable (e r) coins := fun r => by
    refine Integrable.of_bound (hme r).aestronglyMeasurable 1 (Eventually.of_forall fun ω => ?_)
    unfold e; split <;> simp
  refine ⟨hint, fun r => ?_, fun r => ?_, e_mean, fun r => ?_, fun r => ?_, fun r s hrs => ?_⟩
  · simp only [e_sq]; exact integrable_const _
  · simp only [e_sq]; exact integrable_const _
  · simp only [e_sq]; simp
  · simp only [e_sq]; simp
  · exact (ProbabilityTheory.iIndepFun_infinitePi (fun _ => hm) :
      ProbabilityTheory.iIndepFun (fun r ω => e r ω) coins).indepFun hrs

/-- The first column is 1 in the even rows and the second one in the odd rows, in pairs of rows. -/
def alt (n : ℕ) : Mat ℝ := ⟨n, 2, fun i j => if i < 2 * (n / 2) ∧ i % 2 = j then 1 else 0⟩

theorem alt_sum (q k l : ℕ) (hk : k < 2) (hl : l < 2) :
    ∑ i ∈ range (2 * q), ((if i % 2 = k then (1 : ℝ) else 0) * if i % 2 = l then 1 else 0) = if k = l then (q : ℝ) else 0 := by
  induction q with
  | zero => simp
  | succ q ih =>
    rw [show 2 * (q + 1) = 2 * q + 1 + 1 by ring, sum_range_succ, sum_range_succ, ih]
    have h1 : 2 * q % 2 = 0 := by omega
    have h2 : (2 * q + 1) % 2 = 1 := by omega
    rw [h1, h2]
    have hk' : k = 0 ∨ k = 1 := by omega
    have hl' : l = 0 ∨ l = 1 := by omega
    rcases hk' with rfl | rfl <;> rcases hl' with rfl | rfl <;> simp

theorem alt_prod (n k l : ℕ) (hk : k < 2) (hl : l < 2) :
    ∑ i ∈ range n, (alt n).get i k * (alt n).get i l = if k = l then ((n / 2 : ℕ) : ℝ) else 0 := by
  rw [← alt_sum (n / 2) k l hk hl]
  have hsub : range (2 * (n / 2)) ⊆ range n := by
    intro i hi
    rw [mem_range] at *
    omega
  rw [← sum_subset hsub]
  · refine sum_congr rfl fun i hi => ?_
    have := mem_range.1 hi
    simp [alt, this]
  · intro i _ hi
    rw [mem_range] at hi
    simp [alt, hi]

/-- A decomposition of matrices with orthogonal columns of the same length. -/
noncomputable def levelSvd (M : Mat ℝ) : SVD ℝ :=
  ⟨M.nc, fun i k => M.get i k / Real.sqrt (∑ i ∈ range M.nr, M.get i 0 * M.get i 0),
    fun _ => Real.sqrt (∑ i ∈ range M.nr, M.get i 0 * M.get i 0), fun j k => if j = k then 1 else 0⟩

theorem levelSvd_untruncated {M : Mat ℝ} (h : M.nc ≤ M.nr) (hpos : 0 < M.nc) {q : ℝ} (hq : 1 ≤ q)
    (ho : ∀ k l, k < M.nc → l < M.nc → ∑ i ∈ range M.nr, M.get i k * M.get i l = if k = l then q else 0) :
    Untruncated (levelSvd M) M := by
  have h0 := ho 0 0 hpos hpos
  rw [if_pos rfl] at h0
  have hs : 1 ≤ Real.sqrt q := Real.one_le_sqrt.2 hq
  have hss : Real.sqrt q * Real.sqrt q = q := Real.mul_self_sqrt (by linarith)
  have hne : Real.sqrt q ≠ 0 := by linarith
  refine ⟨⟨(min_eq_right h).symm, ?_, ?_, ?_, fun _ _ => Real.sqrt_nonneg _, fun _ _ _ _ => le_refl _⟩, fun k _ => Or.inr ?_⟩
  · intro i j hi hj
    simp only [levelSvd, h0, mul_ite, mul_one, mul_zero]
    rw [sum_ite_eq (range M.nc) j, if_pos (mem_range.2 hj)]
    field_simp
  · intro k l hk hl
    have e1 : ∀ i ∈ range M.nr, (levelSvd M).u i k * (levelSvd M).u i l = M.get i k * M.get i l / q := by
      intro i _
      simp only [levelSvd, h0]
      rw [div_mul_div_comm, hss]
    rw [sum_congr rfl e1, ← sum_div, ho k l hk hl]
    split
    · field_simp
    · simp
  · intro k l hk hl
    simp only [levelSvd, mul_ite, mul_one, mul_zero] at *
    rw [sum_ite_eq' (range M.nc) l, if_pos (mem_range.2 hl)]
    by_cases h : k = l
    · simp [h]
    · simp [h, Ne.symm h]
  · change 1 / 10 ^ 6 < Real.sqrt (∑ i ∈ range M.nr, M.get i 0 * M.get i 0)
    rw [h0]
    refine lt_of_lt_of_le ?_ hs
    norm_num

theorem alt_exact {n : ℕ} (hn : 2 ≤ n) {m : List Bool} (hm : m.length = 2) (hpos : 0 < Spec.card m) :
    ExactFit levelSvd (alt n) m := by
  have hc : Spec.card m ≤ 2 := hm ▸ card_le_length m
  refine levelSvd_untruncated (M := designOf (alt n) m) (hc.trans hn) hpos (q := ((n / 2 : ℕ) : ℝ)) ?_ fun a b ha hb => ?_
  · exact_mod_cast (show 1 ≤ n / 2 by omega)
  · have ha' : a < (features m).length := ha
    have hb' : b < (features m).length := hb
    have ea : (features m).getD a 0 = (features m)[a] := by simp [List.getD_eq_getElem?_getD, ha']
    have eb : (features m).getD b 0 = (features m)[b] := by simp [List.getD_eq_getElem?_getD, hb']
    have la : (features m)[a] < 2 := hm ▸ features_lt (List.getElem_mem ha')
    have lb : (features m)[b] < 2 := hm ▸ features_lt (List.getElem_mem hb')
    have := alt_prod n _ _ la lb
    simp only [designOf, ea, eb]
    refine this.trans ?_
    simp only [(features_nodup m).getElem_inj_iff]

/-- The signal is the first column. -/
def β (j : ℕ) : ℝ := if j = 0 then 1 else 0

theorem signal {n : ℕ} (hn : 3 ≤ n) : SignalModel levelSvd (alt n) β [true, false] (1 / 4 * n) := by
  refine ⟨rfl, fun j hj => ?_, by decide, hn, fun m hm hpos => alt_exact (by omega) hm hpos, fun m hm hpos hmiss b => ?_⟩
  · change j < 2 at hj
    have hj' : j = 0 ∨ j = 1 := by omega
    rcases hj' with rfl | rfl <;> simp [HasFeature, β]
  · obtain ⟨j, hj, hb, hf⟩ := hmiss
    have hj0 : j = 0 := by
      by_contra h
      exact hb (if_neg h)
    subst hj0
    change m.length = 2 at hm
    obtain ⟨x, y, rfl⟩ : ∃ x y, m = [x, y] := by
      match m, hm with
      | [x, y], _ => exact ⟨x, y, rfl⟩
    obtain rfl : x = false := by
      cases x
      · rfl
      · exact absurd rfl hf
    obtain rfl : y = true := by
      cases y
      · exact absurd hpos (by decide)
      · rfl
    have hlin : ∀ i, lin (alt n) β i = (alt n).get i 0 := by
      intro i
      change ∑ j ∈ range 2, (alt n).get i j * β j = _
      simp [sum_range_succ, β]
    have hD : ∀ i, lin (designOf (alt n) [false, true]) b i = (alt n).get i 1 * b 0 := by
      intro i
      change ∑ j ∈ range 1, (alt n).get i ((features [false, true]).getD j 0) * b j = _
      rw [sum_range_one]
      rfl
    have h1 : ((n / 2 : ℕ) : ℝ) ≤ sse (designOf (alt n) [false, true]) b (lin (alt n) β) := by
      have h2 := alt_prod n 0 0 (by decide) (by decide)
      rw [if_pos rfl] at h2
      rw [← h2]
      refine sum_le_sum fun i _ => ?_
      rw [hlin, hD]
      simp only [alt]
      by_cases hi : i < 2 * (n / 2) ∧ i % 2 = 0
      · have : ¬ (i < 2 * (n / 2) ∧ i % 2 = 1) := by omega
        rw [if_pos hi, if_neg this]
        norm_num
      · rw [if_neg hi]
        have := sq_nonneg ((if i < 2 * (n / 2) ∧ i % 2 = 1 then (1 : ℝ) else 0) * b 0 - 0)
        linarith
    refine le_trans ?_ h1
    have : n ≤ 4 * (n / 2) := by omega
    have : (n : ℝ) ≤ 4 * ((n / 2 : ℕ) : ℝ) := by exact_mod_cast this
    linarith

/-- The right model is found among the models of both columns with probability tending to one. -/
example : Tendsto (fun n => coins.real {ω | ∀ m r rT, m.length = 2 → 0 < Spec.card m → m ≠ [true, false] →
    HasRss (alt n) (noisy n (lin (alt n) β) e ω) m r → HasRss (alt n) (noisy n (lin (alt n) β) e ω) [true, false] rT →
    bicExt 1 n rT < bicExt (Spec.card m) n r}) atTop (𝓝 1) :=
  C131_consistent (fun _ => rfl) (fun _ => rfl) (by norm_num) one_ne_zero
    (eventually_atTop.2 ⟨3, fun _ hn => signal hn⟩) noise

end CoinRows

end GoSelect
