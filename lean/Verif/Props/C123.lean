import Verif.Proofs.SaWord
import Verif.Proofs.RandomBlocks
import Mathlib.Probability.Independence.InfinitePi
import Mathlib.Probability.UniformOn
import Mathlib.Analysis.SpecialFunctions.Pow.Real
import Mathlib.Analysis.SpecificLimits.Basic

/-!
# C123: with many sweeps simulated annealing finds the best models

With independent random numbers the probability that `SelectModelSA` returns a list of the best models of its search
space (those with at least one and fewer than half as many features as rows) approaches one as the number of sweeps
grows, and it does so geometrically.
-/

namespace GoSelect

open Spec MeasureTheory ProbabilityTheory
open scoped ENNReal

namespace Spec

/-- Random draws: independent of each other, the columns below `nc`, the other numbers at least 0 and at most some
number below 1, and every column together with a small number has some chance that is the same in every iteration.  (If
they are independent of each other and uniform, as those of `rand.Intn` and `rand.Float64` should be, the chance of a
column together with a number below `δ` is about `δ / nc`.) -/
structure RandomDraws {Ω : Type} [MeasurableSpace Ω] (μ : Measure Ω) (nc : Nat) (index : Nat → Ω → Nat)
    (u : Nat → Ω → ℝ) : Prop where
  measurable : ∀ k, Measurable fun ω => (index k ω, u k ω)
  indep : iIndepFun (fun k ω => (index k ω, u k ω)) μ
  column : ∀ k ω, index k ω < nc
  bounded : ∃ v, v < 1 ∧ ∀ k ω, 0 ≤ u k ω ∧ u k ω ≤ v
  chance : ∀ i, i < nc → ∀ δ : ℝ, 0 < δ → ∃ p : ℝ≥0∞, p ≠ 0 ∧ ∀ k, p ≤ μ {ω | index k ω = i ∧ u k ω < δ}

/-- The search with other numbers of sweeps. -/
def withSweeps (P : SaInput) (n : Int) : SaInput where
  svd := P.svd
  X := P.X
  y := P.y
  nSweeps := n
  cost := P.cost

/-- The result is the list of the best models with few features: `BestItem` is as good as every such model, and a
model that is not listed is at most as good as the ten that are. -/
def BestListed (P : SaInput) (r : SaRes) : Prop :=
  ∃ b, r.scores.best = some b ∧
    ∀ m c σ, m.length = P.X.nc → 0 < card m → card m < P.X.nr / 2 → IsFit P m c σ →
      -(r.scores.heap b).score ≤ σ ∧
      ((∀ e ∈ r.scores.entries, e.selection ≠ (features m).map Int.ofNat) →
        r.scores.entries.length = 10 ∧ ∀ e ∈ r.scores.entries, -e.score ≤ σ)

/-- With these random numbers the search returns the best models. -/
def FindsBest (P : SaInput) (index : Nat → Nat) (u : Nat → ℝ) : Prop :=
  ∃ s0 r, saInit P = some s0 ∧ Runs (saStream P index u) (0, s0) r ∧ BestListed P r

end Spec

/-- If every model was evaluated, the best ones are listed. -/
theorem bestListed_of_all {P : SaInput} (hd : SaData P) {r : SaRes} (hret : SaReturns P r)
    (hall : ∀ m, InSpace P.X.nc P.X.nr m → ∃ x, x ∈ r.acc ∧ x.selection = (features m).map Int.ofNat) :
    BestListed P r := by
  obtain ⟨b, hb, hle, z, hz, hz1, hz2⟩ := C29_best_item_partial P hd r hret
  obtain ⟨s', hi, -, hrs⟩ := saReturns_inv hd hret
  have hitem : ∀ y ∈ r.acc, ∃ m', m'.length = P.X.nc ∧ 0 < card m' ∧ (4 ≤ P.X.nr → card m' < P.X.nr / 2) ∧
      y.selection = (features m').map Int.ofNat ∧ IsFit P m' y.coeff (-y.score) := by
    subst hrs
    exact hi.items
  have hmodel : ∀ m, m.length = P.X.nc → ∀ y ∈ r.acc, y.selection = (features m).map Int.ofNat →
      IsFit P m y.coeff (-y.score) := by
    intro m hm y hy hys
    obtain ⟨m', h9, -, -, h10, h11⟩ := hitem y hy
    rw [hys] at h10
    have := (List.map_injective_iff.2 fun _ _ => Int.ofNat.inj) h10
    rwa [features_inj (hm.trans h9.symm) this]
  have hrun : saRun 10 ⟨[], [], 0⟩ r.acc = some r.scores := by
    subst hrs
    exact hi.run
  have hfun : ∀ x ∈ r.acc, ∀ z ∈ r.acc, x.selection = z.selection → x.score = z.score := by
    intro x hx z hz hxz
    obtain ⟨m', h9, -, -, h10, h11⟩ := hitem x hx
    have h12 := hmodel m' h9 z hz (hxz ▸ h10)
    exact neg_injective (isFit_unique h11 h12).2
  refine ⟨b, hb, fun m c σ hm h0 h1 hfit => ?_⟩
  obtain ⟨x, hx, hsel⟩ := hall m ⟨hm, h0, h1⟩
  have hxfit := hmodel m hm x hx hsel
  have hσ : σ = -x.score := (isFit_unique hfit hxfit).2
  refine ⟨?_, fun hmiss => ?_⟩
  · rw [hσ, neg_le_neg_iff]
    exact hle x hx
  · obtain ⟨h2, h3⟩ := C25_keeps_best 10 _ r.acc r.scores hrun hfun x hx (by rw [hsel]; exact hmiss)
    have h4 := (C23_no_duplicates 10 _ r.acc r.scores hrun).2.1
    refine ⟨by omega, fun e he => ?_⟩
    rw [hσ, neg_le_neg_iff]
    exact h3 e he

/-- Every block of a universal sequence of draws, with small random numbers, makes the search find the best models. -/
theorem findsBest_of_block {P : SaInput} (hd : SaData P) {C : ℝ} (hC : 0 ≤ C)
    (hb : ∀ m c σ, m.length = P.X.nc → IsFit P m c σ → |σ| ≤ C) (h6 : 6 ≤ P.X.nr) {W : List Nat}
    (hW : ∀ a b, InSpace P.X.nc P.X.nr a → InSpace P.X.nc P.X.nr b → Hits P.X.nr a W b) {index : Nat → Nat}
    {u : Nat → ℝ} (hf : FairDraws P.X.nc index u) {k : Nat}
    (hk : ((k + W.length : Nat) : Int) < (P.X.nc : Int) * P.nSweeps)
    (hidx : ∀ l d, W[l]? = some d → index (k + l) = d)
    (hsm : ∀ l, l < W.length → u (k + l) < Real.exp (-(2 * C) / 500)) : FindsBest P index u := by
  have hu : ∀ k, 0 ≤ u k ∧ u k < 1 := by
    obtain ⟨v, hv, h⟩ := hf.below
    exact fun k => ⟨hf.nonneg k, (h k).trans_lt hv⟩
  have hn : 0 < P.nSweeps := by
    by_contra h
    have : (P.X.nc : Int) * P.nSweeps ≤ 0 := mul_nonpos_of_nonneg_of_nonpos (by omega) (by omega)
    omega
  obtain ⟨s0, r, hs0, hr, hret⟩ := C113_returns_partial hd (Or.inl hn) hf
  obtain ⟨s, h1, h2⟩ := early_run hd hf.column hu hs0 k (by omega)
  obtain ⟨s', h3, h4, -, h5⟩ := early_block hd hC hb hf.column hu W h2 hk hidx hsm
  refine ⟨s0, r, hs0, hr, bestListed_of_all hd hret fun m hm => ?_⟩
  have hinv := SaInv.reach hd h2.reach
  have hcur : InSpace P.X.nc P.X.nr s.current := ⟨hinv.len, hinv.pos, hinv.few (by omega)⟩
  obtain ⟨x, hx, hxs⟩ := h5 m (hW _ _ hcur hm)
  exact ⟨x, runs_acc hd hf (runs_reach (h1.trans h3) hr) h4 hx, hxs⟩

/-- Random draws are fair, almost surely. -/
theorem fair_ae {Ω : Type} [MeasurableSpace Ω] {μ : Measure Ω} {nc : Nat} {index : Nat → Ω → Nat} {u : Nat → Ω → ℝ}
    (h : RandomDraws μ nc index u) : ∀ᵐ ω ∂μ, FairDraws nc (fun k => index k ω) fun k => u k ω := by
  have hag : ∀ i, i < nc → ∀ᵐ ω ∂μ, ∀ n, ∃ k, n ≤ k ∧ index k ω = i := by
    intro i hi
    obtain ⟨p, hp0, hp⟩ := h.chance i hi 1 one_pos
    have hmeas : ∀ k, Measurable fun ω => decide (index k ω = i) := by
      intro k
      have h1 : Measurable fun q : ℕ × ℝ => decide (q.1 = i) :=
        (Measurable.of_discrete (f := fun n : ℕ => decide (n = i))).comp measurable_fst
      exact h1.comp (h.measurable k)
    have hind : iIndepFun (fun k ω => decide (index k ω = i)) μ := by
      have h1 : Measurable fun q : ℕ × ℝ => decide (q.1 = i) :=
        (Measurable.of_discrete (f := fun n : ℕ => decide (n = i))).comp measurable_fst
      exact h.indep.comp (fun _ q => decide (q.1 = i)) fun _ => h1
    have := infinitely_often hmeas hind hp0 (fun k => (hp k).trans (measure_mono fun ω hω => by
      simpa using hω.1))
    filter_upwards [this] with ω hω n
    obtain ⟨k, h1, h2⟩ := hω n
    exact ⟨k, h1, by simpa using h2⟩
  have hall : ∀ᵐ ω ∂μ, ∀ i : ℕ, i < nc → ∀ n, ∃ k, n ≤ k ∧ index k ω = i := by
    rw [ae_all_iff]
    intro i
    by_cases hi : i < nc
    · filter_upwards [hag i hi] with ω hω _
      exact hω
    · filter_upwards with ω h
      exact absurd h hi
  filter_upwards [hall] with ω hω
  obtain ⟨v, hv, hb⟩ := h.bounded
  exact ⟨fun k => h.column k ω, fun k => (hb k ω).1, ⟨v, hv, fun k => (hb k ω).2⟩, hω⟩

/-- The probability of success in terms of the number of blocks in the first round. -/
theorem blocks_find {P : SaInput} (hd : SaData P) (h6 : 6 ≤ P.X.nr) {Ω : Type} [MeasurableSpace Ω] {μ : Measure Ω}
    {index : Nat → Ω → Nat} {u : Nat → Ω → ℝ} (h : RandomDraws μ P.X.nc index u) :
    ∃ (L : ℕ) (q : ℝ≥0∞), 0 < L ∧ q ≠ 0 ∧ ∀ (n : Int) (K : ℕ), ((K * L : ℕ) : Int) < (P.X.nc : Int) * n →
      1 - (1 - q) ^ K ≤ μ {ω | FindsBest (withSweeps P n) (fun k => index k ω) fun k => u k ω} := by
  have : IsProbabilityMeasure μ := h.indep.isProbabilityMeasure
  obtain ⟨C, hC, hb⟩ := costs_bounded P
  obtain ⟨W, hW0, hW1, hW2⟩ := universal_word (nr := P.X.nr) h6 hd.cols
  set δ := Real.exp (-(2 * C) / 500)
  have hδ : 0 < δ := Real.exp_pos _
  have hL : 0 < W.length := List.length_pos_iff.2 hW0
  -- a chance for all columns
  have hch : ∃ p : ℝ≥0∞, p ≠ 0 ∧ ∀ i, i < P.X.nc → ∀ k, p ≤ μ {ω | index k ω = i ∧ u k ω < δ} := by
    choose p hp0 hp using fun i : Fin P.X.nc => h.chance i i.2 δ hδ
    refine ⟨Finset.univ.inf p, ?_, fun i hi k => ?_⟩
    · intro h0
      have : (⊥ : ℝ≥0∞) < Finset.univ.inf p := by
        rw [Finset.lt_inf_iff (by simp)]
        exact fun i _ => bot_lt_iff_ne_bot.2 (hp0 i)
      exact this.ne' h0
    · exact (Finset.inf_le (Finset.mem_univ (⟨i, hi⟩ : Fin P.X.nc))).trans (hp ⟨i, hi⟩ k)
  obtain ⟨p, hp0, hp⟩ := hch
  refine ⟨W.length, p ^ W.length, hL, pow_ne_zero _ hp0, fun n K hK => ?_⟩
  let want : ℕ → ℕ := fun k => W.getD (k % W.length) 0
  have hwant : ∀ k, want k < P.X.nc := by
    intro k
    have hk : k % W.length < W.length := Nat.mod_lt _ hL
    show W.getD _ 0 < _
    rw [List.getD_eq_getElem?_getD, List.getElem?_eq_getElem hk]
    exact hW1 _ (List.getElem_mem hk)
  have hg : ∀ k, Measurable fun q : ℕ × ℝ => decide (q.1 = want k ∧ q.2 < δ) := by
    intro k
    refine measurable_to_bool ?_
    have : (fun q : ℕ × ℝ => decide (q.1 = want k ∧ q.2 < δ)) ⁻¹' {true} = {want k} ×ˢ Set.Iio δ := by
      ext q
      simp
    rw [this]
    exact (MeasurableSet.singleton _).prod measurableSet_Iio
  let good : ℕ → Ω → Bool := fun k ω => decide (index k ω = want k ∧ u k ω < δ)
  have hgm : ∀ k, Measurable (good k) := fun k => (hg k).comp (h.measurable k)
  have hgi : iIndepFun good μ :=
    h.indep.comp (fun k q => decide (q.1 = want k ∧ q.2 < δ)) hg
  have hgp : ∀ k, p ≤ μ {ω | good k ω = true} := by
    intro k
    refine (hp (want k) (hwant k) k).trans (measure_mono fun ω hω => ?_)
    simpa [good] using hω
  have hbound := blocks_bound hgm hgi hgp W.length K
  have hmB : MeasurableSet {ω | ∀ j < K, ∃ l < W.length, good (j * W.length + l) ω = false} := by
    have : {ω | ∀ j < K, ∃ l < W.length, good (j * W.length + l) ω = false} =
        ⋂ j ∈ Finset.range K, ⋃ l ∈ Finset.range W.length, good (j * W.length + l) ⁻¹' {false} := by
      ext ω
      simp
    rw [this]
    exact Finset.measurableSet_biInter _ fun j _ => Finset.measurableSet_biUnion _ fun l _ =>
      hgm _ (MeasurableSet.singleton _)
  have h1 : 1 - (1 - p ^ W.length) ^ K ≤
      μ {ω | ∀ j < K, ∃ l < W.length, good (j * W.length + l) ω = false}ᶜ := by
    rw [prob_compl_eq_one_sub hmB]
    exact tsub_le_tsub_left hbound _
  refine h1.trans (measure_mono_ae ?_)
  filter_upwards [fair_ae h] with ω hf hω
  have hω' : ¬ ∀ j < K, ∃ l < W.length, good (j * W.length + l) ω = false := hω
  push Not at hω'
  obtain ⟨j, hj, hall⟩ := hω'
  have hall' : ∀ l < W.length, index (j * W.length + l) ω = W.getD l 0 ∧ u (j * W.length + l) ω < δ := by
    intro l hl
    have := hall l hl
    simp only [good, want, ne_eq, Bool.not_eq_false, decide_eq_true_eq] at this
    rwa [Nat.mul_add_mod_of_lt hl] at this
  refine findsBest_of_block (P := withSweeps P n) ⟨hd.cols, hd.rows, hd.finite⟩ hC hb h6 hW2 hf (k := j * W.length)
    ?_ ?_ ?_
  · refine lt_of_le_of_lt ?_ hK
    have : j * W.length + W.length ≤ K * W.length := by
      calc j * W.length + W.length = (j + 1) * W.length := by ring
        _ ≤ K * W.length := Nat.mul_le_mul_right _ hj
    exact_mod_cast this
  · intro l d hl
    have hlt := (List.getElem?_eq_some_iff.1 hl).1
    have := (hall' l hlt).1
    rw [List.getD_eq_getElem?_getD, hl] at this
    exact this
  · exact fun l hl => (hall' l hl).2

/-- **C123.**  For at least six rows: the probability that the search returns the best models differs from one by at
most `C * ρ ^ n`, where `n` is the number of sweeps and `ρ < 1`. -/
theorem C123_geometric {P : SaInput} (hd : SaData P) (h6 : 6 ≤ P.X.nr) {Ω : Type} [MeasurableSpace Ω] {μ : Measure Ω}
    {index : Nat → Ω → Nat} {u : Nat → Ω → ℝ} (h : RandomDraws μ P.X.nc index u) :
    ∃ ρ C : ℝ, 0 < ρ ∧ ρ < 1 ∧ ∀ n : ℕ,
      1 - C * ρ ^ n ≤ μ.real {ω | FindsBest (withSweeps P n) (fun k => index k ω) fun k => u k ω} := by
  have : IsProbabilityMeasure μ := h.indep.isProbabilityMeasure
  obtain ⟨L, q, hL, hq, hmain⟩ := blocks_find hd h6 h
  -- a chance of at most one half
  set q' : ℝ≥0∞ := min q (1 / 2) with hq'
  have hq'0 : q' ≠ 0 := by
    rw [hq']
    exact (lt_min (pos_iff_ne_zero.2 hq) (by simp)).ne'
  have hq'half : q' ≤ 1 / 2 := min_le_right _ _
  have hq'top : q' ≠ ⊤ := ne_top_of_le_ne_top (by simp) hq'half
  set t : ℝ := q'.toReal with ht
  have ht0 : 0 < t := ENNReal.toReal_pos hq'0 hq'top
  have ht1 : t ≤ 1 / 2 := by
    have := ENNReal.toReal_mono (by simp) hq'half
    simpa using this
  have hr0 : 0 < 1 - t := by linarith
  have hr1 : 1 - t < 1 := by linarith
  set ρ : ℝ := (1 - t) ^ (1 / (L : ℝ)) with hρ
  have hLpos : (0 : ℝ) < L := by exact_mod_cast hL
  have hρ0 : 0 < ρ := Real.rpow_pos_of_pos hr0 _
  have hρ1 : ρ < 1 := Real.rpow_lt_one hr0.le hr1 (by positivity)
  have hρL : ρ ^ L = 1 - t := by
    rw [hρ, ← Real.rpow_natCast, ← Real.rpow_mul hr0.le, one_div, inv_mul_cancel₀ hLpos.ne', Real.rpow_one]
  refine ⟨ρ, (ρ ^ (L + 1))⁻¹, hρ0, hρ1, fun n => ?_⟩
  have hC1 : 1 ≤ (ρ ^ (L + 1))⁻¹ := (one_le_inv₀ (pow_pos hρ0 _)).2 (pow_le_one₀ hρ0.le hρ1.le)
  rcases Nat.eq_zero_or_pos n with rfl | hn
  · refine le_trans ?_ measureReal_nonneg
    rw [pow_zero, mul_one]
    linarith
  · set K := (P.X.nc * n - 1) / L with hK
    have hnc := hd.cols
    have hpos : 0 < P.X.nc * n := Nat.mul_pos hnc hn
    have hle : n ≤ P.X.nc * n := Nat.le_mul_of_pos_left n hnc
    have hKL : K * L ≤ P.X.nc * n - 1 := Nat.div_mul_le_self _ _
    have hKL' : n ≤ L * K + (L + 1) := by
      have h1 := Nat.div_add_mod (P.X.nc * n - 1) L
      have h2 := Nat.mod_lt (P.X.nc * n - 1) hL
      rw [← hK] at h1
      omega
    have h1 := hmain n K (by
      have : K * L < P.X.nc * n := by omega
      exact_mod_cast this)
    have h3 : (1 - q) ^ K ≤ (1 - q') ^ K := pow_le_pow_left' (tsub_le_tsub_left (min_le_left _ _) _) _
    have h4 : 1 - (1 - q') ^ K ≤ μ {ω | FindsBest (withSweeps P n) (fun k => index k ω) fun k => u k ω} :=
      le_trans (tsub_le_tsub_left h3 _) h1
    have h5 : (1 - (1 - q') ^ K).toReal = 1 - (1 - t) ^ K := by
      have hle1 : (1 - q' : ℝ≥0∞) ≤ 1 := tsub_le_self
      rw [ENNReal.toReal_sub_of_le (pow_le_one' hle1 _) ENNReal.one_ne_top, ENNReal.toReal_pow,
        ENNReal.toReal_sub_of_le (hq'half.trans (by norm_num)) ENNReal.one_ne_top, ENNReal.toReal_one]
    have h6 := ENNReal.toReal_mono (measure_ne_top μ _) h4
    rw [h5] at h6
    refine le_trans ?_ h6
    have h7 : (1 - t) ^ K ≤ (ρ ^ (L + 1))⁻¹ * ρ ^ n := by
      rw [← hρL, ← pow_mul, inv_mul_eq_div, le_div_iff₀ (pow_pos hρ0 _), ← pow_add]
      exact pow_le_pow_of_le_one hρ0.le hρ1.le hKL'
    linarith

/-- The probability approaches one. -/
theorem C123_tends {P : SaInput} (hd : SaData P) (h6 : 6 ≤ P.X.nr) {Ω : Type} [MeasurableSpace Ω] {μ : Measure Ω}
    {index : Nat → Ω → Nat} {u : Nat → Ω → ℝ} (h : RandomDraws μ P.X.nc index u) :
    Filter.Tendsto (fun n : ℕ => μ.real {ω | FindsBest (withSweeps P n) (fun k => index k ω) fun k => u k ω})
      Filter.atTop (nhds 1) := by
  have : IsProbabilityMeasure μ := h.indep.isProbabilityMeasure
  obtain ⟨ρ, C, h0, h1, hle⟩ := C123_geometric hd h6 h
  refine tendsto_of_tendsto_of_tendsto_of_le_of_le ?_ tendsto_const_nhds hle fun n => measureReal_le_one
  have := (tendsto_pow_atTop_nhds_zero_of_lt_one h0.le h1).const_mul C
  simpa using this.const_sub 1

/-- Draws as they should be: columns and multiples of `2^-53`, all of them equally likely. -/
noncomputable def uniformDraws (nc : Nat) : Measure (ℕ → Fin nc × Fin (2 ^ 53)) :=
  Measure.infinitePi fun _ => uniformOn Set.univ

/-- They are random draws. -/
theorem C123_uniform (nc : Nat) (hnc : 0 < nc) :
    RandomDraws (uniformDraws nc) nc (fun k ω => (ω k).1) fun k ω => ((ω k).2 : ℝ) / 2 ^ 53 := by
  haveI : Nonempty (Fin nc × Fin (2 ^ 53)) := ⟨(⟨0, hnc⟩, 0)⟩
  haveI : IsProbabilityMeasure (uniformOn (Set.univ : Set (Fin nc × Fin (2 ^ 53)))) :=
    isProbabilityMeasure_uniformOn Set.finite_univ Set.univ_nonempty
  have hm : Measurable fun z : Fin nc × Fin (2 ^ 53) => ((z.1 : ℕ), ((z.2 : ℕ) : ℝ) / 2 ^ 53) :=
    Measurable.of_discrete
  refine ⟨fun k => hm.comp (measurable_pi_apply k), iIndepFun_infinitePi (fun _ => hm), fun k ω => (ω k).1.2,
    ⟨((2 ^ 53 - 1 : ℕ) : ℝ) / 2 ^ 53, by norm_num, fun k ω => ⟨by positivity, ?_⟩⟩, fun i hi δ hδ => ?_⟩
  · have : (((ω k).2 : ℕ) : ℝ) ≤ ((2 ^ 53 - 1 : ℕ) : ℝ) := by
      exact_mod_cast Nat.le_sub_one_of_lt (ω k).2.2
    exact div_le_div_of_nonneg_right this (by positivity)
  · refine ⟨uniformOn Set.univ {((⟨i, hi⟩ : Fin nc), (0 : Fin (2 ^ 53)))}, ?_, fun k => ?_⟩
    · intro h0
      rw [uniformOn_eq_zero_iff Set.finite_univ] at h0
      simp at h0
    · rw [← Measure.infinitePi_map_eval (fun _ : ℕ => uniformOn (Set.univ : Set (Fin nc × Fin (2 ^ 53)))) k,
        Measure.map_apply (measurable_pi_apply k) (MeasurableSet.singleton _)]
      refine measure_mono fun ω hω => ?_
      have hω' : ω k = (⟨i, hi⟩, 0) := hω
      show ((ω k).1 : ℕ) = i ∧ (((ω k).2 : ℕ) : ℝ) / 2 ^ 53 < δ
      rw [hω']
      simpa using hδ

example : Filter.Tendsto (fun n : ℕ => (uniformDraws 3).real
    {ω | FindsBest (withSweeps exSa n) (fun k => (ω k).1) fun k => ((ω k).2 : ℝ) / 2 ^ 53}) Filter.atTop (nhds 1) :=
  C123_tends exSa_data (by decide) (C123_uniform 3 (by decide))

end GoSelect
