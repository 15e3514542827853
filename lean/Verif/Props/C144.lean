import Verif.Proofs.AnnealingLucky
import Verif.Props.C123
import Verif.Props.C142

/-!
# C144: with random draws simulated annealing ends despite missing values
-/

namespace GoSelect

open Spec MeasureTheory ProbabilityTheory
open scoped ENNReal

/-- A word is drawn, sooner or later. -/
theorem word_ae {Ω : Type} [MeasurableSpace Ω] {μ : Measure Ω} {nc : Nat} {index : Nat → Ω → Nat} {u : Nat → Ω → ℝ}
    (h : RandomDraws μ nc index u) (W : List Nat) (hW : ∀ i ∈ W, i < nc) {δ : ℝ} (hδ : 0 < δ) (n : Nat) :
    ∀ᵐ ω ∂μ, ∃ k, n ≤ k ∧ ∀ l (h : l < W.length), index (k + l) ω = W[l] ∧ u (k + l) ω < δ := by
  have : IsProbabilityMeasure μ := h.indep.isProbabilityMeasure
  rcases Nat.eq_zero_or_pos W.length with hL | hL
  · exact Filter.Eventually.of_forall fun ω => ⟨n, le_rfl, fun l hl => absurd hl (by omega)⟩
  have hch : ∃ p : ℝ≥0∞, p ≠ 0 ∧ ∀ i, i < nc → ∀ k, p ≤ μ {ω | index k ω = i ∧ u k ω < δ} := by
    choose p hp0 hp using fun i : Fin nc => h.chance i i.2 δ hδ
    refine ⟨Finset.univ.inf p, ?_, fun i hi k => ?_⟩
    · intro h0
      have : (⊥ : ℝ≥0∞) < Finset.univ.inf p := by
        rw [Finset.lt_inf_iff (by simp)]
        exact fun i _ => bot_lt_iff_ne_bot.2 (hp0 i)
      exact this.ne' h0
    · exact (Finset.inf_le (Finset.mem_univ (⟨i, hi⟩ : Fin nc))).trans (hp ⟨i, hi⟩ k)
  obtain ⟨p, hp0, hp⟩ := hch
  let want : ℕ → ℕ := fun k => W.getD (k % W.length) 0
  have hwant : ∀ k, want k < nc := by
    intro k
    have hk : k % W.length < W.length := Nat.mod_lt _ hL
    show W.getD _ 0 < _
    rw [List.getD_eq_getElem?_getD, List.getElem?_eq_getElem hk]
    exact hW _ (List.getElem_mem hk)
  have hg : ∀ k, Measurable fun q : ℕ × ℝ => decide (q.1 = want k ∧ q.2 < δ) := by
    intro k
    refine measurable_to_bool ?_
    have : (fun q : ℕ × ℝ => decide (q.1 = want k ∧ q.2 < δ)) ⁻¹' {true} = {want k} ×ˢ Set.Iio δ := by
      ext q
      simp
    rw [this]
    exact (MeasurableSet.singleton _).prod measurableSet_Iio
  let good : ℕ → Ω → Bool := fun k ω => decide (index (n + k) ω = want k ∧ u (n + k) ω < δ)
  have hgm : ∀ k, Measurable (good k) := fun k => (hg k).comp (h.measurable (n + k))
  have hgi : iIndepFun good μ := by
    have h1 : iIndepFun (fun k ω => (index (n + k) ω, u (n + k) ω)) μ :=
      h.indep.precomp (g := fun k => n + k) (fun a b h => by simpa using h)
    exact h1.comp (fun k q => decide (q.1 = want k ∧ q.2 < δ)) hg
  have hgp : ∀ k, p ≤ μ {ω | good k ω = true} := by
    intro k
    refine (hp (want k) (hwant k) (n + k)).trans (measure_mono fun ω hω => ?_)
    simpa [good] using hω
  have hz : μ {ω | ∀ j, ∃ l < W.length, good (j * W.length + l) ω = false} = 0 := by
    have hle : ∀ K, μ {ω | ∀ j, ∃ l < W.length, good (j * W.length + l) ω = false} ≤ (1 - p ^ W.length) ^ K :=
      by
      intro K
      refine le_trans (measure_mono ?_) (blocks_bound hgm hgi hgp W.length K)
      exact fun ω hω j _ => hω j
    have hlt : 1 - p ^ W.length < 1 := ENNReal.sub_lt_self ENNReal.one_ne_top one_ne_zero (pow_ne_zero _ hp0)
    exact le_antisymm (ge_of_tendsto' (ENNReal.tendsto_pow_atTop_nhds_zero_of_lt_one hlt) hle) zero_le
  have hae : ∀ᵐ ω ∂μ, ¬ ∀ j, ∃ l < W.length, good (j * W.length + l) ω = false := by
    rw [ae_iff]
    simpa using hz
  filter_upwards [hae] with ω hω
  push Not at hω
  obtain ⟨j, hj⟩ := hω
  refine ⟨n + j * W.length, by omega, fun l hl => ?_⟩
  have := hj l hl
  simp only [good, want, ne_eq, Bool.not_eq_false, decide_eq_true_eq] at this
  rw [Nat.mul_add_mod_of_lt hl, List.getD_eq_getElem?_getD, List.getElem?_eq_getElem hl, Option.getD_some,
    ← add_assoc] at this
  exact this

/-- Random draws contain every word again and again, almost surely. -/
theorem lucky_ae {Ω : Type} [MeasurableSpace Ω] {μ : Measure Ω} {nc : Nat} {index : Nat → Ω → Nat} {u : Nat → Ω → ℝ}
    (h : RandomDraws μ nc index u) : ∀ᵐ ω ∂μ, LuckyDraws nc (fun k => index k ω) fun k => u k ω := by
  have hall : ∀ᵐ ω ∂μ, ∀ W : List Nat, ∀ m n : Nat, (∀ i ∈ W, i < nc) → ∃ k, n ≤ k ∧ ∀ l (h : l < W.length),
      index (k + l) ω = W[l] ∧ u (k + l) ω < 1 / ((m : ℝ) + 1) := by
    rw [ae_all_iff]
    intro W
    rw [ae_all_iff]
    intro m
    rw [ae_all_iff]
    intro n
    by_cases hW : ∀ i ∈ W, i < nc
    · filter_upwards [word_ae h W hW (δ := 1 / ((m : ℝ) + 1)) (by positivity) n] with ω hω _
      exact hω
    · exact Filter.Eventually.of_forall fun ω h => absurd h hW
  filter_upwards [hall] with ω hω
  obtain ⟨v, hv, hb⟩ := h.bounded
  refine ⟨fun k => h.column k ω, fun k => (hb k ω).1, fun k => (hb k ω).2.trans_lt hv, fun W hW δ hδ n => ?_⟩
  obtain ⟨m, hm⟩ := exists_nat_one_div_lt hδ
  obtain ⟨k, hk, hw⟩ := hω W m n hW
  exact ⟨k, hk, fun l hl => ⟨(hw l hl).1, (hw l hl).2.trans hm⟩⟩

/-- With draws in which every word of columns occurs again and again together with small numbers the search ends, and its
result is made of columns without gaps. -/
theorem C144_lucky {P : SaInputGap} {cost : Nat → Nat → ℝ → ℝ} (hd : GapData P cost) (hs : 0 < P.nSweeps ∨ P.X.nc = 1)
    {index : Nat → Nat} {u : Nat → ℝ} (hf : LuckyDraws P.X.nc index u) (hv : ∃ v, v < 1 ∧ ∀ k, u k ≤ v) :
    ∃ s0 r, saInitGap P = some s0 ∧ Runs (saStreamGap P index u) (0, s0) r ∧ PassesGaps P cost r := by
  obtain ⟨s0, r, h0, hr⟩ := lucky_runs hd hs hf
  have hcol : 0 < P.X.nc := by
    obtain ⟨c, hc, -⟩ := hd.column
    omega
  obtain ⟨s0', h1, h2⟩ := C142_passes_partial hd.spreads hd.propagates hd.agrees hd.response hcol (index := index) (u := u)
    ⟨hf.column, hf.nonneg, hv, fun i hi n => by
      obtain ⟨k, hk, hw⟩ := hf.words [i] (by simpa using hi) 1 one_pos n
      exact ⟨k, hk, (hw 0 (by simp)).1⟩⟩
  rw [h0, Option.some.injEq] at h1
  subst h1
  exact ⟨s0, r, h0, hr, h2 r hr⟩

/-- **C144.**  With independent random draws the search ends almost surely, and its result is made of columns without
gaps. -/
theorem C144_almost_surely {P : SaInputGap} {cost : Nat → Nat → ℝ → ℝ} (hd : GapData P cost)
    (hs : 0 < P.nSweeps ∨ P.X.nc = 1) {Ω : Type} [MeasurableSpace Ω] {μ : Measure Ω} {index : Nat → Ω → Nat}
    {u : Nat → Ω → ℝ} (h : RandomDraws μ P.X.nc index u) :
    ∀ᵐ ω ∂μ, ∃ s0 r, saInitGap P = some s0 ∧
      Runs (saStreamGap P (fun k => index k ω) fun k => u k ω) (0, s0) r ∧ PassesGaps P cost r := by
  filter_upwards [lucky_ae h] with ω hω
  obtain ⟨v, hv, hb⟩ := h.bounded
  exact C144_lucky hd hs hω ⟨v, hv, fun k => (hb k ω).2⟩

/-- The data with a missing value that are never left if the columns are drawn in turn. -/
theorem gapP_data : GapData gapP aicc where
  spreads := gapP_second.spreads
  fits := gapP_second.fits
  propagates := gapP_second.propagates
  agrees := gapP_second.agrees
  response := gapP_second.data.rows
  rows := by decide
  column := ⟨0, by decide, fun r hr => gapP_second.first 0 (by decide) r hr⟩
  finite := fun m c σ h1 h2 _ h4 => gapP_second.data.finite m c σ h1 h2 h4

example : ∀ᵐ ω ∂(uniformDraws 2), ∃ s0 r, saInitGap gapP = some s0 ∧
    Runs (saStreamGap gapP (fun k => (ω k).1) fun k => ((ω k).2 : ℝ) / 2 ^ 53) (0, s0) r ∧ PassesGaps gapP aicc r :=
  C144_almost_surely gapP_data (Or.inl (by decide)) (C123_uniform 2 (by decide))

/-- There are such draws. -/
example : ∃ index u, LuckyDraws 2 index u ∧ ∃ s0 r, saInitGap gapP = some s0 ∧
    Runs (saStreamGap gapP index u) (0, s0) r ∧ PassesGaps gapP aicc r := by
  have h := C123_uniform 2 (by decide)
  have : IsProbabilityMeasure (uniformDraws 2) := h.indep.isProbabilityMeasure
  obtain ⟨ω, hω⟩ := (lucky_ae h).exists
  obtain ⟨v, hv, hb⟩ := h.bounded
  exact ⟨_, _, hω, C144_lucky gapP_data (Or.inl (by decide)) hω ⟨v, hv, fun k => (hb k ω).2⟩⟩

end GoSelect
