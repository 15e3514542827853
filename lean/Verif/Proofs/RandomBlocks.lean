import Mathlib.Probability.BorelCantelli
import Mathlib.Probability.Independence.Basic

/-! Independent trials: blocks in which all trials succeed. -/

namespace GoSelect

open MeasureTheory ProbabilityTheory
open scoped ENNReal

variable {Ω : Type*} [MeasurableSpace Ω] {μ : Measure Ω}

/-- All trials of a block succeed. -/
theorem block_prob {good : ℕ → Ω → Bool} (hi : iIndepFun good μ) {p : ℝ≥0∞}
    (hp : ∀ k, p ≤ μ {ω | good k ω = true}) (k L : ℕ) : p ^ L ≤ μ {ω | ∀ l < L, good (k + l) ω = true} := by
  have h := hi.measure_inter_preimage_eq_mul (S := Finset.Ico k (k + L)) (sets := fun _ => {true})
    (fun _ _ => MeasurableSet.singleton _)
  have hset : {ω | ∀ l < L, good (k + l) ω = true} = ⋂ i ∈ Finset.Ico k (k + L), good i ⁻¹' {true} := by
    ext ω
    simp only [Set.mem_setOf_eq, Finset.mem_Ico, Set.mem_iInter, Set.mem_preimage, Set.mem_singleton_iff]
    constructor
    · rintro h i ⟨h1, h2⟩
      have := h (i - k) (by omega)
      rwa [Nat.add_sub_cancel' h1] at this
    · intro h l hl
      exact h (k + l) ⟨by omega, by omega⟩
  rw [hset, h]
  calc p ^ L = ∏ _i ∈ Finset.Ico k (k + L), p := by rw [Finset.prod_const, Nat.card_Ico]; congr 1; omega
    _ ≤ _ := Finset.prod_le_prod' fun i _ => hp i

/-- The probability that no block succeeds. -/
theorem blocks_bound {good : ℕ → Ω → Bool} (hm : ∀ k, Measurable (good k)) (hi : iIndepFun good μ) {p : ℝ≥0∞}
    (hp : ∀ k, p ≤ μ {ω | good k ω = true}) (L K : ℕ) :
    μ {ω | ∀ j < K, ∃ l < L, good (j * L + l) ω = false} ≤ (1 - p ^ L) ^ K := by
  have : IsProbabilityMeasure μ := hi.isProbabilityMeasure
  induction K with
  | zero => simpa using prob_le_one
  | succ K ih =>
    have hdis : Disjoint (Finset.range (K * L)) (Finset.Ico (K * L) (K * L + L)) := by
      rw [Finset.disjoint_left]
      intro a h1 h2
      rw [Finset.mem_range] at h1
      rw [Finset.mem_Ico] at h2
      omega
    have hind := hi.indepFun_finset _ _ hdis hm
    let A : Set (Finset.range (K * L) → Bool) :=
      {f | ∀ j, ∀ hj : j < K, ∃ l, ∃ hl : l < L, f ⟨j * L + l, by
        rw [Finset.mem_range]
        calc j * L + l < j * L + L := by omega
          _ = (j + 1) * L := by ring
          _ ≤ K * L := Nat.mul_le_mul_right _ hj⟩ = false}
    let B : Set (Finset.Ico (K * L) (K * L + L) → Bool) :=
      {f | ∃ l, ∃ hl : l < L, f ⟨K * L + l, by rw [Finset.mem_Ico]; omega⟩ = false}
    have hAB := hind.measure_inter_preimage_eq_mul A B (Set.toFinite A).measurableSet (Set.toFinite B).measurableSet
    have hA : (fun ω (i : Finset.range (K * L)) => good i ω) ⁻¹' A =
        {ω | ∀ j < K, ∃ l < L, good (j * L + l) ω = false} := by
      ext ω
      simp [A]
    have hB : (fun ω (i : Finset.Ico (K * L) (K * L + L)) => good i ω) ⁻¹' B =
        {ω | ∀ l < L, good (K * L + l) ω = true}ᶜ := by
      ext ω
      simp [B]
    have hset : {ω | ∀ j < K + 1, ∃ l < L, good (j * L + l) ω = false} =
        {ω | ∀ j < K, ∃ l < L, good (j * L + l) ω = false} ∩ {ω | ∀ l < L, good (K * L + l) ω = true}ᶜ := by
      ext ω
      simp only [Set.mem_setOf_eq, Set.mem_inter_iff, Set.mem_compl_iff, not_forall, Bool.not_eq_true, exists_prop]
      constructor
      · intro h
        exact ⟨fun j hj => h j (by omega), h K (by omega)⟩
      · rintro ⟨h1, h2⟩ j hj
        rcases Nat.lt_succ_iff_lt_or_eq.1 hj with h | rfl
        · exact h1 j h
        · exact h2
    have hmB : MeasurableSet {ω | ∀ l < L, good (K * L + l) ω = true} := by
      have : {ω | ∀ l < L, good (K * L + l) ω = true} =
          ⋂ l ∈ Finset.range L, good (K * L + l) ⁻¹' {true} := by
        ext ω
        simp
      rw [this]
      exact Finset.measurableSet_biInter _ fun l _ => hm _ (MeasurableSet.singleton _)
    rw [hset, ← hA, ← hB, hAB, hA, hB, pow_succ, prob_compl_eq_one_sub hmB]
    exact mul_le_mul' ih (tsub_le_tsub_left (block_prob hi hp _ _) _)

/-- Almost surely infinitely many trials succeed. -/
theorem infinitely_often {good : ℕ → Ω → Bool} (hm : ∀ k, Measurable (good k)) (hi : iIndepFun good μ) {p : ℝ≥0∞}
    (hp0 : p ≠ 0) (hp : ∀ k, p ≤ μ {ω | good k ω = true}) :
    ∀ᵐ ω ∂μ, ∀ n, ∃ k, n ≤ k ∧ good k ω = true := by
  have : IsProbabilityMeasure μ := hi.isProbabilityMeasure
  rw [ae_all_iff]
  intro n
  have hz : μ {ω | ∀ k, n ≤ k → good k ω = false} = 0 := by
    have hle : ∀ K, μ {ω | ∀ k, n ≤ k → good k ω = false} ≤ (1 - p) ^ K := by
      intro K
      have hi' : iIndepFun (fun k => good (n + k)) μ := hi.precomp (g := fun k => n + k) (fun a b h => by simpa using h)
      have := blocks_bound (fun k => hm (n + k)) hi' (fun k => hp (n + k)) 1 K
      rw [pow_one] at this
      refine le_trans (measure_mono ?_) this
      intro ω hω j _
      exact ⟨0, one_pos, hω _ (by omega)⟩
    have hlt : 1 - p < 1 := ENNReal.sub_lt_self ENNReal.one_ne_top one_ne_zero hp0
    have hlim := ENNReal.tendsto_pow_atTop_nhds_zero_of_lt_one hlt
    exact le_antisymm (ge_of_tendsto' hlim hle) zero_le
  rw [ae_iff]
  convert hz using 3
  simp

end GoSelect
