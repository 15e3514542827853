import Verif.Proofs.Hoeffding
import Verif.Props.C126
import Verif.Props.C41
import Mathlib.Analysis.SpecialFunctions.Log.Basic
import Mathlib.Analysis.SpecialFunctions.Exp
import Mathlib.Algebra.Order.BigOperators.Ring.Finset
import Mathlib.Analysis.Complex.ExponentialBounds

/-!
# C161: how many samples the choice of a regularisation by agreement needs
-/

namespace GoSelect

open scoped List
open Finset Spec

namespace Spec

/-- The mean of the kappas of all divisions of the `n` rows into two halves. -/
noncomputable def meanAgreement (n : Nat) (κ : List Nat → ℝ) : ℝ :=
  (∑ σ : Equiv.Perm (Fin n), κ (orderList σ)) / n.factorial

/-- The kappas that `CalculateCohenSequence` has received are those of the random numbers `d`: target `i` was sampled with the
numbers `d i`. -/
def SampledWith (M n nc N : Nat) (sel : Nat → List Nat → List Int) (d : Fin M → Fin N → Draws n)
    (s : Pool (CohenMain ℝ) Nat (Nat × Fl ℝ)) : Prop :=
  ∀ p ∈ s.got, ∀ h : p.2.1 < M, p.2.2 = sampledKappa n nc (sel p.2.1) N (drawSeq (d ⟨p.2.1, h⟩))

end Spec

/-- C161: the result of `GetCohensKappa` differs from the mean kappa of all divisions of the rows by `t` or more for at most the
fraction `2 exp(-N t² / 2)` of the random numbers. -/
theorem C161_exponential (n nc N : Nat) (hN : 0 < N) (sel : List Nat → List Int) (hsel : ∀ l, IsSelection (sel l) nc)
    (κ : List Nat → ℝ)
    (hκ : ∀ l, l ~ List.range n → cohenKappa (sel (l.take (n / 2))) (sel (l.drop (n / 2))) nc = .fin (κ l)) :
    ∃ result : (Fin N → Draws n) → ℝ, (∀ d, sampledKappa n nc sel N (drawSeq d) = .fin (result d)) ∧
      ∀ t : ℝ, 0 < t → ((univ.filter (fun d => t ≤ |result d - meanAgreement n κ|)).card : ℝ) /
        Fintype.card (Fin N → Draws n) ≤ 2 * Real.exp (-(N * t ^ 2) / 2) := by
  obtain ⟨e, he⟩ := exists_shuffle_equiv n N
  refine ⟨_, sampledKappa_eq n nc N hN sel κ hκ e he, fun t ht => ?_⟩
  have h := hoeffding hN (fun σ : Equiv.Perm (Fin n) => κ (orderList σ))
    (fun σ => abs_kappa_le nc _ _ (hsel _) (hsel _) (hκ _ (orderList_perm σ))) ht
  rw [Fintype.card_perm, Fintype.card_fin] at h
  have hM : (0 : ℝ) < (n.factorial : ℝ) ^ N := by
    have : (0 : ℝ) < n.factorial := Nat.cast_pos.2 n.factorial_pos
    positivity
  rw [card_draws_seq, Nat.cast_pow, div_le_iff₀ hM]
  refine le_trans (le_of_eq ?_) (h.trans (le_of_eq (by ring)))
  congr 1
  refine Finset.card_bij (fun d _ => e d) ?_ ?_ ?_
  · intro d hd
    exact Finset.mem_filter.2 ⟨Finset.mem_univ _, (Finset.mem_filter.1 hd).2⟩
  · intro d _ d' _ h
    exact e.injective h
  · intro p hp
    refine ⟨e.symm p, Finset.mem_filter.2 ⟨Finset.mem_univ _, ?_⟩, by simp⟩
    rw [Equiv.apply_symm_apply]
    exact (Finset.mem_filter.1 hp).2

/-- The union bound: the fraction of the choices for which some coordinate is bad. -/
theorem card_some_bad {X : Type} [Fintype X] [Nonempty X] {M : Nat} (bad : Fin M → X → Prop) [∀ i, DecidablePred (bad i)]
    {q : ℝ} (h : ∀ i, ((univ.filter (bad i)).card : ℝ) / Fintype.card X ≤ q) :
    ((univ.filter (fun d : Fin M → X => ∃ i, bad i (d i))).card : ℝ) / Fintype.card (Fin M → X) ≤ M * q := by
  classical
  have hX : (0 : ℝ) < Fintype.card X := Nat.cast_pos.2 Fintype.card_pos
  have hc : (Fintype.card (Fin M → X) : ℝ) = (Fintype.card X : ℝ) ^ M := by
    rw [Fintype.card_fun, Fintype.card_fin, Nat.cast_pow]
  have h1 : ∀ i : Fin M, ((univ.filter (fun d : Fin M → X => bad i (d i))).card : ℝ) ≤ (Fintype.card X : ℝ) ^ M * q := by
    intro i
    have hs := sum_at (N := M) i (fun x : X => if bad i x then (1 : ℝ) else 0)
    rw [Finset.sum_boole, Finset.sum_boole] at hs
    have h2 := h i
    rw [div_le_iff₀ hX] at h2
    refine le_of_mul_le_mul_left ?_ hX
    rw [hs]
    calc _ ≤ (Fintype.card X : ℝ) ^ M * (q * Fintype.card X) := mul_le_mul_of_nonneg_left h2 (by positivity)
      _ = _ := by ring
  have h2 : (univ.filter (fun d : Fin M → X => ∃ i, bad i (d i))) ⊆
      univ.biUnion (fun i => univ.filter (fun d : Fin M → X => bad i (d i))) := by
    intro d hd
    obtain ⟨i, hi⟩ := (Finset.mem_filter.1 hd).2
    exact Finset.mem_biUnion.2 ⟨i, Finset.mem_univ _, Finset.mem_filter.2 ⟨Finset.mem_univ _, hi⟩⟩
  have h3 := Nat.cast_le (α := ℝ).2 ((Finset.card_le_card h2).trans Finset.card_biUnion_le)
  rw [Nat.cast_sum] at h3
  have h4 := h3.trans (Finset.sum_le_sum (fun i _ => h1 i))
  rw [Finset.sum_const, Finset.card_univ, Fintype.card_fin, nsmul_eq_mul] at h4
  rw [hc, div_le_iff₀ (by positivity)]
  linarith

/-- C161: if `CalculateCohenSequence` returns with a target, then except for the fraction `2 M exp(-N t² / 2)` of the random
numbers of its `M` targets, and under every schedule of its workers, the mean agreement of that target is less than `2 t` below
that of every other target and above `-t`; and it returns without one only if all mean agreements are below `t`. -/
theorem C161_choice (M n nc N : Nat) (hN : 0 < N) (sel : Nat → List Nat → List Int)
    (hsel : ∀ i < M, ∀ l, IsSelection (sel i l) nc) (κ : Nat → List Nat → ℝ)
    (hκ : ∀ i < M, ∀ l, l ~ List.range n →
      cohenKappa (sel i (l.take (n / 2))) (sel i (l.drop (n / 2))) nc = .fin (κ i l))
    {t : ℝ} (ht : 0 < t) :
    ∃ bad : Finset (Fin M → Fin N → Draws n),
      (bad.card : ℝ) / Fintype.card (Fin M → Fin N → Draws n) ≤ 2 * M * Real.exp (-(N * t ^ 2) / 2) ∧
      ∀ d ∉ bad, ∀ s, CohenReach M s → CohenDone M s → SampledWith M n nc N sel d s →
        (∀ i, s.main.bestHyper = some i → i < M ∧ -t < meanAgreement n (κ i) ∧
          ∀ j < M, meanAgreement n (κ j) < meanAgreement n (κ i) + 2 * t) ∧
        (s.main.bestHyper = none → ∀ j < M, meanAgreement n (κ j) < t) := by
  classical
  choose result hres hfrac using fun i : Fin M =>
    C161_exponential n nc N hN (sel i) (hsel i i.2) (κ i) (hκ i i.2)
  have hX : Nonempty (Fin N → Draws n) := ⟨fun _ i => ⟨0, Nat.succ_pos _⟩⟩
  refine ⟨univ.filter (fun d => ∃ i, t ≤ |result i (d i) - meanAgreement n (κ i)|), ?_, ?_⟩
  · have := card_some_bad (fun (i : Fin M) (d : Fin N → Draws n) => t ≤ |result i d - meanAgreement n (κ i)|)
      (fun i => hfrac i t ht)
    linarith
  · intro d hd s hr hdone hs
    simp only [Finset.mem_filter, Finset.mem_univ, true_and, not_exists, not_le, abs_lt] at hd
    have hall := (C41_each_once M s hr hdone).2
    have hval : ∀ p ∈ s.got, ∃ h : p.2.1 < M, p.2.2 = .fin (result ⟨p.2.1, h⟩ (d ⟨p.2.1, h⟩)) := by
      intro p hp
      have h : p.2.1 < M := List.mem_range.1 (hall.mem_iff.1 (List.mem_map.2 ⟨p, hp, rfl⟩))
      exact ⟨h, (hs p hp h).trans (hres ⟨p.2.1, h⟩ _)⟩
    have hgot : ∀ j (hj : j < M), ∃ p ∈ s.got, p.2.2 = .fin (result ⟨j, hj⟩ (d ⟨j, hj⟩)) := by
      intro j hj
      obtain ⟨p, hp, rfl⟩ := List.mem_map.1 (hall.mem_iff.2 (List.mem_range.2 hj))
      exact ⟨p, hp, (hval p hp).2⟩
    have hlt : ∀ a b : ℝ, (Fl.fin a : Fl ℝ) < .fin b ↔ a < b := by
      intro a b
      change Fl.ltB _ _ = true ↔ _
      simp [Fl.ltB]
    refine ⟨fun i hi => ?_, fun hnone j hj => ?_⟩
    · obtain ⟨p, hp, rfl, h0, hbest⟩ := (C41_best M s hr).1 i hi
      obtain ⟨h, hv⟩ := hval p hp
      rw [hv] at h0 hbest
      rw [hlt] at h0
      have h1 := hd ⟨p.2.1, h⟩
      refine ⟨h, by simp only at h1; linarith [h1.2], fun j hj => ?_⟩
      obtain ⟨q, hq, hqv⟩ := hgot j hj
      have h2 := hbest q hq
      rw [hqv, hlt] at h2
      have h3 := hd ⟨j, hj⟩
      simp only at h1 h3
      linarith [h1.2, h3.1]
    · obtain ⟨q, hq, hqv⟩ := hgot j hj
      have h2 := (C41_best M s hr).2.1 hnone q hq
      rw [hqv, hlt] at h2
      have h3 := hd ⟨j, hj⟩
      simp only at h3
      linarith [h3.1]

/-- The number of samples for a given risk. -/
theorem samples_for_risk {M N : Nat} {t δ : ℝ} (hM : 0 < M) (ht : 0 < t) (hδ : 0 < δ)
    (h : 2 / t ^ 2 * Real.log (2 * M / δ) ≤ N) : 2 * M * Real.exp (-(N * t ^ 2) / 2) ≤ δ := by
  have hM' : (0 : ℝ) < M := Nat.cast_pos.2 hM
  have h1 : Real.log (2 * M / δ) ≤ N * t ^ 2 / 2 := by
    have := mul_le_mul_of_nonneg_right h (by positivity : 0 ≤ t ^ 2 / 2)
    calc Real.log (2 * M / δ) = 2 / t ^ 2 * Real.log (2 * M / δ) * (t ^ 2 / 2) := by field_simp
      _ ≤ _ := this
      _ = _ := by ring
  have h2 := Real.exp_le_exp.2 h1
  rw [Real.exp_log (by positivity), div_le_iff₀ hδ] at h2
  have e : Real.exp (-(N * t ^ 2) / 2) = (Real.exp (N * t ^ 2 / 2))⁻¹ := by rw [← Real.exp_neg]; congr 1; ring
  rw [e, ← div_eq_mul_inv, div_le_iff₀ (Real.exp_pos _)]
  linarith

/-- C161: with `2 / t² · log(2 M / δ)` samples or more, the best of `M` targets is returned but for the fraction `δ` of the
random numbers, if its mean agreement is `2 t` or more above those of the others and at least `t`. -/
theorem C161_samples (M n nc N : Nat) (hN : 0 < N) (sel : Nat → List Nat → List Int)
    (hsel : ∀ i < M, ∀ l, IsSelection (sel i l) nc) (κ : Nat → List Nat → ℝ)
    (hκ : ∀ i < M, ∀ l, l ~ List.range n →
      cohenKappa (sel i (l.take (n / 2))) (sel i (l.drop (n / 2))) nc = .fin (κ i l))
    {t δ : ℝ} (ht : 0 < t) (hδ : 0 < δ) (hNs : 2 / t ^ 2 * Real.log (2 * M / δ) ≤ N)
    {i : Nat} (hi : i < M) (hpos : t ≤ meanAgreement n (κ i))
    (hgap : ∀ j < M, j ≠ i → meanAgreement n (κ j) + 2 * t ≤ meanAgreement n (κ i)) :
    ∃ bad : Finset (Fin M → Fin N → Draws n), (bad.card : ℝ) / Fintype.card (Fin M → Fin N → Draws n) ≤ δ ∧
      ∀ d ∉ bad, ∀ s, CohenReach M s → CohenDone M s → SampledWith M n nc N sel d s → s.main.bestHyper = some i := by
  obtain ⟨bad, h1, h2⟩ := C161_choice M n nc N hN sel hsel κ hκ ht
  refine ⟨bad, h1.trans (samples_for_risk (by omega) ht hδ hNs), fun d hd s hr hdone hs => ?_⟩
  obtain ⟨h3, h4⟩ := h2 d hd s hr hdone hs
  cases hb : s.main.bestHyper with
  | none => exact absurd (h4 hb i hi) (not_lt.2 hpos)
  | some k =>
    obtain ⟨hk, -, h5⟩ := h3 k hb
    by_contra hne
    have hki : k ≠ i := fun h => hne (by rw [h])
    have := h5 i hi
    have := hgap k hk hki
    linarith

/-! ### Example -/

theorem kappa_real_of_rat (a b : List Int) (z : ℚ) (ha : a = [0] ∨ a = [1]) (hb : b = [0] ∨ b = [1])
    (hz : cohenKappa a b 2 = .fin z) : cohenKappa (K := ℝ) a b 2 = .fin (z : ℝ) := by
  have c1 : kappaCounts [0] [0] 2 = ⟨1, 0, 0, 1⟩ := by decide
  have c2 : kappaCounts [0] [1] 2 = ⟨0, 1, 1, 0⟩ := by decide
  have c3 : kappaCounts [1] [0] 2 = ⟨0, 1, 1, 0⟩ := by decide
  have c4 : kappaCounts [1] [1] 2 = ⟨1, 0, 0, 1⟩ := by decide
  have key : ∀ y : ℚ, cohenKappa (K := ℚ) a b 2 = .fin y → cohenKappa (K := ℝ) a b 2 = .fin (y : ℝ) →
      cohenKappa (K := ℝ) a b 2 = .fin (z : ℝ) := by
    intro y h1 h2
    rw [h1] at hz
    obtain rfl : y = z := by simpa using hz
    exact h2
  rcases ha with rfl | rfl <;> rcases hb with rfl | rfl
  · exact key 1 (by decide +kernel) (by norm_num [cohenKappa, c1, prA, prE, Fl.divFin])
  · exact key (-1) (by decide +kernel) (by norm_num [cohenKappa, c2, prA, prE, Fl.divFin])
  · exact key (-1) (by decide +kernel) (by norm_num [cohenKappa, c3, prA, prE, Fl.divFin])
  · exact key 1 (by decide +kernel) (by norm_num [cohenKappa, c4, prA, prE, Fl.divFin])

/-- A second target, whose two halves never agree: it selects feature 0 if and only if row 0 is among the data points. -/
def shuffleSel2 (l : List Nat) : List Int := if 0 ∈ l then [0] else [1]

theorem shuffleSel2_kappa (l : List Nat) (h : l ~ List.range 4) :
    cohenKappa (K := ℚ) (shuffleSel2 (l.take 2)) (shuffleSel2 (l.drop 2)) 2 = .fin (-1) := by
  have h4 : ∀ l ∈ (List.range 4).permutations',
      cohenKappa (K := ℚ) (shuffleSel2 (l.take 2)) (shuffleSel2 (l.drop 2)) 2 = .fin (-1) := by decide +kernel
  exact h4 l (List.mem_permutations'.2 h)

/-- The two targets. -/
def twoTargets (i : Nat) : List Nat → List Int := if i = 0 then shuffleSel else shuffleSel2

/-- Their kappas. -/
noncomputable def twoKappas (i : Nat) (l : List Nat) : ℝ := if i = 0 then ((shuffleKappa l : ℚ) : ℝ) else -1

theorem twoTargets_one (i : Nat) (l : List Nat) : twoTargets i l = [0] ∨ twoTargets i l = [1] := by
  unfold twoTargets shuffleSel shuffleSel2
  split <;> beta_reduce <;> split <;> simp

theorem twoTargets_kappa (i : Nat) (l : List Nat) (h : l ~ List.range 4) :
    cohenKappa (twoTargets i (l.take 2)) (twoTargets i (l.drop 2)) 2 = .fin (twoKappas i l) := by
  by_cases hi : i = 0
  · have := kappa_real_of_rat (twoTargets i (l.take 2)) (twoTargets i (l.drop 2)) (shuffleKappa l) (twoTargets_one _ _)
      (twoTargets_one _ _) (by simp only [twoTargets, if_pos hi]; exact shuffleSel_kappa l h)
    rw [this, twoKappas, if_pos hi]
  · have := kappa_real_of_rat (twoTargets i (l.take 2)) (twoTargets i (l.drop 2)) (-1) (twoTargets_one _ _)
      (twoTargets_one _ _) (by simp only [twoTargets, if_neg hi]; exact shuffleSel2_kappa l h)
    rw [this, twoKappas, if_neg hi]
    simp

theorem meanAgreement_two (i : Nat) : meanAgreement 4 (twoKappas i) = if i = 0 then 1 / 3 else -1 := by
  unfold meanAgreement twoKappas
  split
  · have h := congrArg (fun q : ℚ => (q : ℝ)) shuffleKappa_mean
    push_cast at h
    exact h
  · rw [Finset.sum_const, Finset.card_univ, Fintype.card_perm, Fintype.card_fin, nsmul_eq_mul]
    norm_num [Nat.factorial]

theorem log_400_le : Real.log (2 * (2 : ℕ) / (1 / 100)) ≤ 6 := by
  rw [Real.log_le_iff_le_exp (by norm_num)]
  have h := Real.exp_one_gt_d9
  have e : Real.exp 6 = Real.exp 1 ^ 6 := by rw [← Real.exp_nat_mul]; norm_num
  rw [e]
  calc (2 * ((2 : ℕ) : ℝ) / (1 / 100)) ≤ 2.7182818283 ^ 6 := by norm_num
    _ ≤ _ := pow_le_pow_left₀ (by norm_num) h.le 6

/-- With 108 samples the first target is returned but for one percent of the random numbers. -/
example : ∃ bad : Finset (Fin 2 → Fin 108 → Draws 4), (bad.card : ℝ) / Fintype.card (Fin 2 → Fin 108 → Draws 4) ≤ 1 / 100 ∧
    ∀ d ∉ bad, ∀ s, CohenReach 2 s → CohenDone 2 s → SampledWith 2 4 2 108 twoTargets d s → s.main.bestHyper = some 0 := by
  refine C161_samples 2 4 2 108 (by norm_num) twoTargets ?_ twoKappas (fun i _ l hl => twoTargets_kappa i l hl)
    (t := 1 / 3) (by norm_num) (by norm_num) ?_ (by norm_num) ?_ ?_
  · intro i _ l
    rcases twoTargets_one i l with h | h <;> rw [h] <;> (unfold IsSelection; decide)
  · have := log_400_le
    push_cast at this ⊢
    linarith
  · rw [meanAgreement_two]
    norm_num
  · intro j _ hj
    rw [meanAgreement_two, meanAgreement_two, if_neg hj]
    norm_num

/-- A complete run with one target whose kappa is that of the given random numbers. -/
example (n nc N : Nat) (sel : Nat → List Nat → List Int) (d : Fin 1 → Fin N → Draws n) :
    ∃ s : Pool (CohenMain ℝ) Nat (Nat × Fl ℝ), CohenReach 1 s ∧ CohenDone 1 s ∧ SampledWith 1 n nc N sel d s := by
  have h1 : CohenReach (K := ℝ) 1 _ := .step (.step .init (.spawn _ rfl)) (.send 0 _ 0 rfl rfl)
  have h2 : CohenReach (K := ℝ) 1 _ := .step (.step (.step (.step (.step h1 (.spawn _ rfl)) (.spawn _ rfl)) (.spawn _ rfl))
    (.spawn _ rfl)) (.spawn _ rfl)
  have h3 : CohenReach (K := ℝ) 1 _ := .step (.step (.step (.step (.step h2 (.spawn _ rfl)) (.spawn _ rfl)) (.spawn _ rfl))
    (.spawn _ rfl)) (.spawn _ rfl)
  have h4 : CohenReach (K := ℝ) 1 _ := .step (.step (.step (.step (.step h3 (.spawn _ rfl)) (.spawn _ rfl)) (.spawn _ rfl))
    (.spawn _ rfl)) (.spawn _ rfl)
  have h5 : CohenReach (K := ℝ) 1 _ := .step (.step (.step h4 (.tau _ rfl))
    (.compute 0 0 (0, sampledKappa n nc (sel 0) N (drawSeq (d 0))) rfl rfl)) (.recv _ 0 0 _ rfl rfl)
  refine ⟨_, h5, ?_, ?_⟩
  · simp [CohenDone, cohenAct, cohenReceive]
  · intro p hp h
    simp [poolInit] at hp
    subst hp
    rfl

end GoSelect
