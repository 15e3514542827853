import Verif.Proofs.Hoeffding
import Verif.Props.C126
import Verif.Props.C58
import Verif.Props.C81_C82
import Verif.Props.C161

/-!
# C162: how many partitions the choice of the threshold needs
-/

namespace GoSelect

open scoped List
open Finset Spec

namespace Spec

/-- The first `m` rows of `X` in the order `l`. -/
def firstRows (X : Mat ℝ) (m : Nat) (l : List Nat) : Mat ℝ := ⟨m, X.nc, fun i j => X.get (l.getD i 0) j⟩

/-- The other rows. -/
def otherRows (X : Mat ℝ) (m : Nat) (l : List Nat) : Mat ℝ := ⟨X.nr - m, X.nc, fun i j => X.get (l.getD (m + i) 0) j⟩

/-- The mean, over all divisions of the rows into `m` and the others, of the error of the covariances of the first part
without those below `τ` as a prediction of the covariances of the second part. -/
noncomputable def meanHoldout (X : Mat ℝ) (m : Nat) (τ : ℝ) : ℝ :=
  (∑ σ : Equiv.Perm (Fin X.nr), holdoutError (firstRows X m (orderList σ)) (otherRows X m (orderList σ)) τ) / X.nr.factorial

end Spec

/-- Hoeffding's inequality for values between 0 and `B`. -/
theorem hoeffding_range {P : Type} [Fintype P] [Nonempty P] {N : Nat} (hN : 0 < N) (g : P → ℝ) {B : ℝ} (hB : 0 < B)
    (hg : ∀ a, 0 ≤ g a ∧ g a ≤ B) {t : ℝ} (ht : 0 < t) :
    ((univ.filter (fun p : Fin N → P => t ≤ |(∑ k, g (p k)) / N - (∑ a, g a) / Fintype.card P|)).card : ℝ) ≤
      2 * (Fintype.card P : ℝ) ^ N * Real.exp (-(2 * N * t ^ 2) / B ^ 2) := by
  have hM : (0 : ℝ) < Fintype.card P := Nat.cast_pos.2 Fintype.card_pos
  have hN' : (0 : ℝ) < N := Nat.cast_pos.2 hN
  have h := hoeffding hN (fun a => 2 / B * g a - 1) (fun a => by
    obtain ⟨h1, h2⟩ := hg a
    have h3 : 0 ≤ 2 / B * g a := by positivity
    have h4 : 2 / B * g a ≤ 2 := by
      rw [div_mul_eq_mul_div, div_le_iff₀ hB]
      linarith
    rw [abs_le]
    constructor <;> linarith) (t := 2 / B * t) (by positivity)
  have e1 : ∀ p : Fin N → P, (∑ k, (2 / B * g (p k) - 1)) / N - (∑ a, (2 / B * g a - 1)) / Fintype.card P =
      2 / B * ((∑ k, g (p k)) / N - (∑ a, g a) / Fintype.card P) := by
    intro p
    rw [Finset.sum_sub_distrib, Finset.sum_sub_distrib, ← Finset.mul_sum, ← Finset.mul_sum, Finset.sum_const,
      Finset.sum_const, Finset.card_univ, Finset.card_univ, Fintype.card_fin, nsmul_eq_mul, nsmul_eq_mul]
    field_simp
    ring
  have e2 : ∀ p : Fin N → P, (2 / B * t ≤ |(∑ k, (2 / B * g (p k) - 1)) / N - (∑ a, (2 / B * g a - 1)) / Fintype.card P|) ↔
      t ≤ |(∑ k, g (p k)) / N - (∑ a, g a) / Fintype.card P| := by
    intro p
    rw [e1, abs_mul, abs_of_pos (by positivity : 0 < 2 / B)]
    exact mul_le_mul_iff_right₀ (by positivity)
  simp only [e2] at h
  have e3 : -((N : ℝ) * (2 / B * t) ^ 2) / 2 = -(2 * N * t ^ 2) / B ^ 2 := by
    field_simp
  rw [e3] at h
  exact h

/-- The mean over the random numbers is the mean over all orders. -/
theorem sum_draws (n : Nat) (f : List Nat → ℝ) :
    ∑ d : Draws n, f (splitIndices (drawFn d) n) = ∑ σ : Equiv.Perm (Fin n), f (orderList σ) := by
  obtain ⟨e, he⟩ := exists_shuffle_equiv n 1
  have hs : ∀ d : Draws n, splitIndices (drawFn d) n = orderList (e (fun _ => d) 0) := fun d => he (fun _ => d) 0
  simp only [hs]
  rw [← Equiv.sum_comp (Equiv.funUnique (Fin 1) (Equiv.Perm (Fin n))), ← Equiv.sum_comp e,
    ← Equiv.sum_comp (Equiv.funUnique (Fin 1) (Draws n)).symm]
  rfl

/-- Covariances of data up to `b` are at most `b²`. -/
theorem abs_cov_le (A : Mat ℝ) {b : ℝ} (hb : ∀ r < A.nr, ∀ j < A.nc, |A.get r j| ≤ b) (hn : 0 < A.nr)
    {i j : Nat} (hi : i < A.nc) (hj : j < A.nc) : |Spec.cov A i j| ≤ b ^ 2 := by
  have hn' : (0 : ℝ) < A.nr := Nat.cast_pos.2 hn
  have hsq : ∀ c < A.nc, ∑ r ∈ range A.nr, (A.get r c - Spec.colMean A c) ^ 2 ≤ A.nr * b ^ 2 := by
    intro c hc
    have h1 : ∑ r ∈ range A.nr, A.get r c = A.nr * Spec.colMean A c := by
      unfold Spec.colMean
      field_simp
    have h2 : ∑ r ∈ range A.nr, (A.get r c - Spec.colMean A c) ^ 2 =
        ∑ r ∈ range A.nr, A.get r c ^ 2 - A.nr * Spec.colMean A c ^ 2 := by
      have : ∀ r, (A.get r c - Spec.colMean A c) ^ 2 =
          A.get r c ^ 2 - 2 * Spec.colMean A c * A.get r c + Spec.colMean A c ^ 2 := fun r => by ring
      simp only [this]
      rw [Finset.sum_add_distrib, Finset.sum_sub_distrib, ← Finset.mul_sum, h1, Finset.sum_const, Finset.card_range,
        nsmul_eq_mul]
      ring
    have h3 : ∑ r ∈ range A.nr, A.get r c ^ 2 ≤ ∑ _r ∈ range A.nr, b ^ 2 := by
      refine Finset.sum_le_sum (fun r hr => ?_)
      rw [← sq_abs]
      exact pow_le_pow_left₀ (abs_nonneg _) (hb r (Finset.mem_range.1 hr) c hc) 2
    rw [Finset.sum_const, Finset.card_range, nsmul_eq_mul] at h3
    rw [h2]
    have := mul_nonneg hn'.le (sq_nonneg (Spec.colMean A c))
    linarith
  have hcs := Finset.sum_mul_sq_le_sq_mul_sq (range A.nr) (fun r => A.get r i - Spec.colMean A i)
    (fun r => A.get r j - Spec.colMean A j)
  have h4 : (∑ r ∈ range A.nr, (A.get r i - Spec.colMean A i) * (A.get r j - Spec.colMean A j)) ^ 2 ≤
      (A.nr * b ^ 2) ^ 2 := by
    refine hcs.trans ?_
    rw [sq ((A.nr : ℝ) * b ^ 2)]
    exact mul_le_mul (hsq i hi) (hsq j hj) (Finset.sum_nonneg fun _ _ => sq_nonneg _) (by positivity)
  have h5 := abs_le_of_sq_le_sq h4 (by positivity)
  unfold Spec.cov
  rw [abs_div, abs_of_pos hn', div_le_iff₀ hn']
  linarith

/-- C162: with data up to `b` in absolute value the errors that `L2ConsistentCovTO` compares are at most `2 p b²`. -/
theorem C162_errors (A B : Mat ℝ) (τ : ℝ) {b : ℝ} (hA : 0 < A.nr) (hB : 0 < B.nr) (hc : B.nc = A.nc)
    (hbA : ∀ r < A.nr, ∀ j < A.nc, |A.get r j| ≤ b) (hbB : ∀ r < B.nr, ∀ j < B.nc, |B.get r j| ≤ b) :
    0 ≤ holdoutError A B τ ∧ holdoutError A B τ ≤ 2 * A.nc * b ^ 2 := by
  refine ⟨Real.sqrt_nonneg _, ?_⟩
  unfold holdoutError
  rw [Real.sqrt_le_left (by positivity)]
  have : ∀ i ∈ range A.nc, ∀ j ∈ range A.nc,
      ((if |Spec.cov A i j| < τ then 0 else Spec.cov A i j) - Spec.cov B i j) ^ 2 ≤ (2 * b ^ 2) ^ 2 := by
    intro i hi j hj
    rw [Finset.mem_range] at hi hj
    have h1 := abs_le.1 (abs_cov_le A hbA hA hi hj)
    have h2 := abs_le.1 (abs_cov_le B hbB hB (hc ▸ hi) (hc ▸ hj))
    refine sq_le_sq' ?_ ?_ <;> split <;> nlinarith [sq_nonneg b]
  refine (Finset.sum_le_sum fun i hi => Finset.sum_le_sum (this i hi)).trans (le_of_eq ?_)
  simp only [Finset.sum_const, Finset.card_range, nsmul_eq_mul]
  ring

/-- C162: but for the fraction `2 G exp(-S t² / (2 p² b⁴))` of the random numbers of `S` partitions, with `G` grid points, `p`
columns and data up to `b`, the mean error of the threshold that `L2ConsistentCovTO` returns, over all divisions of the rows, is
less than `2 t` above that of every other threshold of the grid, under every schedule. -/
theorem C162_choice (X : Mat ℝ) (S : Nat) (hS : 0 < S) (maxT step : ℝ) {b : ℝ} (hb : 0 < b)
    (hX : ∀ r < X.nr, ∀ j < X.nc, |X.get r j| ≤ b) {t : ℝ} (ht : 0 < t) :
    ∃ bad : Finset (Fin S → Draws X.nr),
      (bad.card : ℝ) / Fintype.card (Fin S → Draws X.nr) ≤
        2 * ⌊9 / step⌋₊ * Real.exp (-(S * t ^ 2) / (2 * X.nc ^ 2 * b ^ 4)) ∧
      ∀ d ∉ bad, ∀ shuffle : Nat → List Nat, (∀ k, shuffle k ~ List.range X.nr) →
        (∀ k : Fin S, shuffle k = splitIndices (drawFn (d k)) X.nr) → ∀ op, CovSearch X S maxT step shuffle op →
        ∃ idx < ⌊9 / step⌋₊, op = Real.exp (-10 + (idx : ℝ) * step) ∧ ∀ g < ⌊9 / step⌋₊,
          meanHoldout X ⌊(X.nr : ℝ) * (1 - 1 / Real.log X.nr)⌋₊ op <
            meanHoldout X ⌊(X.nr : ℝ) * (1 - 1 / Real.log X.nr)⌋₊ (Real.exp (-10 + (g : ℝ) * step)) + 2 * t := by
  classical
  set m := ⌊(X.nr : ℝ) * (1 - 1 / Real.log X.nr)⌋₊ with hm
  set G := ⌊9 / step⌋₊ with hG
  -- unless both parts have rows there is no result
  by_cases hok : 0 < m ∧ m < X.nr ∧ 0 < X.nc
  swap
  · refine ⟨∅, by simp; positivity, fun d _ shuffle hperm _ op hop => ?_⟩
    exfalso
    obtain ⟨parts, s, idx, h0, h1, -⟩ := hop
    have hp : ¬ randomRowSplit X (covRows X.nr) (shuffle 0) = none := by rw [h1 0]; simp
    rw [C61_panic (K := ℝ), not_not] at hp
    have : (covRows X.nr).toNat = m := goInt_toNat _
    omega
  obtain ⟨hm0, hm1, hc⟩ := hok
  have hc' : (0 : ℝ) < X.nc := Nat.cast_pos.2 hc
  let f : Nat → List Nat → ℝ := fun g l => holdoutError (firstRows X m l) (otherRows X m l) (Real.exp (-10 + (g : ℝ) * step))
  have hf : ∀ g l, l ~ List.range X.nr → 0 ≤ f g l ∧ f g l ≤ 2 * X.nc * b ^ 2 := by
    intro g l hl
    have hlen : l.length = X.nr := by rw [hl.length_eq, List.length_range]
    have hent : ∀ i < X.nr, l.getD i 0 < X.nr := by
      intro i hi
      rw [List.getD_eq_getElem _ _ (by omega)]
      exact List.mem_range.1 (hl.mem_iff.1 (List.getElem_mem _))
    refine C162_errors (firstRows X m l) (otherRows X m l) _ hm0 (by simp only [otherRows]; omega) rfl ?_ ?_
    · intro r hr j hj
      simp only [firstRows] at hr hj
      exact hX _ (hent _ (by omega)) j hj
    · intro r hr j hj
      simp only [otherRows] at hr hj
      exact hX _ (hent _ (by omega)) j hj
  have hdraw : ∀ d : Draws X.nr, splitIndices (drawFn d) X.nr ~ List.range X.nr := by
    intro d
    obtain ⟨e, he⟩ := exists_shuffle_equiv X.nr 1
    have : splitIndices (drawFn d) X.nr = orderList (e (fun _ => d) 0) := he (fun _ => d) 0
    rw [this]
    exact orderList_perm _
  have hne : Nonempty (Draws X.nr) := ⟨fun i => ⟨0, Nat.succ_pos _⟩⟩
  have hfrac : ∀ g : Fin G, ((univ.filter (fun d : Fin S → Draws X.nr =>
      t ≤ |(∑ k, f g (splitIndices (drawFn (d k)) X.nr)) / S - meanHoldout X m (Real.exp (-10 + (g : ℝ) * step))|)).card : ℝ) ≤
      2 * (Fintype.card (Draws X.nr) : ℝ) ^ S * Real.exp (-(S * t ^ 2) / (2 * X.nc ^ 2 * b ^ 4)) := by
    intro g
    have h := hoeffding_range hS (fun d : Draws X.nr => f g (splitIndices (drawFn d) X.nr)) (B := 2 * X.nc * b ^ 2)
      (by positivity) (fun d => hf g _ (hdraw d)) ht
    rw [sum_draws, card_draws] at h
    rw [card_draws]
    have e : -(2 * (S : ℝ) * t ^ 2) / (2 * X.nc * b ^ 2) ^ 2 = -(S * t ^ 2) / (2 * X.nc ^ 2 * b ^ 4) := by
      field_simp
    rw [e] at h
    exact h
  refine ⟨univ.biUnion (fun g : Fin G => univ.filter (fun d : Fin S → Draws X.nr =>
      t ≤ |(∑ k, f g (splitIndices (drawFn (d k)) X.nr)) / S - meanHoldout X m (Real.exp (-10 + (g : ℝ) * step))|)), ?_, ?_⟩
  · have hpos : (0 : ℝ) < Fintype.card (Fin S → Draws X.nr) := Nat.cast_pos.2 Fintype.card_pos
    rw [div_le_iff₀ hpos]
    have h3 := Nat.cast_le (α := ℝ).2 (Finset.card_biUnion_le (s := univ) (t := fun g : Fin G =>
      univ.filter (fun d : Fin S → Draws X.nr =>
      t ≤ |(∑ k, f g (splitIndices (drawFn (d k)) X.nr)) / S - meanHoldout X m (Real.exp (-10 + (g : ℝ) * step))|)))
    rw [Nat.cast_sum] at h3
    refine (h3.trans (Finset.sum_le_sum (fun g _ => hfrac g))).trans (le_of_eq ?_)
    rw [Finset.sum_const, Finset.card_univ, Fintype.card_fin, nsmul_eq_mul, Fintype.card_fun, Fintype.card_fin, Nat.cast_pow]
    ring
  · intro d hd shuffle hperm hsh op hop
    simp only [Finset.mem_biUnion, Finset.mem_filter, Finset.mem_univ, true_and, not_exists, not_le, abs_lt] at hd
    obtain ⟨parts, s, idx, h0, h1, h2, h3, h4, h5⟩ := hop
    have hgr : (covGrid step).toNat = G := goInt_toNat _
    rw [hgr] at h2 h3
    have hG0 : 0 < G := by
      by_contra hz
      have hz : G = 0 := by omega
      have hl := cov_mean_length h2
      rw [hz] at hl
      rw [List.eq_nil_of_length_eq_zero hl] at h4
      simp [argmin] at h4
    rw [C58_mean hG0 s h2 h3] at h4
    have e : ∀ k g, fNormDiff (parts k) g step = f g (shuffle k) := by
      intro k g
      have hk := h1 k
      have hrow : (covRows X.nr).toNat = m := goInt_toNat _
      have hp : ¬ randomRowSplit X (covRows X.nr) (shuffle k) = none := by rw [hk]; simp
      rw [C61_panic (K := ℝ), not_not] at hp
      unfold randomRowSplit at hk
      simp only at hk
      rw [if_neg (by omega), Option.some.injEq] at hk
      have e2 : ((X.nr : Int) - covRows X.nr).toNat = X.nr - m := by omega
      rw [← hk, e2, hrow]
      rw [fNormDiff_eq (by simp only; omega) (by simp only; omega)]
      show _ = holdoutError _ _ _
      congr 1
      unfold otherRows
      congr 1
      funext i j
      rw [Nat.add_comm]
    simp only [e] at h4
    obtain ⟨v, hv, hmin, -⟩ := (C36_argmin _).2 idx h4
    have hsum : ∀ g, ∑ k ∈ range S, f g (shuffle k) / (S : ℝ) = (∑ k, f g (splitIndices (drawFn (d k)) X.nr)) / S := by
      intro g
      rw [← Finset.sum_div, Finset.sum_range]
      simp only [hsh]
    have hidx : idx < G := by
      have := (List.getElem?_eq_some_iff.1 hv).1
      simpa using this
    rw [List.getElem?_map, List.getElem?_range hidx, Option.map_some, Option.some.injEq, hsum] at hv
    refine ⟨idx, hidx, h5, fun g hg => ?_⟩
    have h6 := hmin _ (List.mem_map.2 ⟨g, List.mem_range.2 hg, rfl⟩)
    rw [hsum, ← hv] at h6
    have h7 := hd ⟨idx, hidx⟩
    have h8 := hd ⟨g, hg⟩
    simp only at h7 h8
    have h9 : op = Real.exp (-10 + (idx : ℝ) * step) := h5
    rw [h9]
    linarith [h7.1, h8.2]

/-- C162: with `2 p² b⁴ / t² · log(2 G / δ)` partitions or more the mean error of the threshold returned is less than `2 t` above
that of every other threshold of the grid, but for the fraction `δ` of the random numbers. -/
theorem C162_samples (X : Mat ℝ) (S : Nat) (hS : 0 < S) (maxT step : ℝ) {b : ℝ} (hb : 0 < b) (hc : 0 < X.nc)
    (hX : ∀ r < X.nr, ∀ j < X.nc, |X.get r j| ≤ b) {t δ : ℝ} (ht : 0 < t) (hδ : 0 < δ)
    (hSt : 2 * X.nc ^ 2 * b ^ 4 / t ^ 2 * Real.log (2 * ⌊9 / step⌋₊ / δ) ≤ S) :
    ∃ bad : Finset (Fin S → Draws X.nr), (bad.card : ℝ) / Fintype.card (Fin S → Draws X.nr) ≤ δ ∧
      ∀ d ∉ bad, ∀ shuffle : Nat → List Nat, (∀ k, shuffle k ~ List.range X.nr) →
        (∀ k : Fin S, shuffle k = splitIndices (drawFn (d k)) X.nr) → ∀ op, CovSearch X S maxT step shuffle op →
        ∀ g < ⌊9 / step⌋₊, meanHoldout X ⌊(X.nr : ℝ) * (1 - 1 / Real.log X.nr)⌋₊ op <
          meanHoldout X ⌊(X.nr : ℝ) * (1 - 1 / Real.log X.nr)⌋₊ (Real.exp (-10 + (g : ℝ) * step)) + 2 * t := by
  obtain ⟨bad, h1, h2⟩ := C162_choice X S hS maxT step hb hX ht
  refine ⟨bad, h1.trans ?_, fun d hd shuffle hp hs op ho g hg => ?_⟩
  · rcases Nat.eq_zero_or_pos ⌊9 / step⌋₊ with hz | hG
    · rw [hz]
      simpa using hδ.le
    · have hc' : (0 : ℝ) < X.nc := Nat.cast_pos.2 hc
      have h3 := samples_for_risk (N := S) (t := t / (X.nc * b ^ 2)) hG (by positivity) hδ (by
        refine le_trans (le_of_eq ?_) hSt
        congr 1
        field_simp)
      refine le_trans (le_of_eq ?_) h3
      congr 2
      field_simp
  · obtain ⟨_, _, _, h3⟩ := h2 d hd shuffle hp hs op ho
    exact h3 g hg

/-! ### Example -/

/-- Five measurements of two features, 0 or 1. -/
def twoBits : Mat ℝ := ⟨5, 2, fun r c => if (r + c) % 2 = 0 then 1 else 0⟩

/-- With 1600 partitions, `t = 1/5` and nine thresholds the risk is one percent; thresholds are returned for all random
numbers. -/
example : (∃ bad : Finset (Fin 1600 → Draws twoBits.nr), (bad.card : ℝ) / Fintype.card (Fin 1600 → Draws twoBits.nr) ≤ 1 / 100 ∧
      ∀ d ∉ bad, ∀ shuffle : Nat → List Nat, (∀ k, shuffle k ~ List.range twoBits.nr) →
        (∀ k : Fin 1600, shuffle k = splitIndices (drawFn (d k)) twoBits.nr) → ∀ op, CovSearch twoBits 1600 0 1 shuffle op →
        ∀ g < ⌊(9 : ℝ) / 1⌋₊, meanHoldout twoBits ⌊(twoBits.nr : ℝ) * (1 - 1 / Real.log twoBits.nr)⌋₊ op <
          meanHoldout twoBits ⌊(twoBits.nr : ℝ) * (1 - 1 / Real.log twoBits.nr)⌋₊ (Real.exp (-10 + (g : ℝ) * 1)) +
            2 * (1 / 5)) ∧
    ∀ shuffle, ∃ op, CovSearch twoBits 1600 0 1 shuffle op := by
  refine ⟨C162_samples twoBits 1600 (by norm_num) 0 1 (b := 1) (by norm_num) (by decide) ?_ (by norm_num) (by norm_num) ?_,
    fun shuffle => C82_enough_rows_partial _ _ _ _ _ (by decide) (by decide) (by norm_num) (by norm_num)⟩
  · intro r _ c _
    simp only [twoBits]
    split <;> simp
  · have h9 : ⌊(9 : ℝ) / 1⌋₊ = 9 := by norm_num
    rw [h9]
    have hl : Real.log (2 * (9 : ℕ) / (1 / 100)) ≤ 8 := by
      rw [Real.log_le_iff_le_exp (by norm_num)]
      have h := Real.exp_one_gt_d9
      have e : Real.exp 8 = Real.exp 1 ^ 8 := by rw [← Real.exp_nat_mul]; norm_num
      rw [e]
      calc (2 * ((9 : ℕ) : ℝ) / (1 / 100)) ≤ 2.7182818283 ^ 8 := by norm_num
        _ ≤ _ := pow_le_pow_left₀ (by norm_num) h.le 8
    simp only [twoBits]
    push_cast at hl ⊢
    linarith

end GoSelect
