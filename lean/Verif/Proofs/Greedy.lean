import Verif.Proofs.Redundant
import Mathlib.Analysis.SpecialFunctions.Log.Basic
import Mathlib.Algebra.Order.Chebyshev

/-!
# Orthogonal matching pursuit against the best choice of features
-/

namespace GoSelect

open Finset Spec

/-- Combinations of at most `m` columns are not much shorter than their parts. -/
def Spec.Conditioned (X : Mat ℝ) (m : Nat) (lam : ℝ) : Prop :=
  ∀ (T : Finset Nat) (a : Nat → ℝ), T.card ≤ m → (∀ i ∈ T, i < X.nc) → (∀ i, i ∉ T → a i = 0) →
    lam * ∑ i ∈ T, a i ^ 2 * ∑ r ∈ range X.nr, X.get r i ^ 2 ≤ ∑ r ∈ range X.nr, lin X a r ^ 2

theorem Spec.Conditioned.mono {X : Mat ℝ} {m m' : Nat} {lam : ℝ} (h : Conditioned X m lam) (hm : m' ≤ m) :
    Conditioned X m' lam := fun T a hT => h T a (hT.trans hm)

variable {svd : Mat ℝ → SVD ℝ} {X : Mat ℝ} {y : List ℝ}

theorem lin_one_column (x : Nat) (hx : x < X.nc) (t : ℝ) (q : Nat) : lin X (fun i => if i = x then t else 0) q = X.get q x * t := by
  unfold lin
  rw [Finset.sum_eq_single x]
  · simp
  · intro i _ hi
    simp [hi]
  · intro h
    exact absurd (mem_range.2 hx) h

theorem Spec.Conditioned.le_one {m : Nat} {lam : ℝ} (h : Conditioned X m lam) (hm : 0 < m) {x : Nat} (hx : x < X.nc)
    (hN : 0 < ∑ r ∈ range X.nr, X.get r x * X.get r x) : lam ≤ 1 := by
  have h1 := h {x} (fun i => if i = x then 1 else 0) (by rw [Finset.card_singleton]; exact hm) (by simpa using hx)
    (fun i hi => if_neg (by simpa using hi))
  simp only [lin_one_column x hx] at h1
  simp only [Finset.sum_singleton, if_true, one_pow, one_mul, mul_one] at h1
  have e : ∑ r ∈ range X.nr, X.get r x ^ 2 = ∑ r ∈ range X.nr, X.get r x * X.get r x :=
    Finset.sum_congr rfl (fun _ _ => sq _)
  rw [e] at h1
  by_contra hc
  nlinarith [not_le.1 hc]

/-- One more feature closes a fixed part of the gap to any other choice of `k` features. -/
theorem greedy_step {w : Nat → ℝ} {L : List Nat} {b b' : Nat → ℝ} (hL : ∀ i ∈ L, i < X.nc) (hb : ∀ i, i ∉ L → b i = 0)
    (hbest : ∀ c : Nat → ℝ, (∀ i, i ∉ L → c i = 0) → sse X b w ≤ sse X c w) {r : List ℝ} {σ : ℝ} (hσ : σ ^ 2 = 1)
    (hr : ∀ q < X.nr, r.getD q 0 = σ * (lin X b q - w q)) (hcol : ∀ i, i < X.nc → colNorm X i ≠ 0) {x : Nat}
    (hx : argmax (ompProj X r) = some x) (hxn : x < X.nc)
    (hb' : ∀ c : Nat → ℝ, (∀ i, i ∉ L ++ [x] → c i = 0) → sse X b' w ≤ sse X c w) {S : Finset Nat}
    (hS : ∀ i ∈ S, i < X.nc) {k : Nat} (hk : 0 < k) (hSk : S.card ≤ k) {c : Nat → ℝ} (hc : ∀ i, i ∉ S → c i = 0) {lam : ℝ}
    (hlam : 0 < lam) (hcond : Conditioned X (k + L.length) lam) :
    sse X b' w - sse X c w ≤ (1 - lam / k) * (sse X b w - sse X c w) := by
  classical
  have hkr : (0 : ℝ) < k := by exact_mod_cast hk
  have hsse0 : ∀ c, 0 ≤ sse X c w := fun c => Finset.sum_nonneg (fun _ _ => sq_nonneg _)
  by_cases hz : norm2 r = 0
  · have hb0 : sse X b w = 0 := by
      refine Finset.sum_eq_zero (fun q hq => ?_)
      have h1 := hr q (mem_range.1 hq)
      rw [norm2_eq_zero r hz] at h1
      have h2 : (σ * (lin X b q - w q)) ^ 2 = 0 := by rw [← h1]; ring
      rwa [mul_pow, hσ, one_mul] at h2
    have h1 : sse X b' w ≤ sse X b w :=
      hb' b (fun i hi => hb i (fun h => hi (List.mem_append_left _ h)))
    have h2 : 0 ≤ lam / k * sse X c w := mul_nonneg (by positivity) (hsse0 c)
    rw [hb0] at h1 ⊢
    linarith
  set g : Nat → ℝ := fun i => ∑ q ∈ range X.nr, X.get q i * (lin X b q - w q) with hg
  set N : Nat → ℝ := fun i => ∑ q ∈ range X.nr, X.get q i * X.get q i with hNdef
  have hNpos : ∀ i, i < X.nc → 0 < N i := by
    intro i hi
    have h0 : 0 ≤ N i := Finset.sum_nonneg (fun _ _ => mul_self_nonneg _)
    refine lt_of_le_of_ne h0 (fun h => hcol i hi ?_)
    unfold colNorm
    rw [show (∑ r ∈ range X.nr, X.get r i * X.get r i) = 0 from h.symm, Real.sqrt_zero]
  have hcorr : ∀ i, (∑ q ∈ range X.nr, X.get q i * r.getD q 0) ^ 2 = g i ^ 2 := by
    intro i
    have : ∑ q ∈ range X.nr, X.get q i * r.getD q 0 = σ * g i := by
      rw [hg, Finset.mul_sum]
      refine Finset.sum_congr rfl (fun q hq => ?_)
      rw [hr q (mem_range.1 hq)]
      ring
    rw [this, mul_pow, hσ, one_mul]
  obtain ⟨-, hpick⟩ := pick_sq hz hcol hx
  set M := g x ^ 2 / N x with hM
  have hM0 : 0 ≤ M := div_nonneg (sq_nonneg _) (hNpos x hxn).le
  have hgi : ∀ i, i < X.nc → g i ^ 2 ≤ M * N i := by
    intro i hi
    have := hpick i hi
    rw [hcorr, hcorr] at this
    rw [hM, div_mul_eq_mul_div, le_div_iff₀ (hNpos x hxn)]
    exact this
  -- the gain of the new feature
  have hgain : sse X b' w ≤ sse X b w - M := by
    have h1 := hb' (fun i => b i + (if i = x then -(g x / N x) else 0)) (fun i hi => by
      rw [List.mem_append, not_or] at hi
      have : i ≠ x := by simpa using hi.2
      simp [hb i hi.1, this])
    refine h1.trans (le_of_eq ?_)
    have e : ∀ q ∈ range X.nr, (lin X (fun i => b i + (if i = x then -(g x / N x) else 0)) q - w q) ^ 2 =
        (lin X b q - w q) ^ 2 - 2 * (g x / N x) * (X.get q x * (lin X b q - w q)) +
          (g x / N x) ^ 2 * (X.get q x * X.get q x) := by
      intro q _
      have : lin X (fun i => b i + (if i = x then -(g x / N x) else 0)) q = lin X b q + X.get q x * -(g x / N x) := by
        rw [← lin_one_column x hxn]
        unfold lin
        rw [← Finset.sum_add_distrib]
        exact Finset.sum_congr rfl (fun _ _ => by ring)
      rw [this]
      ring
    unfold sse
    rw [Finset.sum_congr rfl e, Finset.sum_add_distrib, Finset.sum_sub_distrib, ← Finset.mul_sum, ← Finset.mul_sum]
    change sse X b w - 2 * (g x / N x) * g x + (g x / N x) ^ 2 * N x = sse X b w - M
    rw [hM]
    have := (hNpos x hxn).ne'
    field_simp
    ring
  -- the gap to the other choice
  have hgap : sse X b w - sse X c w ≤ M * k / lam := by
    set v : Nat → ℝ := fun i => c i - b i with hv
    set U := ∑ q ∈ range X.nr, lin X v q ^ 2 with hU
    set Q := ∑ q ∈ range X.nr, (lin X b q - w q) * lin X v q with hQ
    have e1 : sse X c w = sse X b w + 2 * Q + U := by
      unfold sse
      rw [hQ, hU, Finset.mul_sum, ← Finset.sum_add_distrib, ← Finset.sum_add_distrib]
      refine Finset.sum_congr rfl (fun q _ => ?_)
      rw [hv, lin_sub]
      ring
    have e2 : Q = ∑ i ∈ S, v i * g i := by
      have h1 : Q = ∑ i ∈ range X.nc, v i * g i := by
        rw [hQ]
        have : ∀ q ∈ range X.nr, (lin X b q - w q) * lin X v q =
            ∑ i ∈ range X.nc, v i * (X.get q i * (lin X b q - w q)) := by
          intro q _
          conv_lhs => rw [show lin X v q = ∑ i ∈ range X.nc, X.get q i * v i from rfl]
          rw [Finset.mul_sum]
          exact Finset.sum_congr rfl (fun _ _ => by ring)
        rw [Finset.sum_congr rfl this, Finset.sum_comm]
        exact Finset.sum_congr rfl (fun i _ => by rw [hg, Finset.mul_sum])
      rw [h1]
      symm
      refine Finset.sum_subset (fun i hi => mem_range.2 (hS i hi)) (fun i hi hiS => ?_)
      by_cases hiL : i ∈ L
      · have : g i = 0 := best_orthogonal hb hbest hiL (mem_range.1 hi)
        rw [this, mul_zero]
      · rw [hv]
        simp only
        rw [hc i hiS, hb i hiL, sub_zero, zero_mul]
    have e3 : Q ^ 2 ≤ M * k / lam * U := by
      have h1 : Q ^ 2 ≤ k * ∑ i ∈ S, (v i * g i) ^ 2 := by
        rw [e2]
        refine sq_sum_le_card_mul_sum_sq.trans ?_
        exact mul_le_mul_of_nonneg_right (by exact_mod_cast hSk) (Finset.sum_nonneg (fun _ _ => sq_nonneg _))
      have h2 : ∑ i ∈ S, (v i * g i) ^ 2 ≤ M * ∑ i ∈ S ∪ L.toFinset, v i ^ 2 * ∑ r ∈ range X.nr, X.get r i ^ 2 := by
        rw [Finset.mul_sum]
        have h3 : ∑ i ∈ S, (v i * g i) ^ 2 ≤ ∑ i ∈ S, M * (v i ^ 2 * ∑ r ∈ range X.nr, X.get r i ^ 2) := by
          refine Finset.sum_le_sum (fun i hi => ?_)
          have e : ∑ r ∈ range X.nr, X.get r i ^ 2 = N i := Finset.sum_congr rfl (fun _ _ => sq _)
          rw [mul_pow, e]
          have := mul_le_mul_of_nonneg_left (hgi i (hS i hi)) (sq_nonneg (v i))
          linarith
        refine h3.trans ?_
        refine Finset.sum_le_sum_of_subset_of_nonneg Finset.subset_union_left (fun i _ _ => ?_)
        exact mul_nonneg hM0 (mul_nonneg (sq_nonneg _) (Finset.sum_nonneg (fun _ _ => sq_nonneg _)))
      have h4 := hcond (S ∪ L.toFinset) v
        ((Finset.card_union_le _ _).trans (Nat.add_le_add hSk (List.toFinset_card_le L)))
        (fun i hi => by
          rcases Finset.mem_union.1 hi with h | h
          · exact hS i h
          · exact hL i (List.mem_toFinset.1 h))
        (fun i hi => by
          rw [Finset.mem_union, not_or, List.mem_toFinset] at hi
          rw [hv]
          simp only
          rw [hc i hi.1, hb i hi.2, sub_zero])
      have h5 : ∑ i ∈ S ∪ L.toFinset, v i ^ 2 * ∑ r ∈ range X.nr, X.get r i ^ 2 ≤ U / lam := by
        rw [le_div_iff₀ hlam]
        linarith
      calc Q ^ 2 ≤ k * (M * (U / lam)) :=
            h1.trans (mul_le_mul_of_nonneg_left (h2.trans (mul_le_mul_of_nonneg_left h5 hM0)) hkr.le)
        _ = M * k / lam * U := by ring
    have hU0 : 0 ≤ U := Finset.sum_nonneg (fun _ _ => sq_nonneg _)
    have hA0 : 0 ≤ M * k / lam := by positivity
    have h6 : |2 * Q| ≤ M * k / lam + U := by
      apply abs_le_of_sq_le_sq _ (by linarith)
      nlinarith [sq_nonneg (M * k / lam - U)]
    have := (abs_le.1 h6).1
    rw [e1]
    linarith
  have h7 : lam / k * (sse X b w - sse X c w) ≤ M := by
    have := mul_le_mul_of_nonneg_left hgap (show 0 ≤ lam / k by positivity)
    refine this.trans (le_of_eq ?_)
    field_simp
  linarith

/-- Sum of squares of the target. -/
noncomputable def Spec.total (X : Mat ℝ) (y : List ℝ) : ℝ := ∑ r ∈ range X.nr, vec y r ^ 2

theorem sse_zero' {b : Nat → ℝ} (hb : ∀ i, b i = 0) : sse X b (vec y) = total X y := by
  unfold sse total lin
  refine Finset.sum_congr rfl (fun q _ => ?_)
  simp [hb]

/-- The bound for every prefix of the selected features. -/
theorem greedy_prefix (hy : X.nr = y.length) {d : List Nat} (hlt : ∀ i ∈ d, i < X.nc)
    (hpick : ∀ j (hj : j < d.length), argmax (ompProj X (resAt svd X y (d.take j))) = some d[j])
    (hcol : ∀ i, i < X.nc → colNorm X i ≠ 0) {S : Finset Nat} (hS : ∀ i ∈ S, i < X.nc) {k : Nat} (hk : 0 < k)
    (hSk : S.card ≤ k) {c : Nat → ℝ} (hc : ∀ i, i ∉ S → c i = 0) {lam : ℝ} (hlam : 0 < lam) (n : Nat) (hn : n ≤ d.length)
    (hex : ∀ j, 0 < j → j < n → ExactFit svd X (modelOf X.nc (d.take j)))
    (hcond : Conditioned X (k + n) lam) (b : Nat → ℝ) (hb : ∀ i, i ∉ d.take n → b i = 0)
    (hbest : ∀ c : Nat → ℝ, (∀ i, i ∉ d.take n → c i = 0) → sse X b (vec y) ≤ sse X c (vec y)) :
    sse X b (vec y) - sse X c (vec y) ≤ (1 - lam / k) ^ n * (total X y - sse X c (vec y)) := by
  induction n generalizing b with
  | zero =>
    rw [sse_zero' (fun i => hb i (by simp)), pow_zero, one_mul]
  | succ n ih =>
    have hnd : n < d.length := hn
    have hkr : (0 : ℝ) < k := by exact_mod_cast hk
    obtain ⟨b0, hb0, σ, hσ, hres, hbest0⟩ : ∃ b0 : Nat → ℝ, (∀ i, i ∉ d.take n → b0 i = 0) ∧ ∃ σ : ℝ, σ ^ 2 = 1 ∧
        (∀ q < X.nr, (resAt svd X y (d.take n)).getD q 0 = σ * (lin X b0 q - vec y q)) ∧
        ∀ b' : Nat → ℝ, (∀ i, i ∉ d.take n → b' i = 0) → sse X b0 (vec y) ≤ sse X b' (vec y) := by
      rcases Nat.eq_zero_or_pos n with rfl | hpos
      · refine ⟨fun _ => 0, fun _ _ => rfl, -1, by norm_num, fun q _ => ?_, fun b' hb' => ?_⟩
        · simp [resAt, lin, vec]
        · rw [sse_zero' (fun i => hb' i (by simp)), sse_zero' (fun _ => rfl)]
      · have hne : d.take n ≠ [] := by
          rw [← List.length_pos_iff, List.length_take]
          omega
        obtain ⟨b0, h1, h2, h3⟩ := resAt_best hy (hex n hpos (by omega)) hne
          (fun i hi => hlt i (List.mem_of_mem_take hi))
        exact ⟨b0, h1, 1, by norm_num, fun q hq => by rw [h2 q hq, one_mul], h3⟩
    have hi := ih hnd.le (fun j h1 h2 => hex j h1 (by omega)) (hcond.mono (by omega)) b0 hb0 hbest0
    have hxn : d[n] < X.nc := hlt _ (List.getElem_mem hnd)
    have hlen : (d.take n).length = n := by rw [List.length_take]; omega
    have hstep := greedy_step (b' := b) (fun i hi => hlt i (List.mem_of_mem_take hi)) hb0 hbest0 hσ hres hcol
      (hpick n hnd) hxn (fun c' hc' => hbest c' (fun i hi => hc' i (fun h => hi (by
        rw [List.take_add_one, List.getElem?_eq_getElem hnd, Option.toList_some]
        exact h)))) hS hk hSk hc hlam (by rw [hlen]; exact hcond.mono (by omega))
    have hNx : 0 < ∑ r ∈ range X.nr, X.get r d[n] * X.get r d[n] := by
      have := hcol _ hxn
      unfold colNorm at this
      exact lt_of_le_of_ne (Finset.sum_nonneg (fun _ _ => mul_self_nonneg _)) (fun h => this (by rw [← h, Real.sqrt_zero]))
    have hl1 := hcond.le_one (by omega) hxn hNx
    have hk1 : (1 : ℝ) ≤ k := by exact_mod_cast hk
    have hρ : 0 ≤ 1 - lam / k := by
      rw [sub_nonneg, div_le_one hkr]
      linarith
    refine hstep.trans ((mul_le_mul_of_nonneg_left hi hρ).trans (le_of_eq ?_))
    ring

end GoSelect
