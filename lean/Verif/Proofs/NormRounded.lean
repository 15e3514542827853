import Verif.Proofs.Binary64
import Verif.Spec.Statistics
import Verif.Props.C48_C49

/-!
`NewNormalizedData` with rounding: the column loop, and constant columns.
-/

namespace GoSelect

open Spec

/-! ### The column loop -/

/-- State of the column loop after `n` columns. -/
structure NormRInv (rnd : ℝ → ℝ) (X : Mat ℝ) (d : NormalizedData) (n : Nat) : Prop where
  nr : d.X.nr = X.nr
  nc : d.X.nc = X.nc
  todo : ∀ r c, n ≤ c → d.X.get r c = X.get r c
  done : ∀ r c, c < n → r < X.nr → d.X.get r c = rnd (rnd (X.get r c - meanRnd rnd (colOf X c)) /
    (if stdRnd rnd (colOf X c) < rnd (1 / 10 ^ 10) then 1 else stdRnd rnd (colOf X c)))
  later : ∀ c < n, c ≠ 0 → rnd (1 / 10 ^ 10) ≤ stdRnd rnd (colOf X c)
  bias : d.hasBias = true ↔ 0 < n ∧ stdRnd rnd (colOf X 0) < rnd (1 / 10 ^ 10)

theorem normColumnRnd_step (rnd : ℝ → ℝ) (X : Mat ℝ) (d : NormalizedData) (n : Nat) (h : NormRInv rnd X d n) :
    (stdRnd rnd (colOf X n) < rnd (1 / 10 ^ 10) ∧ n ≠ 0 ∧ normColumnRnd rnd d n = none) ∨
    ∃ d', normColumnRnd rnd d n = some d' ∧ NormRInv rnd X d' (n + 1) ∧ d'.y = d.y := by
  have hcol : colOf d.X n = colOf X n := colOf_congr h.nr (fun r => h.todo r n (Nat.le_refl n))
  unfold normColumnRnd
  simp only [hcol]
  by_cases hp : stdRnd rnd (colOf X n) < rnd (1 / 10 ^ 10) ∧ n ≠ 0
  · left; exact ⟨hp.1, hp.2, if_pos hp⟩
  · right
    rw [if_neg hp]
    refine ⟨_, rfl, ?_, rfl⟩
    refine ⟨h.nr, h.nc, ?_, ?_, ?_, ?_⟩
    · intro r c hc
      simp only
      rw [if_neg (by omega)]
      exact h.todo r c (by omega)
    · intro r c hc hr
      simp only
      by_cases hcn : c = n
      · rw [if_pos ⟨hcn, by rw [h.nr]; exact hr⟩, hcn]
        congr 3
        simp [colOf, List.getElem?_range hr]
      · rw [if_neg (by tauto)]; exact h.done r c (by omega) hr
    · intro c hc h0
      by_cases hcn : c = n
      · rw [hcn]; rw [hcn] at h0
        by_contra hlt
        exact hp ⟨not_le.1 hlt, h0⟩
      · exact h.later c (by omega) h0
    · simp only
      by_cases hn0 : n = 0
      · subst hn0
        by_cases hs : stdRnd rnd (colOf X 0) < rnd (1 / 10 ^ 10)
        · rw [if_pos hs]; exact ⟨fun _ => ⟨by omega, hs⟩, fun _ => rfl⟩
        · rw [if_neg hs]
          rw [h.bias]
          simp only [Nat.lt_irrefl, false_and, false_iff, not_and]
          exact fun _ => hs
      · rw [if_neg (fun hs => hp ⟨hs, hn0⟩), h.bias]
        constructor
        · rintro ⟨-, hs⟩; exact ⟨by omega, hs⟩
        · rintro ⟨-, hs⟩; exact ⟨by omega, hs⟩

theorem normLoopRnd_inv (rnd : ℝ → ℝ) (X : Mat ℝ) (d0 : NormalizedData) (h0 : NormRInv rnd X d0 0) (n : Nat) :
    ((∃ c < n, c ≠ 0 ∧ stdRnd rnd (colOf X c) < rnd (1 / 10 ^ 10)) ∧
      (List.range n).foldlM (normColumnRnd rnd) d0 = none) ∨
    ∃ d, (List.range n).foldlM (normColumnRnd rnd) d0 = some d ∧ NormRInv rnd X d n ∧ d.y = d0.y := by
  induction n with
  | zero => right; exact ⟨d0, rfl, h0, rfl⟩
  | succ n ih =>
    rw [List.range_succ, List.foldlM_append]
    rcases ih with ⟨⟨c, hc, hs⟩, h1⟩ | ⟨d, h1, h2, h3⟩
    · left; rw [h1]; exact ⟨⟨c, by omega, hs⟩, rfl⟩
    · rw [h1]
      simp only [List.foldlM_cons, List.foldlM_nil, bind_pure, Option.bind_eq_bind, Option.bind_some]
      rcases normColumnRnd_step rnd X d n h2 with ⟨g1, g2, g3⟩ | ⟨d', g1, g2, g3⟩
      · left; exact ⟨⟨n, by omega, g2, g1⟩, g3⟩
      · right; exact ⟨d', g1, g2, by rw [g3, h3]⟩

theorem newNormalizedDataRnd_inv (rnd : ℝ → ℝ) (X : Mat ℝ) (y : List ℝ) :
    ((∃ c < X.nc, c ≠ 0 ∧ stdRnd rnd (colOf X c) < rnd (1 / 10 ^ 10)) ∧ newNormalizedDataRnd rnd X y = none) ∨
    ∃ d, newNormalizedDataRnd rnd X y = some d ∧ NormRInv rnd X d X.nc ∧ d.y = normalizeArrayRnd rnd y := by
  have h0 : NormRInv rnd X {
      X := X
      y := normalizeArrayRnd rnd y
      std := List.replicate X.nc 0
      mu := List.replicate X.nc 0
      stdY := stdRnd rnd y
      muY := meanRnd rnd y
      hasBias := false } 0 :=
    ⟨rfl, rfl, fun _ _ _ => rfl, by simp, by simp, by simp⟩
  exact normLoopRnd_inv rnd X _ h0 X.nc

/-! ### Sums of equal numbers -/

/-- The sum of `n` equal numbers as `Mean` computes it. -/
noncomputable def sumOf (rnd : ℝ → ℝ) (c : ℝ) : Nat → ℝ
  | 0 => 0
  | n + 1 => rnd (sumOf rnd c n + c)

theorem foldl_replicate_sum (rnd : ℝ → ℝ) (c : ℝ) (n : Nat) :
    (List.replicate n c).foldl (fun mu x => rnd (mu + x)) 0 = sumOf rnd c n := by
  induction n with
  | zero => rfl
  | succ n ih => rw [List.replicate_succ', List.foldl_append, ih]; rfl

theorem meanRnd_replicate (rnd : ℝ → ℝ) (c : ℝ) (n : Nat) :
    meanRnd rnd (List.replicate n c) = rnd (sumOf rnd c n / rnd n) := by
  unfold meanRnd
  rw [foldl_replicate_sum, List.length_replicate]

theorem stdRnd_replicate (rnd : ℝ → ℝ) (c : ℝ) (n : Nat) (hn : 2 ≤ n) :
    stdRnd rnd (List.replicate n c) = rnd (Real.sqrt (rnd (sumOf rnd (rnd
      (rnd (c - meanRnd rnd (List.replicate n c)) * rnd (c - meanRnd rnd (List.replicate n c)))) n /
        rnd (n - 1 : ℝ)))) := by
  unfold stdRnd
  rw [if_neg (by simp; omega)]
  simp only
  generalize meanRnd rnd (List.replicate n c) = mu
  have : ∀ k : Nat, (List.replicate k c).foldl (fun s x => rnd (s + rnd (rnd (x - mu) * rnd (x - mu)))) 0 =
      sumOf rnd (rnd (rnd (c - mu) * rnd (c - mu))) k := by
    intro k
    induction k with
    | zero => rfl
    | succ k ih => rw [List.replicate_succ', List.foldl_append, ih]; rfl
  rw [this, List.length_replicate]

/-- If the multiples of `c` are numbers of the format, the sum is exact. -/
theorem sumOf_exact {rnd : ℝ → ℝ} {c : ℝ} {n : Nat} (h : ∀ k : Nat, k ≤ n → rnd (k * c) = k * c) :
    sumOf rnd c n = n * c := by
  induction n with
  | zero => simp [sumOf]
  | succ n ih =>
    rw [sumOf, ih (fun k hk => h k (by omega))]
    have := h (n + 1) (Nat.le_refl _)
    push_cast at this ⊢
    rw [show (n : ℝ) * c + c = (n + 1) * c by ring, this]

theorem std_of_mean {c : ℝ} {n : Nat} (hn : 2 ≤ n) (hm : meanRnd rnd64 (List.replicate n c) = c) :
    stdRnd rnd64 (List.replicate n c) = 0 := by
  rw [stdRnd_replicate rnd64 c n hn, hm]
  have h0 : sumOf rnd64 (rnd64 (rnd64 (c - c) * rnd64 (c - c))) n = 0 := by
    rw [sub_self, rnd64_zero, mul_zero, rnd64_zero, sumOf_exact (by simp [rnd64_zero]), mul_zero]
  rw [h0, zero_div, rnd64_zero, Real.sqrt_zero, rnd64_zero]

/-- The rounding error of a sum of equal numbers. -/
theorem sumOf_err (c : ℝ) (n : Nat) (hn : n ≤ 2 ^ 50) :
    |sumOf rnd64 c n - n * c| ≤ 2 * n * n * (|c| / 2 ^ 53) + 2 * n * 2 ^ (-1075 : Int) := by
  induction n with
  | zero => simp [sumOf]
  | succ n ih =>
    have ih := ih (by omega)
    have hη := two_zpow_pos (-1075)
    set η : ℝ := 2 ^ (-1075 : Int)
    have h1 := rnd64_rel (sumOf rnd64 c n + c)
    rw [sumOf]
    set s := sumOf rnd64 c n
    have hc := abs_nonneg c
    have hnn : (0 : ℝ) ≤ n := Nat.cast_nonneg _
    have hn' : (n : ℝ) + 1 ≤ 2 ^ 50 := by exact_mod_cast hn
    have h2 : |s + c| ≤ |s - n * c| + (n + 1) * |c| := by
      calc |s + c| = |(s - n * c) + (n + 1) * c| := by ring_nf
        _ ≤ |s - n * c| + |(n + 1) * c| := abs_add_le _ _
        _ = _ := by rw [abs_mul, abs_of_nonneg (by linarith : (0 : ℝ) ≤ n + 1)]
    have h3 : |rnd64 (s + c) - (n + 1) * c| ≤ |rnd64 (s + c) - (s + c)| + |s - n * c| := by
      calc |rnd64 (s + c) - (n + 1) * c| = |(rnd64 (s + c) - (s + c)) + (s - n * c)| := by ring_nf
        _ ≤ _ := abs_add_le _ _
    push_cast
    set a := |s - n * c|
    set C := |c|
    have h4 : |rnd64 (s + c) - (n + 1) * c| ≤ a + (a + (n + 1) * C) / 2 ^ 53 + η := by
      have : |s + c| / 2 ^ 53 ≤ (a + (n + 1) * C) / 2 ^ 53 := div_le_div_of_nonneg_right h2 (by positivity)
      linarith
    refine h4.trans ?_
    have e1 : a / 2 ^ 53 ≤ (n : ℝ) * C / 2 ^ 53 + η := by
      have hk : (2 * n) / 2 ^ 53 ≤ (1 : ℝ) := by
        rw [div_le_one (by positivity)]
        linarith [show (2 : ℝ) * 2 ^ 50 ≤ 2 ^ 53 by norm_num]
      have : a / 2 ^ 53 ≤ (2 * n) / 2 ^ 53 * (n * C / 2 ^ 53) + (2 * n) / 2 ^ 53 * η := by
        calc a / 2 ^ 53 ≤ (2 * n * n * (C / 2 ^ 53) + 2 * n * η) / 2 ^ 53 := div_le_div_of_nonneg_right ih (by positivity)
          _ = _ := by ring
      have h5 : (2 * n) / 2 ^ 53 * (n * C / 2 ^ 53) ≤ 1 * (n * C / 2 ^ 53) :=
        mul_le_mul_of_nonneg_right hk (by positivity)
      have h6 : (2 * n) / 2 ^ 53 * η ≤ 1 * η := mul_le_mul_of_nonneg_right hk hη.le
      linarith
    have e2 : (a + (n + 1) * C) / 2 ^ 53 = a / 2 ^ 53 + (n + 1) * (C / 2 ^ 53) := by ring
    rw [e2]
    have e3 : (n : ℝ) * C / 2 ^ 53 = n * (C / 2 ^ 53) := by ring
    rw [e3] at e1
    have hC : 0 ≤ C / 2 ^ 53 := by positivity
    nlinarith

/-- The rounding error of the mean of equal numbers. -/
theorem meanRnd_err (c : ℝ) (n : Nat) (h0 : 0 < n) (hn : n ≤ 2 ^ 50) :
    |meanRnd rnd64 (List.replicate n c) - c| ≤ (2 * n + 2) * (|c| / 2 ^ 53) + 4 * 2 ^ (-1075 : Int) := by
  have hs := sumOf_err c n hn
  rw [meanRnd_replicate, rnd64_nat (hn.trans (by norm_num))]
  have h1 := rnd64_rel (sumOf rnd64 c n / n)
  have hη := two_zpow_pos (-1075)
  set η : ℝ := 2 ^ (-1075 : Int)
  set s := sumOf rnd64 c n
  have hnn : (0 : ℝ) < n := by exact_mod_cast h0
  have hn' : (n : ℝ) ≤ 2 ^ 50 := by exact_mod_cast hn
  have hc := abs_nonneg c
  have h2 : |s / n - c| ≤ 2 * n * (|c| / 2 ^ 53) + 2 * η := by
    have : s / n - c = (s - n * c) / n := by field_simp
    rw [this, abs_div, abs_of_pos hnn, div_le_iff₀ hnn]
    linarith
  have h3 : |s / n| ≤ |s / n - c| + |c| := by
    calc |s / n| = |(s / n - c) + c| := by ring_nf
      _ ≤ _ := abs_add_le _ _
  have h4 : |rnd64 (s / n) - c| ≤ |rnd64 (s / n) - s / n| + |s / n - c| := by
    calc |rnd64 (s / n) - c| = |(rnd64 (s / n) - s / n) + (s / n - c)| := by ring_nf
      _ ≤ _ := abs_add_le _ _
  have h5 : |s / n| / 2 ^ 53 ≤ (2 * n * (|c| / 2 ^ 53) + 2 * η + |c|) / 2 ^ 53 :=
    div_le_div_of_nonneg_right (by linarith) (by positivity)
  have h6 : (2 * n * (|c| / 2 ^ 53) + 2 * η + |c|) / 2 ^ 53 ≤ 2 * (|c| / 2 ^ 53) + η := by
    rw [div_le_iff₀ (by positivity)]
    have e : (2 * (|c| / 2 ^ 53) + η) * 2 ^ 53 = 2 * |c| + 2 ^ 53 * η := by ring
    rw [e]
    have : 2 * n * (|c| / 2 ^ 53) ≤ |c| := by
      rw [mul_div_assoc', div_le_iff₀ (by positivity)]
      nlinarith [show (2 : ℝ) * 2 ^ 50 ≤ 2 ^ 53 by norm_num]
    have h7 : 2 * η ≤ 2 ^ 53 * η := mul_le_mul_of_nonneg_right (by norm_num) hη.le
    linarith
  linarith

end GoSelect
