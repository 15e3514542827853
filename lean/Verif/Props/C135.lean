import Verif.Proofs.NormRounded

/-!
C135: constant columns in floating point arithmetic.  `NewNormalizedData` reports a constant column (other than the
first) and takes a constant first column as the constant term, if the computed standard deviation is below 1e-10.  In
floating point arithmetic the computed mean of equal numbers can differ from them, so that large numbers escape.
-/

namespace GoSelect

open Spec

/-! ### What is recognised -/

/-- Without rounding the rounded model is the exact one. -/
theorem C135_no_rounding (X : Mat ℝ) (y : List ℝ) :
    newNormalizedDataRnd id X y = newNormalizedData X y := by
  have hm : ∀ v, meanRnd id v = goMean v := fun v => rfl
  have hs : ∀ v, stdRnd id v = goStd v := fun v => rfl
  have hy : ∀ v, normalizeArrayRnd id v = normalizeArray v := by
    intro v
    unfold normalizeArrayRnd normalizeArray
    simp only [hm, hs, id]
    refine List.map_congr_left (fun x _ => ?_)
    unfold Fl.divFin
    split <;> rfl
  have hc : normColumnRnd id = normColumn := rfl
  unfold newNormalizedDataRnd newNormalizedData
  rw [hc, hy]
  rfl

/-- Exactly when `NewNormalizedData` reports a constant column. -/
theorem C135_panic (rnd : ℝ → ℝ) (X : Mat ℝ) (y : List ℝ) : newNormalizedDataRnd rnd X y = none ↔
    ∃ c < X.nc, c ≠ 0 ∧ stdRnd rnd (colOf X c) < rnd (1 / 10 ^ 10) := by
  constructor
  · intro h
    rcases newNormalizedDataRnd_inv rnd X y with ⟨h1, -⟩ | ⟨d, h1, -⟩
    · exact h1
    · rw [h] at h1; simp at h1
  · rintro ⟨c, hc, h0, hs⟩
    rcases newNormalizedDataRnd_inv rnd X y with ⟨-, h1⟩ | ⟨d, -, h2, -⟩
    · exact h1
    · exact absurd (h2.later c hc h0) (not_le.2 hs)

theorem tol_pos : (2 : ℝ) ^ (-34 : Int) < rnd64 (1 / 10 ^ 10) := by
  have h1 : rnd64 (((65 : Int) : ℝ) * 2 ^ (-40 : Int)) = ((65 : Int) : ℝ) * 2 ^ (-40 : Int) :=
    rnd64_rep (by norm_num) (by norm_num)
  have h2 : rnd64 (((65 : Int) : ℝ) * 2 ^ (-40 : Int)) ≤ rnd64 (1 / 10 ^ 10) := rnd64_mono (by norm_num)
  rw [h1] at h2
  refine lt_of_lt_of_le ?_ h2
  norm_num

/-- Mean and standard deviation of equal numbers are exact if they have few digits: `c = m * 2 ^ q` and `n * |m|` is at
most `2 ^ 53`.  Whole numbers (`q = 0`), for example. -/
theorem C135_exact (m q : Int) (n : Nat) (hn : 2 ≤ n) (hn' : n ≤ 2 ^ 53) (hm : n * |m| ≤ 2 ^ 53) (hq : -1074 ≤ q) :
    meanRnd rnd64 (List.replicate n ((m : ℝ) * 2 ^ q)) = m * 2 ^ q ∧
      stdRnd rnd64 (List.replicate n ((m : ℝ) * 2 ^ q)) = 0 := by
  have key : ∀ k : Nat, k ≤ n → rnd64 (k * (m * 2 ^ q)) = k * (m * 2 ^ q) := by
    intro k hk
    have h1 := rnd64_rep (m := k * m) (q := q) (by
      rw [abs_mul, abs_of_nonneg (by omega : (0 : Int) ≤ k)]
      have : (k : Int) * |m| ≤ n * |m| := mul_le_mul_of_nonneg_right (by exact_mod_cast hk) (abs_nonneg m)
      omega) hq
    push_cast at h1
    rw [← mul_assoc]
    exact h1
  have hmean : meanRnd rnd64 (List.replicate n ((m : ℝ) * 2 ^ q)) = m * 2 ^ q := by
    rw [meanRnd_replicate, sumOf_exact key, rnd64_nat hn']
    have hz : (n : ℝ) ≠ 0 := by
      have : 0 < n := by omega
      positivity
    rw [mul_div_cancel_left₀ _ hz]
    have := key 1 (by omega)
    simpa using this
  exact ⟨hmean, std_of_mean hn hmean⟩

/-- The computed standard deviation of equal numbers is below 1e-10 if they are not large: at most `2 ^ 16 / (n + 1)`
for `n` rows. -/
theorem C135_small (c : ℝ) (n : Nat) (hn : 2 ≤ n) (hc : (n + 1) * |c| ≤ 2 ^ 16) (hn' : n ≤ 2 ^ 50) :
    stdRnd rnd64 (List.replicate n c) < rnd64 (1 / 10 ^ 10) := by
  refine lt_of_le_of_lt ?_ tol_pos
  have herr := meanRnd_err c n (by omega) hn'
  set mu := meanRnd rnd64 (List.replicate n c) with hmu
  have hnn : (2 : ℝ) ≤ n := by exact_mod_cast hn
  have hd : |c - mu| ≤ 2 ^ (-35 : Int) := by
    rw [abs_sub_comm]
    refine herr.trans ?_
    have h1 : (2 * n + 2) * (|c| / 2 ^ 53) ≤ 2 ^ (-36 : Int) := by
      have : (2 * n + 2) * (|c| / 2 ^ 53) = ((n + 1) * |c|) / 2 ^ 52 := by ring
      rw [this, div_le_iff₀ (by positivity)]
      refine hc.trans ?_
      norm_num
    have h2 : 4 * (2 : ℝ) ^ (-1075 : Int) ≤ 2 ^ (-36 : Int) := by
      have : 4 * (2 : ℝ) ^ (-1075 : Int) = 2 ^ (-1073 : Int) := by
        rw [show (-1073 : Int) = 2 + -1075 by norm_num, zpow_add₀ (by norm_num)]
        norm_num
      rw [this]
      exact zpow_le_zpow_right₀ (by norm_num) (by norm_num)
    have h3 : (2 : ℝ) ^ (-35 : Int) = 2 ^ (-36 : Int) + 2 ^ (-36 : Int) := by norm_num
    rw [h3]
    exact add_le_add h1 h2
  have hd' : |rnd64 (c - mu)| ≤ 2 ^ (-35 : Int) := by
    rw [abs_le] at hd ⊢
    have e := rnd64_two_zpow (q := -35) (by norm_num)
    constructor
    · have := rnd64_mono hd.1
      rw [rnd64_neg, e] at this
      exact this
    · have := rnd64_mono hd.2
      rw [e] at this
      exact this
  have hsq : rnd64 (rnd64 (c - mu) * rnd64 (c - mu)) ≤ 2 ^ (-70 : Int) := by
    rw [← rnd64_two_zpow (q := -70) (by norm_num)]
    refine rnd64_mono ?_
    rw [← abs_mul_abs_self, show (2 : ℝ) ^ (-70 : Int) = 2 ^ (-35 : Int) * 2 ^ (-35 : Int) by norm_num]
    exact mul_le_mul hd' hd' (abs_nonneg _) (by positivity)
  rw [stdRnd_replicate rnd64 c n hn, ← hmu]
  set t := rnd64 (rnd64 (c - mu) * rnd64 (c - mu))
  have hsum : ∀ k : Nat, k ≤ n → sumOf rnd64 t k ≤ k * 2 ^ (-70 : Int) := by
    intro k
    induction k with
    | zero => intro _; simp [sumOf]
    | succ k ih =>
      intro hk
      have h1 := ih (by omega)
      rw [sumOf]
      have h2 := rnd64_rep (m := (k + 1 : Nat)) (q := -70) (by
        rw [abs_of_nonneg (by omega)]
        have : k + 1 ≤ 2 ^ 53 := by omega
        exact_mod_cast this) (by norm_num)
      have h3 : (((k + 1 : Nat) : Int) : ℝ) = ((k + 1 : Nat) : ℝ) := by norm_cast
      rw [h3] at h2
      rw [← h2]
      refine rnd64_mono ?_
      push_cast
      linarith
  have hn1 : rnd64 ((n : ℝ) - 1) = (n : ℝ) - 1 := by
    have := rnd64_nat (n := n - 1) (by omega)
    rw [Nat.cast_sub (by omega)] at this
    simpa using this
  have hq : rnd64 (sumOf rnd64 t n / rnd64 ((n : ℝ) - 1)) ≤ 2 ^ (-69 : Int) := by
    rw [← rnd64_two_zpow (q := -69) (by norm_num), hn1]
    refine rnd64_mono ?_
    rw [div_le_iff₀ (by linarith)]
    refine (hsum n (le_refl _)).trans ?_
    rw [show (2 : ℝ) ^ (-69 : Int) = 2 * 2 ^ (-70 : Int) by norm_num]
    have := two_zpow_pos (-70)
    nlinarith
  rw [← rnd64_two_zpow (q := -34) (by norm_num)]
  refine rnd64_mono ?_
  refine Real.sqrt_le_iff.2 ⟨(two_zpow_pos _).le, hq.trans ?_⟩
  norm_num

/-- A data set with a recognised constant column besides the first is refused. -/
theorem C135_refused_partial (X : Mat ℝ) (y : List ℝ) (col : Nat) (hcol : col < X.nc) (h0 : col ≠ 0) (c : ℝ)
    (hc : colOf X col = List.replicate X.nr c) (hn : 2 ≤ X.nr) (hn' : X.nr ≤ 2 ^ 50)
    (hsmall : (X.nr + 1) * |c| ≤ 2 ^ 16 ∨ ∃ m q : Int, c = m * 2 ^ q ∧ -1074 ≤ q ∧ X.nr * |m| ≤ 2 ^ 53) :
    newNormalizedDataRnd rnd64 X y = none := by
  refine (C135_panic rnd64 X y).2 ⟨col, hcol, h0, ?_⟩
  rw [hc]
  rcases hsmall with h | ⟨m, q, rfl, hq, hm⟩
  · exact C135_small c X.nr hn h hn'
  · rw [(C135_exact m q X.nr hn (hn'.trans (by norm_num)) hm hq).2]
    exact lt_trans (two_zpow_pos (-34)) tol_pos

/-- A first column of ones is the constant term, whatever the number of rows, and becomes a column of zeros. -/
theorem C135_ones (X : Mat ℝ) (y : List ℝ) (hnc : 0 < X.nc) (hc : colOf X 0 = List.replicate X.nr 1) (hn : 2 ≤ X.nr)
    (hn' : X.nr ≤ 2 ^ 53) (d : NormalizedData) (h : newNormalizedDataRnd rnd64 X y = some d) :
    d.hasBias = true ∧ ∀ r < X.nr, d.X.get r 0 = 0 := by
  rcases newNormalizedDataRnd_inv rnd64 X y with ⟨-, h1⟩ | ⟨d', h1, h2, -⟩
  · rw [h] at h1; simp at h1
  rw [h, Option.some.injEq] at h1
  subst h1
  obtain ⟨e1, e2⟩ := C135_exact 1 0 X.nr hn hn' (by simpa using hn') (by norm_num)
  simp only [Int.cast_one, zpow_zero, mul_one] at e1 e2
  have hs : stdRnd rnd64 (colOf X 0) < rnd64 (1 / 10 ^ 10) := by
    rw [hc, e2]
    exact lt_trans (two_zpow_pos (-34)) tol_pos
  refine ⟨h2.bias.2 ⟨hnc, hs⟩, fun r hr => ?_⟩
  rw [h2.done r 0 hnc hr, if_pos hs, hc, e1]
  have : X.get r 0 = 1 := by
    have hm : X.get r 0 ∈ colOf X 0 := List.mem_map.2 ⟨r, List.mem_range.2 hr, rfl⟩
    rw [hc] at hm
    exact List.eq_of_mem_replicate hm
  rw [this]
  simp [rnd64_zero]

/-- A constant column that is not refused becomes a column of equal numbers: its mean is not 0, or its variance not 1. -/
theorem C135_accepted (rnd : ℝ → ℝ) (X : Mat ℝ) (y : List ℝ) (col : Nat) (hcol : col < X.nc)
    (hc : Constant (colOf X col)) (d : NormalizedData) (h : newNormalizedDataRnd rnd X y = some d) :
    Constant (colOf d.X col) := by
  rcases newNormalizedDataRnd_inv rnd X y with ⟨-, h1⟩ | ⟨d', h1, h2, -⟩
  · rw [h] at h1; simp at h1
  rw [h, Option.some.injEq] at h1
  subst h1
  intro a ha b hb
  obtain ⟨r, hr, rfl⟩ := List.mem_map.1 ha
  obtain ⟨r', hr', rfl⟩ := List.mem_map.1 hb
  rw [h2.nr] at hr hr'
  have hr := List.mem_range.1 hr
  have hr' := List.mem_range.1 hr'
  rw [h2.done r col hcol hr, h2.done r' col hcol hr',
    hc (X.get r col) (List.mem_map.2 ⟨r, List.mem_range.2 hr, rfl⟩) (X.get r' col)
      (List.mem_map.2 ⟨r', List.mem_range.2 hr', rfl⟩)]

/-! ### The counterexample: three rows with 1000000.2 -/

/-- The number of the format closest to 1000000.2. -/
noncomputable def big : ℝ := ((8589936309986918 : Int) : ℝ) * 2 ^ (-33 : Int)

/-- This is the number that the text 1000000.2 stands for. -/
theorem big_eq : rnd64 1000000.2 = big :=
  rnd64_of (by norm_num) (by norm_num) (by norm_num) (by norm_num [abs_lt])

theorem big_mean : meanRnd rnd64 [big, big, big] = big - 2 ^ (-33 : Int) := by
  have h1 : rnd64 (0 + big) = big := by rw [zero_add]; exact rnd64_rep (by norm_num) (by norm_num)
  have h2 : rnd64 (big + big) = 2 * big := by
    have := rnd64_rep (m := 8589936309986918) (q := -32) (by norm_num) (by norm_num)
    have e : big + big = ((8589936309986918 : Int) : ℝ) * 2 ^ (-32 : Int) := by unfold big; norm_num
    have e' : 2 * big = ((8589936309986918 : Int) : ℝ) * 2 ^ (-32 : Int) := by unfold big; norm_num
    rw [e, e', this]
  have h3 : rnd64 (2 * big + big) = ((6442452232490188 : Int) : ℝ) * 2 ^ (-31 : Int) := by
    refine rnd64_tie (by norm_num) ?_ ?_ ?_ (by norm_num)
    · unfold big; norm_num
    · unfold big; norm_num
    · unfold big; norm_num
  have h4 : rnd64 (3 : ℝ) = 3 := by exact_mod_cast rnd64_nat (n := 3) (by norm_num)
  have h5 : rnd64 (((6442452232490188 : Int) : ℝ) * 2 ^ (-31 : Int) / 3) =
      ((8589936309986917 : Int) : ℝ) * 2 ^ (-33 : Int) := by
    refine rnd64_of (by norm_num) ?_ ?_ ?_
    · norm_num
    · norm_num
    · norm_num [abs_lt]
  unfold meanRnd
  have hl : (([big, big, big].length : Nat) : ℝ) = 3 := by norm_num
  rw [hl]
  simp only [List.foldl_cons, List.foldl_nil, h1, h2, h3, h4, h5]
  unfold big
  norm_num

theorem big_std : 2 ^ (-33 : Int) ≤ stdRnd rnd64 [big, big, big] ∧ stdRnd rnd64 [big, big, big] ≤ 2 ^ (-32 : Int) := by
  have e := stdRnd_replicate rnd64 big 3 (by norm_num)
  have hl : List.replicate 3 big = [big, big, big] := rfl
  rw [hl, big_mean] at e
  have h1 : rnd64 (big - (big - 2 ^ (-33 : Int))) = 2 ^ (-33 : Int) := by
    rw [sub_sub_cancel]
    exact rnd64_two_zpow (by norm_num)
  have h2 : rnd64 ((2 : ℝ) ^ (-33 : Int) * 2 ^ (-33 : Int)) = 2 ^ (-66 : Int) := by
    rw [← zpow_add₀ (by norm_num)]
    exact rnd64_two_zpow (by norm_num)
  have h3 : sumOf rnd64 ((2 : ℝ) ^ (-66 : Int)) 3 = 3 * 2 ^ (-66 : Int) := by
    rw [sumOf_exact]
    · norm_num
    · intro k hk
      have := rnd64_rep (m := k) (q := -66) (by
        rw [abs_of_nonneg (by omega)]
        exact (show (k : Int) ≤ 3 by exact_mod_cast hk).trans (by norm_num)) (by norm_num)
      simpa using this
  have h4 : rnd64 (((3 : Nat) : ℝ) - 1) = 2 := by
    have := rnd64_nat (n := 2) (by norm_num)
    norm_num at this ⊢
    exact this
  have h5 : rnd64 (3 * 2 ^ (-66 : Int) / 2) = 3 * 2 ^ (-67 : Int) := by
    have := rnd64_rep (m := 3) (q := -67) (by norm_num) (by norm_num)
    rw [show (3 : ℝ) * 2 ^ (-66 : Int) / 2 = ((3 : Int) : ℝ) * 2 ^ (-67 : Int) by norm_num, this]
    norm_num
  rw [h1, h2, h3, h4, h5] at e
  rw [e]
  constructor
  · rw [← rnd64_two_zpow (q := -33) (by norm_num)]
    refine rnd64_mono (Real.le_sqrt_of_sq_le ?_)
    norm_num
  · rw [← rnd64_two_zpow (q := -32) (by norm_num)]
    refine rnd64_mono (Real.sqrt_le_iff.2 ⟨(two_zpow_pos _).le, ?_⟩)
    norm_num

theorem big_tol : rnd64 (1 / 10 ^ 10) ≤ 2 ^ (-33 : Int) := by
  rw [← rnd64_two_zpow (q := -33) (by norm_num)]
  exact rnd64_mono (by norm_num)

/-- Three rows: ones, and a column with 1000000.2. -/
noncomputable def bigData : Mat ℝ := ⟨3, 2, fun _ c => if c = 0 then 1 else big⟩

theorem bigData_col : colOf bigData 1 = [big, big, big] := by
  simp [colOf, bigData, List.range_succ]

/-- The column with three times the number 1000000.2 is not refused.  It becomes a column of equal numbers between 1/2
and 1. -/
theorem C135_refuted (y : List ℝ) : ∃ d, newNormalizedDataRnd rnd64 bigData y = some d ∧
    ∃ z : ℝ, 1 / 2 ≤ z ∧ z ≤ 1 ∧ colOf d.X 1 = [z, z, z] := by
  have hs := big_std
  rcases newNormalizedDataRnd_inv rnd64 bigData y with ⟨⟨c, hc, h0, hlt⟩, -⟩ | ⟨d, h1, h2, -⟩
  · exfalso
    have : c = 1 := by
      have : c < 2 := hc
      omega
    subst this
    rw [bigData_col] at hlt
    exact absurd (hlt.trans_le big_tol) (not_lt.2 hs.1)
  · refine ⟨d, h1, ?_⟩
    have hns : ¬ stdRnd rnd64 [big, big, big] < rnd64 (1 / 10 ^ 10) := not_lt.2 (big_tol.trans hs.1)
    set std := stdRnd rnd64 [big, big, big]
    have hz : ∀ r < 3, d.X.get r 1 = rnd64 (2 ^ (-33 : Int) / std) := by
      intro r hr
      rw [h2.done r 1 (show 1 < 2 by omega) hr, bigData_col, big_mean, if_neg hns]
      have : bigData.get r 1 = big := rfl
      rw [this, sub_sub_cancel, rnd64_two_zpow (by norm_num)]
    have hpos : 0 < std := lt_of_lt_of_le (two_zpow_pos _) hs.1
    refine ⟨rnd64 (2 ^ (-33 : Int) / std), ?_, ?_, ?_⟩
    · have h3 : rnd64 (2 ^ (-1 : Int)) = 2 ^ (-1 : Int) := rnd64_two_zpow (by norm_num)
      have h4 : (1 : ℝ) / 2 = 2 ^ (-1 : Int) := by norm_num
      rw [h4, ← h3]
      refine rnd64_mono ?_
      rw [le_div_iff₀ hpos]
      calc (2 : ℝ) ^ (-1 : Int) * std ≤ 2 ^ (-1 : Int) * 2 ^ (-32 : Int) :=
            mul_le_mul_of_nonneg_left hs.2 (two_zpow_pos _).le
        _ = 2 ^ (-33 : Int) := by norm_num
    · rw [← rnd64_one]
      refine rnd64_mono ?_
      rw [div_le_one hpos]
      exact hs.1
    · have hnr : d.X.nr = 3 := h2.nr
      unfold colOf
      rw [hnr]
      simp only [List.range_succ, List.range_zero, List.nil_append, List.cons_append, List.map_cons, List.map_nil,
        List.cons.injEq, and_true]
      exact ⟨hz 0 (by omega), hz 1 (by omega), hz 2 (by omega)⟩

/-- A constant response: the normalised values are NaN if it is recognised exactly. -/
theorem C135_response (m q : Int) (n : Nat) (hn : 2 ≤ n) (hn' : n ≤ 2 ^ 53) (hm : n * |m| ≤ 2 ^ 53) (hq : -1074 ≤ q) :
    normalizeArrayRnd rnd64 (List.replicate n ((m : ℝ) * 2 ^ q)) = List.replicate n .nan := by
  obtain ⟨h1, h2⟩ := C135_exact m q n hn hn' hm hq
  unfold normalizeArrayRnd
  simp [h1, h2, rnd64_zero, Fl.divFin]

/-- Otherwise they can be equal finite numbers, as if the response varied. -/
theorem C135_response_refuted : ∃ z : ℝ, 1 / 2 ≤ z ∧ z ≤ 1 ∧
    normalizeArrayRnd rnd64 [big, big, big] = [.fin z, .fin z, .fin z] := by
  have hs := big_std
  have hpos : 0 < stdRnd rnd64 [big, big, big] := lt_of_lt_of_le (two_zpow_pos _) hs.1
  set std := stdRnd rnd64 [big, big, big] with hstd
  refine ⟨rnd64 (2 ^ (-33 : Int) / std), ?_, ?_, ?_⟩
  · have h3 : rnd64 (2 ^ (-1 : Int)) = 2 ^ (-1 : Int) := rnd64_two_zpow (by norm_num)
    have h4 : (1 : ℝ) / 2 = 2 ^ (-1 : Int) := by norm_num
    rw [h4, ← h3]
    refine rnd64_mono ?_
    rw [le_div_iff₀ hpos]
    calc (2 : ℝ) ^ (-1 : Int) * std ≤ 2 ^ (-1 : Int) * 2 ^ (-32 : Int) :=
          mul_le_mul_of_nonneg_left hs.2 (two_zpow_pos _).le
      _ = 2 ^ (-33 : Int) := by norm_num
  · rw [← rnd64_one]
    refine rnd64_mono ?_
    rw [div_le_one hpos]
    exact hs.1
  · unfold normalizeArrayRnd
    simp only [← hstd, big_mean, List.map_cons, List.map_nil, sub_sub_cancel]
    rw [if_neg hpos.ne', rnd64_two_zpow (by norm_num)]

/-- The hypotheses of `C135_small`: a hundred rows with 42.1. -/
example : (2 : Nat) ≤ 100 ∧ (((100 : Nat) : ℝ) + 1) * |42.1| ≤ 2 ^ 16 ∧ 100 ≤ 2 ^ 50 := by
  refine ⟨by norm_num, ?_, by norm_num⟩
  rw [abs_of_pos (by norm_num)]
  norm_num

/-- The hypotheses of `C135_exact`: a thousand rows with the year 2019. -/
example : (2 : Nat) ≤ 1000 ∧ 1000 ≤ 2 ^ 53 ∧ ((1000 : Nat) : Int) * |2019| ≤ 2 ^ 53 ∧ (-1074 : Int) ≤ 0 := by
  norm_num

/-- The hypotheses of `C135_refused_partial` and `C135_ones`. -/
example : ∃ X : Mat ℝ, colOf X 0 = List.replicate X.nr 1 ∧ colOf X 1 = List.replicate X.nr 0.1 ∧ 2 ≤ X.nr ∧
    (X.nr + 1) * |(0.1 : ℝ)| ≤ 2 ^ 16 := by
  refine ⟨⟨3, 2, fun _ c => if c = 0 then 1 else 0.1⟩, by simp [colOf, List.range_succ, List.replicate_succ],
    by simp [colOf, List.range_succ, List.replicate_succ], by norm_num, ?_⟩
  rw [abs_of_pos (by norm_num)]
  norm_num

end GoSelect
