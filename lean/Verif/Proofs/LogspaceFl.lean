import Verif.Model.LogspaceFl
import Verif.Proofs.WeightsFl
import Mathlib.Analysis.SpecialFunctions.Log.Basic
import Mathlib.Analysis.SpecialFunctions.Exponential

/-!
Errors of `Logspace` in floating point.
-/

namespace GoSelect

open Spec Real

/-- Rounding has relative error `u` plus `t` for underflow and is exact on integers up to `2 ^ 53`; the logarithm has relative error
`e` (error `e` near 1), the exponential function relative error `e` between -700 and 700. -/
structure Spec.LogspaceAccurate (rnd logf expf : ℝ → ℝ) (u e t : ℝ) : Prop where
  rel : ∀ x, |rnd x - x| ≤ u * |x| + t
  exact : ∀ n : Nat, n ≤ 2 ^ 53 → rnd n = n
  log : ∀ x, 0 < x → |logf x - Real.log x| ≤ e * max 1 |Real.log x|
  exp : ∀ x, |x| ≤ 700 → |expf x - Real.exp x| ≤ e * Real.exp x

theorem between_abs {A a b r : ℝ} (ha : |a| ≤ A) (hb : |b| ≤ A) (h0 : 0 ≤ r) (h1 : r ≤ 1) : |a + (b - a) * r| ≤ A := by
  have a1 := abs_le.1 ha
  have a2 := abs_le.1 hb
  have p1 := mul_nonneg h0 (sub_nonneg.2 a2.2)
  have p2 := mul_nonneg (sub_nonneg.2 h1) (sub_nonneg.2 a1.2)
  have p3 := mul_nonneg h0 (by linarith [a2.1] : 0 ≤ b + A)
  have p4 := mul_nonneg (sub_nonneg.2 h1) (by linarith [a1.1] : 0 ≤ a + A)
  rw [abs_le]
  constructor <;> nlinarith

/-- The exponent of grid point `i`. -/
theorem logVal_err {rnd : ℝ → ℝ} {u e t A lm lM lm' lM' : ℝ} {n i : ℝ} (hrel : ∀ x, |rnd x - x| ≤ u * |x| + t)
    (hu : 0 ≤ u) (he : 0 ≤ e) (ht : 0 ≤ t) (hA : 1 ≤ A) (hn : 2 ≤ n) (hi : 0 ≤ i) (hin : i ≤ n - 1)
    (hsmall : 13 * (A * (u + e + n * t)) ≤ 1) (hm : |lm| ≤ A) (hM : |lM| ≤ A) (hm' : |lm' - lm| ≤ e * A)
    (hM' : |lM' - lM| ≤ e * A) :
    let D := rnd (lM' - lm')
    let step := rnd (D / (n - 1))
    let p := rnd (step * i)
    |D| ≤ 4 * A ∧ |step| ≤ 4 * A ∧ |p| ≤ 5 * A ∧
      |rnd (lm' + p) - (lm + (lM - lm) * (i / (n - 1)))| ≤ 13 * (A * (u + e + n * t)) := by
  intro D step p
  have hA0 : 0 ≤ A := by linarith
  have hn1 : 0 < n - 1 := by linarith
  have huA : 0 ≤ u * A := mul_nonneg hu hA0
  have heA : 0 ≤ e * A := mul_nonneg he hA0
  have hntn : 0 ≤ n * t := mul_nonneg (by linarith) ht
  have hT : n * t ≤ A * (n * t) := by nlinarith
  have hT0 : 0 ≤ A * (n * t) := by positivity
  have ht1 : t ≤ n * t := by nlinarith
  have hs : 13 * (u * A) + 13 * (e * A) + 13 * (A * (n * t)) ≤ 1 := by linarith
  have hm2 := abs_le.1 hm
  have hM2 := abs_le.1 hM
  have hm'2 := abs_le.1 hm'
  have hM'2 := abs_le.1 hM'
  -- the difference
  have a1 : |lM' - lm'| ≤ 3 * A := by rw [abs_le]; constructor <;> linarith
  have d1 : |D - (lM' - lm')| ≤ u * (3 * A) + t := (hrel _).trans (by gcongr)
  have d1' := abs_le.1 d1
  have d2 : |D - (lM - lm)| ≤ 3 * (u * A) + 2 * (e * A) + A * (n * t) := by rw [abs_le]; constructor <;> linarith
  have d3 : |D| ≤ 4 * A := by
    have := abs_le.1 a1
    rw [abs_le]; constructor <;> linarith
  -- the step
  have s1 : |step - D / (n - 1)| ≤ u * |D / (n - 1)| + t := hrel _
  have q : |D / (n - 1)| ≤ |D| := by
    rw [abs_div, abs_of_pos hn1, div_le_iff₀ hn1]
    nlinarith [abs_nonneg D]
  have s2 : |step| ≤ 4 * A := by
    have h1 := abs_le.1 s1
    have h2 : u * |D / (n - 1)| ≤ u * (4 * A) := mul_le_mul_of_nonneg_left (q.trans d3) hu
    have h3 : |D| ≤ 3 * A + u * (3 * A) + t := by
      have := abs_le.1 a1
      rw [abs_le]; constructor <;> linarith
    have h4 := abs_le.1 (q.trans h3)
    rw [abs_le]
    constructor <;> linarith
  -- the product
  have hr0 : 0 ≤ i / (n - 1) := by positivity
  have hr1 : i / (n - 1) ≤ 1 := by rw [div_le_one hn1]; exact hin
  have hsi : |step * i - D * (i / (n - 1))| ≤ u * |D| + n * t := by
    have e1 : step * i - D * (i / (n - 1)) = (step - D / (n - 1)) * i := by field_simp
    rw [e1, abs_mul, abs_of_nonneg hi]
    have e2 : u * |D / (n - 1)| * i = u * (|D| * (i / (n - 1))) := by
      rw [abs_div, abs_of_pos hn1]
      field_simp
    calc |step - D / (n - 1)| * i ≤ (u * |D / (n - 1)| + t) * i := mul_le_mul_of_nonneg_right s1 hi
      _ = u * (|D| * (i / (n - 1))) + t * i := by rw [add_mul, e2]
      _ ≤ u * (|D| * 1) + t * n := by
        have hin' : i ≤ n := by linarith
        gcongr
      _ = _ := by ring
  have hsi2 : |step * i - D * (i / (n - 1))| ≤ 4 * (u * A) + A * (n * t) := by
    refine hsi.trans ?_
    have : u * |D| ≤ u * (4 * A) := mul_le_mul_of_nonneg_left d3 hu
    linarith
  have hD3 : |D| ≤ 3 * A + u * (3 * A) + t := by
    have := abs_le.1 a1
    rw [abs_le]; constructor <;> linarith
  have hDr : |D * (i / (n - 1))| ≤ 3 * A + u * (3 * A) + t := by
    rw [abs_mul, abs_of_nonneg hr0]
    calc |D| * (i / (n - 1)) ≤ |D| * 1 := mul_le_mul_of_nonneg_left hr1 (abs_nonneg _)
      _ ≤ _ := by linarith
  have hsi3 : |step * i| ≤ 4 * A := by
    have h1 := abs_le.1 hsi2
    have h2 := abs_le.1 hDr
    rw [abs_le]; constructor <;> linarith
  have p1 : |p - step * i| ≤ u * (4 * A) + t := (hrel _).trans (by gcongr)
  have p1' := abs_le.1 p1
  have p2 : |p| ≤ 5 * A := by
    have h1 := abs_le.1 hsi3
    rw [abs_le]; constructor <;> linarith
  have hDD : |D * (i / (n - 1)) - (lM - lm) * (i / (n - 1))| ≤ 3 * (u * A) + 2 * (e * A) + A * (n * t) := by
    rw [← sub_mul, abs_mul, abs_of_nonneg hr0]
    calc |D - (lM - lm)| * (i / (n - 1)) ≤ |D - (lM - lm)| * 1 := mul_le_mul_of_nonneg_left hr1 (abs_nonneg _)
      _ ≤ _ := by linarith
  have h1 := abs_le.1 hDD
  have h2 := abs_le.1 hsi2
  have htrue : |lm + (lM - lm) * (i / (n - 1))| ≤ A := between_abs hm hM hr0 hr1
  have htr := abs_le.1 htrue
  have hsum : |lm' + p - (lm + (lM - lm) * (i / (n - 1)))| ≤ 11 * (u * A) + 3 * (e * A) + 3 * (A * (n * t)) := by
    rw [abs_le]; constructor <;> linarith
  have hsum' := abs_le.1 hsum
  have hsabs : |lm' + p| ≤ 2 * A := by rw [abs_le]; constructor <;> linarith
  have hfin : |rnd (lm' + p) - (lm' + p)| ≤ u * (2 * A) + t := (hrel _).trans (by gcongr)
  have hfin' := abs_le.1 hfin
  refine ⟨d3, s2, p2, ?_⟩
  rw [abs_le]
  constructor <;> linarith

theorem exp700 : Real.exp 700 ≤ 2 ^ 1020 := by
  have h1 : (0.6931471803 : ℝ) < Real.log 2 := Real.log_two_gt_d9
  have h2 : Real.exp 700 ≤ Real.exp (1020 * Real.log 2) := Real.exp_le_exp.2 (by linarith)
  refine h2.trans (le_of_eq ?_)
  rw [mul_comm, Real.exp_mul, Real.exp_log (by norm_num)]
  have : ((1020 : ℕ) : ℝ) = 1020 := by norm_num
  rw [← this, Real.rpow_natCast]

theorem exp_err {expf : ℝ → ℝ} {e L v η : ℝ} (he : 0 ≤ e) (hexp : |expf v - Real.exp v| ≤ e * Real.exp v) (hv : |v - L| ≤ η)
    (hη : η ≤ 1) : |expf v - Real.exp L| ≤ (2 * η + 3 * e) * Real.exp L := by
  have h1 : |Real.exp (v - L) - 1| ≤ 2 * |v - L| := Real.abs_exp_sub_one_le (hv.trans hη)
  have h2 : |Real.exp (v - L) - 1| ≤ 2 * η := h1.trans (by linarith)
  have h2' := abs_le.1 h2
  have e1 : Real.exp v = Real.exp L * Real.exp (v - L) := by rw [← Real.exp_add]; congr 1; ring
  have hL := Real.exp_pos L
  have h3 := abs_le.1 hexp
  rw [e1] at h3
  generalize Real.exp (v - L) = r at *
  generalize Real.exp L = E at *
  have hr3 : r ≤ 3 := by linarith
  have h4 : e * (E * r) ≤ e * (E * 3) := by gcongr
  have h5 : E * (r - 1) ≤ E * (2 * η) := by gcongr; linarith
  have h6 : E * (-(2 * η)) ≤ E * (r - 1) := by gcongr; linarith
  rw [abs_le]
  constructor <;> nlinarith

/-- A quotient of numbers. -/
theorem div_fin {a b : ℝ} (hb : b ≠ 0) : Fl.div (.fin a) (.fin b) = .fin (a / b) := by
  simp only [Fl.div, Fl.divFin]
  rw [if_neg hb]

theorem small_lt {x c : ℝ} (h : |x| ≤ c) (hc : c ≤ 4096) : |x| < 2 ^ 1024 := by
  refine lt_of_le_of_lt (h.trans hc) ?_
  calc (4096 : ℝ) = 2 ^ 12 := by norm_num
    _ < 2 ^ 1024 := pow_lt_pow_right₀ (by norm_num) (by norm_num)

/-- What `Logspace` returns. -/
theorem logspace_fl {rnd logf expf : ℝ → ℝ} {u e t A min max : ℝ} (h : LogspaceAccurate rnd logf expf u e t) (hu : 0 ≤ u)
    (he : 0 ≤ e) (ht : 0 ≤ t) (hA : 1 ≤ A) (hA' : A ≤ 699) (hmin : 0 < min) (hmax : 0 < max) (hlm : |Real.log min| ≤ A)
    (hlM : |Real.log max| ≤ A) (num : Nat) (hn : 2 ≤ num) (hn' : num ≤ 2 ^ 53)
    (hsmall : 13 * (A * (u + e + num * t)) ≤ 1) :
    ∃ v : Nat → ℝ, logspaceFl rnd logf expf (.fin min) (.fin max) num = some ((List.range num).map (fun i => .fin (v i))) ∧
      (∀ i, v i = expf (rnd (logf min + rnd (rnd (rnd (logf max - logf min) / (num - 1)) * i)))) ∧
      ∀ i < num, |v i - Real.exp (Real.log min + (Real.log max - Real.log min) * (i / ((num : ℝ) - 1)))| ≤
        30 * (A * (u + e + num * t)) *
          Real.exp (Real.log min + (Real.log max - Real.log min) * (i / ((num : ℝ) - 1))) := by
  have hn2 : (2 : ℝ) ≤ num := by exact_mod_cast hn
  have hm' : |logf min - Real.log min| ≤ e * A :=
    (h.log min hmin).trans (mul_le_mul_of_nonneg_left (max_le hA hlm) he)
  have hM' : |logf max - Real.log max| ≤ e * A :=
    (h.log max hmax).trans (mul_le_mul_of_nonneg_left (max_le hA hlM) he)
  have hpt : ∀ i : Nat, i < num → _ := fun i hi => logVal_err (n := (num : ℝ)) (i := (i : ℝ)) h.rel hu he ht hA hn2
    (Nat.cast_nonneg _) (by
      have : (i : ℝ) + 1 ≤ num := by exact_mod_cast hi
      linarith) hsmall hlm hlM hm' hM'
  have hri : ∀ i : Nat, i < num → rnd (i : ℝ) = i := fun i hi => h.exact i (by omega)
  have hrn : rnd (((num : Int) - 1 : Int) : ℝ) = (num : ℝ) - 1 := by
    have h1 := h.exact (num - 1) (by omega)
    have h2 : (((num : Int) - 1 : Int) : ℝ) = ((num - 1 : Nat) : ℝ) := by
      rw [Nat.cast_sub (by omega)]; push_cast; ring
    rw [h2, h1, Nat.cast_sub (by omega)]
    push_cast
    ring
  have hAe : 0 ≤ A * (u + e + num * t) := by positivity
  have hA1 : e ≤ A * (u + e + num * t) := by
    have : u + e + num * t ≤ A * (u + e + num * t) := by
      have : 0 ≤ u + e + num * t := by positivity
      nlinarith
    have : 0 ≤ num * t := by positivity
    linarith
  have herr : ∀ i < num, |expf (rnd (logf min + rnd (rnd (rnd (logf max - logf min) / (num - 1)) * i))) -
      Real.exp (Real.log min + (Real.log max - Real.log min) * (i / ((num : ℝ) - 1)))| ≤
      30 * (A * (u + e + num * t)) *
          Real.exp (Real.log min + (Real.log max - Real.log min) * (i / ((num : ℝ) - 1))) ∧
      |expf (rnd (logf min + rnd (rnd (rnd (logf max - logf min) / (num - 1)) * i)))| < 2 ^ 1024 ∧
      |rnd (logf min + rnd (rnd (rnd (logf max - logf min) / (num - 1)) * i))| ≤ 700 := by
    intro i hi
    obtain ⟨-, -, -, h4⟩ := hpt i hi
    have htrue : |Real.log min + (Real.log max - Real.log min) * (i / ((num : ℝ) - 1))| ≤ A := by
      have hn1 : 0 < (num : ℝ) - 1 := by linarith
      have hr0 : 0 ≤ (i : ℝ) / ((num : ℝ) - 1) := by positivity
      have hr1 : (i : ℝ) / ((num : ℝ) - 1) ≤ 1 := by
        rw [div_le_one hn1]
        have : (i : ℝ) + 1 ≤ num := by exact_mod_cast hi
        linarith
      exact between_abs hlm hlM hr0 hr1
    generalize Real.log min + (Real.log max - Real.log min) * (i / ((num : ℝ) - 1)) = L at *
    generalize rnd (logf min + rnd (rnd (rnd (logf max - logf min) / (num - 1)) * i)) = v at *
    have b1 := abs_le.1 htrue
    have b2 := abs_le.1 h4
    have hv700 : |v| ≤ 700 := by rw [abs_le]; constructor <;> linarith
    have h5 := exp_err he (h.exp v hv700) h4 hsmall
    refine ⟨h5.trans (mul_le_mul_of_nonneg_right (by linarith) (Real.exp_pos _).le), ?_, hv700⟩
    have h6 := abs_le.1 (h.exp v hv700)
    have h7 : Real.exp v ≤ 2 ^ 1020 := (Real.exp_le_exp.2 (abs_le.1 hv700).2).trans exp700
    have h8 := Real.exp_pos v
    have h9 : e ≤ 1 := by linarith
    have h10 : e * Real.exp v ≤ 1 * Real.exp v := mul_le_mul_of_nonneg_right h9 h8.le
    have hbig : (2 : ℝ) ^ 1024 = 16 * 2 ^ 1020 := by
      rw [show (1024 : Nat) = 1020 + 4 by norm_num, pow_add]
      generalize (2 : ℝ) ^ 1020 = Q
      norm_num
      ring
    have hbig1 : (0 : ℝ) < 2 ^ 1020 := by positivity
    rw [hbig, abs_lt]
    clear hbig
    generalize (2 : ℝ) ^ 1020 = Q at *
    constructor <;> linarith
  refine ⟨fun i => expf (rnd (logf min + rnd (rnd (rnd (logf max - logf min) / (num - 1)) * i))), ?_, fun _ => rfl,
    fun i hi => (herr i hi).1⟩
  unfold logspaceFl
  rw [if_neg (by omega), if_neg (by omega), if_neg (by omega)]
  simp only [Option.some.injEq, Int.toNat_natCast]
  refine List.map_congr_left fun i hi => ?_
  have hi' : i < num := List.mem_range.1 hi
  obtain ⟨h1, h2, h3, h4⟩ := hpt i hi'
  obtain ⟨-, h5, h6⟩ := herr i hi'
  have hlog : ∀ x : ℝ, 0 < x → logFl logf (.fin x) = .fin (logf x) := by
    intro x hx
    simp only [logFl]
    rw [if_neg (by linarith), if_neg (by linarith)]
  rw [hlog max hmax, hlog min hmin, hrn, hri i hi']
  have e1 : roundFl rnd (Fl.sub (.fin (logf max)) (.fin (logf min))) = .fin (rnd (logf max - logf min)) := by
    simp only [Fl.sub, Fl.neg, Fl.add, roundFl, ← sub_eq_add_neg]
    exact ovf_fin (small_lt h1 (by linarith))
  rw [e1, div_fin (by linarith)]
  have e2 : roundFl rnd (.fin (rnd (logf max - logf min) / (num - 1))) =
      .fin (rnd (rnd (logf max - logf min) / (num - 1))) := ovf_fin (small_lt h2 (by linarith))
  rw [e2]
  simp only [Fl.mul]
  have e3 : roundFl rnd (.fin (rnd (rnd (logf max - logf min) / (num - 1)) * i)) =
      .fin (rnd (rnd (rnd (logf max - logf min) / (num - 1)) * i)) := ovf_fin (small_lt h3 (by linarith))
  rw [e3]
  simp only [Fl.add]
  have e4 : roundFl rnd (.fin (logf min + rnd (rnd (rnd (logf max - logf min) / (num - 1)) * i))) =
      .fin (rnd (logf min + rnd (rnd (rnd (logf max - logf min) / (num - 1)) * i))) :=
    ovf_fin (small_lt h6 (by norm_num))
  rw [e4]
  exact ovf_fin h5

end GoSelect
