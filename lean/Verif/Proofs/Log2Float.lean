import Verif.Model.Log2Float
import Verif.Proofs.RoundedFit
import Mathlib.Analysis.SpecialFunctions.Log.Base
import Mathlib.Analysis.SpecialFunctions.Pow.Real
import Mathlib.Analysis.Complex.ExponentialBounds

/-!
Errors of `NewLog2Pruned` in floating point.
-/

namespace GoSelect

open Spec Real

/-- Rounding with relative error `u` (error `u` for numbers below one), exact on integers up to `2 ^ 53`; powers of two with relative error `e` and an error of `e`
for tiny ones; logarithms with relative error `e` and an error of `e` near zero. -/
structure Spec.Log2Accurate (L : Log2Lib) (u e : ℝ) : Prop where
  rel : ∀ x, |L.rnd x - x| ≤ u * max 1 |x|
  exact : ∀ n : Nat, n ≤ 2 ^ 53 → L.rnd n = n
  pow_nonneg : ∀ d, 0 ≤ L.pow2 d
  pow : ∀ d, |L.pow2 d - (2 : ℝ) ^ d| ≤ e * (1 + (2 : ℝ) ^ d)
  log : ∀ x, 1 / 2 ≤ x → |L.log2f x - logb 2 x| ≤ e * (1 + |logb 2 x|)

/-- `log2 (1 + 2 ^ d)`. -/
noncomputable def softplus2 (d : ℝ) : ℝ := logb 2 (1 + (2 : ℝ) ^ d)

theorem softplus2_nonneg (d : ℝ) : 0 ≤ softplus2 d :=
  logb_nonneg (by norm_num) (by have : (0 : ℝ) < (2 : ℝ) ^ d := by positivity
                                linarith)

theorem softplus2_mono {a b : ℝ} (h : a ≤ b) : softplus2 a ≤ softplus2 b := by
  unfold softplus2
  refine logb_le_logb_of_le (by norm_num) (by positivity) ?_
  have := rpow_le_rpow_of_exponent_le (x := 2) (by norm_num) h
  linarith

theorem softplus2_lip {a b : ℝ} (h : a ≤ b) : softplus2 b ≤ softplus2 a + (b - a) := by
  unfold softplus2
  have e : b - a = logb 2 ((2 : ℝ) ^ (b - a)) := by rw [logb_rpow] <;> norm_num
  rw [e, ← logb_mul (by positivity) (by positivity)]
  refine logb_le_logb_of_le (by norm_num) (by positivity) ?_
  have h1 : (2 : ℝ) ^ b = (2 : ℝ) ^ a * (2 : ℝ) ^ (b - a) := by
    rw [← rpow_add (by norm_num)]; congr 1; ring
  have h2 : (1 : ℝ) ≤ (2 : ℝ) ^ (b - a) := one_le_rpow (by norm_num) (by linarith)
  rw [h1]
  nlinarith [rpow_pos_of_pos (show (0 : ℝ) < 2 by norm_num) a]

theorem softplus2_sub (a b : ℝ) : |softplus2 a - softplus2 b| ≤ |a - b| := by
  rcases le_total a b with h | h
  · have h1 := softplus2_mono h
    have h2 := softplus2_lip h
    rw [abs_of_nonpos (by linarith), abs_of_nonpos (by linarith)]
    linarith
  · have h1 := softplus2_mono h
    have h2 := softplus2_lip h
    rw [abs_of_nonneg (by linarith), abs_of_nonneg (by linarith)]
    linarith

theorem newLog2Pruned_eq (c : ℝ) (n : Int) : newLog2Pruned c n = c + softplus2 (n - c) := rfl

/-- An error in the current value is not amplified. -/
theorem newLog2Pruned_lip (a b : ℝ) (n : Int) : |newLog2Pruned a n - newLog2Pruned b n| ≤ |a - b| := by
  rw [newLog2Pruned_eq, newLog2Pruned_eq]
  rcases le_total a b with h | h
  · have h1 := softplus2_mono (show (n : ℝ) - b ≤ n - a by linarith)
    have h2 := softplus2_lip (show (n : ℝ) - b ≤ n - a by linarith)
    rw [abs_of_nonpos (show a - b ≤ 0 by linarith), abs_le]
    constructor <;> linarith
  · have h1 := softplus2_mono (show (n : ℝ) - a ≤ n - b by linarith)
    have h2 := softplus2_lip (show (n : ℝ) - a ≤ n - b by linarith)
    rw [abs_of_nonneg (show 0 ≤ a - b by linarith), abs_le]
    constructor <;> linarith

/-- A relative error of the argument of the logarithm. -/
theorem logb_rel {x s η : ℝ} (hx : 0 < x) (hη : 0 ≤ η) (hη4 : η ≤ 1 / 4) (h : |s - x| ≤ η * x) :
    |logb 2 s - logb 2 x| ≤ 2 * η := by
  have h1 := abs_le.1 h
  have hs : 0 < s := by nlinarith
  have hl2 : (0.6931471803 : ℝ) < Real.log 2 := Real.log_two_gt_d9
  have hl : 0 < Real.log 2 := by linarith
  have e : logb 2 s - logb 2 x = Real.log (s / x) / Real.log 2 := by
    unfold logb
    rw [Real.log_div hs.ne' hx.ne']
    ring
  have hsx : 0 < s / x := div_pos hs hx
  have hup : s / x ≤ 1 + η := by rw [div_le_iff₀ hx]; linarith
  have hdn : 1 - η ≤ s / x := by rw [le_div_iff₀ hx]; linarith
  have u1 : Real.log (s / x) ≤ η := by
    have := Real.log_le_sub_one_of_pos hsx
    linarith
  have u2 : -(4 / 3 * η) ≤ Real.log (s / x) := by
    have h3 := Real.one_sub_inv_le_log_of_pos hsx
    have h4 : (s / x)⁻¹ ≤ (1 - η)⁻¹ := inv_anti₀ (by linarith) hdn
    have h5 : (1 - η)⁻¹ ≤ 1 + 4 / 3 * η := by
      rw [inv_le_iff_one_le_mul₀ (by linarith)]
      nlinarith
    linarith
  rw [e, abs_le]
  constructor
  · rw [le_div_iff₀ hl]; nlinarith
  · rw [div_le_iff₀ hl]; nlinarith

theorem ovf_fin {x : ℝ} (h : |x| < 2 ^ 1024) : Log2Lib.ovf x = .fin x := by
  have := abs_lt.1 h
  unfold Log2Lib.ovf
  rw [if_neg (by linarith), if_neg (by linarith)]

/-- The rounded value for a number. -/
noncomputable def newLog2Rounded (L : Log2Lib) (c : ℝ) (n : Int) : ℝ :=
  L.rnd (c + L.log2f (L.rnd (1 + L.pow2 (L.rnd (L.rnd n - c)))))

/-- The errors of the logarithm. -/
theorem log2_arith {u e B d d' p s l : ℝ} (hu : 0 ≤ u) (he : 0 ≤ e) (hB0 : 0 ≤ B)
    (hB : (u + e) * (4 * B + 8) ≤ 1 / 2) (hdd : |d' - d| ≤ u * B) (hTd : softplus2 d ≤ 1 + B) (hp0 : 0 ≤ p)
    (hpq : |p - (2 : ℝ) ^ d'| ≤ e * (1 + (2 : ℝ) ^ d')) (hs1 : |s - (1 + p)| ≤ u * (1 + p))
    (hlf : 1 / 2 ≤ s → |l - logb 2 s| ≤ e * (1 + |logb 2 s|)) :
    1 / 2 ≤ s ∧ |l - softplus2 d| ≤ u * (B + 4) + e * (B + 5) := by
  have huB0 : 0 ≤ u * B := mul_nonneg hu hB0
  have heB0 : 0 ≤ e * B := mul_nonneg he hB0
  have hB1 : 4 * (u * B) + 4 * (e * B) + 8 * u + 8 * e ≤ 1 / 2 := by linarith
  have hu1 : u ≤ 1 / 16 := by linarith
  have he1 : e ≤ 1 / 16 := by linarith
  have hue : u * e ≤ u := by nlinarith
  have hue0 : 0 ≤ u * e := mul_nonneg hu he
  have hdd2 := abs_le.1 hdd
  have hT := abs_le.1 (softplus2_sub d' d)
  have hT0 := softplus2_nonneg d
  have hT0' := softplus2_nonneg d'
  have hx : 0 < 1 + (2 : ℝ) ^ d' := by positivity
  have hsp : softplus2 d' = logb 2 (1 + (2 : ℝ) ^ d') := rfl
  generalize (2 : ℝ) ^ d' = q at *
  have hpq2 := abs_le.1 hpq
  have hs2 := abs_le.1 hs1
  have hp' : 1 + p ≤ (1 + q) + e * (1 + q) := by linarith
  have h1 : u * (1 + p) ≤ u * (1 + q) + u * e * (1 + q) := by
    have := mul_le_mul_of_nonneg_left hp' hu
    linarith
  have h2 : u * e * (1 + q) ≤ u * (1 + q) := mul_le_mul_of_nonneg_right hue hx.le
  have hsx : |s - (1 + q)| ≤ (e + 2 * u) * (1 + q) := by
    rw [abs_le]
    constructor <;> linarith
  have hlog := abs_le.1 (logb_rel hx (by linarith) (by linarith) hsx)
  rw [← hsp] at hlog
  have hshalf : 1 / 2 ≤ s := by
    have : u * (1 + p) ≤ 1 / 16 * (1 + p) := mul_le_mul_of_nonneg_right hu1 (by linarith)
    linarith
  have hlabs : |logb 2 s| ≤ 2 + B := by
    rw [abs_le]
    constructor <;> linarith
  have hl2 := abs_le.1 ((hlf hshalf).trans (mul_le_mul_of_nonneg_left (by linarith : 1 + |logb 2 s| ≤ 3 + B) he))
  refine ⟨hshalf, ?_⟩
  rw [abs_le]
  constructor <;> linarith

/-- One call of `NewLog2Pruned`. -/
theorem log2_step {L : Log2Lib} {u e : ℝ} (hL : Log2Accurate L u e) (hu : 0 ≤ u) (he : 0 ≤ e) {c B : ℝ} {n : Nat}
    (hB : (u + e) * (4 * B + 8) ≤ 1 / 2) (hn : (n : ℝ) ≤ B) (hn' : n ≤ 1023) (hc : c = 0 ∨ 1 / 2 ≤ c) (hcB : c ≤ B)
    (hF : newLog2Pruned c n ≤ B) (hBone : 1 ≤ B) (hB' : B ≤ 2 ^ 1023) :
    L.newLog2PrunedFl (.fin c) n = .fin (newLog2Rounded L c n) ∧
      |newLog2Rounded L c n - newLog2Pruned c n| ≤ (u + e) * (4 * B + 8) := by
  have hc0 : 0 ≤ c := by rcases hc with h | h <;> linarith
  have hn0 : (0 : ℝ) ≤ n := Nat.cast_nonneg _
  have hB0 : 0 ≤ B := le_trans hn0 hn
  have huB0 : 0 ≤ u * B := mul_nonneg hu hB0
  have heB0 : 0 ≤ e * B := mul_nonneg he hB0
  have hB1 : 4 * (u * B) + 4 * (e * B) + 8 * u + 8 * e ≤ 1 / 2 := by linarith
  have hn1023 : (n : ℝ) ≤ 1023 := by exact_mod_cast hn'
  have hrn : L.rnd ((n : Int) : ℝ) = n := by
    have := hL.exact n (by omega)
    simpa using this
  have hcast : (((n : Nat) : Int) : ℝ) = (n : ℝ) := by simp
  have hdabs : |(n : ℝ) - c| ≤ B := by rw [abs_le]; constructor <;> linarith
  have hdd : |L.rnd (n - c) - (n - c)| ≤ u * B := (hL.rel _).trans (mul_le_mul_of_nonneg_left (max_le hBone hdabs) hu)
  have hdd2 := abs_le.1 hdd
  have hd1023 : L.rnd (n - c) ≤ 1023 := by
    rcases hc with h | h
    · rw [h, sub_zero, hL.exact n (by omega)]
      exact hn1023
    · linarith
  have hTd : softplus2 (n - c) ≤ 1 + B := by
    have h1 := softplus2_mono (show (n : ℝ) - c ≤ n by linarith)
    have h2 := softplus2_lip hn0
    have h3 : softplus2 0 = 1 := by unfold softplus2; norm_num
    linarith
  have hFeq : newLog2Pruned c n = c + softplus2 (n - c) := by rw [newLog2Pruned_eq, hcast]
  rw [hFeq] at hF ⊢
  have hp0 := hL.pow_nonneg (L.rnd (n - c))
  have hpq := hL.pow (L.rnd (n - c))
  have hs1 := hL.rel (1 + L.pow2 (L.rnd (n - c)))
  rw [abs_of_nonneg (show 0 ≤ 1 + L.pow2 (L.rnd (n - c)) by linarith), max_eq_right (by linarith)] at hs1
  obtain ⟨hshalf, hD⟩ := log2_arith hu he hB0 hB hdd hTd hp0 hpq hs1 (hL.log _)
  have hq1023 : (2 : ℝ) ^ (L.rnd (n - c)) ≤ 2 ^ 1023 := by
    refine (rpow_le_rpow_of_exponent_le (x := 2) (by norm_num) hd1023).trans (le_of_eq ?_)
    have : ((1023 : ℕ) : ℝ) = 1023 := by norm_num
    rw [← this, rpow_natCast]
  have hval : newLog2Rounded L c n =
      L.rnd (c + L.log2f (L.rnd (1 + L.pow2 (L.rnd (n - c))))) := by
    unfold newLog2Rounded
    rw [hrn]
  have hr := hL.rel (c + L.log2f (L.rnd (1 + L.pow2 (L.rnd (n - c)))))
  have hfl : L.newLog2PrunedFl (.fin c) n = L.add (.fin c) (L.log (L.add (.fin 1) (L.pow (Log2Lib.ovf (L.rnd (n - c)))))) := by
    unfold Log2Lib.newLog2PrunedFl
    simp only [hrn, Log2Lib.sub, Fl.neg, Log2Lib.add, sub_eq_add_neg]
  rw [hval, hfl]
  have hT0 := softplus2_nonneg (n - c)
  have hbig : (2 : ℝ) ^ 1024 = 2 * 2 ^ 1023 := by rw [pow_succ]; ring
  have hbig2 : (4096 : ℝ) ≤ 2 ^ 1023 := by
    calc (4096 : ℝ) = 2 ^ 12 := by norm_num
      _ ≤ 2 ^ 1023 := pow_le_pow_right₀ (by norm_num) (by norm_num)
  have key : ∀ x : ℝ, |x| < 2 * 2 ^ 1023 → Log2Lib.ovf x = .fin x := fun x hx => ovf_fin (by rwa [hbig])
  clear hbig
  generalize (2 : ℝ) ^ (1023 : ℕ) = Q at *
  generalize L.rnd (n - c) = d' at *
  generalize (2 : ℝ) ^ d' = q at *
  have hpq2 := abs_le.1 hpq
  have hs2 := abs_le.1 hs1
  have hD2 := abs_le.1 hD
  have hdabs2 := abs_le.1 hdabs
  have hu1 : u ≤ 1 / 16 := by linarith
  have he1 : e ≤ 1 / 16 := by linarith
  generalize hp : L.pow2 d' = p at *
  have e1 : e * (1 + q) ≤ 1 / 16 * (1 + Q) := by
    calc e * (1 + q) ≤ e * (1 + Q) := mul_le_mul_of_nonneg_left (by linarith) he
      _ ≤ _ := mul_le_mul_of_nonneg_right he1 (by linarith)
  have e2 : u * (1 + p) ≤ 1 / 16 * (1 + p) := mul_le_mul_of_nonneg_right hu1 (by linarith)
  generalize hs : L.rnd (1 + p) = s at *
  generalize hl : L.log2f s = l at *
  have hsum : |c + l| ≤ B + 1 := by
    rw [abs_le]
    constructor <;> linarith
  have hr' : |L.rnd (c + l) - (c + l)| ≤ u * (B + 1) := hr.trans (mul_le_mul_of_nonneg_left (max_le (by linarith) hsum) hu)
  have hr2 := abs_le.1 hr'
  have hsum2 := abs_le.1 hsum
  refine ⟨?_, ?_⟩
  · rw [key d' (by rw [abs_lt]; constructor <;> linarith)]
    simp only [Log2Lib.pow]
    rw [hp, key p (by rw [abs_lt]; constructor <;> linarith)]
    simp only [Log2Lib.add]
    rw [hs, key s (by rw [abs_lt]; constructor <;> linarith)]
    simp only [Log2Lib.log]
    rw [if_neg (by linarith), if_neg (by linarith)]
    simp only [Log2Lib.add]
    rw [hl, key]
    rw [abs_lt]
    constructor <;> linarith
  · rw [abs_le]
    constructor <;> linarith

theorem log2Pruned_nonneg (ncols : Nat) (ls : List Nat) : 0 ≤ log2Pruned ncols ls := by
  induction ls with
  | nil => simp [log2Pruned]
  | cons l ls ih =>
    rw [log2Pruned, newLog2Pruned_eq]
    have := softplus2_nonneg ((((ncols : Int) - l : Int) : ℝ) - log2Pruned ncols ls)
    linarith

theorem newLog2Pruned_ge_one {c : ℝ} (hc : 0 ≤ c) (n : Nat) : 1 ≤ newLog2Pruned c n := by
  rw [newLog2Pruned_eq]
  have h1 := softplus2_lip (show (((n : Nat) : Int) : ℝ) - c ≤ n by simp [hc])
  have h2 := softplus2_mono (Nat.cast_nonneg (α := ℝ) n)
  have h3 : softplus2 0 = 1 := by unfold softplus2; norm_num
  simp only [Int.cast_natCast] at h1 ⊢
  linarith

/-- Any number of calls of `NewLog2Pruned`. -/
theorem log2_run {L : Log2Lib} {u e : ℝ} (hL : Log2Accurate L u e) (hu : 0 ≤ u) (he : 0 ≤ e) {ncols : Nat} {B : ℝ}
    (hn : ncols ≤ 1023) (hnB : (ncols : ℝ) ≤ B) (hBone : 1 ≤ B) (hB' : B ≤ 2 ^ 1023) (ls : List Nat) (hls : ∀ l ∈ ls, l ≤ ncols)
    (hC : log2Pruned ncols ls + 1 / 2 ≤ B) (hδ : ls.length * ((u + e) * (4 * B + 8)) ≤ 1 / 2) :
    ∃ v, L.log2PrunedFl ncols ls = .fin v ∧ |v - log2Pruned ncols ls| ≤ ls.length * ((u + e) * (4 * B + 8)) ∧
      (v = 0 ∨ 1 / 2 ≤ v) := by
  have hB0 : 0 ≤ B := le_trans (Nat.cast_nonneg _) hnB
  have hδ0 : 0 ≤ (u + e) * (4 * B + 8) := by positivity
  induction ls with
  | nil => exact ⟨0, rfl, by simp [log2Pruned], Or.inl rfl⟩
  | cons l ls ih =>
    have hl := hls l (by simp)
    have hcast : ((ncols : Int) - l) = ((ncols - l : Nat) : Int) := by omega
    rw [log2Pruned, hcast] at hC
    rw [Log2Lib.log2PrunedFl, log2Pruned, hcast]
    have h0 := log2Pruned_nonneg ncols ls
    have hge : log2Pruned ncols ls ≤ newLog2Pruned (log2Pruned ncols ls) (ncols - l : Nat) := by
      rw [newLog2Pruned_eq]
      have := softplus2_nonneg ((((ncols - l : Nat) : Int) : ℝ) - log2Pruned ncols ls)
      linarith
    simp only [List.length_cons, Nat.cast_add, Nat.cast_one] at hδ ⊢
    have hlen : (0 : ℝ) ≤ ls.length := Nat.cast_nonneg _
    have hm0 : 0 ≤ (ls.length : ℝ) * ((u + e) * (4 * B + 8)) := mul_nonneg hlen hδ0
    obtain ⟨v, e1, e2, e3⟩ := ih (fun x hx => hls x (by simp [hx])) (by linarith) (by linarith)
    have e2' := abs_le.1 e2
    have hlip := (newLog2Pruned_lip v (log2Pruned ncols ls) (ncols - l : Nat)).trans e2
    have hlip2 := abs_le.1 hlip
    obtain ⟨f1, f2⟩ := log2_step hL hu he (c := v) (B := B) (n := ncols - l) (by linarith)
      (le_trans (by exact_mod_cast Nat.sub_le _ _) hnB) (by omega) e3 (by linarith) (by linarith) hBone hB'
    have f2' := abs_le.1 f2
    refine ⟨_, by rw [e1]; exact f1, ?_, ?_⟩
    · rw [abs_le]
      constructor <;> linarith
    · right
      have := newLog2Pruned_ge_one h0 (ncols - l)
      linarith

/-- Rounding is monotone and idempotent and keeps 0 and 1; powers are not negative; logarithms of numbers from 1 on are
not negative. -/
structure Spec.Log2Monotone (L : Log2Lib) : Prop where
  mono : Monotone L.rnd
  idem : ∀ x, L.rnd (L.rnd x) = L.rnd x
  zero : L.rnd 0 = 0
  one : L.rnd 1 = 1
  pow_nonneg : ∀ d, 0 ≤ L.pow2 d
  log_nonneg : ∀ x, 1 ≤ x → 0 ≤ L.log2f x

/-- A value of the variable `log2Pruned`: not negative, representable, or infinite. -/
def Log2Value (L : Log2Lib) (c : Fl ℝ) : Prop := c = .posInf ∨ ∃ x, c = .fin x ∧ 0 ≤ x ∧ L.rnd x = x

theorem ovf_ge {x y : ℝ} (h : x ≤ y) (hx : 0 ≤ x) : Log2Lib.ovf y = .posInf ∨ Log2Lib.ovf y = .fin y ∧ x ≤ y := by
  unfold Log2Lib.ovf
  split
  · exact Or.inl rfl
  · rw [if_neg]
    · exact Or.inr ⟨rfl, h⟩
    · have : (0 : ℝ) < 2 ^ 1024 := by positivity
      generalize (2 : ℝ) ^ 1024 = Q at *
      linarith

theorem log2_tail {L : Log2Lib} (hL : Log2Monotone L) {p : Fl ℝ} (hp : p = .posInf ∨ ∃ x, p = .fin x ∧ 0 ≤ x) :
    L.log (L.add (.fin 1) p) = .posInf ∨ ∃ x, L.log (L.add (.fin 1) p) = .fin x ∧ 0 ≤ x := by
  rcases hp with rfl | ⟨x, rfl, hx⟩
  · exact Or.inl rfl
  · have h1 : 1 ≤ L.rnd (1 + x) := by
      calc 1 = L.rnd 1 := hL.one.symm
        _ ≤ _ := hL.mono (by linarith)
    simp only [Log2Lib.add]
    rcases ovf_ge h1 (by norm_num) with h | ⟨h, -⟩
    · rw [h]; exact Or.inl rfl
    · rw [h]
      simp only [Log2Lib.log]
      rw [if_neg (by linarith), if_neg (by linarith)]
      exact Or.inr ⟨_, rfl, hL.log_nonneg _ h1⟩

theorem log2_value_step {L : Log2Lib} (hL : Log2Monotone L) {c : Fl ℝ} (hc : Log2Value L c) (n : Int) :
    Log2Value L (L.newLog2PrunedFl c n) ∧ ¬ L.newLog2PrunedFl c n < c := by
  have hpow : ∀ d : Fl ℝ, d ≠ .nan → (L.pow d = .posInf ∨ ∃ x, L.pow d = .fin x ∧ 0 ≤ x) := by
    intro d hd
    cases d with
    | nan => exact absurd rfl hd
    | posInf => exact Or.inl rfl
    | negInf => exact Or.inr ⟨0, rfl, le_rfl⟩
    | fin d =>
      simp only [Log2Lib.pow]
      rcases ovf_ge (hL.pow_nonneg d) le_rfl with h | ⟨h, h'⟩
      · exact Or.inl h
      · exact Or.inr ⟨_, h, h'⟩
  have hsub : L.sub (.fin (L.rnd n)) c ≠ .nan := by
    rcases hc with rfl | ⟨x, rfl, -⟩
    · simp [Log2Lib.sub, Fl.neg, Log2Lib.add, Fl.add]
    · simp only [Log2Lib.sub, Fl.neg, Log2Lib.add, Log2Lib.ovf]
      split
      · simp
      · split <;> simp
  have ht := log2_tail hL (hpow _ hsub)
  unfold Log2Lib.newLog2PrunedFl
  simp only
  generalize L.log (L.add (.fin 1) (L.pow (L.sub (.fin (L.rnd n)) c))) = t at ht
  rcases hc with rfl | ⟨x, rfl, hx, hxr⟩
  · have : L.add .posInf t = .posInf := by
      rcases ht with rfl | ⟨y, rfl, -⟩ <;> rfl
    rw [this]
    exact ⟨Or.inl rfl, by simp [LT.lt, Fl.ltB]⟩
  · rcases ht with rfl | ⟨y, rfl, hy⟩
    · exact ⟨Or.inl rfl, by simp [LT.lt, Fl.ltB, Log2Lib.add, Fl.add]⟩
    · have h1 : x ≤ L.rnd (x + y) := by
        calc x = L.rnd x := hxr.symm
          _ ≤ _ := hL.mono (by linarith)
      simp only [Log2Lib.add]
      rcases ovf_ge h1 hx with h | ⟨h, -⟩
      · rw [h]; exact ⟨Or.inl rfl, by simp [LT.lt, Fl.ltB]⟩
      · rw [h]
        refine ⟨Or.inr ⟨_, rfl, by linarith, hL.idem _⟩, ?_⟩
        intro hlt
        have : decide (L.rnd (x + y) < x) = true := hlt
        have := of_decide_eq_true this
        linarith

theorem log2_value {L : Log2Lib} (hL : Log2Monotone L) (ncols : Nat) (ls : List Nat) :
    Log2Value L (L.log2PrunedFl ncols ls) := by
  induction ls with
  | nil => exact Or.inr ⟨0, rfl, le_rfl, hL.zero⟩
  | cons l ls ih => exact (log2_value_step hL ih _).1

theorem log2_value_trans {L : Log2Lib} {a b c : Fl ℝ} (ha : Log2Value L a) (hb : Log2Value L b) (hc : Log2Value L c)
    (h1 : ¬ a < b) (h2 : ¬ b < c) : ¬ a < c := by
  rcases ha with rfl | ⟨x, rfl, -⟩ <;> rcases hb with rfl | ⟨y, rfl, -⟩ <;> rcases hc with rfl | ⟨z, rfl, -⟩ <;>
    simp_all [LT.lt, Fl.ltB] <;> first | assumption | skip
  intro h
  have h1' : ¬ x < y := h1
  have h2' : ¬ y < z := h2
  have h' : x < z := h
  exact (lt_irrefl _ (lt_of_lt_of_le h' (le_trans (not_lt.1 h2') (not_lt.1 h1'))))

theorem log2_value_mono {L : Log2Lib} (hL : Log2Monotone L) (ncols : Nat) {a b : List Nat} (h : a <:+ b) :
    ¬ L.log2PrunedFl ncols b < L.log2PrunedFl ncols a := by
  obtain ⟨t, rfl⟩ := h
  induction t with
  | nil =>
    rcases log2_value hL ncols a with h | ⟨x, h, -⟩ <;> rw [List.nil_append, h]
    · simp [LT.lt, Fl.ltB]
    · intro hlt
      exact lt_irrefl _ (of_decide_eq_true hlt)
  | cons l t ih =>
    exact log2_value_trans (log2_value hL _ _) (log2_value hL _ _) (log2_value hL _ _)
      (log2_value_step hL (log2_value hL ncols (t ++ a)) _).2 ih

/-- A branch that is too large makes the value infinite. -/
theorem log2_overflow {L : Log2Lib} (hL : Log2Monotone L) {n : Nat} (hn : 2 ^ 1024 ≤ L.pow2 (L.rnd (L.rnd n)))
    (hn' : |L.rnd (L.rnd n)| < 2 ^ 1024) : L.newLog2PrunedFl (.fin 0) n = .posInf := by
  unfold Log2Lib.newLog2PrunedFl
  simp only [Log2Lib.sub, Fl.neg, Log2Lib.add, neg_zero, add_zero, Int.cast_natCast]
  rw [ovf_fin hn']
  simp only [Log2Lib.pow]
  have : Log2Lib.ovf (L.pow2 (L.rnd (L.rnd n))) = .posInf := by
    unfold Log2Lib.ovf
    rw [if_pos hn]
  rw [this]
  rfl

/-- The value stays infinite. -/
theorem log2_infinite {L : Log2Lib} (hL : Log2Monotone L) (ncols : Nat) {a b : List Nat} (h : a <:+ b)
    (ha : L.log2PrunedFl ncols a = .posInf) : L.log2PrunedFl ncols b = .posInf := by
  have h1 := log2_value_mono hL ncols h
  rcases log2_value hL ncols b with h2 | ⟨x, h2, -⟩
  · exact h2
  · rw [ha, h2] at h1
    exact absurd (by simp [LT.lt, Fl.ltB]) h1

end GoSelect
