import Verif.Model.KappaFl
import Verif.Proofs.LogspaceFl
import Verif.Props.C39_C40

/-!
Rounding errors of Cohen's kappa.
-/

namespace GoSelect

open Spec

/-- Rounding is monotone, exact on integers up to `2 ^ 53`, and has relative error `u` plus `t` for underflow. -/
structure Spec.RoundOff (rnd : ℝ → ℝ) (u t : ℝ) : Prop where
  mono : Monotone rnd
  exact : ∀ m : Int, |m| ≤ 2 ^ 53 → rnd m = m
  rel : ∀ x, |rnd x - x| ≤ u * |x| + t

theorem Spec.RoundOff.nat {rnd : ℝ → ℝ} {u t : ℝ} (h : RoundOff rnd u t) {k : Nat} (hk : k ≤ 2 ^ 53) : rnd k = k := by
  have := h.exact k (by rw [abs_of_nonneg (by positivity)]; exact_mod_cast hk)
  simpa using this

theorem Spec.RoundOff.zero {rnd : ℝ → ℝ} {u t : ℝ} (h : RoundOff rnd u t) : rnd 0 = 0 := by
  have := h.nat (k := 0) (by positivity)
  simpa using this

theorem Spec.RoundOff.one {rnd : ℝ → ℝ} {u t : ℝ} (h : RoundOff rnd u t) : rnd 1 = 1 := by
  have := h.nat (k := 1) (by norm_num)
  simpa using this

theorem Spec.RoundOff.nonneg {rnd : ℝ → ℝ} {u t : ℝ} (h : RoundOff rnd u t) {x : ℝ} (hx : 0 ≤ x) : 0 ≤ rnd x := by
  rw [← h.zero]; exact h.mono hx

theorem Spec.RoundOff.nonpos {rnd : ℝ → ℝ} {u t : ℝ} (h : RoundOff rnd u t) {x : ℝ} (hx : x ≤ 0) : rnd x ≤ 0 := by
  rw [← h.zero]; exact h.mono hx

theorem Spec.RoundOff.le_one {rnd : ℝ → ℝ} {u t : ℝ} (h : RoundOff rnd u t) {x : ℝ} (hx : x ≤ 1) : rnd x ≤ 1 := by
  rw [← h.one]; exact h.mono hx

theorem Spec.RoundOff.err {rnd : ℝ → ℝ} {u t c : ℝ} (h : RoundOff rnd u t) (hu : 0 ≤ u) {x : ℝ} (hx : |x| ≤ c) :
    |rnd x - x| ≤ u * c + t := (h.rel x).trans (by gcongr)

/-- The exact proportions: `a`, `b`, `c`, `d` are the counters. -/
theorem proportions {a b c d n : ℝ} (hn : 1 ≤ n) (ha : 0 ≤ a) (hb : 0 ≤ b) (hc : 0 ≤ c) (hd : 0 ≤ d) (hsum : a + b + c + d = n)
    (hdiff : n ≤ (a + b) * (b + d) + (a + c) * (c + d)) :
    let x := (a + b) * (a + c) / (n * n)
    let y := (b + d) * (c + d) / (n * n)
    0 ≤ x ∧ 0 ≤ y ∧ x + y ≤ 1 - 1 / n ∧ 0 ≤ (a + d) / n ∧ (a + d) / n ≤ 1 ∧ (1 ≤ b + c → (a + d) / n ≤ 1 - 1 / n) := by
  intro x y
  have hn0 : 0 < n := by linarith
  have hnn : 0 < n * n := by positivity
  refine ⟨by positivity, by positivity, ?_, by positivity, ?_, ?_⟩
  · have e1 : x + y = ((a + b) * (a + c) + (b + d) * (c + d)) / (n * n) := by
      rw [add_div]
    have e2 : 1 - 1 / n = (n * n - n) / (n * n) := by field_simp
    rw [e1, e2]
    refine div_le_div_of_nonneg_right ?_ hnn.le
    have : (a + b) * (a + c) + (b + d) * (c + d) + ((a + b) * (b + d) + (a + c) * (c + d)) = n * n := by
      rw [← hsum]; ring
    linarith
  · rw [div_le_one hn0]; linarith
  · intro h
    have e2 : 1 - 1 / n = (n - 1) / n := by field_simp
    rw [e2]
    refine div_le_div_of_nonneg_right ?_ hn0.le
    linarith

/-- The rounded proportions: `x`, `y` and `A` exact, `h = u + t`. -/
theorem kappa_rounded {rnd : ℝ → ℝ} {u t n x y A : ℝ} (hr : RoundOff rnd u t) (hu : 0 ≤ u) (ht : 0 ≤ t) (hn : 1 ≤ n)
    (hsmall : 64 * n * (u + t) ≤ 1) (hx : 0 ≤ x) (hy : 0 ≤ y) (hxy : x + y ≤ 1 - 1 / n) (hA : 0 ≤ A) (hA1 : A ≤ 1) :
    let E := rnd (rnd x + rnd y)
    0 ≤ E ∧ |E - (x + y)| ≤ 4 * (u + t) ∧ 1 / (2 * n) ≤ 1 - E ∧ 1 / (4 * n) ≤ rnd (1 - E) ∧ rnd (1 - E) ≤ 1 ∧
      |rnd (1 - E) - (1 - (x + y))| ≤ 5 * (u + t) ∧ |rnd (rnd A - E) - (A - (x + y))| ≤ 6 * (u + t) ∧ |rnd (rnd A - E)| ≤ 1 := by
  intro E
  have hn0 : 0 < n := by linarith
  have hinv : 0 < 1 / n := by positivity
  have h2n : 1 / (2 * n) = 1 / n / 2 := by rw [div_div]; congr 1; ring
  have h4n : 1 / (4 * n) = 1 / n / 4 := by rw [div_div]; congr 1; ring
  have hsm : 64 * (u + t) ≤ 1 / n := by
    rw [le_div_iff₀ hn0]; linarith
  have hin1 : 1 / n ≤ 1 := by rw [div_le_one hn0]; exact hn
  have ex := hr.err hu (x := x) (c := x) (by rw [abs_of_nonneg hx])
  have ey := hr.err hu (x := y) (c := y) (by rw [abs_of_nonneg hy])
  have ex' := abs_le.1 ex
  have ey' := abs_le.1 ey
  have hx0 := hr.nonneg hx
  have hy0 := hr.nonneg hy
  have hus : u * x + u * y ≤ u := by
    have : u * (x + y) ≤ u * 1 := mul_le_mul_of_nonneg_left (by linarith) hu
    linarith
  have hux : 0 ≤ u * x := mul_nonneg hu hx
  have huy : 0 ≤ u * y := mul_nonneg hu hy
  have hs2 : |rnd x + rnd y| ≤ 2 := by rw [abs_of_nonneg (by linarith)]; linarith
  have hs1 : |rnd x + rnd y| ≤ 1 := by rw [abs_of_nonneg (by linarith)]; linarith
  have hE0 : 0 ≤ E := hr.nonneg (by linarith)
  have eE := abs_le.1 (hr.err hu hs1)
  have hE : |E - (x + y)| ≤ 4 * (u + t) := by
    rw [abs_le]; constructor <;> linarith
  have hE' := abs_le.1 hE
  have hD : 1 / (2 * n) ≤ 1 - E := by rw [h2n]; linarith
  have hD1 : |1 - E| ≤ 1 := by rw [abs_of_nonneg (by linarith)]; linarith
  have eD := abs_le.1 (hr.err hu hD1)
  have eA := abs_le.1 (hr.err hu (x := A) (c := 1) (by rw [abs_of_nonneg hA]; exact hA1))
  have hA0 := hr.nonneg hA
  have hA2 := hr.le_one hA1
  have hE1 : E ≤ 1 := by linarith
  have hN1 : |rnd A - E| ≤ 1 := by rw [abs_le]; constructor <;> linarith
  have eN := abs_le.1 (hr.err hu hN1)
  have hm1 : rnd (-1) = -1 := by
    have := hr.exact (-1) (by norm_num)
    simpa using this
  refine ⟨hE0, hE, hD, by rw [h4n]; linarith, hr.le_one (by linarith), ?_, ?_, ?_⟩
  · rw [abs_le]; constructor <;> linarith
  · rw [abs_le]; constructor <;> linarith
  · rw [abs_le]
    have := abs_le.1 hN1
    exact ⟨by rw [← hm1]; exact hr.mono this.1, hr.le_one this.2⟩

/-- The rounded quotient is close to the exact one. -/
theorem kappa_quot {rnd : ℝ → ℝ} {u t n N D N' D' : ℝ} (hr : RoundOff rnd u t) (hu : 0 ≤ u) (ht : 0 ≤ t) (hn : 1 ≤ n)
    (hsmall : 64 * n * (u + t) ≤ 1) (hD : 1 / n ≤ D) (hN : |N| ≤ D) (hD' : 1 / (4 * n) ≤ D') (eN : |N' - N| ≤ 6 * (u + t))
    (eD : |D' - D| ≤ 5 * (u + t)) : |N' / D' - N / D| ≤ 44 * n * (u + t) ∧ |rnd (N' / D') - N / D| ≤ 46 * n * (u + t) := by
  have hn0 : 0 < n := by linarith
  have hD0 : 0 < D := lt_of_lt_of_le (by positivity) hD
  have hD'0 : 0 < D' := lt_of_lt_of_le (by positivity) hD'
  have hh : 0 ≤ u + t := by linarith
  have hk : |N / D| ≤ 1 := by
    rw [abs_div, abs_of_pos hD0, div_le_one hD0]; exact hN
  have e1 : N' / D' - N / D = ((N' - N) - N / D * (D' - D)) / D' := by field_simp; ring
  have hnum : |(N' - N) - N / D * (D' - D)| ≤ 11 * (u + t) := by
    calc |(N' - N) - N / D * (D' - D)| ≤ |N' - N| + |N / D * (D' - D)| := abs_sub _ _
      _ ≤ 6 * (u + t) + 1 * (5 * (u + t)) := by
        rw [abs_mul]
        gcongr
      _ = _ := by ring
  have h1 : |N' / D' - N / D| ≤ 44 * n * (u + t) := by
    rw [e1, abs_div, abs_of_pos hD'0, div_le_iff₀ hD'0]
    have : 11 * (u + t) ≤ 44 * n * (u + t) * (1 / (4 * n)) := by
      have : 44 * n * (u + t) * (1 / (4 * n)) = 11 * (u + t) := by field_simp; ring
      linarith
    refine hnum.trans (this.trans ?_)
    exact mul_le_mul_of_nonneg_left hD' (by positivity)
  refine ⟨h1, ?_⟩
  have h1' := abs_le.1 h1
  have hk' := abs_le.1 hk
  have hq : |N' / D'| ≤ 2 := by rw [abs_le]; constructor <;> linarith
  have e2 := abs_le.1 (hr.err hu hq)
  have hnh : u + t ≤ n * (u + t) := by nlinarith
  rw [abs_le]
  constructor <;> linarith

/-- If the rounded agreement stays below 1 the quotient does. -/
theorem kappa_below {rnd : ℝ → ℝ} {u t n A E : ℝ} (hr : RoundOff rnd u t) (hu : 0 ≤ u) (ht : 0 ≤ t) (hn : 1 ≤ n)
    (hsmall : 64 * n * (u + t) ≤ 1) (hE0 : 0 ≤ E) (hE : 1 / (2 * n) ≤ 1 - E) (hA0 : 0 ≤ A) (hA : A ≤ 1 - 1 / n) :
    rnd (rnd (rnd A - E) / rnd (1 - E)) ≤ 1 - 1 / (8 * n) := by
  have hn0 : 0 < n := by linarith
  have hinv : 0 < 1 / n := by positivity
  have hin1 : 1 / n ≤ 1 := by rw [div_le_one hn0]; exact hn
  have h2n : 1 / (2 * n) = 1 / n / 2 := by rw [div_div]; congr 1; ring
  have h8n : 1 / (8 * n) = 1 / n / 8 := by rw [div_div]; congr 1; ring
  have hsm : 64 * (u + t) ≤ 1 / n := by
    rw [le_div_iff₀ hn0]; linarith
  rw [h2n] at hE
  rw [h8n]
  generalize 1 / n = i at *
  have hA1 : |A| ≤ 1 := by rw [abs_of_nonneg hA0]; linarith
  have eA := abs_le.1 (hr.err hu hA1)
  have hD1 : |1 - E| ≤ 1 := by rw [abs_of_nonneg (by linarith)]; linarith
  have eD := abs_le.1 (hr.err hu hD1)
  have hDpos : 0 < rnd (1 - E) := by linarith
  rcases le_or_gt (rnd A - E) 0 with hneg | hpos
  · have h1 : rnd (rnd A - E) ≤ 0 := hr.nonpos hneg
    have h2 : rnd (rnd A - E) / rnd (1 - E) ≤ 0 := div_nonpos_of_nonpos_of_nonneg h1 hDpos.le
    have h3 := hr.nonpos h2
    linarith
  · have hAr : rnd A ≤ 1 - i + (u + t) := by linarith
    have hN1 : |rnd A - E| ≤ 1 := by rw [abs_of_pos hpos]; linarith
    have eN := abs_le.1 (hr.err hu hN1)
    have hN0 : 0 ≤ rnd (rnd A - E) := hr.nonneg hpos.le
    have hDle : rnd (1 - E) ≤ 1 := hr.le_one (by linarith)
    have hq : rnd (rnd A - E) / rnd (1 - E) ≤ 1 - i / 2 := by
      rw [div_le_iff₀ hDpos]
      have : i / 2 * rnd (1 - E) ≤ i / 2 * 1 := mul_le_mul_of_nonneg_left hDle (by linarith)
      linarith
    have hq0 : 0 ≤ rnd (rnd A - E) / rnd (1 - E) := div_nonneg hN0 hDpos.le
    have hq1 : |rnd (rnd A - E) / rnd (1 - E)| ≤ 1 := by rw [abs_of_nonneg hq0]; linarith
    have e := abs_le.1 (hr.err hu hq1)
    linarith

end GoSelect
