import Verif.Model.RoundedFit
import Verif.Spec.LeastSquares
import Verif.Proofs.Binary64
import Mathlib.Algebra.Order.BigOperators.Ring.Finset

/-!
Rounding errors of inner products and sums of squares.
-/

namespace GoSelect

open Finset Spec

/-- Every operation is off by at most the relative error `u`. -/
def Spec.RelativeError (rnd : ℝ → ℝ) (u : ℝ) : Prop := ∀ x, |rnd x - x| ≤ u * |x|

/-- Inner products of vectors of length `p` are off by at most the error `γ`, relative to the sum of the absolute values
of the products. -/
def Spec.DotError (dot : Nat → (Nat → ℝ) → (Nat → ℝ) → ℝ) (p : Nat) (γ : ℝ) : Prop :=
  ∀ x c : Nat → ℝ, |dot p x c - ∑ j ∈ range p, x j * c j| ≤ γ * ∑ j ∈ range p, |x j * c j|

theorem rel_abs {rnd : ℝ → ℝ} {u : ℝ} (h : RelativeError rnd u) (x : ℝ) : |rnd x| ≤ (1 + u) * |x| := by
  have h1 := h x
  have : |rnd x| ≤ |rnd x - x| + |x| := by
    calc |rnd x| = |(rnd x - x) + x| := by ring_nf
      _ ≤ _ := abs_add_le _ _
  linarith

theorem rel_nonneg {rnd : ℝ → ℝ} {u : ℝ} (h : RelativeError rnd u) {x : ℝ} (hx : 0 ≤ x) :
    (1 - u) * x ≤ rnd x ∧ rnd x ≤ (1 + u) * x := by
  have h1 := abs_le.1 (h x)
  rw [abs_of_nonneg hx] at h1
  constructor <;> linarith [h1.1, h1.2]

/-- The loop of `PredictOne`. -/
theorem dotLoop_err {rnd : ℝ → ℝ} {u : ℝ} (hu : 0 ≤ u) (h : RelativeError rnd u) (x c : Nat → ℝ) (n : Nat) :
    |dotLoop rnd x c n - ∑ j ∈ range n, x j * c j| ≤ ((1 + u) ^ (n + 1) - 1) * ∑ j ∈ range n, |x j * c j| := by
  induction n with
  | zero => simp [dotLoop]
  | succ n ih =>
    rw [dotLoop, sum_range_succ, sum_range_succ]
    set S := dotLoop rnd x c n
    set T := ∑ j ∈ range n, x j * c j with hT
    set A := ∑ j ∈ range n, |x j * c j| with hA
    set t := x n * c n
    have hTA : |T| ≤ A := by rw [hT, hA]; exact abs_sum_le_sum_abs _ _
    have hA0 : 0 ≤ A := by rw [hA]; exact sum_nonneg fun _ _ => abs_nonneg _
    have ht := h t
    have ht' := rel_abs h t
    have hs := h (S + rnd t)
    have h1 : |S| ≤ |S - T| + A := by
      calc |S| = |(S - T) + T| := by ring_nf
        _ ≤ |S - T| + |T| := abs_add_le _ _
        _ ≤ _ := by linarith
    have h2 : |S + rnd t| ≤ |S - T| + A + (1 + u) * |t| := (abs_add_le _ _).trans (by linarith)
    have h3 : |rnd (S + rnd t) - (T + t)| ≤ |rnd (S + rnd t) - (S + rnd t)| + (|S - T| + |rnd t - t|) := by
      calc |rnd (S + rnd t) - (T + t)| = |(rnd (S + rnd t) - (S + rnd t)) + ((S - T) + (rnd t - t))| := by ring_nf
        _ ≤ |rnd (S + rnd t) - (S + rnd t)| + |(S - T) + (rnd t - t)| := abs_add_le _ _
        _ ≤ _ := by linarith [abs_add_le (S - T) (rnd t - t)]
    have h4 : u * |S + rnd t| ≤ u * (|S - T| + A + (1 + u) * |t|) := mul_le_mul_of_nonneg_left h2 hu
    have ht0 := abs_nonneg t
    have hp : (1 + u) ^ 2 ≤ (1 + u) ^ (n + 1 + 1) := pow_le_pow_right₀ (by linarith) (by omega)
    have h5 : (1 + u) * |S - T| ≤ (1 + u) * (((1 + u) ^ (n + 1) - 1) * A) :=
      mul_le_mul_of_nonneg_left ih (by linarith)
    have h6 : ((1 + u) ^ 2 - 1) * |t| ≤ ((1 + u) ^ (n + 1 + 1) - 1) * |t| :=
      mul_le_mul_of_nonneg_right (by linarith) ht0
    have e1 : (1 + u) ^ (n + 1 + 1) = (1 + u) * (1 + u) ^ (n + 1) := by ring
    rw [e1] at h6 ⊢
    nlinarith

/-- The loop of `Rss`, relative to the predictions as computed. -/
theorem rssLoop_err {rnd : ℝ → ℝ} {u : ℝ} (hu : 0 ≤ u) (hu1 : u ≤ 1) (h : RelativeError rnd u) (p d : Nat → ℝ) (n : Nat) :
    (1 - u) ^ (n + 3) * ∑ i ∈ range n, (p i - d i) ^ 2 ≤ rssLoop rnd p d n ∧
      rssLoop rnd p d n ≤ (1 + u) ^ (n + 3) * ∑ i ∈ range n, (p i - d i) ^ 2 := by
  induction n with
  | zero => simp [rssLoop]
  | succ n ih =>
    obtain ⟨ih1, ih2⟩ := ih
    rw [rssLoop, sum_range_succ]
    set S := rssLoop rnd p d n
    set Q := ∑ i ∈ range n, (p i - d i) ^ 2 with hQ
    have hQ0 : 0 ≤ Q := by rw [hQ]; exact sum_nonneg fun _ _ => sq_nonneg _
    set z := p n - d n
    have hv0 : 0 ≤ 1 - u := by linarith
    have hz1 := rel_abs h z
    have hz2 : (1 - u) * |z| ≤ |rnd z| := by
      have := h z
      have h' : |z| ≤ |rnd z - z| + |rnd z| := by
        calc |z| = |-(rnd z - z) + rnd z| := by ring_nf
          _ ≤ |-(rnd z - z)| + |rnd z| := abs_add_le _ _
          _ = _ := by rw [abs_neg]
      linarith
    have hz0 := abs_nonneg z
    have hr0 := abs_nonneg (rnd z)
    have hsq : rnd z * rnd z = |rnd z| ^ 2 := by rw [sq_abs]; ring
    have hzz : z ^ 2 = |z| ^ 2 := (sq_abs z).symm
    have hs1 : (1 - u) ^ 2 * z ^ 2 ≤ rnd z * rnd z := by
      rw [hsq, hzz, ← mul_pow]
      exact pow_le_pow_left₀ (mul_nonneg hv0 hz0) hz2 2
    have hs2 : rnd z * rnd z ≤ (1 + u) ^ 2 * z ^ 2 := by
      rw [hsq, hzz, ← mul_pow]
      exact pow_le_pow_left₀ hr0 hz1 2
    have hz20 : 0 ≤ z ^ 2 := sq_nonneg z
    have hrr : 0 ≤ rnd z * rnd z := mul_self_nonneg _
    obtain ⟨t1, t2⟩ := rel_nonneg h hrr
    set t := rnd (rnd z * rnd z)
    have ht1 : (1 - u) ^ 3 * z ^ 2 ≤ t := by
      calc (1 - u) ^ 3 * z ^ 2 = (1 - u) * ((1 - u) ^ 2 * z ^ 2) := by ring
        _ ≤ (1 - u) * (rnd z * rnd z) := mul_le_mul_of_nonneg_left hs1 hv0
        _ ≤ t := t1
    have ht2 : t ≤ (1 + u) ^ 3 * z ^ 2 := by
      calc t ≤ (1 + u) * (rnd z * rnd z) := t2
        _ ≤ (1 + u) * ((1 + u) ^ 2 * z ^ 2) := mul_le_mul_of_nonneg_left hs2 (by linarith)
        _ = _ := by ring
    have hS0 : 0 ≤ S := le_trans (mul_nonneg (pow_nonneg hv0 _) hQ0) ih1
    have ht0 : 0 ≤ t := le_trans (mul_nonneg (pow_nonneg hv0 _) hz20) ht1
    obtain ⟨g1, g2⟩ := rel_nonneg h (add_nonneg hS0 ht0)
    have hp1 : (1 - u) ^ (n + 3) ≤ (1 - u) ^ 3 := pow_le_pow_of_le_one hv0 (by linarith) (by omega)
    have hp2 : (1 + u) ^ 3 ≤ (1 + u) ^ (n + 3) := pow_le_pow_right₀ (by linarith) (by omega)
    constructor
    · calc (1 - u) ^ (n + 1 + 3) * (Q + z ^ 2) = (1 - u) * ((1 - u) ^ (n + 3) * Q + (1 - u) ^ (n + 3) * z ^ 2) := by ring
        _ ≤ (1 - u) * (S + t) := by
          refine mul_le_mul_of_nonneg_left (add_le_add ih1 (le_trans ?_ ht1)) hv0
          exact mul_le_mul_of_nonneg_right hp1 hz20
        _ ≤ _ := g1
    · calc rnd (S + t) ≤ (1 + u) * (S + t) := g2
        _ ≤ (1 + u) * ((1 + u) ^ (n + 3) * Q + (1 + u) ^ (n + 3) * z ^ 2) := by
          refine mul_le_mul_of_nonneg_left (add_le_add ih2 (ht2.trans ?_)) (by linarith)
          exact mul_le_mul_of_nonneg_right hp2 hz20
        _ = _ := by ring

/-! ### The Euclidean length -/

/-- Length of the first `n` entries. -/
noncomputable def Spec.len (n : Nat) (f : Nat → ℝ) : ℝ := Real.sqrt (∑ i ∈ range n, f i ^ 2)

theorem len_sq (n : Nat) (f : Nat → ℝ) : Spec.len n f ^ 2 = ∑ i ∈ range n, f i ^ 2 :=
  Real.sq_sqrt (sum_nonneg fun _ _ => sq_nonneg _)

theorem len_nonneg (n : Nat) (f : Nat → ℝ) : 0 ≤ Spec.len n f := Real.sqrt_nonneg _

theorem len_add (n : Nat) (f g : Nat → ℝ) : Spec.len n (fun i => f i + g i) ≤ Spec.len n f + Spec.len n g := by
  refine Real.sqrt_le_iff.2 ⟨add_nonneg (len_nonneg _ _) (len_nonneg _ _), ?_⟩
  have hcs := sum_mul_sq_le_sq_mul_sq (range n) f g
  rw [← len_sq, ← len_sq, ← mul_pow] at hcs
  have h1 : ∑ i ∈ range n, f i * g i ≤ Spec.len n f * Spec.len n g :=
    le_of_sq_le_sq hcs (mul_nonneg (len_nonneg _ _) (len_nonneg _ _))
  have h2 : ∑ i ∈ range n, (f i + g i) ^ 2 = ∑ i ∈ range n, f i ^ 2 + 2 * ∑ i ∈ range n, f i * g i +
      ∑ i ∈ range n, g i ^ 2 := by
    rw [mul_sum, ← sum_add_distrib, ← sum_add_distrib]
    exact sum_congr rfl fun i _ => by ring
  rw [h2, ← len_sq, ← len_sq]
  nlinarith
where
  le_of_sq_le_sq {a b : ℝ} (h : a ^ 2 ≤ b ^ 2) (hb : 0 ≤ b) : a ≤ b := by
    by_contra hlt
    push Not at hlt
    nlinarith

theorem len_mono {n : Nat} {f g : Nat → ℝ} (h : ∀ i < n, |f i| ≤ |g i|) : Spec.len n f ≤ Spec.len n g := by
  refine Real.sqrt_le_sqrt (sum_le_sum fun i hi => ?_)
  exact sq_le_sq.2 (h i (mem_range.1 hi))

theorem len_neg (n : Nat) (f : Nat → ℝ) : Spec.len n (fun i => -f i) = Spec.len n f := by
  unfold Spec.len
  simp

theorem len_mul (n : Nat) {a : ℝ} (ha : 0 ≤ a) (f : Nat → ℝ) : Spec.len n (fun i => a * f i) = a * Spec.len n f := by
  unfold Spec.len
  simp_rw [mul_pow]
  rw [← mul_sum, Real.sqrt_mul (sq_nonneg a), Real.sqrt_sq ha]

/-- Two vectors whose difference is at most `e` long have lengths that differ by at most `e`. -/
theorem len_diff (n : Nat) (f g : Nat → ℝ) :
    Spec.len n f ≤ Spec.len n g + Spec.len n (fun i => f i - g i) := by
  have := len_add n g (fun i => f i - g i)
  simpa using this

end GoSelect
