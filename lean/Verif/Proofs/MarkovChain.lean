import Mathlib.LinearAlgebra.Matrix.Notation
import Mathlib.Topology.Order.MonotoneConvergence
import Mathlib.Topology.Algebra.Order.LiminfLimsup
import Mathlib.Topology.Instances.Real.Lemmas
import Mathlib.Tactic.Linarith
import Mathlib.Tactic.Ring

/-! Finite Markov chains: a chain that reaches one state from everywhere within a fixed number of steps forgets where it
started (Doeblin's argument). -/

namespace GoSelect

open Filter Topology

variable {Ω : Type} [Fintype Ω] [DecidableEq Ω]

/-- The rows of the matrix are probability distributions. -/
structure Stochastic (A : Matrix Ω Ω ℝ) : Prop where
  nonneg : ∀ x y, 0 ≤ A x y
  sum : ∀ x, ∑ y, A x y = 1

theorem Stochastic.mul {A B : Matrix Ω Ω ℝ} (hA : Stochastic A) (hB : Stochastic B) : Stochastic (A * B) := by
  refine ⟨fun x y => ?_, fun x => ?_⟩
  · rw [Matrix.mul_apply]
    exact Finset.sum_nonneg fun z _ => mul_nonneg (hA.nonneg x z) (hB.nonneg z y)
  · simp only [Matrix.mul_apply]
    rw [Finset.sum_comm]
    simp only [← Finset.mul_sum, hB.sum, mul_one, hA.sum]

theorem Stochastic.one : Stochastic (1 : Matrix Ω Ω ℝ) := by
  refine ⟨fun x y => ?_, fun x => ?_⟩
  · rw [Matrix.one_apply]; split <;> norm_num
  · simp [Matrix.one_apply]

theorem Stochastic.pow {A : Matrix Ω Ω ℝ} (hA : Stochastic A) (n : ℕ) : Stochastic (A ^ n) := by
  induction n with
  | zero => rw [pow_zero]; exact Stochastic.one
  | succ n ih => rw [pow_succ]; exact ih.mul hA

/-- A step brings two distributions closer. -/
theorem Stochastic.contract {A : Matrix Ω Ω ℝ} (hA : Stochastic A) {z : Ω} {δ : ℝ} (hz : ∀ x, δ ≤ A x z)
    {v : Ω → ℝ} (hv : ∑ x, v x = 0) : ∑ y, |∑ x, v x * A x y| ≤ (1 - δ) * ∑ x, |v x| := by
  have h1 : ∀ y, ∑ x, v x * A x y = ∑ x, v x * (A x y - if y = z then δ else 0) := by
    intro y
    simp only [mul_sub, Finset.sum_sub_distrib, ← Finset.sum_mul, hv, zero_mul, sub_zero]
  have h2 : ∀ x y, 0 ≤ A x y - if y = z then δ else 0 := by
    intro x y
    split
    · rename_i h; subst h; linarith [hz x]
    · linarith [hA.nonneg x y]
  calc ∑ y, |∑ x, v x * A x y| ≤ ∑ y, ∑ x, |v x| * (A x y - if y = z then δ else 0) := by
        refine Finset.sum_le_sum fun y _ => ?_
        rw [h1]
        refine (Finset.abs_sum_le_sum_abs _ _).trans (Finset.sum_le_sum fun x _ => ?_)
        rw [abs_mul, abs_of_nonneg (h2 x y)]
    _ = (1 - δ) * ∑ x, |v x| := by
        rw [Finset.sum_comm]
        simp only [← Finset.mul_sum, Finset.sum_sub_distrib, hA.sum, Finset.sum_ite_eq', Finset.mem_univ, if_true]
        rw [← Finset.sum_mul, mul_comm]

/-- The stationary distribution is preserved by powers. -/
theorem stationary_pow {A : Matrix Ω Ω ℝ} {p : Ω → ℝ} (hs : ∀ y, ∑ x, p x * A x y = p y) (n : ℕ) (y : Ω) :
    ∑ x, p x * (A ^ n) x y = p y := by
  induction n generalizing y with
  | zero => simp [Matrix.one_apply]
  | succ n ih =>
    simp only [pow_succ, Matrix.mul_apply, Finset.mul_sum]
    rw [Finset.sum_comm]
    simp only [← mul_assoc, ← Finset.sum_mul, ih]
    exact hs y

/-- The chain converges to its stationary distribution. -/
theorem Stochastic.tendsto {A : Matrix Ω Ω ℝ} (hA : Stochastic A) {p : Ω → ℝ} (hp : ∑ x, p x = 1)
    (hs : ∀ y, ∑ x, p x * A x y = p y) {N : ℕ} {z : Ω} {δ : ℝ} (hδ : 0 < δ) (hz : ∀ x, δ ≤ (A ^ N) x z) (x y : Ω) :
    Tendsto (fun n => (A ^ n) x y) atTop (𝓝 (p y)) := by
  set d : ℕ → ℝ := fun n => ∑ y, |(A ^ n) x y - p y| with hd
  have hd0 : ∀ n, 0 ≤ d n := fun n => Finset.sum_nonneg fun _ _ => abs_nonneg _
  have hv : ∀ n, ∑ y, ((A ^ n) x y - p y) = 0 := by
    intro n
    rw [Finset.sum_sub_distrib, (hA.pow n).sum, hp, sub_self]
  have hstep : ∀ n k y, (A ^ (n + k)) x y - p y = ∑ w, ((A ^ n) x w - p w) * (A ^ k) w y := by
    intro n k y
    simp only [sub_mul, Finset.sum_sub_distrib, stationary_pow hs]
    rw [pow_add, Matrix.mul_apply]
  have hcon : ∀ n k ε (w : Ω), (∀ x, ε ≤ (A ^ k) x w) → d (n + k) ≤ (1 - ε) * d n := by
    intro n k ε w hw
    have := (hA.pow k).contract hw (hv n)
    simp only [← hstep] at this
    exact this
  have hanti : Antitone d := antitone_nat_of_succ_le fun n => by
    have := hcon n 1 0 z (fun x => (hA.pow 1).nonneg x z)
    linarith
  have hlim := tendsto_atTop_ciInf hanti ⟨0, by rintro _ ⟨n, rfl⟩; exact hd0 n⟩
  set L := ⨅ n, d n
  have hL0 : 0 ≤ L := ge_of_tendsto' hlim hd0
  have hshift : Tendsto (fun n => d (n + N)) atTop (𝓝 L) := (tendsto_add_atTop_iff_nat N).2 hlim
  have hL1 : L ≤ (1 - δ) * L := le_of_tendsto_of_tendsto' hshift (hlim.const_mul (1 - δ))
    fun n => hcon n N δ z hz
  have hL : L = 0 := by
    have : δ * L ≤ 0 := by linarith
    exact le_antisymm (nonpos_of_mul_nonpos_right this hδ) hL0
  rw [hL] at hlim
  rw [tendsto_iff_dist_tendsto_zero]
  refine squeeze_zero (fun n => dist_nonneg) (fun n => ?_) hlim
  rw [Real.dist_eq]
  exact Finset.single_le_sum (f := fun y => |(A ^ n) x y - p y|) (fun _ _ => abs_nonneg _) (Finset.mem_univ y)

/-- Detailed balance holds for several steps as well. -/
theorem balance_pow {A : Matrix Ω Ω ℝ} {p : Ω → ℝ} (hb : ∀ x y, p x * A x y = p y * A y x) (n : ℕ) (x y : Ω) :
    p x * (A ^ n) x y = p y * (A ^ n) y x := by
  induction n generalizing x y with
  | zero =>
    rw [pow_zero, Matrix.one_apply, Matrix.one_apply]
    by_cases h : x = y
    · subst h; rfl
    · rw [if_neg h, if_neg (fun h' => h h'.symm), mul_zero, mul_zero]
  | succ n ih =>
    have e1 : (A ^ (n + 1)) x y = ∑ z, (A ^ n) x z * A z y := by rw [pow_succ, Matrix.mul_apply]
    have e2 : (A ^ (n + 1)) y x = ∑ z, A y z * (A ^ n) z x := by rw [pow_succ', Matrix.mul_apply]
    rw [e1, e2, Finset.mul_sum, Finset.mul_sum]
    refine Finset.sum_congr rfl fun z _ => ?_
    rw [← mul_assoc, ih, mul_right_comm, hb z y]
    ring

end GoSelect
