import Verif.Model.Covariance
import Mathlib.Algebra.Order.BigOperators.Ring.Finset
import Mathlib.Algebra.BigOperators.Field
import Mathlib.Algebra.Order.Field.Rat
import Mathlib.Data.Rat.Cast.Defs
import Mathlib.Tactic.Ring
import Mathlib.Tactic.Linarith
import Mathlib.Tactic.FieldSimp
import Mathlib.Tactic.Positivity
import Mathlib.Tactic.NormNum

/-!
# C59: thresholding, C60: covariance matrices, C61: random row splits, C76: thresholded covariance
-/

namespace GoSelect

open Finset

variable {K : Type} [Field K] [LinearOrder K]

/-! ### C59 -/

/-- State of the inner loop after the columns in `l`. -/
theorem thresholdRow (t : K) (i : Nat) (l : List Nat) (hl : l.Nodup) (s : Mat K × Nat) :
    let r := l.foldl (thresholdEntry t i) s
    r.1.nr = s.1.nr ∧ r.1.nc = s.1.nc ∧
      (∀ a b, r.1.get a b = if a = i ∧ b ∈ l ∧ |s.1.get a b| < t then 0 else s.1.get a b) ∧
      r.2 = s.2 + l.countP (fun j => decide (|s.1.get i j| < t)) := by
  induction l generalizing s with
  | nil => simp
  | cons j l ih =>
    rw [List.nodup_cons] at hl
    obtain ⟨h1, h2, h3, h4⟩ := ih hl.2 (thresholdEntry t i s j)
    simp only [List.foldl_cons]
    have hget : ∀ a b, (thresholdEntry t i s j).1.get a b =
        if a = i ∧ b = j ∧ |s.1.get a b| < t then 0 else s.1.get a b := by
      intro a b
      unfold thresholdEntry
      by_cases h : |s.1.get i j| < t
      · rw [if_pos h]
        simp only [Mat.set]
        by_cases hab : a = i ∧ b = j
        · rw [if_pos hab, if_pos ⟨hab.1, hab.2, by rw [hab.1, hab.2]; exact h⟩]
        · rw [if_neg hab, if_neg (fun hc => hab ⟨hc.1, hc.2.1⟩)]
      · rw [if_neg h, if_neg]
        rintro ⟨rfl, rfl, hc⟩
        exact h hc
    have hother : ∀ b ∈ l, (thresholdEntry t i s j).1.get i b = s.1.get i b := by
      intro b hb
      rw [hget, if_neg]
      rintro ⟨-, rfl, -⟩
      exact hl.1 hb
    refine ⟨?_, ?_, ?_, ?_⟩
    · rw [h1]; unfold thresholdEntry; split <;> rfl
    · rw [h2]; unfold thresholdEntry; split <;> rfl
    · intro a b
      rw [h3, hget]
      by_cases hai : a = i
      · subst hai
        by_cases hbj : b = j
        · subst hbj
          by_cases hlt : |s.1.get a b| < t <;> simp [hlt, hl.1]
        · by_cases hbl : b ∈ l <;> simp [hbj, hbl]
      · simp [hai]
    · rw [h4, List.countP_cons]
      have e : l.countP (fun b => decide (|(thresholdEntry t i s j).1.get i b| < t)) =
          l.countP (fun b => decide (|s.1.get i b| < t)) := by
        apply List.countP_congr
        intro b hb
        rw [hother b hb]
      rw [e]
      unfold thresholdEntry
      by_cases h : |s.1.get i j| < t
      · simp [h]; omega
      · simp [h]

theorem thresholdRows (t : K) (n : Nat) (l : List Nat) (hl : l.Nodup) (s : Mat K × Nat) :
    let r := l.foldl (fun s i => (List.range n).foldl (thresholdEntry t i) s) s
    r.1.nr = s.1.nr ∧ r.1.nc = s.1.nc ∧
      (∀ a b, r.1.get a b = if a ∈ l ∧ b < n ∧ |s.1.get a b| < t then 0 else s.1.get a b) ∧
      r.2 = s.2 + (l.map (fun i => (List.range n).countP (fun j => decide (|s.1.get i j| < t)))).sum := by
  induction l generalizing s with
  | nil => simp
  | cons i l ih =>
    rw [List.nodup_cons] at hl
    obtain ⟨g1, g2, g3, g4⟩ := thresholdRow t i (List.range n) List.nodup_range s
    obtain ⟨h1, h2, h3, h4⟩ := ih hl.2 ((List.range n).foldl (thresholdEntry t i) s)
    simp only [List.foldl_cons]
    refine ⟨h1.trans g1, h2.trans g2, ?_, ?_⟩
    · intro a b
      rw [h3, g3]
      simp only [List.mem_range, List.mem_cons]
      by_cases hai : a = i
      · subst hai
        simp [hl.1]
      · simp [hai]
    · rw [h4, g4, List.map_cons, List.sum_cons, ← Nat.add_assoc]
      congr 2
      apply List.map_congr_left
      intro a ha
      apply List.countP_congr
      intro b _
      rw [g3, if_neg]
      rintro ⟨rfl, -⟩
      exact hl.1 ha

/-- C59: entries below the threshold become 0, the others stay; the dimensions stay. -/
theorem C59_apply (t : K) (X : Mat K) :
    (thresholdApply t X).1.nr = X.nr ∧ (thresholdApply t X).1.nc = X.nc ∧
      ∀ i j, i < X.nr → j < X.nc →
        (thresholdApply t X).1.get i j = if |X.get i j| < t then 0 else X.get i j := by
  obtain ⟨h1, h2, h3, -⟩ := thresholdRows t X.nc (List.range X.nr) List.nodup_range (X, 0)
  refine ⟨h1, h2, fun i j hi hj => ?_⟩
  unfold thresholdApply
  rw [h3]
  simp [hi, hj]

/-- C59: the counter is the number of positions with a magnitude below the threshold. -/
theorem C59_count (t : K) (X : Mat K) :
    (thresholdApply t X).2 =
      ((range X.nr ×ˢ range X.nc).filter (fun p => |X.get p.1 p.2| < t)).card := by
  obtain ⟨-, -, -, h4⟩ := thresholdRows t X.nc (List.range X.nr) List.nodup_range (X, 0)
  have h4' : (thresholdApply t X).2 = 0 + _ := h4
  rw [h4', Nat.zero_add, Finset.card_filter, Finset.sum_product]
  rw [show ∀ f : Nat → Nat, ((List.range X.nr).map f).sum = ∑ i ∈ range X.nr, f i from fun f => by
    rw [Finset.sum, Finset.range_val, ← Multiset.coe_range, Multiset.map_coe, Multiset.sum_coe]]
  refine Finset.sum_congr rfl (fun i _ => ?_)
  rw [← Finset.card_filter]
  rw [List.countP_eq_length_filter]
  rfl

/-- C59: applying the operator again changes nothing. -/
theorem C59_idempotent (t : K) (X : Mat K) (i j : Nat) (hi : i < X.nr) (hj : j < X.nc) :
    (thresholdApply t (thresholdApply t X).1).1.get i j = (thresholdApply t X).1.get i j := by
  obtain ⟨h1, h2, h3⟩ := C59_apply t X
  obtain ⟨-, -, g3⟩ := C59_apply t (thresholdApply t X).1
  rw [g3 i j (h1 ▸ hi) (h2 ▸ hj)]
  by_cases h : |(thresholdApply t X).1.get i j| < t
  · rw [if_pos h, h3 i j hi hj]
    rw [h3 i j hi hj] at h
    by_cases h' : |X.get i j| < t
    · rw [if_pos h']
    · rw [if_neg h'] at h
      exact absurd h h'
  · rw [if_neg h]

/-- An example with entries on both sides of the threshold and on it. -/
def exThr : Mat ℚ := ⟨2, 2, fun i j => if i = j then 2 else if i < j then -1 else 1 / 2⟩

example : (thresholdApply 1 exThr).2 = 1 ∧ (thresholdApply 1 exThr).1.get 1 0 = 0 ∧
    (thresholdApply 1 exThr).1.get 0 1 = -1 ∧ 1 < exThr.nr ∧ 1 < exThr.nc := by
  decide +kernel

/-! ### C60 -/

/-- The quadratic form of a matrix. -/
def Spec.quadForm (A : Mat K) (v : Nat → K) : K :=
  ∑ i ∈ range A.nr, ∑ j ∈ range A.nc, v i * A.get i j * v j

/-- Symmetric in the usual sense. -/
def Spec.Symmetric (A : Mat K) : Prop := A.nr = A.nc ∧ ∀ i j, A.get i j = A.get j i

/-- Mean of column `j`. -/
def Spec.colMean (X : Mat K) (j : Nat) : K := (∑ r ∈ range X.nr, X.get r j) / (X.nr : K)

open Spec

/-- C60: both covariance matrices are symmetric. -/
theorem C60_symmetric (X : Mat K) : Symmetric (empiricalCov X) ∧ Symmetric (covarianceMatrix X) := by
  refine ⟨⟨rfl, fun i j => ?_⟩, ⟨rfl, fun i j => ?_⟩⟩
  · simp only [empiricalCov]
    congr 1
    exact Finset.sum_congr rfl (fun r _ => mul_comm _ _)
  · simp only [covarianceMatrix]
    congr 1
    · congr 1
      exact Finset.sum_congr rfl (fun r _ => mul_comm _ _)
    · exact mul_comm _ _

variable [IsStrictOrderedRing K]

/-- C60: `CovarianceMatrix` is the mean of the centred outer products. -/
theorem C60_centred (X : Mat K) (hn : 0 < X.nr) (i j : Nat) :
    (covarianceMatrix X).get i j =
      (∑ r ∈ range X.nr, (X.get r i - colMean X i) * (X.get r j - colMean X j)) / (X.nr : K) := by
  have hn' : (X.nr : K) ≠ 0 := by exact_mod_cast hn.ne'
  have hmu : ∀ j, ∑ r ∈ range X.nr, X.get r j / (X.nr : K) = colMean X j := by
    intro j; rw [← Finset.sum_div]; rfl
  have hs : ∀ j, ∑ r ∈ range X.nr, X.get r j = colMean X j * X.nr := by
    intro j; unfold colMean; field_simp
  have e : ∑ r ∈ range X.nr, (X.get r i - colMean X i) * (X.get r j - colMean X j) =
      ∑ r ∈ range X.nr, X.get r i * X.get r j - colMean X i * colMean X j * X.nr := by
    have : ∀ r ∈ range X.nr, (X.get r i - colMean X i) * (X.get r j - colMean X j) =
        X.get r i * X.get r j - colMean X i * X.get r j - colMean X j * X.get r i +
          colMean X i * colMean X j := fun r _ => by ring
    rw [Finset.sum_congr rfl this, Finset.sum_add_distrib, Finset.sum_sub_distrib, Finset.sum_sub_distrib,
      ← Finset.mul_sum, ← Finset.mul_sum, hs i, hs j, Finset.sum_const, Finset.card_range, nsmul_eq_mul]
    ring
  rw [e]
  simp only [covarianceMatrix, hmu]
  field_simp

omit [LinearOrder K] [IsStrictOrderedRing K] in
/-- The quadratic form of a mean of outer products is a mean of squares. -/
theorem quadForm_outer (n m : Nat) (w : K) (x : Nat → Nat → K) (v : Nat → K) :
    ∑ i ∈ range n, ∑ j ∈ range n, v i * (w * ∑ r ∈ range m, x r i * x r j) * v j =
      w * ∑ r ∈ range m, (∑ i ∈ range n, x r i * v i) ^ 2 := by
  have : ∀ r ∈ range m, (∑ i ∈ range n, x r i * v i) ^ 2 =
      ∑ i ∈ range n, ∑ j ∈ range n, v i * (x r i * x r j) * v j := by
    intro r _
    rw [sq, Finset.sum_mul_sum]
    exact Finset.sum_congr rfl (fun i _ => Finset.sum_congr rfl (fun j _ => by ring))
  rw [Finset.sum_congr rfl this]
  conv_rhs => rw [Finset.sum_comm, Finset.mul_sum]
  refine Finset.sum_congr rfl (fun i _ => ?_)
  conv_rhs => rw [Finset.sum_comm, Finset.mul_sum]
  refine Finset.sum_congr rfl (fun j _ => ?_)
  rw [Finset.mul_sum, Finset.mul_sum, Finset.mul_sum, Finset.sum_mul]
  exact Finset.sum_congr rfl (fun r _ => by ring)

/-- C60: the quadratic form of `Empirical.Get` is the mean of the squared predictions, hence
non-negative. -/
theorem C60_empirical (X : Mat K) (v : Nat → K) :
    quadForm (empiricalCov X) v = (1 / (X.nr : K)) * ∑ r ∈ range X.nr, (∑ i ∈ range X.nc, X.get r i * v i) ^ 2 ∧
      0 ≤ quadForm (empiricalCov X) v := by
  have h : quadForm (empiricalCov X) v =
      (1 / (X.nr : K)) * ∑ r ∈ range X.nr, (∑ i ∈ range X.nc, X.get r i * v i) ^ 2 :=
    quadForm_outer X.nc X.nr _ X.get v
  refine ⟨h, ?_⟩
  rw [h]
  exact mul_nonneg (by positivity) (Finset.sum_nonneg (fun _ _ => sq_nonneg _))

/-- C60: the quadratic form of `CovarianceMatrix` is non-negative. -/
theorem C60_covariance (X : Mat K) (hn : 0 < X.nr) (v : Nat → K) : 0 ≤ quadForm (covarianceMatrix X) v := by
  have h : quadForm (covarianceMatrix X) v = (1 / (X.nr : K)) *
      ∑ r ∈ range X.nr, (∑ i ∈ range X.nc, (X.get r i - colMean X i) * v i) ^ 2 := by
    rw [← quadForm_outer X.nc X.nr (1 / (X.nr : K)) (fun r i => X.get r i - colMean X i) v]
    unfold quadForm
    refine Finset.sum_congr rfl (fun i _ => Finset.sum_congr rfl (fun j _ => ?_))
    rw [C60_centred X hn i j, div_eq_inv_mul, one_div]
  rw [h]
  exact mul_nonneg (by positivity) (Finset.sum_nonneg (fun _ _ => sq_nonneg _))

/-- Non-trivial data. -/
def exCov : Mat ℚ := ⟨2, 3, fun i j => if i = 0 then [2, 2, 1].getD j 0 else [1, 2, 2].getD j 0⟩

example : 0 < exCov.nr ∧ (covarianceMatrix exCov).get 0 2 = -1 / 4 ∧
    quadForm (covarianceMatrix exCov) (fun _ => 1) = 0 ∧
    quadForm (covarianceMatrix exCov) (fun i => i) = 1 := by
  decide +kernel

/-! ### C76 -/

/-- C76: the thresholded covariance matrix is symmetric and has the entries of the empirical covariance
matrix that are not below the threshold. -/
theorem C76_entries (X0 X : Mat K) (t : K) (A : Mat K) (h : sparseThresholdedGet X0 t X = some A) :
    A.nr = X.nc ∧ A.nc = X.nc ∧
      (∀ i j, i < X.nc → j < X.nc →
        A.get i j = if |(empiricalCov X).get i j| < t then 0 else (empiricalCov X).get i j) ∧
      ∀ i j, i < X.nc → j < X.nc → A.get i j = A.get j i := by
  unfold sparseThresholdedGet at h
  split at h
  swap
  · cases h
  obtain rfl := Option.some.inj h
  obtain ⟨h1, h2, h3⟩ := C59_apply t (empiricalCov X)
  refine ⟨h1, h2, h3, fun i j hi hj => ?_⟩
  rw [h3 i j hi hj, h3 j i hj hi, (C60_symmetric X).1.2 i j]

omit [IsStrictOrderedRing K] in
/-- C76: the call panics exactly when the matrix differs from the one of the constructor by more than the
tolerance. -/
theorem C76_panic (X0 X : Mat K) (t : K) :
    sparseThresholdedGet X0 t X = none ↔
      ¬ (X.nr = X0.nr ∧ X.nc = X0.nc ∧ ∀ r c, r < X.nr → c < X.nc →
        X.get r c = X0.get r c ∨ |X.get r c - X0.get r c| ≤ 1 / 10 ^ 10 ∨
          |X.get r c - X0.get r c| / max |X.get r c| |X0.get r c| ≤ 1 / 10 ^ 10) := by
  have key : matEqualApprox eqTol X X0 = true ↔
      (X.nr = X0.nr ∧ X.nc = X0.nc ∧ ∀ r c, r < X.nr → c < X.nc →
        X.get r c = X0.get r c ∨ |X.get r c - X0.get r c| ≤ 1 / 10 ^ 10 ∨
          |X.get r c - X0.get r c| / max |X.get r c| |X0.get r c| ≤ 1 / 10 ^ 10) := by
    unfold matEqualApprox
    simp only [Bool.and_eq_true, decide_eq_true_eq, List.all_eq_true, List.mem_range, eqWithin,
      Bool.or_eq_true, and_assoc, or_assoc]
    constructor
    · rintro ⟨a, b, c⟩
      exact ⟨a, b, fun r q hr hq => c r hr q hq⟩
    · rintro ⟨a, b, c⟩
      exact ⟨a, b, fun r hr q hq => c r q hr hq⟩
  rw [← key]
  unfold sparseThresholdedGet
  by_cases h : matEqualApprox eqTol X X0 = true <;> simp [h]

/-- C76 refuted: the thresholded covariance matrix need not be positive semidefinite. -/
theorem C76_refuted : ∃ (X : Mat ℚ) (t : ℚ) (A : Mat ℚ) (v : Nat → ℚ), 0 < t ∧
    sparseThresholdedGet X t X = some A ∧ quadForm A v < 0 := by
  refine ⟨⟨2, 3, fun i j => if i = 0 then [2, 2, 1].getD j 0 else [1, 2, 2].getD j 0⟩, 5 / 2, _,
    fun i => if i = 1 then -3 / 2 else 1, by norm_num, if_pos (by decide +kernel), by decide +kernel⟩

/-- C76: with a threshold that removes no non-zero entry the quadratic form is non-negative. -/
theorem C76_psd_partial (X0 X : Mat K) (t : K) (A : Mat K) (h : sparseThresholdedGet X0 t X = some A)
    (hk : ∀ i j, i < X.nc → j < X.nc → (empiricalCov X).get i j ≠ 0 → t ≤ |(empiricalCov X).get i j|)
    (v : Nat → K) : 0 ≤ quadForm A v := by
  obtain ⟨h1, h2, h3, -⟩ := C76_entries X0 X t A h
  have : quadForm A v = quadForm (empiricalCov X) v := by
    unfold quadForm
    rw [h1, h2]
    refine Finset.sum_congr rfl (fun i hi => Finset.sum_congr rfl (fun j hj => ?_))
    rw [h3 i j (mem_range.1 hi) (mem_range.1 hj)]
    split
    · rename_i hlt
      by_contra hne
      have : (empiricalCov X).get i j ≠ 0 := by
        intro h0; rw [h0] at hne; exact hne rfl
      exact absurd hlt (not_lt.2 (hk i j (mem_range.1 hi) (mem_range.1 hj) this))
    · rfl
  rw [this]
  exact (C60_empirical X v).2

example : ∃ A, sparseThresholdedGet exCov (1 / 2) exCov = some A ∧
    ∀ i, i < exCov.nc → ∀ j, j < exCov.nc → (empiricalCov exCov).get i j ≠ 0 →
      (1 / 2 : ℚ) ≤ |(empiricalCov exCov).get i j| :=
  ⟨_, if_pos (by decide +kernel), by decide +kernel⟩

/-- C76: if in every row of the result the diagonal entry is at least the sum of the absolute values of the other
entries, the quadratic form is non-negative, whatever was removed. -/
theorem C76_dominant_partial (X0 X : Mat K) (t : K) (A : Mat K) (h : sparseThresholdedGet X0 t X = some A)
    (hdom : ∀ i < X.nc, ∑ j ∈ (range X.nc).erase i, |A.get i j| ≤ A.get i i) (v : Nat → K) : 0 ≤ quadForm A v := by
  obtain ⟨h1, h2, -, hsym⟩ := C76_entries X0 X t A h
  unfold quadForm
  rw [h1, h2]
  have hrow : ∀ i ∈ range X.nc, (∑ j ∈ (range X.nc).erase i, |A.get i j| * ((v i ^ 2 - v j ^ 2) / 2)) ≤
      ∑ j ∈ range X.nc, v i * A.get i j * v j := by
    intro i hi
    rw [← Finset.add_sum_erase _ _ hi]
    have e1 : (∑ j ∈ (range X.nc).erase i, |A.get i j|) * v i ^ 2 ≤ A.get i i * v i ^ 2 :=
      mul_le_mul_of_nonneg_right (hdom i (mem_range.1 hi)) (sq_nonneg _)
    have e2 : ∑ j ∈ (range X.nc).erase i, (|A.get i j| * ((v i ^ 2 - v j ^ 2) / 2) - |A.get i j| * v i ^ 2) ≤
        ∑ j ∈ (range X.nc).erase i, v i * A.get i j * v j := by
      refine Finset.sum_le_sum (fun j _ => ?_)
      have h3 : -(|A.get i j| * |v i * v j|) ≤ A.get i j * (v i * v j) := by
        rw [← abs_mul]; exact neg_abs_le _
      have h4 : |v i * v j| ≤ (v i ^ 2 + v j ^ 2) / 2 := by
        rw [abs_le]; constructor <;> nlinarith [sq_nonneg (v i + v j), sq_nonneg (v i - v j)]
      have h5 := mul_le_mul_of_nonneg_left h4 (abs_nonneg (A.get i j))
      nlinarith
    rw [Finset.sum_sub_distrib, ← Finset.sum_mul] at e2
    nlinarith
  refine le_trans ?_ (Finset.sum_le_sum hrow)
  have e : ∀ i ∈ range X.nc, (∑ j ∈ (range X.nc).erase i, |A.get i j| * ((v i ^ 2 - v j ^ 2) / 2)) =
      ∑ j ∈ range X.nc, |A.get i j| * ((v i ^ 2 - v j ^ 2) / 2) := by
    intro i hi
    rw [← Finset.add_sum_erase _ _ hi]
    simp
  rw [Finset.sum_congr rfl e]
  have hz : ∑ i ∈ range X.nc, ∑ j ∈ range X.nc, |A.get i j| * ((v i ^ 2 - v j ^ 2) / 2) =
      -∑ i ∈ range X.nc, ∑ j ∈ range X.nc, |A.get i j| * ((v i ^ 2 - v j ^ 2) / 2) := by
    conv_lhs => rw [Finset.sum_comm]
    rw [← Finset.sum_neg_distrib]
    refine Finset.sum_congr rfl (fun i hi => ?_)
    rw [← Finset.sum_neg_distrib]
    refine Finset.sum_congr rfl (fun j hj => ?_)
    rw [hsym j i (mem_range.1 hj) (mem_range.1 hi)]
    ring
  linarith

/-- Two entries are removed and one off the diagonal stays. -/
example : let X : Mat ℚ := ⟨3, 3, fun i j => ([[6, 2, 1], [0, 6, 1], [0, 0, 6]].getD i []).getD j 0⟩
    ∃ A, sparseThresholdedGet X 3 X = some A ∧ (empiricalCov X).get 0 2 = 2 ∧ A.get 0 2 = 0 ∧ A.get 0 1 = 4 ∧
      ∀ i < X.nc, ∑ j ∈ (range X.nc).erase i, |A.get i j| ≤ A.get i i :=
  ⟨_, if_pos (by decide +kernel), by decide +kernel⟩

/-! ### C61 -/

omit [Field K] [LinearOrder K] [IsStrictOrderedRing K] in
/-- C61: the call panics exactly when one of the parts is empty. -/
theorem C61_panic (X : Mat K) (num : Int) (indices : List Nat) :
    randomRowSplit X num indices = none ↔ ¬ (0 < num ∧ num < X.nr ∧ 0 < X.nc) := by
  unfold randomRowSplit
  simp only
  split
  · simp; omega
  · simp; omega

omit [Field K] [LinearOrder K] [IsStrictOrderedRing K] in
/-- C61: for every outcome of the shuffle the rows of the two results, one after the other, are a
rearrangement of the rows of `X`: there is a bijection between the rows of `X` and the rows of the
results. -/
theorem C61_partition (X : Mat K) (num : Int) (indices : List Nat)
    (hs : List.Perm indices (List.range X.nr)) (A B : Mat K) (h : randomRowSplit X num indices = some (A, B)) :
    (A.nr : Int) = num ∧ A.nr + B.nr = X.nr ∧ A.nc = X.nc ∧ B.nc = X.nc ∧
      List.Perm ((List.range A.nr).map A.get ++ (List.range B.nr).map B.get)
        ((List.range X.nr).map X.get) := by
  unfold randomRowSplit at h
  simp only at h
  split at h
  · cases h
  rename_i hc
  simp only [Option.some.injEq, Prod.mk.injEq] at h
  obtain ⟨rfl, rfl⟩ := h
  have hlen : indices.length = X.nr := by rw [hs.length_eq, List.length_range]
  refine ⟨by simp; omega, by simp; omega, rfl, rfl, ?_⟩
  have e : (List.range num.toNat).map (fun i => (fun j => X.get (indices.getD i 0) j)) ++
      (List.range ((X.nr : Int) - num).toNat).map (fun i => (fun j => X.get (indices.getD (i + num.toNat) 0) j)) =
      indices.map X.get := by
    apply List.ext_getElem?
    intro q
    by_cases hq : q < num.toNat
    · rw [List.getElem?_append_left (by simpa using hq)]
      have : q < indices.length := by omega
      simp [hq, this, List.getD_eq_getElem?_getD]
    · rw [List.getElem?_append_right (by simp; omega)]
      simp only [List.length_map, List.length_range]
      by_cases hq2 : q < indices.length
      · have h1 : q - num.toNat < ((X.nr : Int) - num).toNat := by omega
        have h2 : q - num.toNat + num.toNat = q := by omega
        simp [h1, hq2, h2, List.getD_eq_getElem?_getD]
      · have h1 : ¬ q - num.toNat < ((X.nr : Int) - num).toNat := by omega
        simp [h1, hq2]
  change List.Perm ((List.range num.toNat).map (fun i => (fun j => X.get (indices.getD i 0) j)) ++
      (List.range ((X.nr : Int) - num).toNat).map (fun i => (fun j => X.get (indices.getD (i + num.toNat) 0) j))) _
  rw [e]
  exact hs.map _

example : ∃ A B, randomRowSplit exCov 1 [1, 0] = some (A, B) ∧ List.Perm [1, 0] (List.range exCov.nr) ∧
    A.get 0 0 = 1 ∧ B.get 0 0 = 2 :=
  ⟨_, _, rfl, by decide, rfl, rfl⟩

end GoSelect
