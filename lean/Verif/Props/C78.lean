import Verif.Props.C65_C66
import Mathlib.Analysis.SpecialFunctions.Pow.Real

/-! # C78: the generalised cross-validation score -/

namespace GoSelect.Spec

open Finset

/-- `b` are least-squares coefficients for all rows but `i`. -/
def LeaveOneOut {K : Type} [CommRing K] [LE K] (X : Mat K) (b y : Nat → K) (i : Nat) : Prop :=
  ∀ b', ∑ j ∈ (range X.nr).erase i, (lin X b j - y j) ^ 2 ≤ ∑ j ∈ (range X.nr).erase i, (lin X b' j - y j) ^ 2

end GoSelect.Spec

namespace GoSelect

open Finset Spec

section
variable {K : Type} [Field K] [LinearOrder K] [IsStrictOrderedRing K]

/-- C78: the hat matrix maps the data to the predictions of any least-squares solution. -/
theorem C78_hat (d : SVD K) (X : Mat K) (h : d.Of X)
    (hs : ∀ k, k < d.p → d.s k = 0 ∨ 1 / 10 ^ 6 < d.s k * d.s k) (b y : Nat → K)
    (hb : IsLeastSquares X b y) (i : Nat) (hi : i < X.nr) :
    lin X b i = ∑ j ∈ range X.nr, (denumMatrixGcv d X).get i j * y j := by
  obtain ⟨-, -, hsym, -, hfix⟩ := C66_projection d X h hs
  set H := denumMatrixGcv d X with hH
  have hsym' : ∀ a c, a < X.nr → c < X.nr → H.get a c = H.get c a := fun a c ha hc =>
    congrFun (congrFun hsym ⟨c, hc⟩) ⟨a, ha⟩
  have hfix' : ∀ a j, a < X.nr → j < X.nc → ∑ e ∈ range X.nr, H.get a e * X.get e j = X.get a j := by
    intro a j ha hj
    have := congrFun (congrFun hfix ⟨a, ha⟩) ⟨j, hj⟩
    rw [Matrix.mul_apply] at this
    simp only [toMatrix, Matrix.of_apply] at this
    rw [Fin.sum_univ_eq_sum_range (fun e => H.get a e * X.get e j) X.nr] at this
    exact this
  -- coefficients that produce `H y`
  let c : Nat → K := fun a => ∑ b ∈ range X.nc, (pseudoInverseXTX d X (1 / 10 ^ 6)).get a b *
    ∑ e ∈ range X.nr, X.get e b * y e
  have hc : ∀ a, lin X c a = ∑ e ∈ range X.nr, H.get a e * y e := by
    intro a
    have e1 : ∀ e, H.get a e = ∑ f ∈ range X.nc, X.get a f * ∑ g ∈ range X.nc,
        (pseudoInverseXTX d X (1 / 10 ^ 6)).get f g * X.get e g := fun e => rfl
    simp only [e1, Finset.sum_mul]
    rw [Finset.sum_comm]
    unfold lin
    refine Finset.sum_congr rfl (fun f _ => ?_)
    have e2 : ∀ e, X.get a f * (∑ g ∈ range X.nc, (pseudoInverseXTX d X (1 / 10 ^ 6)).get f g * X.get e g) * y e =
        X.get a f * ∑ g ∈ range X.nc, (pseudoInverseXTX d X (1 / 10 ^ 6)).get f g * (X.get e g * y e) := by
      intro e
      rw [mul_assoc, Finset.sum_mul]
      congr 1
      exact Finset.sum_congr rfl (fun g _ => by ring)
    simp only [e2]
    rw [← Finset.mul_sum, Finset.sum_comm]
    congr 1
    exact Finset.sum_congr rfl (fun g _ => by rw [Finset.mul_sum])
  have hls : IsLeastSquares X c y := by
    apply isLeastSquares_of_orthogonal
    intro b'
    have e : ∀ a ∈ range X.nr, (lin X c a - y a) * lin X b' a =
        ∑ j ∈ range X.nc, b' j * (lin X c a * X.get a j - y a * X.get a j) := by
      intro a _
      conv_lhs => unfold lin
      rw [Finset.mul_sum]
      exact Finset.sum_congr rfl (fun j _ => by unfold lin; ring)
    rw [Finset.sum_congr rfl e, Finset.sum_comm]
    refine Finset.sum_eq_zero (fun j hj => ?_)
    rw [← Finset.mul_sum, Finset.sum_sub_distrib]
    have e3 : ∑ a ∈ range X.nr, lin X c a * X.get a j = ∑ a ∈ range X.nr, y a * X.get a j := by
      have : ∀ a ∈ range X.nr, lin X c a * X.get a j = ∑ e ∈ range X.nr, y e * (H.get e a * X.get a j) := by
        intro a ha
        rw [hc, Finset.sum_mul]
        exact Finset.sum_congr rfl (fun e he => by rw [hsym' a e (mem_range.1 ha) (mem_range.1 he)]; ring)
      rw [Finset.sum_congr rfl this, Finset.sum_comm]
      refine Finset.sum_congr rfl (fun e he => ?_)
      rw [← Finset.mul_sum, hfix' e j (mem_range.1 he) (mem_range.1 hj)]
    rw [e3, sub_self, mul_zero]
  rw [← hc, leastSquares_lin_eq X c b y hls hb i hi]

/-- C78: the leave-one-out residual of row `i` is the residual divided by one minus the diagonal entry. -/
theorem C78_leave_one_out (d : SVD K) (X : Mat K) (h : d.Of X)
    (hs : ∀ k, k < d.p → d.s k = 0 ∨ 1 / 10 ^ 6 < d.s k * d.s k) (b b' y : Nat → K)
    (hb : IsLeastSquares X b y) (i : Nat) (hi : i < X.nr) (hb' : LeaveOneOut X b' y i)
    (hne : (denumMatrixGcv d X).get i i ≠ 1) :
    y i - lin X b' i = (y i - lin X b i) / (1 - (denumMatrixGcv d X).get i i) := by
  let y' : Nat → K := fun j => if j = i then lin X b' i else y j
  have hmem : i ∈ range X.nr := mem_range.2 hi
  have hsplit : ∀ a, sse X a y' = (lin X a i - lin X b' i) ^ 2 + ∑ j ∈ (range X.nr).erase i, (lin X a j - y j) ^ 2 := by
    intro a
    unfold sse
    rw [← Finset.add_sum_erase _ _ hmem]
    congr 1
    · simp [y']
    · exact Finset.sum_congr rfl (fun j hj => by simp [y', Finset.ne_of_mem_erase hj])
  have hls : IsLeastSquares X b' y' := by
    intro a
    rw [hsplit, hsplit, sub_self]
    have := hb' a
    nlinarith [sq_nonneg (lin X a i - lin X b' i)]
  have e1 := C78_hat d X h hs b' y' hls i hi
  have e2 := C78_hat d X h hs b y hb i hi
  rw [← Finset.add_sum_erase _ _ hmem] at e1 e2
  have e3 : ∑ j ∈ (range X.nr).erase i, (denumMatrixGcv d X).get i j * y' j =
      ∑ j ∈ (range X.nr).erase i, (denumMatrixGcv d X).get i j * y j :=
    Finset.sum_congr rfl (fun j hj => by simp [y', Finset.ne_of_mem_erase hj])
  have e4 : y' i = lin X b' i := by simp [y']
  rw [e3, e4] at e1
  rw [eq_div_iff (sub_ne_zero.2 (Ne.symm hne))]
  linear_combination (norm := ring_nf) (-1 : K) * e1 + e2
end

/-- Full C78: the score is the root mean square of the leave-one-out residuals.  False: `C78_refuted`. -/
def Spec.GcvIsLoo : Prop := ∀ (d : SVD ℝ) (X : Mat ℝ) (c y : List ℝ) (b : Nat → Nat → ℝ) (g : ℝ), d.Of X →
  (∀ k, k < d.p → d.s k = 0 ∨ 1 / 10 ^ 6 < d.s k * d.s k) → y.length = X.nr →
  IsLeastSquares X (vec c) (vec y) → (∀ i, i < X.nr → LeaveOneOut X (b i) (vec y) i) →
  (∀ i, i < X.nr → (denumMatrixGcv d X).get i i ≠ 1) →
  gcv (denumMatrixGcv d X) y ((List.range X.nr).map (lin X (vec c))) = some g →
  g = Real.sqrt ((∑ i ∈ range X.nr, (vec y i - lin X (b i) i) ^ 2) / X.nr)

/-- C78: for least-squares predictions the score lies between the root mean square residual and the root mean
square leave-one-out residual. -/
theorem C78_between_partial (d : SVD ℝ) (X : Mat ℝ) (c y : List ℝ) (b : Nat → Nat → ℝ) (g : ℝ) (h : d.Of X)
    (hs : ∀ k, k < d.p → d.s k = 0 ∨ 1 / 10 ^ 6 < d.s k * d.s k) (hy : y.length = X.nr)
    (hc : IsLeastSquares X (vec c) (vec y)) (hb : ∀ i, i < X.nr → LeaveOneOut X (b i) (vec y) i)
    (hne : ∀ i, i < X.nr → (denumMatrixGcv d X).get i i ≠ 1)
    (hg : gcv (denumMatrixGcv d X) y ((List.range X.nr).map (lin X (vec c))) = some g) :
    Real.sqrt (sse X (vec c) (vec y) / X.nr) ≤ g ∧
      g ≤ Real.sqrt ((∑ i ∈ range X.nr, (vec y i - lin X (b i) i) ^ 2) / X.nr) := by
  unfold gcv at hg
  split at hg
  · cases hg
  obtain rfl := Option.some.inj hg
  have hh : ∀ i, i < X.nr → 0 < 1 - (denumMatrixGcv d X).get i i ∧ 1 - (denumMatrixGcv d X).get i i ≤ 1 := by
    intro i hi
    obtain ⟨h1, h2⟩ := C66_diagonal d X h hs i hi
    have := lt_of_le_of_ne h2 (hne i hi)
    exact ⟨by linarith, by linarith⟩
  rw [hy, List.length_map, List.length_range]
  have hp : ∀ i, i < X.nr → ((List.range X.nr).map (lin X (vec c))).getD i 0 = lin X (vec c) i := by
    intro i hi
    rw [getD_map_range, if_pos hi]
  constructor
  · refine Real.sqrt_le_sqrt (div_le_div_of_nonneg_right ?_ (Nat.cast_nonneg _))
    unfold sse
    refine Finset.sum_le_sum (fun i hi => ?_)
    obtain ⟨h1, h2⟩ := hh i (mem_range.1 hi)
    rw [hp i (mem_range.1 hi), le_div_iff₀ h1]
    have hsq := sq_nonneg (lin X (vec c) i - vec y i)
    show (lin X (vec c) i - vec y i) ^ 2 * _ ≤ (vec y i - lin X (vec c) i) ^ 2
    nlinarith
  · refine Real.sqrt_le_sqrt (div_le_div_of_nonneg_right ?_ (Nat.cast_nonneg _))
    refine Finset.sum_le_sum (fun i hi => ?_)
    obtain ⟨h1, h2⟩ := hh i (mem_range.1 hi)
    rw [hp i (mem_range.1 hi), C78_leave_one_out d X h hs (vec c) (b i) (vec y) hc i (mem_range.1 hi)
      (hb i (mem_range.1 hi)) (hne i (mem_range.1 hi)), div_pow]
    refine div_le_div_of_nonneg_left (sq_nonneg _) (by positivity) ?_
    nlinarith

/-- One column of norm 1. -/
def gcvX (K : Type) [Field K] : Mat K := ⟨2, 1, fun i _ => if i = 0 then 3 / 5 else 4 / 5⟩

theorem gcvX_of : (orthSvd (gcvX ℝ)).Of (gcvX ℝ) := by
  refine (orthSvd_untruncated (X := gcvX ℝ) (by decide) ?_).1
  intro a b ha hb
  have ha : a = 0 := by simpa [gcvX] using ha
  have hb : b = 0 := by simpa [gcvX] using hb
  subst ha hb
  simp only [gcvX, Finset.sum_range_succ, Finset.sum_range_zero]
  norm_num

theorem gcvX_diag (i : Nat) (hi : i < 2) :
    (denumMatrixGcv (orthSvd (gcvX ℝ)) (gcvX ℝ)).get i i = if i = 0 then 9 / 25 else 16 / 25 := by
  have : i = 0 ∨ i = 1 := by omega
  rcases this with rfl | rfl <;>
  · simp only [denumMatrixGcv, pseudoInverseXTX, orthSvd, gcvX, Finset.sum_range_succ, Finset.sum_range_zero]
    norm_num

/-- The hypotheses of C78 hold for `gcvX`, data (4, -3) and coefficient 0. -/
theorem gcvX_meets : (orthSvd (gcvX ℝ)).Of (gcvX ℝ) ∧
    (∀ k, k < (orthSvd (gcvX ℝ)).p → (orthSvd (gcvX ℝ)).s k = 0 ∨
      1 / 10 ^ 6 < (orthSvd (gcvX ℝ)).s k * (orthSvd (gcvX ℝ)).s k) ∧
    IsLeastSquares (gcvX ℝ) (vec [0]) (vec [4, -3]) ∧
    (∀ i, i < 2 → LeaveOneOut (gcvX ℝ) (fun _ => if i = 0 then -15 / 4 else 20 / 3) (vec [4, -3]) i) ∧
    (∀ i, i < 2 → (denumMatrixGcv (orthSvd (gcvX ℝ)) (gcvX ℝ)).get i i ≠ 1) ∧
    gcv (denumMatrixGcv (orthSvd (gcvX ℝ)) (gcvX ℝ)) [4, -3]
      ((List.range 2).map (lin (gcvX ℝ) (vec [0]))) = some 5 := by
  refine ⟨gcvX_of, fun k _ => .inr ?_, ?_, ?_, ?_, ?_⟩
  · simp only [orthSvd]; norm_num
  · apply isLeastSquares_of_orthogonal
    intro b
    simp only [gcvX, lin, vec, Finset.sum_range_succ, Finset.sum_range_zero, List.getD_cons_zero,
      List.getD_cons_succ]
    norm_num
    ring
  · intro i hi b'
    have : i = 0 ∨ i = 1 := by omega
    rcases this with rfl | rfl
    · have e : (range (gcvX ℝ).nr).erase 0 = {1} := by decide
      rw [e]
      simp only [Finset.sum_singleton]
      refine le_trans (le_of_eq ?_) (sq_nonneg _)
      simp only [gcvX, lin, vec, Finset.sum_range_succ, Finset.sum_range_zero, List.getD_cons_zero,
        List.getD_cons_succ]
      norm_num
    · have e : (range (gcvX ℝ).nr).erase 1 = {0} := by decide
      rw [e]
      simp only [Finset.sum_singleton]
      refine le_trans (le_of_eq ?_) (sq_nonneg _)
      simp only [gcvX, lin, vec, Finset.sum_range_succ, Finset.sum_range_zero, List.getD_cons_zero,
        List.getD_cons_succ]
      norm_num
  · intro i hi
    rw [gcvX_diag i hi]
    split <;> norm_num
  · unfold gcv
    rw [if_neg (by simp [denumMatrixGcv, gcvX])]
    have hsum : (∑ i ∈ range ([4, -3] : List ℝ).length, (([4, -3] : List ℝ).getD i 0 -
        ((List.range 2).map (lin (gcvX ℝ) (vec [0]))).getD i 0) ^ 2 /
        (1 - (denumMatrixGcv (orthSvd (gcvX ℝ)) (gcvX ℝ)).get i i)) = 50 := by
      show ∑ i ∈ range 2, _ = _
      rw [Finset.sum_range_succ, Finset.sum_range_one, gcvX_diag 0 (by decide), gcvX_diag 1 (by decide)]
      simp only [getD_map_range, gcvX, lin, vec, Finset.sum_range_succ, Finset.sum_range_zero,
        List.getD_cons_zero, List.getD_cons_succ]
      norm_num
    rw [hsum]
    simp only [List.length_map, List.length_range]
    rw [show (50 : ℝ) / ((2 : ℕ) : ℝ) = 5 ^ 2 by norm_num, Real.sqrt_sq (by norm_num)]

/-- C78: the full statement is false, the code divides the squared residual by the unsquared factor. -/
theorem C78_refuted : ¬ Spec.GcvIsLoo := by
  intro hall
  obtain ⟨h1, h2, h3, h4, h5, h6⟩ := gcvX_meets
  have h := hall _ (gcvX ℝ) [0] [4, -3] (fun i _ => if i = 0 then -15 / 4 else 20 / 3) 5 h1 h2 rfl h3 h4 h5 h6
  have hsum : ∑ i ∈ range (gcvX ℝ).nr, (vec [4, -3] i -
      lin (gcvX ℝ) (fun _ => if i = 0 then (-15 / 4 : ℝ) else 20 / 3) i) ^ 2 = 15625 / 144 := by
    simp only [gcvX, lin, vec, Finset.sum_range_succ, Finset.sum_range_zero, List.getD_cons_zero,
      List.getD_cons_succ]
    norm_num
  rw [hsum] at h
  have h7 : (5 : ℝ) ^ 2 = 15625 / 144 / ((gcvX ℝ).nr : ℝ) := by
    conv_lhs => rw [h]
    exact Real.sq_sqrt (by positivity)
  have h8 : ((gcvX ℝ).nr : ℝ) = 2 := by norm_num [gcvX]
  rw [h8] at h7
  norm_num at h7

end GoSelect
