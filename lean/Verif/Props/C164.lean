import Verif.Props.C59_C61
import Verif.Props.C161

/-!
# C164: thresholding finds sparse covariance matrices
-/

namespace GoSelect

open Finset Spec

section
variable {K : Type} [Field K] [LinearOrder K]

namespace Spec

/-- `A` has the zeros of `S` and the signs of its large entries, and is within `t + e` of it. -/
def Recovers (S : Mat K) (t e : K) (A : Mat K) : Prop :=
  A.nr = S.nr ∧ A.nc = S.nc ∧ ∀ i < S.nr, ∀ j < S.nc, (S.get i j = 0 → A.get i j = 0) ∧
    (t + e ≤ |S.get i j| → 0 < A.get i j * S.get i j) ∧ |A.get i j - S.get i j| ≤ t + e

/-- At most `s` entries in a row are not zero. -/
def SparseRows (S : Mat K) (s : Nat) : Prop :=
  ∀ i < S.nr, ((range S.nc).filter (fun j => S.get i j ≠ 0)).card ≤ s

end Spec

variable [IsStrictOrderedRing K]

/-- **C164.** If the empirical covariances are within `e` of `S` and the threshold `t` exceeds `e`, the thresholded matrix has the
zeros of `S`, the signs of its entries from `t + e` on, and entries within `t + e`. -/
theorem C164_recovers (X0 X S : Mat K) (t e : K) (he : e < t) (hS : S.nr = X.nc ∧ S.nc = X.nc)
    (hclose : ∀ i < X.nc, ∀ j < X.nc, |(empiricalCov X).get i j - S.get i j| ≤ e) (A : Mat K)
    (h : sparseThresholdedGet X0 t X = some A) : Recovers S t e A := by
  obtain ⟨h1, h2, h3, -⟩ := C76_entries X0 X t A h
  refine ⟨by rw [h1, hS.1], by rw [h2, hS.2], fun i hi j hj => ?_⟩
  rw [hS.1] at hi
  rw [hS.2] at hj
  have hc := hclose i hi j hj
  have he0 : 0 ≤ e := le_trans (abs_nonneg _) hc
  rw [h3 i j hi hj]
  generalize (empiricalCov X).get i j = a at *
  generalize S.get i j = b at *
  have hab := abs_le.1 hc
  refine ⟨fun hb => ?_, fun hb => ?_, ?_⟩
  · rw [hb, sub_zero] at hc
    rw [if_pos (lt_of_le_of_lt hc he)]
  · have h4 : t ≤ |a| := by
      have := abs_sub_abs_le_abs_sub b a
      rw [abs_sub_comm] at this
      linarith
    rw [if_neg (not_lt.2 h4)]
    rcases le_total 0 b with h5 | h5
    · rw [abs_of_nonneg h5] at hb
      exact mul_pos (by linarith) (by linarith)
    · rw [abs_of_nonpos h5] at hb
      exact mul_pos_of_neg_of_neg (by linarith) (by linarith)
  · split
    · rename_i h5
      have h6 := abs_lt.1 h5
      rw [abs_le]
      constructor <;> linarith
    · exact le_trans hc (by linarith)

/-- The difference of two quadratic forms, if it vanishes outside of the entries of a sparse symmetric matrix. -/
theorem quad_diff_le {S A : Mat K} {s : Nat} {u : K} (hu : 0 ≤ u) (hsq : S.nc = S.nr) (hn : A.nr = S.nr ∧ A.nc = S.nc)
    (hsym : ∀ i j, S.get i j = S.get j i) (hs : SparseRows S s)
    (h0 : ∀ i < S.nr, ∀ j < S.nc, S.get i j = 0 → A.get i j = 0)
    (hd : ∀ i < S.nr, ∀ j < S.nc, |A.get i j - S.get i j| ≤ u) (v : Nat → K) :
    |quadForm A v - quadForm S v| ≤ s * u * ∑ i ∈ range S.nr, v i ^ 2 := by
  classical
  unfold quadForm
  rw [hn.1, hn.2, hsq]
  rw [hsq] at h0 hd
  have e1 : (∑ i ∈ range S.nr, ∑ j ∈ range S.nr, v i * A.get i j * v j) - ∑ i ∈ range S.nr, ∑ j ∈ range S.nr, v i * S.get i j * v j =
      ∑ i ∈ range S.nr, ∑ j ∈ range S.nr, v i * (A.get i j - S.get i j) * v j := by
    rw [← Finset.sum_sub_distrib]
    refine Finset.sum_congr rfl (fun i _ => ?_)
    rw [← Finset.sum_sub_distrib]
    exact Finset.sum_congr rfl (fun j _ => by ring)
  rw [e1]
  have hterm : ∀ i ∈ range S.nr, ∀ j ∈ range S.nr, |v i * (A.get i j - S.get i j) * v j| ≤
      (if S.get i j ≠ 0 then u * v i ^ 2 / 2 else 0) + (if S.get j i ≠ 0 then u * v j ^ 2 / 2 else 0) := by
    intro i hi j hj
    rw [hsym j i]
    by_cases h : S.get i j = 0
    · rw [h0 i (mem_range.1 hi) j (mem_range.1 hj) h, h]
      simp
    · rw [if_pos h, if_pos h]
      have h1 := hd i (mem_range.1 hi) j (mem_range.1 hj)
      have h2 : |v i * (A.get i j - S.get i j) * v j| = |A.get i j - S.get i j| * (|v i| * |v j|) := by
        rw [abs_mul, abs_mul]; ring
      rw [h2]
      have h3 : |v i| * |v j| ≤ (v i ^ 2 + v j ^ 2) / 2 := by
        have := sq_nonneg (|v i| - |v j|)
        have a1 := sq_abs (v i)
        have a2 := sq_abs (v j)
        nlinarith
      calc |A.get i j - S.get i j| * (|v i| * |v j|) ≤ u * ((v i ^ 2 + v j ^ 2) / 2) :=
            mul_le_mul h1 h3 (by positivity) hu
        _ = _ := by ring
  have hrow : ∀ i ∈ range S.nr, ∑ j ∈ range S.nr, (if S.get i j ≠ 0 then u * v i ^ 2 / 2 else 0) ≤ s * (u * v i ^ 2 / 2) := by
    intro i hi
    have h := hs i (mem_range.1 hi)
    rw [hsq] at h
    rw [← Finset.sum_filter, Finset.sum_const, nsmul_eq_mul]
    have hv : 0 ≤ u * v i ^ 2 / 2 := by positivity
    exact mul_le_mul_of_nonneg_right (Nat.cast_le.2 h) hv
  calc |∑ i ∈ range S.nr, ∑ j ∈ range S.nr, v i * (A.get i j - S.get i j) * v j|
      ≤ ∑ i ∈ range S.nr, ∑ j ∈ range S.nr, |v i * (A.get i j - S.get i j) * v j| :=
        (Finset.abs_sum_le_sum_abs _ _).trans (Finset.sum_le_sum (fun i _ => Finset.abs_sum_le_sum_abs _ _))
    _ ≤ ∑ i ∈ range S.nr, ∑ j ∈ range S.nr,
        ((if S.get i j ≠ 0 then u * v i ^ 2 / 2 else 0) + (if S.get j i ≠ 0 then u * v j ^ 2 / 2 else 0)) :=
        Finset.sum_le_sum (fun i hi => Finset.sum_le_sum (fun j hj => hterm i hi j hj))
    _ = (∑ i ∈ range S.nr, ∑ j ∈ range S.nr, (if S.get i j ≠ 0 then u * v i ^ 2 / 2 else 0)) +
        ∑ i ∈ range S.nr, ∑ j ∈ range S.nr, (if S.get i j ≠ 0 then u * v i ^ 2 / 2 else 0) := by
        simp only [Finset.sum_add_distrib]
        congr 1
        exact Finset.sum_comm
    _ ≤ (∑ i ∈ range S.nr, s * (u * v i ^ 2 / 2)) + ∑ i ∈ range S.nr, s * (u * v i ^ 2 / 2) :=
        add_le_add (Finset.sum_le_sum hrow) (Finset.sum_le_sum hrow)
    _ = s * u * ∑ i ∈ range S.nr, v i ^ 2 := by
        rw [← Finset.sum_add_distrib, Finset.mul_sum]
        exact Finset.sum_congr rfl (fun i _ => by ring)

/-- **C164.** If at most `s` entries in a row of the symmetric matrix `S` are not zero, the quadratic form of the thresholded matrix
differs from that of `S` by at most `s (t + e)` times the squared length of the vector. -/
theorem C164_quadratic (X0 X S : Mat K) (t e : K) (s : Nat) (he : e < t) (hS : S.nr = X.nc ∧ S.nc = X.nc)
    (hsym : ∀ i j, S.get i j = S.get j i) (hs : SparseRows S s)
    (hclose : ∀ i < X.nc, ∀ j < X.nc, |(empiricalCov X).get i j - S.get i j| ≤ e) (A : Mat K)
    (h : sparseThresholdedGet X0 t X = some A) (v : Nat → K) :
    |quadForm A v - quadForm S v| ≤ s * (t + e) * ∑ i ∈ range X.nc, v i ^ 2 := by
  obtain ⟨h1, h2, h3⟩ := C164_recovers X0 X S t e he hS hclose A h
  rcases Nat.eq_zero_or_pos X.nc with h0 | h0
  · unfold quadForm
    rw [h1, hS.1, h0]
    simp
  · have he0 : 0 ≤ e := le_trans (abs_nonneg _) (hclose 0 h0 0 h0)
    have := quad_diff_le (S := S) (A := A) (s := s) (u := t + e) (by linarith) (by rw [hS.1, hS.2]) ⟨h1, h2⟩ hsym hs
      (fun i hi j hj => (h3 i hi j hj).1) (fun i hi j hj => (h3 i hi j hj).2.2) v
    rwa [hS.1] at this

/-- **C164.** So the thresholded matrix is positive definite, if the quadratic form of `S` is at least `m` times the squared length
and `s (t + e) < m`. -/
theorem C164_definite (X0 X S : Mat K) (t e m : K) (s : Nat) (he : e < t) (hS : S.nr = X.nc ∧ S.nc = X.nc)
    (hsym : ∀ i j, S.get i j = S.get j i) (hs : SparseRows S s)
    (hclose : ∀ i < X.nc, ∀ j < X.nc, |(empiricalCov X).get i j - S.get i j| ≤ e)
    (hm : ∀ v, m * ∑ i ∈ range X.nc, v i ^ 2 ≤ quadForm S v) (hsm : s * (t + e) < m) (A : Mat K)
    (h : sparseThresholdedGet X0 t X = some A) (v : Nat → K) (hv : ∃ i < X.nc, v i ≠ 0) : 0 < quadForm A v := by
  have h1 := (abs_le.1 (C164_quadratic X0 X S t e s he hS hsym hs hclose A h v)).1
  have h2 := hm v
  obtain ⟨i, hi, hvi⟩ := hv
  have h3 : 0 < ∑ i ∈ range X.nc, v i ^ 2 :=
    Finset.sum_pos' (fun _ _ => sq_nonneg _) ⟨i, mem_range.2 hi, by positivity⟩
  have h4 := mul_lt_mul_of_pos_right hsm h3
  linarith

/-- **C164.** The sum of the squared errors of all entries is at most `p s (t + e)²`. -/
theorem C164_frobenius (X0 X S : Mat K) (t e : K) (s : Nat) (he : e < t) (hS : S.nr = X.nc ∧ S.nc = X.nc) (hs : SparseRows S s)
    (hclose : ∀ i < X.nc, ∀ j < X.nc, |(empiricalCov X).get i j - S.get i j| ≤ e) (A : Mat K)
    (h : sparseThresholdedGet X0 t X = some A) :
    ∑ i ∈ range X.nc, ∑ j ∈ range X.nc, (A.get i j - S.get i j) ^ 2 ≤ X.nc * s * (t + e) ^ 2 := by
  classical
  obtain ⟨-, -, h3⟩ := C164_recovers X0 X S t e he hS hclose A h
  have hrow : ∀ i ∈ range X.nc, ∑ j ∈ range X.nc, (A.get i j - S.get i j) ^ 2 ≤ s * (t + e) ^ 2 := by
    intro i hi
    have hi' : i < S.nr := by rw [hS.1]; exact mem_range.1 hi
    have hc := hs i hi'
    rw [hS.2] at hc
    calc ∑ j ∈ range X.nc, (A.get i j - S.get i j) ^ 2 ≤ ∑ j ∈ range X.nc, (if S.get i j ≠ 0 then (t + e) ^ 2 else 0) := by
          refine Finset.sum_le_sum (fun j hj => ?_)
          obtain ⟨a, -, c⟩ := h3 i hi' j (by rw [hS.2]; exact mem_range.1 hj)
          by_cases hz : S.get i j = 0
          · rw [a hz, hz]; simp
          · rw [if_pos hz]
            exact sq_le_sq' (by have := (abs_le.1 c).1; linarith) (abs_le.1 c).2
      _ = ((range X.nc).filter (fun j => S.get i j ≠ 0)).card * (t + e) ^ 2 := by
          rw [← Finset.sum_filter, Finset.sum_const, nsmul_eq_mul]
      _ ≤ s * (t + e) ^ 2 := mul_le_mul_of_nonneg_right (Nat.cast_le.2 hc) (sq_nonneg _)
  calc _ ≤ ∑ _i ∈ range X.nc, (s : K) * (t + e) ^ 2 := Finset.sum_le_sum hrow
    _ = _ := by rw [Finset.sum_const, Finset.card_range, nsmul_eq_mul]; ring

end

namespace Spec

/-- Rows drawn from the rows of `Z`. -/
def drawnRows {N n : Nat} (Z : Fin N → Nat → ℝ) (p : Nat) (d : Fin n → Fin N) : Mat ℝ :=
  ⟨n, p, fun r j => if h : r < n then Z (d ⟨r, h⟩) j else 0⟩

/-- The covariances of all rows of `Z`. -/
noncomputable def populationCov {N : Nat} (Z : Fin N → Nat → ℝ) (p : Nat) : Mat ℝ :=
  ⟨p, p, fun i j => (∑ a, Z a i * Z a j) / N⟩

end Spec

theorem drawn_cov {N n : Nat} (Z : Fin N → Nat → ℝ) (p : Nat) (d : Fin n → Fin N) (i j : Nat) :
    (empiricalCov (drawnRows Z p d)).get i j = (∑ k, Z (d k) i * Z (d k) j) / n := by
  unfold empiricalCov drawnRows
  simp only
  rw [Finset.sum_range, one_div, inv_mul_eq_div]
  congr 1
  exact Finset.sum_congr rfl (fun k _ => by simp)

/-- Rows drawn at random have covariances within `e` of those of the population, except for a fraction of the draws. -/
theorem drawn_close {N n p : Nat} (hN : 0 < N) (hn : 0 < n) (Z : Fin N → Nat → ℝ) {b e : ℝ} (hb : 0 < b) (he : 0 < e)
    (hZ : ∀ a, ∀ j < p, |Z a j| ≤ b) :
    ∃ bad : Finset (Fin n → Fin N),
      (bad.card : ℝ) / Fintype.card (Fin n → Fin N) ≤ 2 * p ^ 2 * Real.exp (-(n * e ^ 2) / (2 * b ^ 4)) ∧
      ∀ d ∉ bad, ∀ i < p, ∀ j < p, |(empiricalCov (drawnRows Z p d)).get i j - (populationCov Z p).get i j| ≤ e := by
  classical
  haveI : Nonempty (Fin N) := ⟨⟨0, hN⟩⟩
  have hone : ∀ i j : Fin p, ((univ.filter (fun d : Fin n → Fin N =>
      e / b ^ 2 ≤ |(∑ k, Z (d k) i * Z (d k) j / b ^ 2) / n - (∑ a, Z a i * Z a j / b ^ 2) / Fintype.card (Fin N)|)).card : ℝ) ≤
      2 * (Fintype.card (Fin N) : ℝ) ^ n * Real.exp (-(n * (e / b ^ 2) ^ 2) / 2) := by
    intro i j
    refine hoeffding hn (fun a => Z a i * Z a j / b ^ 2) (fun a => ?_) (by positivity)
    rw [abs_div, abs_mul, abs_of_pos (by positivity : 0 < b ^ 2), div_le_one (by positivity), sq]
    exact mul_le_mul (hZ a i i.2) (hZ a j j.2) (abs_nonneg _) hb.le
  refine ⟨univ.biUnion (fun q : Fin p × Fin p => univ.filter (fun d : Fin n → Fin N =>
      e / b ^ 2 ≤ |(∑ k, Z (d k) q.1 * Z (d k) q.2 / b ^ 2) / n - (∑ a, Z a q.1 * Z a q.2 / b ^ 2) / Fintype.card (Fin N)|)), ?_, ?_⟩
  · have hpos : (0 : ℝ) < Fintype.card (Fin n → Fin N) := Nat.cast_pos.2 Fintype.card_pos
    rw [div_le_iff₀ hpos]
    have h3 := Nat.cast_le (α := ℝ).2 (Finset.card_biUnion_le (s := univ) (t := fun q : Fin p × Fin p =>
      univ.filter (fun d : Fin n → Fin N => e / b ^ 2 ≤
        |(∑ k, Z (d k) q.1 * Z (d k) q.2 / b ^ 2) / n - (∑ a, Z a q.1 * Z a q.2 / b ^ 2) / Fintype.card (Fin N)|)))
    rw [Nat.cast_sum] at h3
    refine (h3.trans (Finset.sum_le_sum (fun q _ => hone q.1 q.2))).trans (le_of_eq ?_)
    rw [Finset.sum_const, Finset.card_univ, Fintype.card_prod, Fintype.card_fin, nsmul_eq_mul, Fintype.card_fun, Fintype.card_fin,
      Fintype.card_fin, Nat.cast_pow, Nat.cast_mul]
    have : -((n : ℝ) * (e / b ^ 2) ^ 2) / 2 = -(n * e ^ 2) / (2 * b ^ 4) := by
      field_simp
    rw [this]
    ring
  · intro d hd i hi j hj
    simp only [Finset.mem_biUnion, Finset.mem_filter, Finset.mem_univ, true_and, not_exists, not_le] at hd
    have h := hd (⟨i, hi⟩, ⟨j, hj⟩)
    rw [drawn_cov]
    simp only [populationCov]
    simp only [← Finset.sum_div, Fintype.card_fin] at h
    rw [div_right_comm, div_right_comm (∑ a, Z a i * Z a j), ← sub_div, abs_div, abs_of_pos (by positivity : 0 < b ^ 2),
      div_lt_div_iff_of_pos_right (by positivity)] at h
    exact h.le

/-- **C164 (probability).** The rows are drawn at random, with replacement, from a population with values of at most `b`.  Except
with probability `2 p² exp (- n e² / (2 b⁴))` every threshold above `e` recovers the covariances of the population. -/
theorem C164_probability {N n p : Nat} (hN : 0 < N) (hn : 0 < n) (Z : Fin N → Nat → ℝ) {b e : ℝ} (hb : 0 < b) (he : 0 < e)
    (hZ : ∀ a, ∀ j < p, |Z a j| ≤ b) :
    ∃ bad : Finset (Fin n → Fin N),
      (bad.card : ℝ) / Fintype.card (Fin n → Fin N) ≤ 2 * p ^ 2 * Real.exp (-(n * e ^ 2) / (2 * b ^ 4)) ∧
      ∀ d ∉ bad, ∀ t, e < t → ∀ X0 A, sparseThresholdedGet X0 t (drawnRows Z p d) = some A →
        Recovers (populationCov Z p) t e A := by
  obtain ⟨bad, h1, h2⟩ := drawn_close hN hn Z hb he hZ
  exact ⟨bad, h1, fun d hd t ht X0 A hA => C164_recovers X0 (drawnRows Z p d) (populationCov Z p) t e ht ⟨rfl, rfl⟩ (h2 d hd) A hA⟩

/-- **C164 (sample size).** `2 b⁴ / e² · log (2 p² / δ)` rows suffice for probability `1 - δ`. -/
theorem C164_samples {N n p : Nat} (hN : 0 < N) (hn : 0 < n) (hp : 0 < p) (Z : Fin N → Nat → ℝ) {b e δ : ℝ} (hb : 0 < b)
    (he : 0 < e) (hδ : 0 < δ) (hZ : ∀ a, ∀ j < p, |Z a j| ≤ b)
    (hrows : 2 * b ^ 4 / e ^ 2 * Real.log (2 * p ^ 2 / δ) ≤ n) :
    ∃ bad : Finset (Fin n → Fin N), (bad.card : ℝ) / Fintype.card (Fin n → Fin N) ≤ δ ∧
      ∀ d ∉ bad, ∀ t, e < t → ∀ X0 A, sparseThresholdedGet X0 t (drawnRows Z p d) = some A →
        Recovers (populationCov Z p) t e A := by
  obtain ⟨bad, h1, h2⟩ := C164_probability hN hn Z hb he hZ
  refine ⟨bad, h1.trans ?_, h2⟩
  have h := samples_for_risk (M := p ^ 2) (N := n) (t := e / b ^ 2) (δ := δ) (by positivity) (by positivity) hδ (by
    have e1 : 2 / (e / b ^ 2) ^ 2 = 2 * b ^ 4 / e ^ 2 := by
      field_simp
    rw [e1, Nat.cast_pow]
    exact hrows)
  rw [Nat.cast_pow] at h
  have e2 : -((n : ℝ) * (e / b ^ 2) ^ 2) / 2 = -(n * e ^ 2) / (2 * b ^ 4) := by
    field_simp
  rwa [e2] at h

/-- Two uncorrelated columns whose correlation in three rows is 1 / 3. -/
def threeRows : Mat ℚ := ⟨3, 2, fun r j => if r = 1 ∧ j = 1 then -1 else 1⟩

def unitCov : Mat ℚ := ⟨2, 2, fun i j => if i = j then 1 else 0⟩

example : ∃ A, sparseThresholdedGet threeRows (1 / 2) threeRows = some A ∧ Recovers unitCov (1 / 2) (1 / 3) A ∧
    A.get 0 1 = 0 ∧ (empiricalCov threeRows).get 0 1 = 1 / 3 ∧ (∀ v, (∃ i < 2, v i ≠ 0) → 0 < quadForm A v) ∧
    ∑ i ∈ range 2, ∑ j ∈ range 2, (A.get i j - unitCov.get i j) ^ 2 ≤ 2 * 1 * (1 / 2 + 1 / 3) ^ 2 := by
  have hA : sparseThresholdedGet threeRows (1 / 2) threeRows = some (thresholdApply (1 / 2) (empiricalCov threeRows)).1 := by
    unfold sparseThresholdedGet
    rw [if_pos (by decide +kernel)]
  have hc : ∀ i < threeRows.nc, ∀ j < threeRows.nc, |(empiricalCov threeRows).get i j - unitCov.get i j| ≤ 1 / 3 := by
    decide +kernel
  have hsp : SparseRows unitCov 1 := by
    unfold SparseRows
    decide +kernel
  have hsym : ∀ i j, unitCov.get i j = unitCov.get j i := by
    intro i j
    simp only [unitCov, eq_comm]
  refine ⟨_, hA, C164_recovers threeRows threeRows unitCov (1 / 2) (1 / 3) (by norm_num) ⟨rfl, rfl⟩ hc _ hA, by decide +kernel,
    by decide +kernel, fun v hv => C164_definite threeRows threeRows unitCov (1 / 2) (1 / 3) 1 1 (by norm_num) ⟨rfl, rfl⟩ hsym
      hsp hc (fun v => ?_) (by norm_num) _ hA v hv, ?_⟩
  · simp only [quadForm, unitCov, threeRows, Finset.sum_range_succ, Finset.sum_range_zero]
    norm_num
    nlinarith
  · have := C164_frobenius threeRows threeRows unitCov (1 / 2) (1 / 3) 1 (by norm_num) ⟨rfl, rfl⟩ hsp hc _ hA
    simpa [threeRows] using this

/-- 1000 rows of three equally likely ones. -/
example : ∃ bad : Finset (Fin 1000 → Fin 3), (bad.card : ℝ) / Fintype.card (Fin 1000 → Fin 3) ≤ 1 / 10 ∧
    ∀ d ∉ bad, ∀ t, 1 / 2 < t → ∀ X0 A,
      sparseThresholdedGet X0 t (drawnRows (fun (a : Fin 3) j => if a = 1 ∧ j = 1 then -1 else 1) 2 d) = some A →
      Recovers (populationCov (fun (a : Fin 3) j => if a = 1 ∧ j = 1 then -1 else 1) 2) t (1 / 2) A := by
  refine C164_samples (by norm_num) (by norm_num) (by norm_num) _ (b := 1) (e := 1 / 2) (δ := 1 / 10) (by norm_num) (by norm_num)
    (by norm_num) (fun a j _ => ?_) ?_
  · split <;> simp
  · have := Real.log_le_sub_one_of_pos (x := 80) (by norm_num)
    norm_num
    linarith

end GoSelect
