import Verif.Props.C128

/-!
# C168: fits of nearly singular data
-/

namespace GoSelect

open Finset Spec

section
variable {K : Type} [Field K] [LinearOrder K] [IsStrictOrderedRing K]

/-- `(x + z)² ≤ (1 + t) x² + (1 + 1/t) z²`, summed. -/
theorem sum_add_sq_le {n : Nat} {t : K} (ht : 0 < t) (x z : Nat → K) :
    ∑ i ∈ range n, (x i + z i) ^ 2 ≤ (1 + t) * ∑ i ∈ range n, x i ^ 2 + (1 + 1 / t) * ∑ i ∈ range n, z i ^ 2 := by
  rw [Finset.mul_sum, Finset.mul_sum, ← Finset.sum_add_distrib]
  refine Finset.sum_le_sum (fun i _ => ?_)
  have : (1 + t) * x i ^ 2 + (1 + 1 / t) * z i ^ 2 - (x i + z i) ^ 2 = (t * x i - z i) ^ 2 / t := by
    field_simp
    ring
  have h2 : 0 ≤ (t * x i - z i) ^ 2 / t := by positivity
  linarith

/-- **C168.** The fit of a response that is exactly `X c` reproduces it up to `1e-6 |c|`, and its coefficients are not longer than
`c`, whatever the singular values are. -/
theorem C168_exact (d : SVD K) (X : Mat K) (hd : d.Of X) (c : Nat → K) (y b : List K) (hy : ∀ i < X.nr, vec y i = lin X c i)
    (h : fit d X y = some b) :
    ∑ i ∈ range X.nr, (vec y i - lin X (vec b) i) ^ 2 ≤ (1 / 10 ^ 6) ^ 2 * ∑ j ∈ range X.nc, c j ^ 2 ∧
    ∑ j ∈ range X.nc, vec b j ^ 2 ≤ ∑ j ∈ range X.nc, c j ^ 2 := by
  set w : Nat → K := fun k => invSigma (d.s k) with hw
  set q : Nat → K := fun k => ∑ j ∈ range X.nc, d.v j k * c j with hq
  have hn : X.nr = y.length := by
    by_contra hn
    rw [(C04_panic_iff d X y).2 hn] at h
    cases h
  have ha : ∀ k < d.p, ∑ i ∈ range X.nr, d.u i k * vec y i = d.s k * q k := by
    intro k hk
    rw [Finset.sum_congr rfl (fun i hi => by rw [hy i (mem_range.1 hi), svd_lin hd c (mem_range.1 hi)])]
    exact orth_expand hd.uOrth (fun k => d.s k * q k) hk
  have hb : ∀ j < X.nc, vec b j = ∑ k ∈ range d.p, d.v j k * (d.s k * w k * q k) := by
    intro j hj
    rw [fit_eq_some hn, Option.some.injEq] at h
    have e : vec b j = svdCoeff d X w (vec y) j := by
      rw [← h]
      simp [vec, hj, hw]
    rw [e, svdCoeff]
    refine Finset.sum_congr rfl (fun k hk => ?_)
    rw [ha k (mem_range.1 hk)]
    ring
  have hpred : ∀ i < X.nr, vec y i - lin X (vec b) i = ∑ k ∈ range d.p, d.u i k * (d.s k * (1 - d.s k * w k) * q k) := by
    intro i hi
    rw [hy i hi, svd_lin hd _ hi, svd_lin hd _ hi, ← Finset.sum_sub_distrib]
    refine Finset.sum_congr rfl (fun k hk => ?_)
    have e : ∑ j ∈ range X.nc, d.v j k * vec b j = d.s k * w k * q k := by
      rw [Finset.sum_congr rfl (fun j hj => by rw [hb j (mem_range.1 hj)])]
      exact orth_expand hd.vOrth (fun k => d.s k * w k * q k) (mem_range.1 hk)
    rw [e]
    simp only [hq]
    ring
  have hsw : ∀ k, d.s k * w k = 1 ∨ (w k = 0 ∧ |d.s k| ≤ 1 / 10 ^ 6) := by
    intro k
    simp only [hw, invSigma]
    split
    · rename_i h6
      left
      have : d.s k ≠ 0 := by
        intro h0
        rw [h0, abs_zero] at h6
        have : (0 : K) < 1 / 10 ^ 6 := by positivity
        linarith
      field_simp
    · rename_i h6
      exact .inr ⟨rfl, not_lt.1 h6⟩
  have hbes : ∑ k ∈ range d.p, q k ^ 2 ≤ ∑ j ∈ range X.nc, c j ^ 2 := bessel hd.vOrth c
  constructor
  · rw [Finset.sum_congr rfl (fun i hi => by rw [hpred i (mem_range.1 hi)]), ortho_sq hd.uOrth]
    refine le_trans ?_ (mul_le_mul_of_nonneg_left hbes (by positivity))
    rw [Finset.mul_sum]
    refine Finset.sum_le_sum (fun k _ => ?_)
    rw [mul_pow]
    refine mul_le_mul_of_nonneg_right ?_ (sq_nonneg _)
    rcases hsw k with h1 | ⟨h1, h2⟩
    · rw [h1, sub_self, mul_zero, zero_pow two_ne_zero]
      positivity
    · rw [h1, mul_zero, sub_zero, mul_one, ← sq_abs]
      exact pow_le_pow_left₀ (abs_nonneg _) h2 2
  · rw [Finset.sum_congr rfl (fun j hj => by rw [hb j (mem_range.1 hj)]), ortho_sq hd.vOrth]
    refine (Finset.sum_le_sum (fun k _ => ?_)).trans hbes
    rcases hsw k with h1 | ⟨h1, -⟩
    · rw [h1, one_mul]
    · rw [h1, mul_zero, zero_mul, zero_pow two_ne_zero]
      positivity

/-- **C168.** For any response and any coefficients `c`, however close to singular the matrix is: the residuals of the fit are at most
those of `c` plus `1e-6 |c|`, and the fitted coefficients at most `|c|` plus `1e6` times the residuals of `c`.  (The squares, for all
positive `t`; the best `t` gives the square of the sum.) -/
theorem C168_near (d : SVD K) (X : Mat K) (hd : d.Of X) (c : Nat → K) (y b : List K) (h : fit d X y = some b) (t : K) (ht : 0 < t) :
    sse X (vec b) (vec y) ≤ (1 + t) * sse X c (vec y) + (1 + 1 / t) * ((1 / 10 ^ 6) ^ 2 * ∑ j ∈ range X.nc, c j ^ 2) ∧
    ∑ j ∈ range X.nc, vec b j ^ 2 ≤ (1 + t) * ∑ j ∈ range X.nc, c j ^ 2 + (1 + 1 / t) * ((10 ^ 6) ^ 2 * sse X c (vec y)) := by
  set z : List K := (List.range X.nr).map (lin X c) with hz
  have hzv : ∀ i < X.nr, vec z i = lin X c i := by
    intro i hi
    simp [vec, hz, hi]
  have hzl : X.nr = z.length := by simp [hz]
  obtain ⟨b', hb'⟩ : ∃ b', fit d X z = some b' := ⟨_, fit_eq_some hzl⟩
  obtain ⟨e1, e2⟩ := C168_exact d X hd c z b' hzv hb'
  obtain ⟨-, f2, f3⟩ := C128_fit d X hd y z b b' h hb'
  have hs : ∑ i ∈ range X.nr, (vec y i - vec z i) ^ 2 = sse X c (vec y) := by
    unfold sse
    refine Finset.sum_congr rfl (fun i hi => ?_)
    rw [hzv i (mem_range.1 hi)]
    ring
  rw [hs] at f2 f3
  have ht1 : 0 ≤ 1 + t := by positivity
  have ht2 : 0 ≤ 1 + 1 / t := by positivity
  constructor
  · have e : sse X (vec b) (vec y) = ∑ i ∈ range X.nr,
        (((vec y i - lin X (vec b) i) - (vec z i - lin X (vec b') i)) + (vec z i - lin X (vec b') i)) ^ 2 := by
      unfold sse
      exact Finset.sum_congr rfl (fun i _ => by ring)
    rw [e]
    refine (sum_add_sq_le ht _ _).trans (add_le_add ?_ ?_)
    · exact mul_le_mul_of_nonneg_left f2 ht1
    · exact mul_le_mul_of_nonneg_left e1 ht2
  · have e : ∑ j ∈ range X.nc, vec b j ^ 2 = ∑ j ∈ range X.nc, (vec b' j + (vec b j - vec b' j)) ^ 2 :=
      Finset.sum_congr rfl (fun j _ => by ring)
    rw [e]
    refine (sum_add_sq_le ht _ _).trans (add_le_add ?_ ?_)
    · exact mul_le_mul_of_nonneg_left e2 ht1
    · exact mul_le_mul_of_nonneg_left f3 ht2

/-- **C168.** Adding features to a model never increases its residual sum of squares by more than the truncation of singular values
allows: `1e-6` times the length of the coefficients of the smaller model. -/
theorem C168_nested (svd : Mat K → SVD K) (X : Mat K) (y : List K) (a b : List Bool) (hla : a.length ≤ X.nc)
    (hlb : b.length ≤ X.nc) (hy : y.length = X.nr) (hsub : ContainedIn a b) (ha : 0 < Spec.card a)
    (hb : (svd (designOf X b)).Of (designOf X b)) (t : K) (ht : 0 < t) :
    ∃ ca cb ra rb, fitModel svd X y a = some (ca, ra) ∧ fitModel svd X y b = some (cb, rb) ∧
      rb ≤ (1 + t) * ra + (1 + 1 / t) * ((1 / 10 ^ 6) ^ 2 * ∑ j ∈ range (Spec.card a), vec ca j ^ 2) := by
  have hbpos := lt_of_lt_of_le ha (card_le_of_contained hsub)
  obtain ⟨ca, h1, -, -⟩ := fitModel_eq_some (svd := svd) hy ha hla
  obtain ⟨cb, h2, h3, -⟩ := fitModel_eq_some (svd := svd) hy hbpos hlb
  refine ⟨ca, cb, _, _, h1, h2, ?_⟩
  set A := features a with hA
  set B := features b with hB
  have hAn : A.Nodup := features_nodup a
  have hBn : B.Nodup := features_nodup b
  have hAB : ∀ i ∈ A, i ∈ B := fun i hi => (mem_features b i).2 (hsub i ((mem_features a i).1 hi))
  have hltA : ∀ i ∈ A, i < X.nc := fun i hi => (features_lt hi).trans_le hla
  have hltB : ∀ i ∈ B, i < X.nc := fun i hi => (features_lt hi).trans_le hlb
  have key := (C168_near _ _ hb (fun k => extend A (vec ca) (B.getD k 0)) y cb h3 t ht).1
  have eB : designOf X b = colsOf X B := designOf_eq X b
  have eA : designOf X a = colsOf X A := designOf_eq X a
  have e1 : sse (designOf X b) (fun k => extend A (vec ca) (B.getD k 0)) (vec y) = sse (designOf X a) (vec ca) (vec y) := by
    rw [eA, eB]
    refine Finset.sum_congr rfl fun j _ => ?_
    rw [lin_restrict hBn hltB (extend A (vec ca)) (fun i hi => if_neg fun h => hi (hAB i h)) j, lin_cols hAn hltA]
  have e2 : ∑ k ∈ range (designOf X b).nc, extend A (vec ca) (B.getD k 0) ^ 2 = ∑ j ∈ range (Spec.card a), vec ca j ^ 2 := by
    have n1 : (designOf X b).nc = B.length := by rw [eB]; rfl
    have n2 : Spec.card a = A.length := by
      have : (designOf X a).nc = A.length := by rw [eA]; rfl
      rw [← this]
      rfl
    rw [n1, n2, sum_getD_finset hBn (fun i => extend A (vec ca) i ^ 2)]
    have e3 : ∑ j ∈ range A.length, vec ca j ^ 2 = ∑ j ∈ range A.length, extend A (vec ca) (A.getD j 0) ^ 2 :=
      Finset.sum_congr rfl (fun j hj => by rw [extend_getD hAn (vec ca) (mem_range.1 hj)])
    rw [e3, sum_getD_finset hAn (fun i => extend A (vec ca) i ^ 2)]
    symm
    refine Finset.sum_subset (fun i hi => List.mem_toFinset.2 (hAB i (List.mem_toFinset.1 hi))) fun i _ hi => ?_
    rw [extend, if_neg (fun h => hi (List.mem_toFinset.2 h)), zero_pow two_ne_zero]
  rw [e1, e2] at key
  exact key

end

/-- The counterexample of C05, whose second singular value is truncated: the larger model has a larger residual sum of squares, 25
instead of 0, as the coefficient of the smaller one is huge; the bound is (with `t` large) 1e-12 times its square. -/
example : ∃ ca cb ra rb, fitModel truncSvd truncX [12, 5] [true, false] = some (ca, ra) ∧
    fitModel truncSvd truncX [12, 5] [true, true] = some (cb, rb) ∧
    rb ≤ (1 + 1000) * ra + (1 + 1 / 1000) * ((1 / 10 ^ 6) ^ 2 * ∑ j ∈ range 1, vec ca j ^ 2) :=
  C168_nested truncSvd truncX [12, 5] [true, false] [true, true] (by decide) (by decide) rfl
    C05_truncation_refutes.2.1 (by decide) (truncSvd_of [true, true] (.inr rfl)) 1000 (by norm_num)

/-- A nearly singular matrix meets the hypotheses of `C168_near` with moderate coefficients: the residuals are nearly optimal. -/
example (c : Nat → ℚ) (y b : List ℚ) (h : fit (truncSvd (designOf truncX [true, true])) (designOf truncX [true, true]) y = some b) :
    sse (designOf truncX [true, true]) (vec b) (vec y) ≤ (1 + 1 / 100) * sse (designOf truncX [true, true]) c (vec y) +
      (1 + 1 / (1 / 100)) * ((1 / 10 ^ 6) ^ 2 * ∑ j ∈ range 2, c j ^ 2) :=
  (C168_near _ _ (truncSvd_of [true, true] (.inr rfl)) c y b h (1 / 100) (by norm_num)).1

end GoSelect
