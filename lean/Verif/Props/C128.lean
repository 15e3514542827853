import Verif.Props.C127
import Verif.Props.C108
import Verif.Props.C125
import Verif.Props.C04_C05

/-!
# C128: small changes of the response change the fits little, and the order of the columns does not matter
-/

namespace GoSelect

open Finset Spec

variable {K : Type} [Field K] [LinearOrder K] [IsStrictOrderedRing K]

/-! ### Least squares -/

/-- C128: the predictions of `Fit` change by at most as much as the response, and so do its residuals, whatever the matrix:
also if it is nearly singular. -/
theorem C128_fit (d : SVD K) (X : Mat K) (hd : d.Of X) (y y' c c' : List K) (h : fit d X y = some c) (h' : fit d X y' = some c') :
    ∑ i ∈ range X.nr, (lin X (vec c) i - lin X (vec c') i) ^ 2 ≤ ∑ i ∈ range X.nr, (vec y i - vec y' i) ^ 2 ∧
    ∑ i ∈ range X.nr, ((vec y i - lin X (vec c) i) - (vec y' i - lin X (vec c') i)) ^ 2 ≤
      ∑ i ∈ range X.nr, (vec y i - vec y' i) ^ 2 ∧
    ∑ j ∈ range X.nc, (vec c j - vec c' j) ^ 2 ≤ (10 ^ 6) ^ 2 * ∑ i ∈ range X.nr, (vec y i - vec y' i) ^ 2 := by
  set z : Nat → K := fun i => vec y i - vec y' i with hz
  set a : Nat → K := fun k => ∑ i ∈ range X.nr, d.u i k * z i with ha
  set w : Nat → K := fun k => invSigma (d.s k) with hw
  have hlen : ∀ {y c : List K}, fit d X y = some c → ∀ j < X.nc, vec c j = svdCoeff d X w (vec y) j := by
    intro y c h j hj
    have hn : X.nr = y.length := by
      by_contra hn
      rw [(C04_panic_iff d X y).2 hn] at h
      cases h
    rw [fit_eq_some hn, Option.some.injEq] at h
    rw [← h]
    simp [vec, hj, hw]
  have hdiff : ∀ j < X.nc, vec c j - vec c' j = ∑ k ∈ range d.p, d.v j k * (a k * w k) := by
    intro j hj
    rw [hlen h j hj, hlen h' j hj, svdCoeff, svdCoeff, ← Finset.sum_sub_distrib]
    refine Finset.sum_congr rfl (fun k _ => ?_)
    rw [← mul_sub, ← sub_mul, ← Finset.sum_sub_distrib]
    simp only [ha, hz, mul_sub]
  have hpred : ∀ i < X.nr, lin X (vec c) i - lin X (vec c') i = ∑ k ∈ range d.p, d.u i k * (d.s k * w k * a k) := by
    intro i hi
    rw [← lin_sub, svd_lin hd _ hi]
    refine Finset.sum_congr rfl (fun k hk => ?_)
    have e : ∑ j ∈ range X.nc, d.v j k * (vec c j - vec c' j) = a k * w k := by
      rw [Finset.sum_congr rfl (fun j hj => by rw [hdiff j (mem_range.1 hj)])]
      exact orth_expand hd.vOrth (fun k => a k * w k) (mem_range.1 hk)
    rw [e]
    ring
  have hsw : ∀ k, d.s k * w k = 1 ∨ w k = 0 := by
    intro k
    simp only [hw, invSigma]
    split
    · rename_i h6
      left
      have : d.s k ≠ 0 := by
        intro h0
        rw [h0, abs_zero] at h6
        have : (0 : K) < 1 / 10 ^ 6 := by positivity
        linarith
      field_simp
    · right
      rfl
  have hbes : ∑ k ∈ range d.p, a k ^ 2 ≤ ∑ i ∈ range X.nr, z i ^ 2 := bessel hd.uOrth z
  have hP : ∑ i ∈ range X.nr, (lin X (vec c) i - lin X (vec c') i) ^ 2 = ∑ k ∈ range d.p, (d.s k * w k * a k) ^ 2 := by
    rw [Finset.sum_congr rfl (fun i hi => by rw [hpred i (mem_range.1 hi)])]
    exact ortho_sq hd.uOrth _
  refine ⟨?_, ?_, ?_⟩
  · rw [hP]
    refine (Finset.sum_le_sum (fun k _ => ?_)).trans hbes
    rcases hsw k with h1 | h1
    · rw [h1, one_mul]
    · rw [h1, mul_zero, zero_mul]
      nlinarith [sq_nonneg (a k)]
  · have e : ∑ i ∈ range X.nr, ((vec y i - lin X (vec c) i) - (vec y' i - lin X (vec c') i)) ^ 2 =
        ∑ i ∈ range X.nr, z i ^ 2 - 2 * ∑ i ∈ range X.nr, z i * (lin X (vec c) i - lin X (vec c') i) +
          ∑ i ∈ range X.nr, (lin X (vec c) i - lin X (vec c') i) ^ 2 := by
      rw [Finset.mul_sum, ← Finset.sum_sub_distrib, ← Finset.sum_add_distrib]
      exact Finset.sum_congr rfl (fun i _ => by simp only [hz]; ring)
    have e2 : ∑ i ∈ range X.nr, z i * (lin X (vec c) i - lin X (vec c') i) = ∑ k ∈ range d.p, d.s k * w k * a k ^ 2 := by
      rw [Finset.sum_congr rfl (fun i hi => by rw [hpred i (mem_range.1 hi), Finset.mul_sum]), Finset.sum_comm]
      refine Finset.sum_congr rfl (fun k _ => ?_)
      have : ∑ i ∈ range X.nr, z i * (d.u i k * (d.s k * w k * a k)) = a k * (d.s k * w k * a k) := by
        rw [Finset.sum_congr rfl (fun i _ => show z i * (d.u i k * (d.s k * w k * a k)) = d.u i k * z i * (d.s k * w k * a k) by ring),
          ← Finset.sum_mul]
      rw [this]
      ring
    rw [e, e2, hP]
    have : ∑ k ∈ range d.p, (d.s k * w k * a k) ^ 2 ≤ 2 * ∑ k ∈ range d.p, d.s k * w k * a k ^ 2 := by
      rw [Finset.mul_sum]
      refine Finset.sum_le_sum (fun k _ => ?_)
      rcases hsw k with h1 | h1
      · rw [h1]
        nlinarith [sq_nonneg (a k)]
      · rw [h1]
        simp
    linarith
  · rw [Finset.sum_congr rfl (fun j hj => by rw [hdiff j (mem_range.1 hj)]), ortho_sq hd.vOrth]
    refine le_trans ?_ (mul_le_mul_of_nonneg_left hbes (by positivity))
    rw [Finset.mul_sum]
    refine Finset.sum_le_sum (fun k _ => ?_)
    have hle : w k ^ 2 ≤ (10 ^ 6) ^ 2 := by
      simp only [hw, invSigma]
      split
      · rename_i h6
        rw [← sq_abs, abs_div, abs_one]
        refine pow_le_pow_left₀ (by positivity) ?_ 2
        rw [div_le_iff₀ (lt_trans (by positivity) h6)]
        rw [div_lt_iff₀ (by positivity)] at h6
        linarith
      · rw [zero_pow two_ne_zero]
        positivity
    rw [mul_pow, mul_comm]
    exact mul_le_mul_of_nonneg_right hle (sq_nonneg _)

/-! ### The lasso -/

/-- C128: the predictions of lasso solutions with the same regularisation differ by at most as much as the responses. -/
theorem C128_lasso (X : Mat K) (y y' : Nat → K) {lamb : K} (hl : 0 ≤ lamb) {b b' : Nat → K}
    (hb : IsLassoMin X y lamb b) (hb' : IsLassoMin X y' lamb b') :
    ∑ r ∈ range X.nr, (lin X b r - lin X b' r) ^ 2 ≤ ∑ r ∈ range X.nr, (y r - y' r) ^ 2 := by
  have h := lasso_change hl hl hb hb'
  rw [sub_self, zero_mul, add_zero] at h
  exact sq_le_of_inner h

namespace Spec

/-- `X'` has the columns of `X` in another order, some of them with the opposite sign. -/
structure SameColumns (X X' : Mat K) (π : Equiv.Perm Nat) (s : Nat → K) : Prop where
  rows : X'.nr = X.nr
  cols : X'.nc = X.nc
  bound : ∀ j, π j < X.nc ↔ j < X.nc
  sign : ∀ j, s j = 1 ∨ s j = -1
  eq : ∀ r < X.nr, ∀ j < X.nc, X'.get r j = s j * X.get r (π j)

end Spec

theorem SameColumns.reindex {X X' : Mat K} {π : Equiv.Perm Nat} {s : Nat → K} (h : SameColumns X X' π s) (f : Nat → K) :
    ∑ j ∈ range X.nc, f (π j) = ∑ j ∈ range X.nc, f j :=
  Finset.sum_equiv π (by simp [h.bound]) (fun _ _ => rfl)

theorem SameColumns.lin_eq {X X' : Mat K} {π : Equiv.Perm Nat} {s : Nat → K} (h : SameColumns X X' π s) {b b' : Nat → K}
    (hb : ∀ j < X.nc, b' j = s j * b (π j)) {r : Nat} (hr : r < X.nr) : lin X' b' r = lin X b r := by
  unfold lin
  rw [h.cols, ← SameColumns.reindex h (fun j => X.get r j * b j)]
  refine Finset.sum_congr rfl (fun j hj => ?_)
  rw [h.eq r hr j (mem_range.1 hj), hb j (mem_range.1 hj)]
  rcases h.sign j with e | e <;> rw [e] <;> ring

theorem SameColumns.risk_eq {X X' : Mat K} {π : Equiv.Perm Nat} {s : Nat → K} (h : SameColumns X X' π s) (y : Nat → K) (lamb : K)
    {b b' : Nat → K} (hb : ∀ j < X.nc, b' j = s j * b (π j)) : lassoRisk X' y lamb b' = lassoRisk X y lamb b := by
  unfold lassoRisk
  have h1 : ∑ r ∈ range X'.nr, residual X' y b' r ^ 2 = ∑ r ∈ range X.nr, residual X y b r ^ 2 := by
    rw [h.rows]
    refine Finset.sum_congr rfl (fun r hr => ?_)
    rw [residual_lin, residual_lin, SameColumns.lin_eq h hb (mem_range.1 hr)]
  have h2 : ∑ j ∈ range X'.nc, |b' j| = ∑ j ∈ range X.nc, |b j| := by
    rw [h.cols, ← SameColumns.reindex h (fun j => |b j|)]
    refine Finset.sum_congr rfl (fun j hj => ?_)
    rw [hb j (mem_range.1 hj), abs_mul]
    rcases h.sign j with e | e <;> rw [e] <;> simp
  rw [h1, h2]

/-- C128: the order and the signs of the columns do not matter: solutions for the same regularisation have the same
predictions, and if the columns are independent also the same coefficients, up to the order and the signs. -/
theorem C128_order {X X' : Mat K} {π : Equiv.Perm Nat} {s : Nat → K} (h : SameColumns X X' π s) (y : Nat → K) {lamb : K}
    (hl : 0 ≤ lamb) {b b' : Nat → K} (hb : IsLassoMin X y lamb b) (hb' : IsLassoMin X' y lamb b') :
    (∀ r < X.nr, lin X' b' r = lin X b r) ∧
    (Independent X (List.range X.nc) → ∀ j < X.nc, b' j = s j * b (π j)) := by
  -- the solution for `X'` in the order of `X`
  set g : Nat → K := fun j => s (π.symm j) * b' (π.symm j) with hg
  have hss : ∀ j, s j * s j = 1 := fun j => by rcases h.sign j with e | e <;> rw [e] <;> ring
  have hbg : ∀ j < X.nc, b' j = s j * g (π j) := by
    intro j _
    simp only [hg, Equiv.symm_apply_apply]
    rw [← mul_assoc, hss, one_mul]
  have hmin : IsLassoMin X y lamb g := by
    intro w
    rw [← SameColumns.risk_eq h y lamb hbg, ← SameColumns.risk_eq h y lamb (b := w) (b' := fun j => s j * w (π j)) (fun _ _ => rfl)]
    exact hb' _
  obtain ⟨h1, -, h3⟩ := C108_unique X y lamb hl b g hb hmin
  refine ⟨fun r hr => ?_, fun hi j hj => ?_⟩
  · rw [SameColumns.lin_eq h hbg hr, h1 r hr]
  · rw [hbg j hj, h3 hi (π j) ((h.bound j).2 hj)]

/-- C128: the paths of `LassoLars` for two responses and two orders and signs of the columns (no iteration being degenerate):
at every regularisation that is on both, the predictions differ by at most as much as the responses; if these are the same,
the predictions are the same, and so are the coefficients if the columns are independent. -/
theorem C128_paths {X X' : Mat K} {π : Equiv.Perm Nat} {s : Nat → K} (hs : SameColumns X X' π s) {y y' : Nat → K}
    {tol lambMin tol' lambMin' : K} {est est' : Nat → List Nat → List K → Option (List K × List K)}
    {path path' : List (LassoLarsNode K)} (h : CleanRun X y tol lambMin est path) (h' : CleanRun X' y' tol' lambMin' est' path')
    {lamb : K} {b b' : Nat → K} (hp : OnPath path lamb b) (hp' : OnPath path' lamb b') :
    ∑ r ∈ range X.nr, (lin X b r - lin X' b' r) ^ 2 ≤ ∑ r ∈ range X.nr, (y r - y' r) ^ 2 ∧
    ((∀ r < X.nr, y' r = y r) → (∀ r < X.nr, lin X' b' r = lin X b r) ∧
      (Independent X (List.range X.nc) → ∀ j < X.nc, b' j = s j * b (π j))) := by
  obtain ⟨h0, h1⟩ := CleanRun.onPath h hp
  obtain ⟨-, h1'⟩ := CleanRun.onPath h' hp'
  set g : Nat → K := fun j => s (π.symm j) * b' (π.symm j) with hg
  have hss : ∀ j, s j * s j = 1 := fun j => by rcases hs.sign j with e | e <;> rw [e] <;> ring
  have hbg : ∀ j < X.nc, b' j = s j * g (π j) := by
    intro j _
    simp only [hg, Equiv.symm_apply_apply]
    rw [← mul_assoc, hss, one_mul]
  have hmin : IsLassoMin X y' lamb g := by
    intro w
    rw [← SameColumns.risk_eq hs y' lamb hbg, ← SameColumns.risk_eq hs y' lamb (b := w) (b' := fun j => s j * w (π j)) (fun _ _ => rfl)]
    exact h1' _
  refine ⟨?_, fun hy => ?_⟩
  · refine le_trans (le_of_eq ?_) (C128_lasso X y y' h0 h1 hmin)
    refine Finset.sum_congr rfl (fun r hr => ?_)
    rw [SameColumns.lin_eq hs hbg (mem_range.1 hr)]
  · have h2 : IsLassoMin X' y lamb b' := by
      intro w
      have e : ∀ w : Nat → K, lassoRisk X' y lamb w = lassoRisk X' y' lamb w := by
        intro w
        unfold lassoRisk
        congr 2
        refine Finset.sum_congr rfl (fun r hr => ?_)
        rw [residual_lin, residual_lin, hy r (by rw [← hs.rows]; exact mem_range.1 hr)]
      rw [e, e]
      exact h1' w
    exact C128_order hs y h0 h1 h2

/-! ### Examples -/

/-- A nearly singular matrix, of which `Fit` drops a singular value. -/
example : ∃ c c', fit (truncSvd (designOf truncX [true, true])) (designOf truncX [true, true]) [12, 5] = some c ∧
    fit (truncSvd (designOf truncX [true, true])) (designOf truncX [true, true]) [12, 6] = some c' ∧
    ∑ i ∈ range 2, (lin (designOf truncX [true, true]) (vec c) i - lin (designOf truncX [true, true]) (vec c') i) ^ 2 ≤ 1 := by
  refine ⟨_, _, fit_eq_some rfl, fit_eq_some rfl, ?_⟩
  have := (C128_fit _ _ (truncSvd_of [true, true] (.inr rfl)) [12, 5] [12, 6] _ _ (fit_eq_some rfl) (fit_eq_some rfl)).1
  refine this.trans ?_
  change ∑ i ∈ range 2, _ ≤ (1 : ℚ)
  decide +kernel

namespace LassoSupportExample

def y' (r : Nat) : ℚ := if r = 2 then 1 / 100 else 2
def β' (i : Nat) : ℚ := if i = 2 then 0 else 19 / 10

theorem minimal' : IsLassoMin X y' (1 / 10) β' := by
  apply lasso_min_of_kkt
  change ∀ j, j < 3 → _
  decide +kernel

/-- Two responses with the distance 1: the predictions have a squared distance of 1, too. -/
example : ∑ r ∈ range 3, (lin X β r - lin X β' r) ^ 2 = 1 ∧ ∑ r ∈ range 3, (y r - y' r) ^ 2 = 1 ∧
    ∑ r ∈ range 3, (lin X β r - lin X β' r) ^ 2 ≤ ∑ r ∈ range 3, (y r - y' r) ^ 2 :=
  ⟨by decide +kernel, by decide +kernel, C128_lasso X y y' (by norm_num) minimal minimal'⟩

/-- The first two columns exchanged, the first of them with the opposite sign. -/
def swappedX : Mat ℚ := ⟨3, 3, fun r c => if c = 0 then -X.get r 1 else if c = 1 then X.get r 0 else X.get r c⟩
def swappedβ (i : Nat) : ℚ := if i = 0 then -19 / 10 else if i = 1 then 9 / 10 else 0
def swappedSign (i : Nat) : ℚ := if i = 0 then -1 else 1

theorem swapped : SameColumns X swappedX (Equiv.swap 0 1) swappedSign := by
  refine ⟨rfl, rfl, ?_, ?_, ?_⟩
  · intro j
    change _ < 3 ↔ j < 3
    rcases Nat.lt_or_ge j 2 with h | h
    · interval_cases j <;> decide
    · rw [Equiv.swap_apply_of_ne_of_ne (by omega) (by omega)]
  · intro j
    unfold swappedSign
    split <;> simp
  · change ∀ r < 3, ∀ j < 3, _
    decide +kernel

theorem swapped_minimal : IsLassoMin swappedX y (1 / 10) swappedβ := by
  apply lasso_min_of_kkt
  change ∀ j, j < 3 → _
  decide +kernel

example : ∀ r < 3, lin swappedX swappedβ r = lin X β r :=
  (C128_order swapped y (by norm_num) minimal swapped_minimal).1

end LassoSupportExample

open LarsExample in
example (b b' : Nat → ℚ) (hb : OnPath [⟨[0], 3, [1]⟩, ⟨[0, -2], 1, [0, 1]⟩] 2 b)
    (hb' : OnPath [⟨[0], 3, [1]⟩, ⟨[0, -2], 1, [0, 1]⟩] 2 b') : ∀ j < 2, b' j = b j := by
  have h : SameColumns X X (Equiv.refl Nat) (fun _ => 1) :=
    ⟨rfl, rfl, fun _ => Iff.rfl, fun _ => .inl rfl, fun _ _ _ _ => by simp⟩
  have := ((C128_paths h cleanRun cleanRun hb hb').2 (fun _ _ => rfl)).2 (indep_X _ (by decide))
  intro j hj
  simpa using this j hj

end GoSelect
