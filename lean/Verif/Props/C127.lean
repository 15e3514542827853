import Verif.Proofs.LassoStability
import Verif.Props.C83

/-!
# C127: along the lasso path
-/

namespace GoSelect

open Finset Spec

variable {K : Type} [Field K] [LinearOrder K] [IsStrictOrderedRing K]

namespace Spec

/-- `LassoLars` returns `path`, and no iteration is degenerate. -/
structure CleanRun (X : Mat K) (y : Nat → K) (tol lambMin : K) (est : Nat → List Nat → List K → Option (List K × List K))
    (path : List (LassoLarsNode K)) : Prop where
  tolPos : 0 < tol
  tolSmall : tol < 10
  minNonneg : 0 ≤ lambMin
  unique : UniqueMax X y
  ok : ∀ s, LarsReach X y tol lambMin est s → LarsStepOk X y tol lambMin est s
  returns : LarsReturns X y tol lambMin est path

end Spec

theorem CleanRun.onPath {X : Mat K} {y : Nat → K} {tol lambMin : K} {est : Nat → List Nat → List K → Option (List K × List K)}
    {path : List (LassoLarsNode K)} (h : CleanRun X y tol lambMin est path) {lamb : K} {b : Nat → K}
    (hp : OnPath path lamb b) : 0 ≤ lamb ∧ IsLassoMin X y lamb b := by
  obtain ⟨h1, h2⟩ := C83_optimal_partial X y tol lambMin h.tolPos h.tolSmall h.minNonneg est path h.unique h.ok h.returns
  obtain ⟨hn, -⟩ := C63_path X y tol lambMin est path h.returns
  have hpos : ∀ n ∈ path, 0 ≤ n.lamb := fun n hn' => h.minNonneg.trans (hn n hn').lamb.le
  obtain ⟨k, n, n', u, hk, hn', hu0, hu1, rfl, rfl⟩ := hp
  have hmem := List.mem_of_getElem? hk
  rcases hn' with rfl | hn'
  · have e1 : (1 - u) * n'.lamb + u * n'.lamb = n'.lamb := by ring
    have e2 : (fun i => (1 - u) * spread n'.selection n'.coeff i + u * spread n'.selection n'.coeff i) =
        spread n'.selection n'.coeff := by funext i; ring
    rw [e1, e2]
    exact ⟨hpos _ hmem, h1 _ hmem⟩
  · refine ⟨?_, h2 k n n' hk hn' u hu0 hu1⟩
    have := mul_nonneg (sub_nonneg.2 hu1) (hpos _ hmem)
    have := mul_nonneg hu0 (hpos _ (List.mem_of_getElem? hn'))
    linarith

/-- C127: a solution for a smaller regularisation fits the data at least as well, and its coefficients have a sum of absolute
values that is at least as large. -/
theorem C127_monotone (X : Mat K) (y : Nat → K) {lamb lamb' : K} (hl : 0 ≤ lamb) (hll : lamb < lamb') {b b' : Nat → K}
    (hb : IsLassoMin X y lamb b) (hb' : IsLassoMin X y lamb' b') :
    sse X b y ≤ sse X b' y ∧ absSum X.nc b' ≤ absSum X.nc b := by
  have e : ∀ b : Nat → K, ∑ r ∈ range X.nr, residual X y b r ^ 2 = sse X b y := by
    intro b
    refine Finset.sum_congr rfl (fun r _ => ?_)
    rw [residual_lin]
    ring
  have h1 := hb b'
  have h2 := hb' b
  simp only [lassoRisk, e] at h1 h2
  change _ + lamb * absSum X.nc b ≤ _ + lamb * absSum X.nc b' at h1
  change _ + lamb' * absSum X.nc b' ≤ _ + lamb' * absSum X.nc b at h2
  have h3 : absSum X.nc b' ≤ absSum X.nc b := by
    by_contra hc
    nlinarith
  exact ⟨by nlinarith, h3⟩

/-- C127: the predictions for two regularisations are close: their squared distance is at most the difference of the
regularisations times the difference of the sums of absolute coefficients. -/
theorem C127_predictions (X : Mat K) (y : Nat → K) {lamb lamb' : K} (hl : 0 ≤ lamb) (hll : 0 ≤ lamb') {b b' : Nat → K}
    (hb : IsLassoMin X y lamb b) (hb' : IsLassoMin X y lamb' b') :
    ∑ r ∈ range X.nr, (lin X b r - lin X b' r) ^ 2 ≤ (lamb' - lamb) * (absSum X.nc b - absSum X.nc b') := by
  have := lasso_change hl hll hb hb'
  simpa using this

/-- C127: the fit of the broken line through the nodes of `LassoLars` (no iteration being degenerate) gets better and its
coefficients grow as the regularisation decreases; points with close regularisations have close predictions. -/
theorem C127_path {X : Mat K} {y : Nat → K} {tol lambMin : K} {est : Nat → List Nat → List K → Option (List K × List K)}
    {path : List (LassoLarsNode K)} (h : CleanRun X y tol lambMin est path) {lamb lamb' : K} {b b' : Nat → K}
    (hp : OnPath path lamb b) (hp' : OnPath path lamb' b') (hll : lamb < lamb') :
    sse X b y ≤ sse X b' y ∧ absSum X.nc b' ≤ absSum X.nc b ∧
    ∑ r ∈ range X.nr, (lin X b r - lin X b' r) ^ 2 ≤ (lamb' - lamb) * (absSum X.nc b - absSum X.nc b') := by
  obtain ⟨h0, h1⟩ := CleanRun.onPath h hp
  obtain ⟨h0', h1'⟩ := CleanRun.onPath h hp'
  obtain ⟨g1, g2⟩ := C127_monotone X y h0 hll h1 h1'
  exact ⟨g1, g2, C127_predictions X y h0 h0' h1 h1'⟩

/-! ### Example -/

namespace LarsExample

theorem cleanRun : CleanRun X y lassoTol (1 / 2) (larsToyEst y) [⟨[0], 3, [1]⟩, ⟨[0, -2], 1, [0, 1]⟩] := by
  refine ⟨by norm_num [lassoTol], by norm_num [lassoTol], by norm_num, unique, ok, _, rfl, runs_of_runFuel (n := 3) ?_⟩
  decide +kernel

/-- Between the two nodes of the path. -/
example : ∃ b b', OnPath [⟨[0], 3, [1]⟩, ⟨[0, -2], 1, [0, 1]⟩] 2 b ∧ OnPath [⟨[0], 3, [1]⟩, ⟨[0, -2], 1, [0, 1]⟩] (5 / 2) b' ∧
    sse X b y = 5 ∧ sse X b' y = 29 / 4 ∧ sse X b y ≤ sse X b' y ∧ absSum 2 b' ≤ absSum 2 b := by
  have h1 : OnPath [⟨[0], 3, [1]⟩, ⟨[0, -2], 1, [0, 1]⟩] (2 : ℚ) _ :=
    ⟨0, _, _, 1 / 2, rfl, .inr rfl, by norm_num, by norm_num, by norm_num, rfl⟩
  have h2 : OnPath [⟨[0], 3, [1]⟩, ⟨[0, -2], 1, [0, 1]⟩] (5 / 2 : ℚ) _ :=
    ⟨0, _, _, 1 / 4, rfl, .inr rfl, by norm_num, by norm_num, by norm_num, rfl⟩
  obtain ⟨h3, h4, -⟩ := C127_path cleanRun h1 h2 (by norm_num)
  exact ⟨_, _, h1, h2, by decide +kernel, by decide +kernel, h3, h4⟩

end LarsExample

end GoSelect
