import Verif.Proofs.CrdRate

/-!
# C158: what a limit on the number of iterations of coordinate descent guarantees
-/

namespace GoSelect

open Finset Spec

/-- A call that is not finished after `n` iterations was not finished before. -/
theorem not_reported {X : Mat ℝ} {y : Nat → ℝ} {lamb tol : ℝ} {N : Nat}
    (h : ¬ reportsConvergence X y lamb tol pureLasso () N) (k : Nat) (hk : k ≤ N) :
    (cdLoop (lassoProblem X y lamb tol pureLasso) k (cdInit (lassoProblem X y lamb tol pureLasso) ())).2 = false := by
  rw [← Bool.not_eq_true]
  intro hc
  refine h ?_
  unfold reportsConvergence
  induction N, hk using Nat.le_induction with
  | base => exact hc
  | succ N hN ih =>
    have h' : ¬ reportsConvergence X y lamb tol pureLasso () N := by
      intro hN'
      refine h ?_
      unfold reportsConvergence at hN' ⊢
      rw [cdLoop_succ, if_pos hN']
      exact hN'
    exact absurd (ih h') h'

section
variable {X : Mat ℝ} {y : Nat → ℝ} {lamb tol : ℝ}

/-- The iterations of a call as sweeps; what is not visited has the coefficient of the result. -/
theorem crd_sweeps {N : Nat} (hconv : ¬ reportsConvergence X y lamb tol pureLasso () N) (b : Nat → ℝ)
    (hb : ∀ j < X.nc, |lassoResult X y lamb tol pureLasso () N j| ≤ 1 / 10 ^ 16 →
      b j = lassoResult X y lamb tol pureLasso () N j) :
    ∃ A : Nat → List Nat, ∀ k < N,
      lassoResult X y lamb tol pureLasso () (k + 1) = sweepMap X y lamb (A k) (lassoResult X y lamb tol pureLasso () k) ∧
      (A k).Nodup ∧ (∀ j ∈ A k, 1 ≤ j ∧ j < X.nc) ∧
      ∀ j < X.nc, j ∉ A k → b j = lassoResult X y lamb tol pureLasso () k j := by
  set p := lassoProblem X y lamb tol pureLasso with hp
  set u := lassoResult X y lamb tol pureLasso () with hu
  have hstep := fun k (hk : k ≤ N) => crd_iter X y lamb tol k (not_reported hconv k hk)
  have hzero : ∀ n, u n 0 = 0 := fun n => C56_first_feature X y lamb tol pureLasso () n
  have hinv := fun k => lassoProblem_inv X y lamb tol pureLasso () k
  refine ⟨fun k => (crdState p () k).iterIndices, fun k hk => ⟨(hstep k hk.le).2, (hinv k).nodup, fun j hj => (hinv k).idx j hj,
    fun j hj hjA => ?_⟩⟩
  have hs : |u k j| ≤ 1 / 10 ^ 16 := crd_small p () k j hjA
  have h2 : u N j = u k j := by
    rcases Nat.eq_zero_or_pos k with rfl | hk1
    · have hj0 : j = 0 := by
        by_contra hne
        refine hjA ?_
        change j ∈ (crdState p () 0).iterIndices
        simp only [crdState, cdLoop, cdInit, hp, lassoProblem]
        rw [List.mem_map]
        exact ⟨j - 1, List.mem_range.2 (by omega), by omega⟩
      rw [hj0, hzero, hzero]
    · exact C106_never_back p () k N hk1 hk.le j hs
  rw [← h2]
  refine hb j hj ?_
  rw [h2]
  exact hs

/-- **C158 (rate).** If the call uses up `N` iterations, the objective at the result exceeds the objective at no vector
with the same coefficients of the unselected features by more than a constant of the data over `N`. -/
theorem C158_rate (hl : 0 < lamb) (hnr : 0 < X.nr) {c B : ℝ} (hc : 0 < c) (hcB : c ≤ B)
    (hdiag : ∀ j, 1 ≤ j → j < X.nc → c ≤ (empiricalCov X).get j j ∧ (empiricalCov X).get j j ≤ B)
    (N : Nat) (hN : 0 < N) (hconv : ¬ reportsConvergence X y lamb tol pureLasso () N) :
    let β := lassoResult X y lamb tol pureLasso () N
    ∀ b : Nat → ℝ, (∀ j < X.nc, |β j| ≤ 1 / 10 ^ 16 → b j = β j) →
      lassoObjective X y lamb β ≤ lassoObjective X y lamb b +
        (4 * X.nc * B ^ 2 * meanSquare X y ^ 2 / (c * lamb ^ 2) + meanSquare X y) / N := by
  intro β b hb
  obtain ⟨A, hA⟩ := crd_sweeps hconv b hb
  refine sweeps_rate (A := A) (u := lassoResult X y lamb tol pureLasso ()) hl hnr hc N hN
    (fun k hk => (hA k hk).1) (fun k hk => (hA k hk).2.1)
    (fun k hk j hj => ⟨((hA k hk).2.2.1 j hj).2, hdiag j ((hA k hk).2.2.1 j hj).1 ((hA k hk).2.2.1 j hj).2⟩)
    (hc.le.trans hcB) ?_ b (fun k hk => (hA k hk).2.2.2)
  rw [← objective_at_zero (lamb := lamb)]
  exact C53_zero X y lamb tol hl.le hnr (fun j h1 h2 => hc.trans_le (hdiag j h1 h2).1) 0

/-- **C158 (iterations for an accuracy).** A number of iterations after which the result is within `ε` of the best
vector with the same coefficients of the unselected features. -/
theorem C158_iterations (hl : 0 < lamb) (hnr : 0 < X.nr) {c B : ℝ} (hc : 0 < c) (hcB : c ≤ B)
    (hdiag : ∀ j, 1 ≤ j → j < X.nc → c ≤ (empiricalCov X).get j j ∧ (empiricalCov X).get j j ≤ B)
    {ε : ℝ} (hε : 0 < ε) (N : Nat) (hN : 0 < N)
    (hNε : (4 * X.nc * B ^ 2 * meanSquare X y ^ 2 / (c * lamb ^ 2) + meanSquare X y) / ε ≤ N)
    (hconv : ¬ reportsConvergence X y lamb tol pureLasso () N) :
    let β := lassoResult X y lamb tol pureLasso () N
    ∀ b : Nat → ℝ, (∀ j < X.nc, |β j| ≤ 1 / 10 ^ 16 → b j = β j) →
      lassoObjective X y lamb β ≤ lassoObjective X y lamb b + ε := by
  intro β b hb
  refine (C158_rate hl hnr hc hcB hdiag N hN hconv b hb).trans ?_
  gcongr
  rw [div_le_iff₀ (by exact_mod_cast hN)]
  rw [div_le_iff₀ hε] at hNε
  linarith

/-- **C158 (all features selected).** If no feature has been dropped, the bound holds for all vectors whose first entry,
which the function never changes, is 0. -/
theorem C158_all_selected (hl : 0 < lamb) (hnr : 0 < X.nr) {c B : ℝ} (hc : 0 < c) (hcB : c ≤ B)
    (hdiag : ∀ j, 1 ≤ j → j < X.nc → c ≤ (empiricalCov X).get j j ∧ (empiricalCov X).get j j ≤ B)
    (N : Nat) (hN : 0 < N) (hconv : ¬ reportsConvergence X y lamb tol pureLasso () N)
    (hall : ∀ j, 1 ≤ j → j < X.nc → |lassoResult X y lamb tol pureLasso () N j| > 1 / 10 ^ 16) :
    ∀ b : Nat → ℝ, b 0 = 0 →
      lassoObjective X y lamb (lassoResult X y lamb tol pureLasso () N) ≤ lassoObjective X y lamb b +
        (4 * X.nc * B ^ 2 * meanSquare X y ^ 2 / (c * lamb ^ 2) + meanSquare X y) / N := by
  intro b hb
  refine C158_rate hl hnr hc hcB hdiag N hN hconv b (fun j hj hs => ?_)
  rcases Nat.eq_zero_or_pos j with rfl | hpos
  · rw [hb, C56_first_feature]
  · exact absurd (hall j hpos hj) (not_lt.2 hs)

/-- Variances and mean square of normalised data. -/
theorem normalised_diag (hX : ∀ j, 1 ≤ j → j < X.nc → ∑ r ∈ range X.nr, X.get r j * X.get r j = X.nr - 1)
    (hy : ∑ r ∈ range X.nr, y r ^ 2 = X.nr - 1) :
    (∀ j, 1 ≤ j → j < X.nc → (empiricalCov X).get j j = ((X.nr : ℝ) - 1) / X.nr) ∧
      meanSquare X y = ((X.nr : ℝ) - 1) / X.nr := by
  refine ⟨fun j h1 h2 => ?_, by unfold meanSquare; rw [hy]⟩
  have e : (empiricalCov X).get j j = (∑ r ∈ range X.nr, X.get r j * X.get r j) / X.nr := by
    simp [empiricalCov]
    ring
  rw [e, hX j h1 h2]

/-- **C158 (normalised data).** For columns and a response with mean square `(n - 1) / n`, as the normalisation of the
package produces them, the bound contains only the number of features, the penalty and the number of iterations. -/
theorem C158_normalised (hl : 0 < lamb) (hnr : 2 ≤ X.nr)
    (hX : ∀ j, 1 ≤ j → j < X.nc → ∑ r ∈ range X.nr, X.get r j * X.get r j = X.nr - 1)
    (hy : ∑ r ∈ range X.nr, y r ^ 2 = X.nr - 1)
    (N : Nat) (hN : 0 < N) (hconv : ¬ reportsConvergence X y lamb tol pureLasso () N) :
    let β := lassoResult X y lamb tol pureLasso () N
    ∀ b : Nat → ℝ, (∀ j < X.nc, |β j| ≤ 1 / 10 ^ 16 → b j = β j) →
      lassoObjective X y lamb β ≤ lassoObjective X y lamb b + (4 * X.nc / lamb ^ 2 + 1) / N := by
  intro β b hb
  have hn : (2 : ℝ) ≤ X.nr := by exact_mod_cast hnr
  obtain ⟨hdiag, hs⟩ := normalised_diag hX hy
  set q : ℝ := ((X.nr : ℝ) - 1) / X.nr with hq
  have hq0 : 0 < q := by rw [hq]; apply div_pos <;> linarith
  have hq1 : q ≤ 1 := by rw [hq, div_le_one (by linarith)]; linarith
  have h := C158_rate hl (by omega) hq0 le_rfl (fun j h1 h2 => ⟨(hdiag j h1 h2).ge, (hdiag j h1 h2).le⟩) N hN hconv b hb
  rw [hs] at h
  refine h.trans ?_
  have h3 : 4 * (X.nc : ℝ) * q ^ 2 * q ^ 2 / (q * lamb ^ 2) ≤ 4 * X.nc / lamb ^ 2 := by
    have e : 4 * (X.nc : ℝ) * q ^ 2 * q ^ 2 / (q * lamb ^ 2) = 4 * X.nc / lamb ^ 2 * q ^ 3 := by
      field_simp
    rw [e]
    exact mul_le_of_le_one_right (by positivity) (pow_le_one₀ hq0.le hq1)
  have h4 : (4 * (X.nc : ℝ) * q ^ 2 * q ^ 2 / (q * lamb ^ 2) + q) / N ≤ (4 * X.nc / lamb ^ 2 + 1) / N :=
    div_le_div_of_nonneg_right (by linarith) (Nat.cast_nonneg _)
  linarith

/-! ### Independent columns -/

/-- **C158 (independent columns).** If the columns other than the first are independent, the excess of the objective
shrinks by a constant factor with every iteration. -/
theorem C158_linear (hl : 0 ≤ lamb) (hnr : 0 < X.nr) {c B μ : ℝ} (hc : 0 < c) (hcB : c ≤ B) (hμ : 0 < μ)
    (hw : WellConditioned X μ)
    (hdiag : ∀ j, 1 ≤ j → j < X.nc → c ≤ (empiricalCov X).get j j ∧ (empiricalCov X).get j j ≤ B)
    (N : Nat) (hconv : ¬ reportsConvergence X y lamb tol pureLasso () N) :
    let β := lassoResult X y lamb tol pureLasso () N
    let κ := X.nc ^ 2 * B ^ 2 / (μ * c)
    ∀ b : Nat → ℝ, (∀ j < X.nc, |β j| ≤ 1 / 10 ^ 16 → b j = β j) →
      lassoObjective X y lamb β ≤ lassoObjective X y lamb b + (κ / (1 + κ)) ^ N * (meanSquare X y / 2) := by
  intro β κ b hb
  obtain ⟨A, hA⟩ := crd_sweeps hconv b hb
  set u := lassoResult X y lamb tol pureLasso () with hu
  have hzero : ∀ n, u n 0 = 0 := fun n => C56_first_feature X y lamb tol pureLasso () n
  have hκ : 0 ≤ κ := by
    change 0 ≤ (X.nc : ℝ) ^ 2 * B ^ 2 / (μ * c)
    positivity
  have hb0 : 0 < X.nc → b 0 = 0 := by
    intro hnc
    rw [hb 0 hnc (by change |u N 0| ≤ _; rw [hzero, abs_zero]; positivity)]
    exact hzero N
  -- the first entry plays no role without features
  have hstart : lassoObjective X y lamb (u 0) ≤ meanSquare X y / 2 := by
    rw [← objective_at_zero (lamb := lamb)]
    exact C53_zero X y lamb tol hl hnr (fun j h1 h2 => hc.trans_le (hdiag j h1 h2).1) 0
  have hs0 : 0 ≤ meanSquare X y := by unfold meanSquare; positivity
  have key : ∀ k, k ≤ N → lassoObjective X y lamb (u k) - lassoObjective X y lamb b ≤
      (κ / (1 + κ)) ^ k * (meanSquare X y / 2) := by
    intro k
    induction k with
    | zero =>
      intro _
      have := (objective_nonneg X y hl b).1
      rw [pow_zero, one_mul]
      linarith
    | succ k ih =>
      intro hk
      have hi := ih (by omega)
      obtain ⟨h1, h2, h3, h4⟩ := hA k (by omega)
      have hstep : lassoObjective X y lamb (u (k + 1)) - lassoObjective X y lamb b ≤
          κ * (lassoObjective X y lamb (u k) - lassoObjective X y lamb (u (k + 1))) := by
        rcases Nat.eq_zero_or_pos X.nc with hnc | hnc
        · have e : ∀ v w : Nat → ℝ, lassoObjective X y lamb v = lassoObjective X y lamb w := by
            intro v w
            unfold lassoObjective Spec.residual
            simp [hnc]
          rw [e (u (k + 1)) b, e (u k) b]
          simp
        · rw [h1]
          exact sweep_linear hl hnr h2 hc (fun j hj => ⟨(h3 j hj).1, (h3 j hj).2, hdiag j (h3 j hj).1 (h3 j hj).2⟩)
            (hc.le.trans hcB) hμ hw (u k) b h4 (by rw [hzero, hb0 hnc])
      have hfac : lassoObjective X y lamb (u (k + 1)) - lassoObjective X y lamb b ≤
          κ / (1 + κ) * (lassoObjective X y lamb (u k) - lassoObjective X y lamb b) := by
        rw [div_mul_eq_mul_div, le_div_iff₀ (by linarith)]
        linarith
      refine hfac.trans ?_
      rw [pow_succ, mul_comm _ (κ / (1 + κ)), mul_assoc]
      exact mul_le_mul_of_nonneg_left hi (by positivity)
  have := key N le_rfl
  linarith

/-- **C158 (coefficients).** For independent columns the coefficients come close to those of the best vector with the same
coefficients of the unselected features. -/
theorem C158_coefficients (hl : 0 ≤ lamb) (hnr : 0 < X.nr) {c B μ : ℝ} (hc : 0 < c) (hcB : c ≤ B) (hμ : 0 < μ)
    (hw : WellConditioned X μ)
    (hdiag : ∀ j, 1 ≤ j → j < X.nc → c ≤ (empiricalCov X).get j j ∧ (empiricalCov X).get j j ≤ B)
    (N : Nat) (hconv : ¬ reportsConvergence X y lamb tol pureLasso () N) :
    let β := lassoResult X y lamb tol pureLasso () N
    let κ := X.nc ^ 2 * B ^ 2 / (μ * c)
    ∀ b : Nat → ℝ, (∀ j < X.nc, |β j| ≤ 1 / 10 ^ 16 → b j = β j) → b 0 = 0 →
      (∀ b' : Nat → ℝ, (∀ j < X.nc, |β j| ≤ 1 / 10 ^ 16 → b' j = β j) →
        lassoObjective X y lamb b ≤ lassoObjective X y lamb b') →
      ∑ j ∈ range X.nc, (β j - b j) ^ 2 ≤ (κ / (1 + κ)) ^ N * (meanSquare X y / μ) := by
  intro β κ b hb hb0 hbest
  have h1 := C158_linear hl hnr hc hcB hμ hw hdiag N hconv b hb
  have h2 := gap_of_best (y := y) hnr hl b β (fun t _ _ => hbest _ (fun j hj hs => by rw [hb j hj hs]; ring))
  have h3 := hw (fun j => β j - b j) (by
    have : β 0 = 0 := C56_first_feature X y lamb tol pureLasso () N
    rw [this, hb0, sub_zero])
  have h4 : μ * ∑ j ∈ range X.nc, (β j - b j) ^ 2 ≤ (κ / (1 + κ)) ^ N * meanSquare X y := by
    have : lassoObjective X y lamb β - lassoObjective X y lamb b ≤ (κ / (1 + κ)) ^ N * (meanSquare X y / 2) := by
      linarith
    linarith
  have e : (κ / (1 + κ)) ^ N * (meanSquare X y / μ) = (κ / (1 + κ)) ^ N * meanSquare X y / μ := by ring
  rw [e, le_div_iff₀ hμ]
  linarith

end

/-! ### Example -/

/-- Two orthogonal columns. -/
def rateX : Mat ℝ := ⟨2, 2, fun r j => if r = 1 ∧ j = 1 then -1 else 1⟩

theorem rateX_diag (j : Nat) (h1 : 1 ≤ j) (h2 : j < rateX.nc) :
    1 ≤ (empiricalCov rateX).get j j ∧ (empiricalCov rateX).get j j ≤ 1 := by
  have : j = 1 := by simp only [rateX] at h2; omega
  subst this
  simp [empiricalCov, rateX, Finset.sum_range_succ]
  norm_num

theorem rateX_open (y : Nat → ℝ) (N : Nat) : ¬ reportsConvergence rateX y (1 / 10) 0 pureLasso () N := by
  unfold reportsConvergence
  rw [(no_stop rateX y (1 / 10) le_rfl N).2]
  decide

/-- The response of the example. -/
def rateY : Nat → ℝ := fun r => if r = 0 then 1 else -1

theorem rate_meanSquare : meanSquare rateX rateY = 1 := by
  simp [meanSquare, rateX, rateY, Finset.sum_range_succ]

theorem rateX_conditioned : WellConditioned rateX 1 := by
  intro v _
  simp [predSquare, rateX, Finset.sum_range_succ]
  nlinarith

example (N : Nat) (hN : 0 < N) :
    let β := lassoResult rateX rateY (1 / 10) 0 pureLasso () N
    ∀ b : Nat → ℝ, (∀ j < 2, |β j| ≤ 1 / 10 ^ 16 → b j = β j) →
      lassoObjective rateX rateY (1 / 10) β ≤ lassoObjective rateX rateY (1 / 10) b + 801 / N := by
  intro β b hb
  have h := C158_rate (X := rateX) (y := rateY) (lamb := 1 / 10) (tol := 0) (c := 1) (B := 1) (by norm_num) (by simp [rateX])
    (by norm_num) le_rfl rateX_diag N hN (rateX_open _ N) b hb
  rw [rate_meanSquare] at h
  refine h.trans (le_of_eq ?_)
  congr 2
  simp [rateX]
  norm_num

example (N : Nat) :
    let β := lassoResult rateX rateY (1 / 10) 0 pureLasso () N
    ∀ b : Nat → ℝ, (∀ j < 2, |β j| ≤ 1 / 10 ^ 16 → b j = β j) →
      lassoObjective rateX rateY (1 / 10) β ≤ lassoObjective rateX rateY (1 / 10) b + (4 / 5) ^ N * (1 / 2) := by
  intro β b hb
  have h := C158_linear (X := rateX) (y := rateY) (lamb := 1 / 10) (tol := 0) (c := 1) (B := 1) (by norm_num) (by simp [rateX])
    (by norm_num) le_rfl one_pos rateX_conditioned rateX_diag N (rateX_open _ N) b hb
  rw [rate_meanSquare] at h
  refine h.trans (le_of_eq ?_)
  congr 3
  simp [rateX]
  norm_num

end GoSelect
