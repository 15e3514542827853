import Verif.Props.C53_C54

/-!
# C55, C56: what the result of coordinate descent satisfies
-/

namespace GoSelect

open Finset Spec

variable {K : Type} [Field K] [LinearOrder K]

/-- `LassoCrdDesc` left its loop because of convergence with no unsatisfied KKT condition. -/
def reportsConvergence {S : Type} (X : Mat K) (y : Nat → K) (lamb tol : K) (corr : LassoCorrection K S) (s : S)
    (maxIter : Nat) : Prop :=
  (cdLoop (lassoProblem X y lamb tol corr) maxIter (cdInit (lassoProblem X y lamb tol corr) s)).2 = true

theorem cdLoop_break {S : Type} (p : CDProblem K S) (n : Nat) (st : CDState K S)
    (h : (cdLoop p n st).2 = true) : ∃ m, cdIter p (cdLoop p m st).1 = cdLoop p n st := by
  induction n with
  | zero => simp [cdLoop] at h
  | succ n ih =>
    rw [cdLoop_succ] at h ⊢
    split at h
    · rename_i hb
      rw [if_pos hb]
      exact ih hb
    · rename_i hb
      rw [if_neg hb]
      exact ⟨n, rfl⟩

theorem le_foldl_max {f : Nat → K} (l : List Nat) (a : K) :
    a ≤ l.foldl (fun m j => if f j > m then f j else m) a := by
  induction l generalizing a with
  | nil => exact le_refl _
  | cons i l ih =>
    rw [List.foldl_cons]
    refine le_trans ?_ (ih _)
    split
    · exact le_of_lt ‹_›
    · exact le_refl _

theorem le_runMax (f : Nat → K) (l : List Nat) : 0 ≤ runMax f l ∧ ∀ j ∈ l, f j ≤ runMax f l := by
  refine ⟨le_foldl_max l 0, ?_⟩
  unfold runMax
  generalize (0 : K) = a
  induction l generalizing a with
  | nil => intro j hj; simp at hj
  | cons i l ih =>
    intro j hj
    rw [List.foldl_cons]
    rcases List.mem_cons.1 hj with rfl | hj
    · refine le_trans ?_ (le_foldl_max l _)
      split
      · exact le_refl _
      · exact not_lt.1 ‹_›
    · exact ih _ j hj

theorem runMax_attained (f : Nat → K) (l : List Nat) : runMax f l = 0 ∨ ∃ j ∈ l, f j = runMax f l := by
  unfold runMax
  generalize (0 : K) = a
  induction l generalizing a with
  | nil => exact .inl rfl
  | cons i l ih =>
    rw [List.foldl_cons]
    by_cases h : f i > a
    · rw [if_pos h]
      rcases ih (f i) with h' | ⟨j, hj, h'⟩
      · exact .inr ⟨i, by simp, h'.symm⟩
      · exact .inr ⟨j, by simp [hj], h'⟩
    · rw [if_neg h]
      rcases ih a with h' | ⟨j, hj, h'⟩
      · exact .inl h'
      · exact .inr ⟨j, by simp [hj], h'⟩

/-- Features outside the active list have coefficients that count as zero. -/
theorem inactive_small {S : Type} (p : CDProblem K S) (n : Nat) (s : S) :
    ∀ k, 1 ≤ k → k < p.nFeat → k ∉ (cdLoop p n (cdInit p s)).1.iterIndices →
      |(cdLoop p n (cdInit p s)).1.beta k| ≤ lassoCrdDescZero := by
  induction n with
  | zero =>
    intro k h1 h2 hk
    exfalso
    apply hk
    simp only [cdLoop, cdInit, List.mem_map, List.mem_range]
    exact ⟨k - 1, by omega, by omega⟩
  | succ n ih =>
    intro k h1 h2 hk
    rw [cdLoop_succ] at hk ⊢
    split at hk
    · rename_i hb
      rw [if_pos hb]
      exact ih k h1 h2 hk
    · rename_i hb
      rw [if_neg hb]
      set st := (cdLoop p n (cdInit p s)).1 with hst
      obtain ⟨g1, -, -, g4⟩ := cdIter_shape p st
      rw [g1]
      obtain ⟨-, f2, -, f4⟩ := foldl_cdCoord_const p st.iterIndices st
      have hit : (cdSweep p st).iterIndices = st.iterIndices := f2
      by_cases hm : k ∈ st.iterIndices
      · by_contra hgt
        apply hk
        have hmem : k ∈ (cdSweep p st).iterIndices.filter
            (fun j => decide (|(cdSweep p st).beta j| > lassoCrdDescZero)) := by
          rw [List.mem_filter, hit]
          exact ⟨hm, by simpa using hgt⟩
        rcases g4 with g4 | g4
        · rw [g4]; exact hmem
        · rw [g4]
          have : ∀ (a b : List Nat), k ∈ a → k ∈ unionNat a b := by
            intro a b
            unfold unionNat
            induction b generalizing a with
            | nil => exact id
            | cons x b ihb =>
              intro ha
              rw [List.foldl_cons]
              split
              · exact ihb a ha
              · exact ihb _ (by simp [ha])
          exact this _ _ hmem
      · change |(st.iterIndices.foldl (cdCoord p) st).beta k| ≤ _
        rw [f4 k hm]
        exact ih k h1 h2 hm

variable [IsStrictOrderedRing K]

/-- After a sweep every visited coordinate satisfies its condition up to the changes of the sweep. -/
theorem sweep_near_kkt (X : Mat K) (y : Nat → K) (lamb tol : K) (hl : 0 ≤ lamb)
    (todo : List Nat) (st : CDState K Unit) (hlt : ∀ j ∈ todo, j < X.nc)
    (hdiag : ∀ j ∈ todo, 0 < (empiricalCov X).get j j) (hnd : todo.Nodup) (h : SweepInv X st todo) :
    let fin := (todo.foldl (cdCoord (lassoProblem X y lamb tol pureLasso)) st).beta
    ∀ j ∈ todo, ∃ s, |s| ≤ lamb ∧ s * fin j = lamb * |fin j| ∧
      |gradient X y fin j - s| ≤ ∑ k ∈ range X.nc, |(empiricalCov X).get j k| * |fin k - st.beta k| := by
  induction todo generalizing st with
  | nil => intro fin j hj; simp at hj
  | cons i todo ih =>
    intro fin j hj
    set p := lassoProblem X y lamb tol pureLasso with hp
    obtain ⟨hit, hnd'⟩ := List.nodup_cons.1 hnd
    have hi := hlt i (by simp)
    have hc := hdiag i (by simp)
    have hv := cdCoord_value X y p 0 rfl rfl rfl pureLasso_elastic st i todo h
    have hinv := cdCoord_inv X p rfl st i todo hi hnd h
    have hfi : fin i = (cdCoord p st i).beta i := (foldl_cdCoord_const p todo (cdCoord p st i)).2.2.2 i hit
    have hmono : ∀ k, |fin k - (cdCoord p st i).beta k| ≤ |fin k - st.beta k| := by
      intro k
      by_cases hk : k = i
      · subst hk; rw [hfi]; simp
      · rw [hv, Function.update_of_ne hk]
    have hsum : ∀ j', ∑ k ∈ range X.nc, |(empiricalCov X).get j' k| * |fin k - (cdCoord p st i).beta k| ≤
        ∑ k ∈ range X.nc, |(empiricalCov X).get j' k| * |fin k - st.beta k| := fun j' =>
      Finset.sum_le_sum (fun k _ => mul_le_mul_of_nonneg_left (hmono k) (abs_nonneg _))
    rcases List.mem_cons.1 hj with rfl | hj
    · refine ⟨gradient X y (cdCoord p st j).beta j, ?_⟩
      set c := (empiricalCov X).get j j with hcd
      set g := gradient X y st.beta j with hg
      set u := softThreshold (g + c * st.beta j) lamb with hu
      have hv' : (cdCoord p st j).beta = Function.update st.beta j (u / c) := by
        rw [hv, zero_mul, sub_zero]
        rfl
      obtain ⟨h1, h2⟩ := softThreshold_subgradient (x := g + c * st.beta j) hl
      rw [← hu] at h1 h2
      have hgr : gradient X y (cdCoord p st j).beta j = g + c * st.beta j - u := by
        have e := gradient_sub X y (cdCoord p st j).beta st.beta j
        have e2 : ∑ k ∈ range X.nc, (empiricalCov X).get j k * ((cdCoord p st j).beta k - st.beta k) =
            c * (u / c - st.beta j) := by
          rw [hv']
          simp only [mul_sub, Finset.sum_sub_distrib]
          rw [sum_update _ _ hi]
          rw [← hcd]; ring
        rw [e2] at e
        have e3 : c * (u / c) = u := by field_simp
        linear_combination e - e3
      have hb : fin j = u / c := by rw [hfi, hv', Function.update_self]
      refine ⟨by rw [hgr]; exact h1, ?_, ?_⟩
      · rw [hgr, hb, abs_div, abs_of_pos hc, ← mul_div_assoc, ← mul_div_assoc, h2]
      · refine le_trans ?_ (hsum j)
        rw [gradient_sub, abs_neg]
        refine (Finset.abs_sum_le_sum_abs _ _).trans (le_of_eq ?_)
        exact Finset.sum_congr rfl (fun k _ => abs_mul _ _)
    · obtain ⟨s, h1, h2, h3⟩ := ih (cdCoord p st i) (fun k hk => hlt k (by simp [hk]))
        (fun k hk => hdiag k (by simp [hk])) hnd' hinv j hj
      exact ⟨s, h1, h2, h3.trans (hsum j)⟩

/-- C55, the part that holds: when convergence is reported, every *selected* feature satisfies its KKT
condition up to `tol * max |β| * Σ_k |C_jk|` (`m` is the largest coefficient in magnitude).
The full claim is the same statement for every feature `j`. -/
theorem C55_selected_partial (X : Mat K) (y : Nat → K) (lamb tol : K) (hl : 0 ≤ lamb)
    (hdiag : ∀ j, 1 ≤ j → j < X.nc → 0 < (empiricalCov X).get j j) (n : Nat)
    (hconv : reportsConvergence X y lamb tol pureLasso () n) :
    let b := lassoResult X y lamb tol pureLasso () n
    ∃ m, (∃ k, |b k| = m) ∧ ∀ j, 1 ≤ j → j < X.nc → |b j| > lassoCrdDescZero →
      ∃ s, |s| ≤ lamb ∧ s * b j = lamb * |b j| ∧
        |gradient X y b j - s| ≤ tol * m * ∑ k ∈ range X.nc, |(empiricalCov X).get j k| := by
  intro b
  set p := lassoProblem X y lamb tol pureLasso with hp
  obtain ⟨q, hq⟩ := cdLoop_break p n (cdInit p ()) hconv
  have hinv := lassoProblem_inv X y lamb tol pureLasso () q
  set st := (cdLoop p q (cdInit p ())).1 with hst
  have hb : b = (cdSweep p st).beta := by
    change (cdLoop p n (cdInit p ())).1.beta = _
    rw [← hq]
    exact (cdIter_shape p st).1
  obtain ⟨f1, f2, -, f4⟩ := foldl_cdCoord_const p st.iterIndices st
  have hit : (cdSweep p st).iterIndices = st.iterIndices := f2
  have hbo : (cdSweep p st).betaOld = st.beta := f1.trans hinv.old
  set M := runMax (fun j => |(cdSweep p st).beta j|) st.iterIndices with hM
  set D := runMax (fun j => |(cdSweep p st).beta j - st.beta j|) st.iterIndices with hD
  have hcv : M ≠ 0 ∧ D / M < tol := by
    have h2 : (cdIter p st).2 = true := by rw [hq]; exact hconv
    unfold cdIter at h2
    simp only at h2
    split at h2
    · rename_i hc
      rw [Bool.and_eq_true, decide_eq_true_eq, decide_eq_true_eq] at hc
      rw [hit, hbo] at hc
      exact hc
    · simp at h2
  have hMpos : 0 < M := lt_of_le_of_ne (le_runMax _ _).1 (Ne.symm hcv.1)
  have hDM : D ≤ tol * M := ((div_lt_iff₀ hMpos).1 hcv.2).le
  refine ⟨M, ?_, ?_⟩
  · rcases runMax_attained (fun j => |(cdSweep p st).beta j|) st.iterIndices with h0 | ⟨k, -, hk⟩
    · exact absurd h0 hcv.1
    · exact ⟨k, by rw [hb]; exact hk⟩
  · intro j h1 h2 hj
    have hjm : j ∈ st.iterIndices := by
      by_contra hnm
      have hs := inactive_small p q () j h1 h2 hnm
      rw [hb] at hj
      have : (cdSweep p st).beta j = st.beta j := f4 j hnm
      rw [this] at hj
      exact absurd hj (not_lt.2 hs)
    obtain ⟨s, g1, g2, g3⟩ := sweep_near_kkt X y lamb tol hl st.iterIndices st
      (fun k hk => (hinv.idx k hk).2) (fun k hk => hdiag k (hinv.idx k hk).1 (hinv.idx k hk).2) hinv.nodup
      (hinv.sweep _) j hjm
    refine ⟨s, g1, by rw [hb]; exact g2, ?_⟩
    rw [hb]
    refine g3.trans ?_
    rw [Finset.mul_sum]
    refine Finset.sum_le_sum (fun k _ => ?_)
    rw [mul_comm (tol * M)]
    refine mul_le_mul_of_nonneg_left ?_ (abs_nonneg _)
    by_cases hk : k ∈ st.iterIndices
    · exact ((le_runMax (fun j => |(cdSweep p st).beta j - st.beta j|) st.iterIndices).2 k hk).trans hDM
    · have : (st.iterIndices.foldl (cdCoord p) st).beta k = st.beta k := f4 k hk
      rw [this, sub_self, abs_zero]
      exact ((le_runMax (fun j => |(cdSweep p st).beta j - st.beta j|) st.iterIndices).1).trans hDM

/-- C55, how far the result is from optimal: when convergence is reported and `v` bounds the violations
`|correlation| - lamb` of the features that are not selected, no vector without the first feature has an
objective that is smaller by more than
`Σ_j (tol * max |β| * Σ_k |C_jk| + v) |b'_j - b_j| + 2 * lamb * nc / 10^16`.  The full claim is `v = 0`. -/
theorem C55_gap_partial (X : Mat K) (y : Nat → K) (lamb tol v : K) (hl : 0 ≤ lamb) (ht : 0 ≤ tol) (hv : 0 ≤ v)
    (hnr : 0 < X.nr) (hdiag : ∀ j, 1 ≤ j → j < X.nc → 0 < (empiricalCov X).get j j) (n : Nat)
    (hconv : reportsConvergence X y lamb tol pureLasso () n)
    (hun : ∀ j, 1 ≤ j → j < X.nc → |lassoResult X y lamb tol pureLasso () n j| ≤ 1 / 10 ^ 16 →
      |gradient X y (lassoResult X y lamb tol pureLasso () n) j| ≤ lamb + v) :
    let b := lassoResult X y lamb tol pureLasso () n
    ∃ m, (∃ k, |b k| = m) ∧ ∀ b' : Nat → K, b' 0 = 0 → lassoObjective X y lamb b ≤ lassoObjective X y lamb b' +
      ∑ j ∈ range X.nc, (tol * m * ∑ k ∈ range X.nc, |(empiricalCov X).get j k| + v) * |b' j - b j| +
      2 * lamb * X.nc / 10 ^ 16 := by
  intro b
  obtain ⟨m, ⟨k, hk⟩, hsel⟩ := C55_selected_partial X y lamb tol hl hdiag n hconv
  refine ⟨m, ⟨k, hk⟩, fun b' h0 => ?_⟩
  have hm : 0 ≤ m := by rw [← hk]; exact abs_nonneg _
  have hconvex := objective_convex X y lamb b b' hnr
  have hsum : ∑ j ∈ range X.nc, gradient X y b j * (b' j - b j) ≤
      ∑ j ∈ range X.nc, (lamb * (|b' j| - |b j|) +
        (tol * m * ∑ k ∈ range X.nc, |(empiricalCov X).get j k| + v) * |b' j - b j| + 2 * lamb * (1 / 10 ^ 16)) := by
    refine Finset.sum_le_sum (fun j hj => ?_)
    have hS : 0 ≤ tol * m * ∑ k ∈ range X.nc, |(empiricalCov X).get j k| :=
      mul_nonneg (mul_nonneg ht hm) (Finset.sum_nonneg (fun _ _ => abs_nonneg _))
    set S := tol * m * ∑ k ∈ range X.nc, |(empiricalCov X).get j k| with hSdef
    have hz : 0 ≤ 2 * lamb * (1 / 10 ^ 16) := by positivity
    have key : ∀ s e : K, |gradient X y b j - s| ≤ e → gradient X y b j * (b' j - b j) ≤
        s * (b' j - b j) + e * |b' j - b j| := by
      intro s e he
      have h1 : (gradient X y b j - s) * (b' j - b j) ≤ |gradient X y b j - s| * |b' j - b j| := by
        rw [← abs_mul]
        exact le_abs_self _
      have h2 := mul_le_mul_of_nonneg_right he (abs_nonneg (b' j - b j))
      have h3 : gradient X y b j * (b' j - b j) = s * (b' j - b j) + (gradient X y b j - s) * (b' j - b j) := by ring
      linarith
    have hd := abs_nonneg (b' j - b j)
    rcases Nat.eq_zero_or_pos j with rfl | hj0
    · have hb0 : b 0 = 0 := (lassoProblem_inv X y lamb tol pureLasso () n).zero 0 (.inl rfl)
      rw [h0, hb0]
      simp only [sub_self, abs_zero, mul_zero, add_zero, zero_add]
      exact hz
    · by_cases hbig : |b j| > lassoCrdDescZero
      · obtain ⟨s, h1, h2, h3⟩ := hsel j hj0 (mem_range.1 hj) hbig
        have h4 := key s S h3
        have h5 := subgradient_le h1 h2 (b' j)
        have h6 : 0 ≤ v * |b' j - b j| := mul_nonneg hv hd
        rw [add_mul]
        linarith
      · have hsmall : |b j| ≤ 1 / 10 ^ 16 := not_lt.1 hbig
        have hg := hun j hj0 (mem_range.1 hj) hsmall
        obtain ⟨s, h1, h2⟩ : ∃ s, |s| ≤ lamb ∧ |gradient X y b j - s| ≤ v := by
          by_cases hle : |gradient X y b j| ≤ lamb
          · exact ⟨_, hle, by rw [sub_self, abs_zero]; exact hv⟩
          · rw [not_le] at hle
            rcases le_total 0 (gradient X y b j) with hp | hp
            · rw [abs_of_nonneg hp] at hle
              have hg' : gradient X y b j ≤ lamb + v := by rw [← abs_of_nonneg hp]; exact hg
              exact ⟨lamb, by rw [abs_of_nonneg hl], by rw [abs_le]; constructor <;> linarith⟩
            · rw [abs_of_nonpos hp] at hle
              have hg' : -gradient X y b j ≤ lamb + v := by rw [← abs_of_nonpos hp]; exact hg
              exact ⟨-lamb, by rw [abs_neg, abs_of_nonneg hl], by rw [abs_le]; constructor <;> linarith⟩
        have h4 := key s v h2
        have h5 : s * (b' j - b j) ≤ lamb * |b' j| + lamb * |b j| := by
          have e1 : s * b' j ≤ lamb * |b' j| := by
            refine (le_abs_self _).trans ?_
            rw [abs_mul]
            exact mul_le_mul_of_nonneg_right h1 (abs_nonneg _)
          have e2 : -(s * b j) ≤ lamb * |b j| := by
            refine (neg_le_abs _).trans ?_
            rw [abs_mul]
            exact mul_le_mul_of_nonneg_right h1 (abs_nonneg _)
          linarith
        have h6 : 0 ≤ S * |b' j - b j| := mul_nonneg hS hd
        have h7 : lamb * |b j| ≤ lamb * (1 / 10 ^ 16) := mul_le_mul_of_nonneg_left hsmall hl
        rw [add_mul]
        linarith
  rw [Finset.sum_add_distrib, Finset.sum_add_distrib, ← Finset.mul_sum, Finset.sum_sub_distrib, Finset.sum_const,
    Finset.card_range, nsmul_eq_mul] at hsum
  have e : (X.nc : K) * (2 * lamb * (1 / 10 ^ 16)) = 2 * lamb * X.nc / 10 ^ 16 := by ring
  rw [e] at hsum
  linarith

/-! ### The counterexample -/

/-- Three orthogonal contrasts. -/
def u2 : Nat → ℚ := fun r => [1, 1, -1, -1, 0].getD r 0
def u3 : Nat → ℚ := fun r => [1, -1, 1, -1, 0].getD r 0
def u4 : Nat → ℚ := fun r => [1, -1, -1, 1, 0].getD r 0

/-- Normalised data (mean 0, variance 1): a constant column, one mixed feature, two contrasts. -/
def kktX : Mat ℚ :=
  ⟨5, 4, fun r c => if c = 0 then 0 else if c = 1 then 2 / 3 * u2 r + 2 / 3 * u3 r + 1 / 3 * u4 r
    else if c = 2 then u2 r else u3 r⟩

def kktY : Nat → ℚ := fun r => 4 / 21 * u2 r + 13 / 21 * u3 r - 16 / 21 * u4 r

theorem kktDiag : ∀ j, 1 ≤ j → j < kktX.nc → 0 < (empiricalCov kktX).get j j := by
  intro j h1 h2
  have : j = 1 ∨ j = 2 ∨ j = 3 := by simp only [kktX] at h2; omega
  rcases this with rfl | rfl | rfl <;> decide +kernel

/-- C55 is false: for these data `LassoCrdDesc` reports convergence with tolerance 1e-9 after three
iterations, feature 2 is not selected, its correlation with the residual is twice `lamb`, and another
vector has a smaller objective. -/
theorem C55_refuted :
    reportsConvergence kktX kktY (8 / 105) (1 / 10 ^ 9) pureLasso () 3 ∧
    lassoResult kktX kktY (8 / 105) (1 / 10 ^ 9) pureLasso () 3 2 = 0 ∧
    gradient kktX kktY (lassoResult kktX kktY (8 / 105) (1 / 10 ^ 9) pureLasso () 3) 2 = 2 * (8 / 105) ∧
    ¬ KKT kktX kktY (8 / 105) (lassoResult kktX kktY (8 / 105) (1 / 10 ^ 9) pureLasso () 3) 2 ∧
    ∃ b' : Nat → ℚ, b' 0 = lassoResult kktX kktY (8 / 105) (1 / 10 ^ 9) pureLasso () 3 0 ∧
      lassoObjective kktX kktY (8 / 105) b' <
        lassoObjective kktX kktY (8 / 105) (lassoResult kktX kktY (8 / 105) (1 / 10 ^ 9) pureLasso () 3) := by
  have hg : gradient kktX kktY (lassoResult kktX kktY (8 / 105) (1 / 10 ^ 9) pureLasso () 3) 2 =
    2 * (8 / 105) := by decide +kernel
  refine ⟨by unfold reportsConvergence; decide +kernel, by decide +kernel, hg, ?_, ?_⟩
  · rintro ⟨h, -⟩
    rw [hg] at h
    norm_num [abs_of_pos] at h
  · refine ⟨fun k => if k = 2 then 1 / 21 else if k = 3 then 11 / 21 else 0, ?_, ?_⟩ <;> decide +kernel

/-- The counterexample data are normalised. -/
example : (∀ c < 4, ∑ r ∈ range 5, kktX.get r c = 0) ∧
    (∀ c < 4, 1 ≤ c → ∑ r ∈ range 5, kktX.get r c ^ 2 = 4) ∧
    ∑ r ∈ range 5, kktY r = 0 ∧ ∑ r ∈ range 5, kktY r ^ 2 = 4 := by decide +kernel

/-- The hypotheses of `C55_selected_partial` hold for the same data, with a selected feature. -/
example : reportsConvergence kktX kktY (8 / 105) (1 / 10 ^ 9) pureLasso () 3 ∧
    |lassoResult kktX kktY (8 / 105) (1 / 10 ^ 9) pureLasso () 3 3| > lassoCrdDescZero := by
  refine ⟨by unfold reportsConvergence; decide +kernel, by decide +kernel⟩

/-- The hypotheses of `C55_gap_partial` hold for these data with `v = lamb`. -/
example : reportsConvergence kktX kktY (8 / 105) (1 / 10 ^ 9) pureLasso () 3 ∧
    ∀ j, 1 ≤ j → j < kktX.nc → |lassoResult kktX kktY (8 / 105) (1 / 10 ^ 9) pureLasso () 3 j| ≤ 1 / 10 ^ 16 →
      |gradient kktX kktY (lassoResult kktX kktY (8 / 105) (1 / 10 ^ 9) pureLasso () 3) j| ≤ 8 / 105 + 8 / 105 := by
  refine ⟨by unfold reportsConvergence; decide +kernel, fun j h1 h2 _ => ?_⟩
  have : j = 1 ∨ j = 2 ∨ j = 3 := by simp only [kktX] at h2; omega
  rcases this with rfl | rfl | rfl <;> decide +kernel

/-! ### C56 -/

/-- C56, what happens instead: the coefficients returned do not depend on the starting vector. -/
theorem C56_x0_ignored {S : Type} (p : CDProblem K S) (s : S) (x0 x0' : Option (List K)) (maxIter : Nat) :
    (lassoCrdDesc p s x0 maxIter).map Prod.fst = (lassoCrdDesc p s x0' maxIter).map Prod.fst := by
  unfold lassoCrdDesc
  split <;> rfl

/-- C56, what happens instead: the caller's starting vector is overwritten with zeros. -/
theorem C56_x0_overwritten {S : Type} (p : CDProblem K S) (s : S) (x0 : List K) (maxIter : Nat)
    (hlen : x0.length = p.nFeat) (r : (Nat → K) × Option (List K))
    (h : lassoCrdDesc p s (some x0) maxIter = some r) : r.2 = some (List.replicate p.nFeat 0) := by
  unfold lassoCrdDesc at h
  split at h
  · simp at h
  · rw [← Option.some.inj h]
    simp [goCopy, hlen]

/-- C56, what happens instead: the first feature is never selected. -/
theorem C56_first_feature {S : Type} (X : Mat K) (y : Nat → K) (lamb tol : K)
    (corr : LassoCorrection K S) (s : S) (n : Nat) : lassoResult X y lamb tol corr s n 0 = 0 :=
  (lassoProblem_inv X y lamb tol corr s n).zero 0 (.inl rfl)

/-- The result for orthogonal columns (a zero column has the result 0 here, as division by 0 gives 0). -/
theorem crdDesc_orthogonal (X : Mat K) (y : Nat → K) (lamb tol : K)
    (horth : ∀ i < X.nc, ∀ j < X.nc, i ≠ j → (empiricalCov X).get i j = 0) (n : Nat) (j : Nat) (h1 : 1 ≤ j) (h2 : j < X.nc) :
    lassoResult X y lamb tol pureLasso () (n + 1) j =
      softThreshold (xTy X y j / X.nr) lamb / (empiricalCov X).get j j := by
  set p := lassoProblem X y lamb tol pureLasso with hp
  have hcoord : ∀ (st : CDState K Unit) (i : Nat) (todo : List Nat), i < X.nc → SweepInv X st (i :: todo) →
      (cdCoord p st i).beta = Function.update st.beta i
        (softThreshold (xTy X y i / X.nr) lamb / (empiricalCov X).get i i) := by
    intro st i todo hi h
    rw [cdCoord_value X y p 0 rfl rfl rfl pureLasso_elastic st i todo h, gradient_eq]
    congr 3
    rw [Finset.sum_eq_single i]
    · ring
    · intro k hk' hk
      rw [horth i hi k (mem_range.1 hk') (Ne.symm hk), zero_mul]
    · intro h'; exact absurd (mem_range.2 hi) h'
  have hsweep : ∀ (todo : List Nat) (st : CDState K Unit), todo.Nodup → (∀ i ∈ todo, i < X.nc) →
      SweepInv X st todo → ∀ i ∈ todo, (todo.foldl (cdCoord p) st).beta i =
        softThreshold (xTy X y i / X.nr) lamb / (empiricalCov X).get i i := by
    intro todo
    induction todo with
    | nil => intro st _ _ _ i hi; simp at hi
    | cons a todo ih =>
      intro st hnd hlt hinv i hi
      obtain ⟨hat, hnd'⟩ := List.nodup_cons.1 hnd
      rw [List.foldl_cons]
      rcases List.mem_cons.1 hi with rfl | hi
      · rw [(foldl_cdCoord_const p todo (cdCoord p st i)).2.2.2 i hat,
          hcoord st i todo (hlt i (by simp)) hinv, Function.update_self]
      · exact ih _ hnd' (fun k hk => hlt k (by simp [hk]))
          (cdCoord_inv X p rfl st a todo (hlt a (by simp)) hnd hinv) i hi
  unfold lassoResult
  induction n with
  | zero =>
    have hi := cdInit_inv X p rfl ()
    rw [cdLoop_succ]
    simp only [cdLoop, Bool.false_eq_true, if_false]
    rw [(cdIter_shape p _).1]
    refine hsweep _ _ hi.nodup (fun k hk => (hi.idx k hk).2) (hi.sweep _) j ?_
    simp only [cdInit, List.mem_map, List.mem_range]
    exact ⟨j - 1, by change j - 1 < X.nc - 1; omega, by omega⟩
  | succ n ih =>
    rw [cdLoop_succ]
    split
    · exact ih
    · have hi := lassoProblem_inv X y lamb tol pureLasso () (n + 1)
      rw [(cdIter_shape p _).1]
      by_cases hm : j ∈ (cdLoop p (n + 1) (cdInit p ())).1.iterIndices
      · exact hsweep _ _ hi.nodup (fun k hk => (hi.idx k hk).2) (hi.sweep _) j hm
      · exact ((foldl_cdCoord_const p _ _).2.2.2 j hm).trans ih

/-- C56, the part that holds: for a design with orthogonal columns, not zero except perhaps the first, the result, after
any positive number of iterations, is the soft threshold estimate of every feature but the first.  So each of
them is non-zero as soon as its correlation exceeds `lamb`. -/
theorem C56_orthogonal_partial (X : Mat K) (y : Nat → K) (lamb tol : K)
    (horth : ∀ i < X.nc, ∀ j < X.nc, i ≠ j → (empiricalCov X).get i j = 0)
    (hdiag : ∀ j, 1 ≤ j → j < X.nc → 0 < (empiricalCov X).get j j) (hl : 0 ≤ lamb) (n : Nat) (j : Nat) (h1 : 1 ≤ j)
    (h2 : j < X.nc) :
    lassoResult X y lamb tol pureLasso () (n + 1) j =
      softThreshold (xTy X y j / X.nr) lamb / (empiricalCov X).get j j ∧
    (lassoResult X y lamb tol pureLasso () (n + 1) j ≠ 0 ↔ lamb < |xTy X y j / X.nr|) := by
  have e := crdDesc_orthogonal X y lamb tol horth n j h1 h2
  refine ⟨e, ?_⟩
  rw [e, Ne, div_eq_zero_iff, not_or, and_iff_left (hdiag j h1 h2).ne']
  unfold softThreshold
  generalize xTy X y j / X.nr = z
  rcases le_or_gt z 0 with hz | hz
  · rw [abs_of_nonpos hz]
    split_ifs <;> constructor <;> intro h <;> first | linarith | (intro h'; linarith) | skip
    all_goals (first | exact absurd rfl h | (exfalso; linarith))
  · rw [abs_of_pos hz]
    split_ifs <;> constructor <;> intro h <;> first | linarith | (intro h'; linarith) | skip
    all_goals (first | exact absurd rfl h | (exfalso; linarith))

/-- The hypotheses of `C56_orthogonal_partial` hold for `exX`, and feature 1 is selected. -/
example : (∀ i < exX.nc, ∀ j < exX.nc, i ≠ j → (empiricalCov exX).get i j = 0) ∧
    (∀ j, 1 ≤ j → j < exX.nc → 0 < (empiricalCov exX).get j j) ∧
    lassoResult exX exY 1 (1 / 100) pureLasso () 1 1 = 2 := by
  refine ⟨?_, ?_, by decide +kernel⟩
  · change ∀ i < 2, ∀ j < 2, i ≠ j → (empiricalCov exX).get i j = 0
    decide +kernel
  · intro j h1 h2
    obtain rfl : j = 1 := by change j < 2 at h2; omega
    decide +kernel

/-- C56 is false in all three respects: for the data `exX` extended with an informative first column
the starting vector `(0, 2)`, the optimum, makes no difference to the result of zero iterations and is
overwritten, and the first feature stays at zero although it alone explains the target. -/
theorem C56_refuted :
    (∃ (p : CDProblem ℚ Unit) (x0 : List ℚ) (r : (Nat → ℚ) × Option (List ℚ)),
      x0.length = p.nFeat ∧ lassoCrdDesc p () (some x0) 0 = some r ∧ r.2 ≠ some x0 ∧ r.1 1 ≠ x0.getD 1 0) ∧
    (∃ (X : Mat ℚ) (y : Nat → ℚ), ∀ n,
      lassoResult X y 0 (1 / 100) pureLasso () n 0 = 0 ∧
      lassoObjective X y 0 (fun k => if k = 0 then 1 else 0) = 0 ∧
      0 < lassoObjective X y 0 (lassoResult X y 0 (1 / 100) pureLasso () n)) := by
  refine ⟨⟨lassoProblem exX exY 1 (1 / 100) pureLasso, [0, 2], (fun _ => 0, some [0, 0]), rfl, ?_, ?_, ?_⟩, ?_⟩
  · unfold lassoCrdDesc
    rw [if_neg (by decide)]
    rfl
  · decide
  · decide
  · refine ⟨⟨1, 1, fun _ _ => 1⟩, fun _ => 1, fun n => ?_⟩
    have hz : lassoResult (⟨1, 1, fun _ _ => 1⟩ : Mat ℚ) (fun _ => 1) 0 (1 / 100) pureLasso () n = fun _ => 0 := by
      funext k
      exact (lassoProblem_inv (⟨1, 1, fun _ _ => 1⟩ : Mat ℚ) (fun _ => 1) 0 (1 / 100) pureLasso () n).zero k
        (by change k = 0 ∨ 1 ≤ k; omega)
    rw [hz]
    refine ⟨rfl, by decide +kernel, by decide +kernel⟩

end GoSelect
