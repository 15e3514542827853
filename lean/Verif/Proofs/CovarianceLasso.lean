import Verif.Props.C55_C56
import Verif.Props.C75
import Mathlib.Algebra.Order.BigOperators.Ring.Finset

/-!
# The covariance lasso and the elastic net
-/

namespace GoSelect

open Finset Spec

namespace Spec

variable {K : Type} [Field K] [LinearOrder K]

/-- The first `n` coefficients are all zero, or their sum of squares is not below 1e-10. -/
def NotTiny (n : Nat) (b : Nat → K) : Prop := (∀ i < n, b i = 0) ∨ 1 / 10 ^ 10 ≤ ∑ i ∈ range n, b i * b i

end Spec

section
variable {K : Type} [Field K] [LinearOrder K] [IsStrictOrderedRing K]

theorem deriv_self {n : Nat} (eta : K) {b : Nat → K} (h : NotTiny n b) {j : Nat} (hj : j < n) :
    (cLasso n eta).deriv b b j = eta * b j := by
  rcases h with h | h
  · simp only [cLasso]
    rw [h j hj]
    simp
  · have hpos : (0 : K) < ∑ i ∈ range n, b i * b i := lt_of_lt_of_le (by positivity) h
    simp only [cLasso]
    rw [abs_of_pos hpos, if_neg (not_lt.2 h), mul_div_assoc, div_self hpos.ne', mul_one]

/-- The same call with a `CLasso`. -/
def withCLasso {S : Type} (p : CDProblem K S) (eta : K) : CDProblem K (Nat → K) :=
  ⟨p.nr, p.nFeat, p.cov, p.XTy, p.lamb, p.tol, cLasso p.nFeat eta⟩

/-- States of the two calls that have the same variables. -/
structure SameCL (n : Nat) (eta : K) (st : CDState K Unit) (st' : CDState K (Nat → K)) : Prop where
  beta : st'.beta = st.beta
  old : st'.betaOld = st.betaOld
  dot : st'.covDotBeta = st.covDotBeta
  idx : st'.iterIndices = st.iterIndices
  conv : st'.converged = st.converged
  lt : ∀ j ∈ st.iterIndices, j < n
  deriv : ∀ j < n, (cLasso n eta).deriv st'.corrState st.betaOld j = eta * st.betaOld j

variable {p : CDProblem K Unit} {eta : K}

theorem SameCL.coord (hp : p.corr = elasticNet eta) {st : CDState K Unit} {st' : CDState K (Nat → K)}
    (h : SameCL p.nFeat eta st st') {j : Nat} (hj : j < p.nFeat) :
    SameCL p.nFeat eta (cdCoord p st j) (cdCoord (withCLasso p eta) st' j) := by
  have e : (withCLasso p eta).corr.deriv st'.corrState st'.betaOld j = p.corr.deriv st.corrState st.betaOld j := by
    rw [hp, h.old]
    exact h.deriv j hj
  have e' : softThreshold ((withCLasso p eta).XTy j / (withCLasso p eta).nr -
        (st'.covDotBeta j - st'.betaOld j * (withCLasso p eta).cov.get j j) -
        (withCLasso p eta).corr.deriv st'.corrState st'.betaOld j) (withCLasso p eta).lamb / (withCLasso p eta).cov.get j j =
      softThreshold (p.XTy j / p.nr - (st.covDotBeta j - st.betaOld j * p.cov.get j j) -
        p.corr.deriv st.corrState st.betaOld j) p.lamb / p.cov.get j j := by
    rw [e, h.dot, h.old]
    rfl
  refine ⟨?_, h.old, ?_, h.idx, h.conv, h.lt, h.deriv⟩
  · simp only [cdCoord]
    rw [e', h.beta]
  · simp only [cdCoord]
    rw [e', h.dot, h.old]
    rfl

theorem SameCL.sweep (hp : p.corr = elasticNet eta) {st : CDState K Unit} {st' : CDState K (Nat → K)}
    (h : SameCL p.nFeat eta st st') : SameCL p.nFeat eta (cdSweep p st) (cdSweep (withCLasso p eta) st') := by
  unfold cdSweep
  rw [h.idx]
  have key : ∀ (l : List Nat), (∀ j ∈ l, j < p.nFeat) → ∀ (st : CDState K Unit) (st' : CDState K (Nat → K)),
      SameCL p.nFeat eta st st' →
      SameCL p.nFeat eta (l.foldl (cdCoord p) st) (l.foldl (cdCoord (withCLasso p eta)) st') := by
    intro l
    induction l with
    | nil => intro _ st st' h; exact h
    | cons j l ih =>
      intro hl st st' h
      exact ih (fun k hk => hl k (by simp [hk])) _ _ (h.coord hp (hl j (by simp)))
  exact key _ h.lt st st' h

theorem mem_unionNat {a b : List Nat} {k : Nat} (h : k ∈ unionNat a b) : k ∈ a ∨ k ∈ b := by
  unfold unionNat at h
  induction b generalizing a with
  | nil => exact .inl h
  | cons x b ih =>
    rw [List.foldl_cons] at h
    split at h
    · rcases ih h with h | h
      · exact .inl h
      · exact .inr (by simp [h])
    · rcases ih h with h | h
      · rcases List.mem_append.1 h with h | h
        · exact .inl h
        · exact .inr (by simp_all)
      · exact .inr (by simp [h])

theorem SameCL.iter (hp : p.corr = elasticNet eta) {st : CDState K Unit} {st' : CDState K (Nat → K)}
    (h : SameCL p.nFeat eta st st') (hn : NotTiny p.nFeat (cdSweep p st).beta) :
    SameCL p.nFeat eta (cdIter p st).1 (cdIter (withCLasso p eta) st').1 ∧
      (cdIter (withCLasso p eta) st').2 = (cdIter p st).2 := by
  have hs := h.sweep hp
  have hd : ∀ j < p.nFeat, (cLasso p.nFeat eta).deriv (cdSweep p st).beta (cdSweep p st).beta j =
      eta * (cdSweep p st).beta j := fun j hj => deriv_self eta hn hj
  have hk : unsatisfiedKKT (withCLasso p eta).nFeat (withCLasso p eta).XTy (cdSweep (withCLasso p eta) st').covDotBeta
        (cdSweep (withCLasso p eta) st').beta (withCLasso p eta).lamb (withCLasso p eta).corr
        ((withCLasso p eta).corr.update (cdSweep (withCLasso p eta) st').corrState (cdSweep (withCLasso p eta) st').beta) =
      unsatisfiedKKT p.nFeat p.XTy (cdSweep p st).covDotBeta (cdSweep p st).beta p.lamb p.corr
        (p.corr.update (cdSweep p st).corrState (cdSweep p st).beta) := by
    unfold unsatisfiedKKT
    refine List.filter_congr (fun i hi => ?_)
    have hi' : i < p.nFeat := List.mem_range.1 hi
    have e1 : (withCLasso p eta).corr.deriv
        ((withCLasso p eta).corr.update (cdSweep (withCLasso p eta) st').corrState (cdSweep (withCLasso p eta) st').beta)
        (cdSweep (withCLasso p eta) st').beta i =
      p.corr.deriv (p.corr.update (cdSweep p st).corrState (cdSweep p st).beta) (cdSweep p st).beta i := by
      rw [hp, hs.beta]
      exact hd i hi'
    rw [e1, hs.beta, hs.dot]
    rfl
  have hidx := hs.idx
  have hbeta := hs.beta
  have hold := hs.old
  have hdot := hs.dot
  have hlt : ∀ j ∈ (cdSweep p st).iterIndices.filter (fun j => decide (|(cdSweep p st).beta j| > lassoCrdDescZero)),
      j < p.nFeat := fun j hj => hs.lt j (List.mem_filter.1 hj).1
  have hltu : ∀ j ∈ unsatisfiedKKT p.nFeat p.XTy (cdSweep p st).covDotBeta (cdSweep p st).beta p.lamb p.corr
        (p.corr.update (cdSweep p st).corrState (cdSweep p st).beta), j < p.nFeat :=
    fun j hj => List.mem_range.1 (List.mem_filter.1 hj).1
  unfold cdIter
  simp only [hk]
  simp only [hbeta, hold, hdot, hidx]
  have etol : (withCLasso p eta).tol = p.tol := rfl
  simp only [etol]
  split_ifs
  · exact ⟨⟨rfl, rfl, rfl, rfl, rfl, hlt, hd⟩, rfl⟩
  · refine ⟨⟨rfl, rfl, rfl, rfl, rfl, fun j hj => ?_, hd⟩, rfl⟩
    rcases mem_unionNat hj with hj | hj
    · exact hlt j hj
    · exact hltu j hj
  · exact ⟨⟨rfl, rfl, rfl, rfl, rfl, hlt, hd⟩, rfl⟩

theorem sameCL_loop (hp : p.corr = elasticNet eta) (s : Nat → K) (n : Nat)
    (hn : ∀ k ≤ n, NotTiny p.nFeat (cdLoop p k (cdInit p ())).1.beta) :
    SameCL p.nFeat eta (cdLoop p n (cdInit p ())).1 (cdLoop (withCLasso p eta) n (cdInit (withCLasso p eta) s)).1 ∧
      (cdLoop (withCLasso p eta) n (cdInit (withCLasso p eta) s)).2 = (cdLoop p n (cdInit p ())).2 := by
  induction n with
  | zero =>
    refine ⟨⟨rfl, rfl, rfl, rfl, rfl, fun j hj => ?_, fun j _ => ?_⟩, rfl⟩
    · simp only [cdLoop, cdInit, List.mem_map, List.mem_range] at hj
      omega
    · simp [cdLoop, cdInit, cLasso]
  | succ n ih =>
    obtain ⟨h1, h2⟩ := ih (fun k hk => hn k (by omega))
    have hlast := hn (n + 1) le_rfl
    rw [cdLoop_succ] at hlast
    rw [cdLoop_succ, cdLoop_succ, h2]
    split_ifs with hb
    · exact ⟨h1, h2⟩
    · rw [if_neg hb, (cdIter_shape p _).1] at hlast
      exact h1.iter hp hlast

/-- As `sweep_near_kkt` for the elastic net. -/
theorem sweep_near_kkt_elastic (X : Mat K) (y : Nat → K) (lamb tol L : K) (hl : 0 ≤ lamb)
    (todo : List Nat) (st : CDState K Unit) (hlt : ∀ j ∈ todo, j < X.nc)
    (hdiag : ∀ j ∈ todo, 0 < (empiricalCov X).get j j) (hnd : todo.Nodup) (h : SweepInv X st todo) :
    let fin := (todo.foldl (cdCoord (lassoProblem X y lamb tol (elasticNet L))) st).beta
    ∀ j ∈ todo, ∃ s, |s| ≤ lamb ∧ s * fin j = lamb * |fin j| ∧
      |gradient X y fin j - L * fin j - s| ≤
        ∑ k ∈ range X.nc, |(empiricalCov X).get j k| * |fin k - st.beta k| + |L| * |fin j - st.beta j| := by
  induction todo generalizing st with
  | nil => intro fin j hj; simp at hj
  | cons i todo ih =>
    intro fin j hj
    set p := lassoProblem X y lamb tol (elasticNet L) with hp
    obtain ⟨hit, hnd'⟩ := List.nodup_cons.1 hnd
    have hi := hlt i (by simp)
    have hc := hdiag i (by simp)
    have hv := cdCoord_value X y p L rfl rfl rfl (fun _ _ _ => rfl) st i todo h
    have hinv := cdCoord_inv X p rfl st i todo hi hnd h
    have hfi : fin i = (cdCoord p st i).beta i := (foldl_cdCoord_const p todo (cdCoord p st i)).2.2.2 i hit
    have hmono : ∀ k, |fin k - (cdCoord p st i).beta k| ≤ |fin k - st.beta k| := by
      intro k
      by_cases hk : k = i
      · subst hk; rw [hfi]; simp
      · rw [hv, Function.update_of_ne hk]
    have hsum : ∀ j', ∑ k ∈ range X.nc, |(empiricalCov X).get j' k| * |fin k - (cdCoord p st i).beta k| ≤
        ∑ k ∈ range X.nc, |(empiricalCov X).get j' k| * |fin k - st.beta k| := fun j' =>
      Finset.sum_le_sum (fun k _ => mul_le_mul_of_nonneg_left (hmono k) (abs_nonneg _))
    rcases List.mem_cons.1 hj with rfl | hj
    · refine ⟨gradient X y (cdCoord p st j).beta j - L * st.beta j, ?_⟩
      set c := (empiricalCov X).get j j with hcd
      set g := gradient X y st.beta j with hg
      set u := softThreshold (g + c * st.beta j - L * st.beta j) lamb with hu
      have hv' : (cdCoord p st j).beta = Function.update st.beta j (u / c) := by
        rw [hv]
        rfl
      obtain ⟨h1, h2⟩ := softThreshold_subgradient (x := g + c * st.beta j - L * st.beta j) hl
      rw [← hu] at h1 h2
      have hgr : gradient X y (cdCoord p st j).beta j - L * st.beta j = g + c * st.beta j - L * st.beta j - u := by
        have e := gradient_sub X y (cdCoord p st j).beta st.beta j
        have e2 : ∑ k ∈ range X.nc, (empiricalCov X).get j k * ((cdCoord p st j).beta k - st.beta k) =
            c * (u / c - st.beta j) := by
          rw [hv']
          simp only [mul_sub, Finset.sum_sub_distrib]
          rw [sum_update _ _ hi]
          rw [← hcd]; ring
        rw [e2] at e
        have e3 : c * (u / c) = u := by field_simp
        linear_combination e - e3
      have hb : fin j = u / c := by rw [hfi, hv', Function.update_self]
      refine ⟨by rw [hgr]; exact h1, ?_, ?_⟩
      · rw [hgr, hb, abs_div, abs_of_pos hc, ← mul_div_assoc, ← mul_div_assoc, h2]
      · have e : gradient X y fin j - L * fin j - (gradient X y (cdCoord p st j).beta j - L * st.beta j) =
            (gradient X y fin j - gradient X y (cdCoord p st j).beta j) + -(L * (fin j - st.beta j)) := by ring
        rw [e]
        refine (abs_add_le _ _).trans (add_le_add ?_ ?_)
        · refine le_trans ?_ (hsum j)
          rw [gradient_sub, abs_neg]
          refine (Finset.abs_sum_le_sum_abs _ _).trans (le_of_eq ?_)
          exact Finset.sum_congr rfl (fun k _ => abs_mul _ _)
        · rw [abs_neg, abs_mul]
    · obtain ⟨s, h1, h2, h3⟩ := ih (cdCoord p st i) (fun k hk => hlt k (by simp [hk]))
        (fun k hk => hdiag k (by simp [hk])) hnd' hinv j hj
      exact ⟨s, h1, h2, h3.trans (add_le_add (hsum j) (mul_le_mul_of_nonneg_left (hmono j) (abs_nonneg _)))⟩

/-- As `C55_selected_partial` for the elastic net. -/
theorem elastic_selected (X : Mat K) (y : Nat → K) (lamb tol L : K) (hl : 0 ≤ lamb)
    (hdiag : ∀ j, 1 ≤ j → j < X.nc → 0 < (empiricalCov X).get j j) (n : Nat)
    (hconv : reportsConvergence X y lamb tol (elasticNet L) () n) :
    let b := lassoResult X y lamb tol (elasticNet L) () n
    ∃ m, (∃ k, |b k| = m) ∧ ∀ j, 1 ≤ j → j < X.nc → |b j| > lassoCrdDescZero →
      ∃ s, |s| ≤ lamb ∧ s * b j = lamb * |b j| ∧
        |gradient X y b j - L * b j - s| ≤ tol * m * (∑ k ∈ range X.nc, |(empiricalCov X).get j k| + |L|) := by
  intro b
  set p := lassoProblem X y lamb tol (elasticNet L) with hp
  obtain ⟨q, hq⟩ := cdLoop_break p n (cdInit p ()) hconv
  have hinv := lassoProblem_inv X y lamb tol (elasticNet L) () q
  set st := (cdLoop p q (cdInit p ())).1 with hst
  have hb : b = (cdSweep p st).beta := by
    change (cdLoop p n (cdInit p ())).1.beta = _
    rw [← hq]
    exact (cdIter_shape p st).1
  obtain ⟨f1, f2, -, f4⟩ := foldl_cdCoord_const p st.iterIndices st
  have hit : (cdSweep p st).iterIndices = st.iterIndices := f2
  have hbo : (cdSweep p st).betaOld = st.beta := f1.trans hinv.old
  set M := runMax (fun j => |(cdSweep p st).beta j|) st.iterIndices with hM
  set D := runMax (fun j => |(cdSweep p st).beta j - st.beta j|) st.iterIndices with hD
  have hcv : M ≠ 0 ∧ D / M < tol := by
    have h2 : (cdIter p st).2 = true := by rw [hq]; exact hconv
    unfold cdIter at h2
    simp only at h2
    split at h2
    · rename_i hc
      rw [Bool.and_eq_true, decide_eq_true_eq, decide_eq_true_eq] at hc
      rw [hit, hbo] at hc
      exact hc
    · simp at h2
  have hMpos : 0 < M := lt_of_le_of_ne (le_runMax _ _).1 (Ne.symm hcv.1)
  have hDM : D ≤ tol * M := ((div_lt_iff₀ hMpos).1 hcv.2).le
  have hch : ∀ k, |(cdSweep p st).beta k - st.beta k| ≤ tol * M := by
    intro k
    by_cases hk : k ∈ st.iterIndices
    · exact ((le_runMax (fun j => |(cdSweep p st).beta j - st.beta j|) st.iterIndices).2 k hk).trans hDM
    · have : (cdSweep p st).beta k = st.beta k := f4 k hk
      rw [this, sub_self, abs_zero]
      exact ((le_runMax (fun j => |(cdSweep p st).beta j - st.beta j|) st.iterIndices).1).trans hDM
  refine ⟨M, ?_, ?_⟩
  · rcases runMax_attained (fun j => |(cdSweep p st).beta j|) st.iterIndices with h0 | ⟨k, -, hk⟩
    · exact absurd h0 hcv.1
    · exact ⟨k, by rw [hb]; exact hk⟩
  · intro j h1 h2 hj
    have hjm : j ∈ st.iterIndices := by
      by_contra hnm
      have hs := inactive_small p q () j h1 h2 hnm
      rw [hb] at hj
      have : (cdSweep p st).beta j = st.beta j := f4 j hnm
      rw [this] at hj
      exact absurd hj (not_lt.2 hs)
    obtain ⟨s, g1, g2, g3⟩ := sweep_near_kkt_elastic X y lamb tol L hl st.iterIndices st
      (fun k hk => (hinv.idx k hk).2) (fun k hk => hdiag k (hinv.idx k hk).1 (hinv.idx k hk).2) hinv.nodup
      (hinv.sweep _) j hjm
    refine ⟨s, g1, by rw [hb]; exact g2, ?_⟩
    rw [hb]
    refine g3.trans ?_
    rw [mul_add, Finset.mul_sum]
    refine add_le_add (Finset.sum_le_sum (fun k _ => ?_)) ?_
    · rw [mul_comm (tol * M)]
      exact mul_le_mul_of_nonneg_left (hch k) (abs_nonneg _)
    · rw [mul_comm (tol * M)]
      exact mul_le_mul_of_nonneg_left (hch j) (abs_nonneg _)

/-- Coefficients with nearly the same correlation are nearly the same. -/
theorem group_of_near {L lamb gi gj bi bj si sj δi δj : K} (hsi : |si| ≤ lamb) (hsi' : si * bi = lamb * |bi|)
    (hsj : |sj| ≤ lamb) (hsj' : sj * bj = lamb * |bj|) (hi : |gi - L * bi - si| ≤ δi) (hj : |gj - L * bj - sj| ≤ δj) :
    L * |bi - bj| ≤ |gi - gj| + δi + δj := by
  have hmon : 0 ≤ (si - sj) * (bi - bj) := by
    have h1 : sj * bi ≤ lamb * |bi| := by
      refine (le_abs_self _).trans ?_
      rw [abs_mul]
      exact mul_le_mul_of_nonneg_right hsj (abs_nonneg _)
    have h2 : si * bj ≤ lamb * |bj| := by
      refine (le_abs_self _).trans ?_
      rw [abs_mul]
      exact mul_le_mul_of_nonneg_right hsi (abs_nonneg _)
    nlinarith
  have h1 := abs_le.1 hi
  have h2 := abs_le.1 hj
  have h3 := abs_le.1 (le_refl |gi - gj|)
  rcases lt_trichotomy bi bj with h | h | h
  · rw [abs_of_neg (by linarith)]
    have : si - sj ≤ 0 := by
      by_contra hc
      nlinarith
    linarith [h1.1, h2.2, h3.1]
  · rw [h, sub_self, abs_zero, mul_zero]
    have := (abs_nonneg _).trans hi
    have := (abs_nonneg _).trans hj
    have := abs_nonneg (gi - gj)
    linarith
  · rw [abs_of_pos (by linarith)]
    have : 0 ≤ si - sj := by
      by_contra hc
      nlinarith
    linarith [h1.2, h2.1, h3.2]

/-- The correlations of two columns with the residual differ by little if the columns do. -/
theorem gradient_close (X : Mat K) (y b : Nat → K) (i j : Nat) :
    (X.nr * (gradient X y b i - gradient X y b j)) ^ 2 ≤
      (∑ r ∈ range X.nr, (X.get r i - X.get r j) ^ 2) * ∑ r ∈ range X.nr, residual X y b r ^ 2 := by
  rcases Nat.eq_zero_or_pos X.nr with h | h
  · rw [h]
    simp
  · have h0 : (X.nr : K) ≠ 0 := by exact_mod_cast h.ne'
    have e : X.nr * (gradient X y b i - gradient X y b j) =
        ∑ r ∈ range X.nr, (X.get r i - X.get r j) * residual X y b r := by
      unfold gradient
      rw [mul_sub, ← mul_assoc, ← mul_assoc, mul_one_div_cancel h0, one_mul, one_mul, ← Finset.sum_sub_distrib]
      exact Finset.sum_congr rfl (fun r _ => by ring)
    rw [e]
    exact Finset.sum_mul_sq_le_sq_mul_sq _ _ _

end

end GoSelect
