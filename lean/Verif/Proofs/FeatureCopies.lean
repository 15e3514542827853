import Verif.Proofs.CovarianceLasso

/-!
# Coordinate descent with proportional features
-/

namespace GoSelect

open Finset Spec

namespace Spec

variable {K : Type} [Field K] [LinearOrder K]

/-- Feature `j` is `t` times feature `i`, where `t` is between -1 and 1. -/
def Shrinks (X : Mat K) (i j : Nat) (t : K) : Prop := |t| ≤ 1 ∧ ∀ r < X.nr, X.get r j = t * X.get r i

end Spec

section
variable {K : Type} [Field K] [LinearOrder K] [IsStrictOrderedRing K] {S : Type}

theorem soft_small {x t : K} (h : |x| ≤ t) : softThreshold x t = 0 := by
  obtain ⟨h1, h2⟩ := abs_le.1 h
  unfold softThreshold
  rw [if_neg (by linarith), if_neg (by linarith)]

theorem shrinks_gradient {X : Mat K} {y b : Nat → K} {i j : Nat} {t : K} (h : Shrinks X i j t) :
    gradient X y b j = t * gradient X y b i := by
  unfold gradient
  rw [Finset.mul_sum, Finset.mul_sum, Finset.mul_sum]
  refine Finset.sum_congr rfl (fun r hr => ?_)
  rw [h.2 r (mem_range.1 hr)]
  ring

/-- The state in the first sweep. -/
structure FirstSweep (X : Mat K) (p : CDProblem K S) (st : CDState K S) (todo : List Nat) : Prop where
  inv : SweepInv X st todo
  old : ∀ k, st.betaOld k = 0
  corr : ∀ k, p.corr.deriv st.corrState st.betaOld k = 0

variable {X : Mat K} {y : Nat → K} {lamb tol : K} {corr : LassoCorrection K S}

theorem FirstSweep.value {st : CDState K S} {k : Nat} {todo : List Nat}
    (h : FirstSweep X (lassoProblem X y lamb tol corr) st (k :: todo)) :
    (cdCoord (lassoProblem X y lamb tol corr) st k).beta =
      Function.update st.beta k (softThreshold (gradient X y st.beta k) lamb / (empiricalCov X).get k k) := by
  simp only [cdCoord]
  rw [h.corr k, h.old k, h.inv.dot k, gradient_eq]
  simp only [lassoProblem, zero_mul, sub_zero]

theorem FirstSweep.next {st : CDState K S} {k : Nat} {todo : List Nat} (hk : k < X.nc) (hnd : (k :: todo).Nodup)
    (h : FirstSweep X (lassoProblem X y lamb tol corr) st (k :: todo)) :
    FirstSweep X (lassoProblem X y lamb tol corr) (cdCoord (lassoProblem X y lamb tol corr) st k) todo :=
  ⟨cdCoord_inv X _ rfl st k todo hk hnd h.inv, h.old, h.corr⟩

theorem FirstSweep.gradient_other {st : CDState K S} {k : Nat} {todo : List Nat} (hk : k < X.nc)
    (h : FirstSweep X (lassoProblem X y lamb tol corr) st (k :: todo)) (i : Nat) :
    gradient X y (cdCoord (lassoProblem X y lamb tol corr) st k).beta i = gradient X y st.beta i -
      (empiricalCov X).get i k * (softThreshold (gradient X y st.beta k) lamb / (empiricalCov X).get k k) := by
  have e := gradient_sub X y (cdCoord (lassoProblem X y lamb tol corr) st k).beta st.beta i
  have e2 : ∑ m ∈ range X.nc, (empiricalCov X).get i m *
        ((cdCoord (lassoProblem X y lamb tol corr) st k).beta m - st.beta m) =
      (empiricalCov X).get i k * (softThreshold (gradient X y st.beta k) lamb / (empiricalCov X).get k k) := by
    rw [h.value]
    simp only [mul_sub, Finset.sum_sub_distrib]
    rw [sum_update _ _ hk, h.inv.old k (by simp), h.old k]
    ring
  rw [e2] at e
  linear_combination e

/-- After the features up to `i` have been visited the correlation of feature `i` is at most `lamb`, and it
stays so while uncorrelated features are visited. -/
theorem FirstSweep.until {j i : Nat} {t : K} (hl : 0 ≤ lamb) (ht : Shrinks X i j t) (l : List Nat) (st : CDState K S)
    (rest : List Nat) (hlt : ∀ k ∈ l, k < X.nc) (hnd : (l ++ j :: rest).Nodup)
    (hun : ∀ k ∈ l, (empiricalCov X).get i k = 0) (hi : |gradient X y st.beta i| ≤ lamb)
    (hj : j < X.nc) (h : FirstSweep X (lassoProblem X y lamb tol corr) st (l ++ j :: rest)) :
    ((l ++ j :: rest).foldl (cdCoord (lassoProblem X y lamb tol corr)) st).beta j = 0 := by
  induction l generalizing st with
  | nil =>
    rw [List.nil_append, List.foldl_cons]
    rw [List.nil_append] at hnd h
    rw [(foldl_cdCoord_const (lassoProblem X y lamb tol corr) rest _).2.2.2 j (List.nodup_cons.1 hnd).1, h.value,
      Function.update_self, soft_small, zero_div]
    rw [shrinks_gradient ht, abs_mul]
    calc |t| * |gradient X y st.beta i| ≤ 1 * lamb := mul_le_mul ht.1 hi (abs_nonneg _) zero_le_one
      _ = lamb := one_mul _
  | cons k l ih =>
    rw [List.cons_append, List.foldl_cons]
    rw [List.cons_append] at hnd h
    refine ih _ (fun m hm => hlt m (by simp [hm])) (List.nodup_cons.1 hnd).2 (fun m hm => hun m (by simp [hm])) ?_
      (h.next (hlt k (by simp)) hnd)
    rw [h.gradient_other (hlt k (by simp)), hun k (by simp), zero_mul, sub_zero]
    exact hi

theorem FirstSweep.copy {j i : Nat} {t : K} (hl : 0 ≤ lamb) (ht : Shrinks X i j t) (hc : (empiricalCov X).get i i ≠ 0)
    (l₁ l₂ rest : List Nat) (st : CDState K S) (hlt : ∀ k ∈ l₁ ++ i :: (l₂ ++ j :: rest), k < X.nc)
    (hnd : (l₁ ++ i :: (l₂ ++ j :: rest)).Nodup) (hun : ∀ k ∈ l₂, (empiricalCov X).get i k = 0)
    (h : FirstSweep X (lassoProblem X y lamb tol corr) st (l₁ ++ i :: (l₂ ++ j :: rest))) :
    ((l₁ ++ i :: (l₂ ++ j :: rest)).foldl (cdCoord (lassoProblem X y lamb tol corr)) st).beta j = 0 := by
  induction l₁ generalizing st with
  | nil =>
    rw [List.nil_append] at hlt hnd h ⊢
    rw [List.foldl_cons]
    have hi := hlt i (by simp)
    refine FirstSweep.until hl ht l₂ _ rest (fun m hm => hlt m (by simp [hm])) (List.nodup_cons.1 hnd).2 hun ?_
      (hlt j (by simp)) (h.next hi hnd)
    rw [h.gradient_other hi, mul_div_cancel₀ _ hc]
    exact (softThreshold_subgradient hl).1
  | cons k l ih =>
    rw [List.cons_append] at hlt hnd h ⊢
    rw [List.foldl_cons]
    exact ih _ (fun m hm => hlt m (List.mem_cons_of_mem _ hm)) (List.nodup_cons.1 hnd).2
      (h.next (hlt k (by simp)) hnd)

theorem split_range (n i j : Nat) (h1 : 1 ≤ i) (hij : i < j) (hj : j < n) :
    ∃ l₁ l₂ l₃, (List.range (n - 1)).map (· + 1) = l₁ ++ i :: (l₂ ++ j :: l₃) ∧ ∀ k ∈ l₂, i < k ∧ k < j := by
  have e : (List.range (n - 1)).map (· + 1) = List.range' 1 (n - 1) := by
    rw [List.range'_eq_map_range]
    refine List.map_congr_left (fun a _ => ?_)
    omega
  refine ⟨List.range' 1 (i - 1), List.range' (i + 1) (j - i - 1), List.range' (j + 1) (n - 1 - j), ?_, ?_⟩
  · rw [e]
    have a1 : List.range' j (n - j) = j :: List.range' (j + 1) (n - 1 - j) := by
      rw [show n - j = (n - 1 - j) + 1 by omega, List.range'_succ]
    have a2 : List.range' i (n - i) = i :: List.range' (i + 1) (n - 1 - i) := by
      rw [show n - i = (n - 1 - i) + 1 by omega, List.range'_succ]
    have a3 : List.range' (i + 1) (n - 1 - i) = List.range' (i + 1) (j - i - 1) ++ List.range' j (n - j) := by
      have := List.range'_append_1 (s := i + 1) (m := j - i - 1) (n := n - j)
      rw [show i + 1 + (j - i - 1) = j by omega, show j - i - 1 + (n - j) = n - 1 - i by omega] at this
      exact this.symm
    have a4 : List.range' 1 (n - 1) = List.range' 1 (i - 1) ++ List.range' i (n - i) := by
      have := List.range'_append_1 (s := 1) (m := i - 1) (n := n - i)
      rw [show 1 + (i - 1) = i by omega, show i - 1 + (n - i) = n - 1 by omega] at this
      exact this.symm
    rw [a4, a2, a3, a1]
  · intro k hk
    rw [List.mem_range'_1] at hk
    omega

/-- A coefficient that vanishes after the first iteration does so ever after. -/
theorem zero_forever (p : CDProblem K S) (s : S) (j : Nat) (hj : (cdSweep p (cdInit p s)).beta j = 0) (n : Nat) :
    (cdLoop p n (cdInit p s)).1.beta j = 0 ∧ (1 ≤ n → j ∉ (cdLoop p n (cdInit p s)).1.iterIndices) := by
  have hstep : ∀ st : CDState K S, (cdSweep p st).beta j = 0 →
      (cdIter p st).1.beta j = 0 ∧ j ∉ (cdIter p st).1.iterIndices := by
    intro st hz
    obtain ⟨g1, -, -, g4⟩ := cdIter_shape p st
    have h0 : ¬ (|(cdSweep p st).beta j| > lassoCrdDescZero) := by
      rw [hz, abs_zero]
      exact not_lt.2 (by unfold lassoCrdDescZero; positivity)
    have hf : j ∉ (cdSweep p st).iterIndices.filter (fun j => decide (|(cdSweep p st).beta j| > lassoCrdDescZero)) := by
      intro hm
      exact h0 (of_decide_eq_true (List.mem_filter.1 hm).2)
    refine ⟨by rw [g1]; exact hz, ?_⟩
    rcases g4 with g4 | g4
    · rw [g4]
      exact hf
    · rw [g4]
      intro hm
      rcases mem_unionNat hm with hm | hm
      · exact hf hm
      · have := (List.mem_filter.1 hm).2
        simp only [Bool.and_eq_true, decide_eq_true_eq] at this
        exact h0 this.2.2
  induction n with
  | zero => exact ⟨rfl, fun h => absurd h (by omega)⟩
  | succ n ih =>
    rw [cdLoop_succ]
    split_ifs with hb
    · rcases Nat.eq_zero_or_pos n with rfl | hn
      · simp [cdLoop] at hb
      · exact ⟨ih.1, fun _ => ih.2 hn⟩
    · rcases Nat.eq_zero_or_pos n with rfl | hn
      · obtain ⟨a, b⟩ := hstep (cdInit p s) hj
        exact ⟨a, fun _ => b⟩
      · have hz : (cdSweep p (cdLoop p n (cdInit p s)).1).beta j = 0 := by
          have := (foldl_cdCoord_const p (cdLoop p n (cdInit p s)).1.iterIndices (cdLoop p n (cdInit p s)).1).2.2.2 j (ih.2 hn)
          exact this.trans ih.1
        obtain ⟨a, b⟩ := hstep _ hz
        exact ⟨a, fun _ => b⟩

end

end GoSelect
