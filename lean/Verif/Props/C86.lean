import Verif.Model.Covariance
import Verif.Proofs.CrdDesc
import Verif.Props.C52
import Mathlib.Algebra.Order.Field.Rat

/-! C86: coordinate descent with the identity covariance matrix. -/

namespace GoSelect

open Finset Spec

variable {K : Type} [Field K] [LinearOrder K]

/-- A problem with the identity as covariance matrix and without correction. -/
structure IdProblem (p : CDProblem K Unit) : Prop where
  cov : ∀ i j, p.cov.get i j = if i = j then 1 else 0
  corr : p.corr = pureLasso

/-- The coefficient of feature `j`. -/
def idCoeff (p : CDProblem K Unit) (j : Nat) : K := softThreshold (p.XTy j / p.nr) p.lamb

/-- During a sweep with the features `todo` left. -/
structure IdSweep (p : CDProblem K Unit) (st : CDState K Unit) (todo : List Nat) : Prop where
  todo : ∀ j ∈ todo, st.covDotBeta j = st.betaOld j
  dot : ∀ j, st.covDotBeta j = st.beta j

theorem cdCoord_id {p : CDProblem K Unit} (hp : IdProblem p) {st : CDState K Unit} {j : Nat} {l : List Nat}
    (hnd : (j :: l).Nodup) (h : IdSweep p st (j :: l)) :
    IdSweep p (cdCoord p st j) l ∧ (cdCoord p st j).beta = Function.update st.beta j (idCoeff p j) := by
  have hj := h.todo j (List.mem_cons_self ..)
  have hb : (cdCoord p st j).beta = Function.update st.beta j (idCoeff p j) := by
    simp only [cdCoord, hp.cov, hp.corr, pureLasso, hj, idCoeff]
    simp
  have hd : ∀ i, (cdCoord p st j).covDotBeta i =
      if i = j then idCoeff p j else st.covDotBeta i := by
    intro i
    simp only [cdCoord, updateCovDotBeta, hp.cov, hp.corr, pureLasso, hj, idCoeff]
    by_cases hij : i = j
    · subst hij
      simp [hj]
    · simp [hij]
  refine ⟨⟨fun i hi => ?_, fun i => ?_⟩, hb⟩
  · have hij : i ≠ j := fun e => (List.nodup_cons.1 hnd).1 (e ▸ hi)
    rw [hd, if_neg hij]
    exact h.todo i (List.mem_cons_of_mem _ hi)
  · rw [hd, hb]
    by_cases hij : i = j
    · subst hij; simp
    · rw [if_neg hij, Function.update_of_ne hij, h.dot]

theorem cdSweep_id {p : CDProblem K Unit} (hp : IdProblem p) (l : List Nat) (st : CDState K Unit) (hnd : l.Nodup)
    (h : IdSweep p st l) :
    (∀ i, (l.foldl (cdCoord p) st).covDotBeta i = (l.foldl (cdCoord p) st).beta i) ∧
      ∀ i ∈ l, (l.foldl (cdCoord p) st).beta i = idCoeff p i := by
  induction l generalizing st with
  | nil => exact ⟨h.dot, by simp⟩
  | cons j l ih =>
    obtain ⟨h1, h2⟩ := cdCoord_id hp hnd h
    obtain ⟨g1, g2⟩ := ih (cdCoord p st j) (List.nodup_cons.1 hnd).2 h1
    refine ⟨g1, fun i hi => ?_⟩
    rcases List.mem_cons.1 hi with rfl | hi
    · rw [List.foldl_cons, (foldl_cdCoord_const p l (cdCoord p st i)).2.2.2 i (List.nodup_cons.1 hnd).1, h2]
      simp
    · exact g2 i hi

/-- Between sweeps. -/
structure IdInv (p : CDProblem K Unit) (st : CDState K Unit) : Prop where
  old : st.betaOld = st.beta
  dot : ∀ j, st.covDotBeta j = st.beta j
  nodup : st.iterIndices.Nodup

theorem cdIter_id {p : CDProblem K Unit} (hp : IdProblem p) {st : CDState K Unit} (h : IdInv p st) :
    IdInv p (cdIter p st).1 ∧ (∀ j ∈ st.iterIndices, (cdIter p st).1.beta j = idCoeff p j) ∧
      ∀ j ∉ st.iterIndices, (cdIter p st).1.beta j = st.beta j := by
  obtain ⟨h1, h2, h3, h4⟩ := cdIter_shape p st
  obtain ⟨c1, c2, -, c4⟩ := foldl_cdCoord_const p st.iterIndices st
  obtain ⟨s1, s2⟩ := cdSweep_id hp st.iterIndices st h.nodup ⟨fun j _ => by rw [h.dot, h.old], h.dot⟩
  have hit : (cdSweep p st).iterIndices = st.iterIndices := c2
  refine ⟨⟨by rw [h1, h2], fun j => by rw [h1, h3]; exact s1 j, ?_⟩, fun j hj => by rw [h1]; exact s2 j hj,
    fun j hj => by rw [h1]; exact c4 j hj⟩
  rcases h4 with h4 | h4
  · rw [h4, hit]; exact h.nodup.filter _
  · rw [h4, hit]; exact (unionNat_spec _ _ (h.nodup.filter _)).1

theorem cdLoop_id {p : CDProblem K Unit} (hp : IdProblem p) (n : Nat) (st : CDState K Unit) (h : IdInv p st)
    (j : Nat) (hj : st.beta j = idCoeff p j) : (cdLoop p n st).1.beta j = idCoeff p j := by
  induction n generalizing st with
  | zero => exact hj
  | succ n ih =>
    obtain ⟨i1, i2, i3⟩ := cdIter_id hp h
    have hb : (cdIter p st).1.beta j = idCoeff p j := by
      by_cases hm : j ∈ st.iterIndices
      · exact i2 j hm
      · rw [i3 j hm, hj]
    rw [cdLoop]
    split
    · rename_i st' he; rw [he] at hb; exact hb
    · rename_i st' he; rw [he] at hb i1; exact ih st' i1 hb

theorem cdInit_id {p : CDProblem K Unit} (hp : IdProblem p) : IdInv p (cdInit p ()) := by
  refine ⟨rfl, fun j => ?_, ?_⟩
  · simp [cdInit, mulSlice]
  · exact List.nodup_range.map (fun a b h => by simpa using h)

theorem cdLoop_id_pos {p : CDProblem K Unit} (hp : IdProblem p) (n : Nat) (j : Nat) (h1 : 1 ≤ j) (hj : j < p.nFeat) :
    (cdLoop p (n + 1) (cdInit p ())).1.beta j = idCoeff p j := by
  obtain ⟨i1, i2, i3⟩ := cdIter_id hp (cdInit_id hp)
  have hb := i2 j (by
    simp only [cdInit, List.mem_map, List.mem_range]
    exact ⟨j - 1, by omega, by omega⟩)
  rw [cdLoop]
  split
  · rename_i st' he; rw [he] at hb; exact hb
  · rename_i st' he; rw [he] at hb i1; exact cdLoop_id hp n st' i1 j hb

/-- **C86.** With the identity covariance matrix and the plain lasso, after at least one iteration every coefficient
except the first minimises the one-dimensional lasso problem for the mean `c` of `x_j y` alone, and it is the only
minimiser. -/
theorem C86_identity [IsStrictOrderedRing K] (X : Mat K) (y : Nat → K) (lamb tol : K) (hl : 0 ≤ lamb)
    (x0 : Option (List K)) (maxIter : Nat) (hm : 0 < maxIter) (b : Nat → K) (x0' : Option (List K))
    (h : lassoCrdDesc ⟨X.nr, X.nc, identityCov X, xTy X y, lamb, tol, pureLasso⟩ () x0 maxIter = some (b, x0'))
    (j : Nat) (h1 : 1 ≤ j) (hj : j < X.nc) :
    let c := (∑ r ∈ range X.nr, X.get r j * y r) / X.nr
    ∀ v, (b j - c) ^ 2 / 2 + lamb * |b j| ≤ (v - c) ^ 2 / 2 + lamb * |v| ∧
      ((b j - c) ^ 2 / 2 + lamb * |b j| = (v - c) ^ 2 / 2 + lamb * |v| → v = b j) := by
  intro c v
  set p : CDProblem K Unit := ⟨X.nr, X.nc, identityCov X, xTy X y, lamb, tol, pureLasso⟩ with hpdef
  have hp : IdProblem p := ⟨fun i j => rfl, rfl⟩
  have hb : b j = softThreshold c lamb := by
    unfold lassoCrdDesc at h
    split at h
    · cases h
    simp only [Option.some.injEq, Prod.mk.injEq] at h
    rw [← h.1]
    obtain ⟨n, rfl⟩ := Nat.exists_eq_succ_of_ne_zero hm.ne'
    exact cdLoop_id_pos hp n j h1 hj
  rw [hb]
  exact C52_minimiser c lamb hl v

/-- Two correlated columns; the identity covariance ignores the correlation. -/
example : ((lassoCrdDesc (⟨2, 3, identityCov (⟨2, 3, fun _ _ => 0⟩ : Mat ℚ),
      xTy (⟨2, 3, fun r c => if c = 0 then 0 else if r = 0 then 1 else (c : ℚ) - 2⟩) (fun r => if r = 0 then 3 else 1),
      1 / 4, 1 / 100, pureLasso⟩ : CDProblem ℚ Unit) () none 3).map (fun r => [r.1 0, r.1 1, r.1 2])) =
    some [0, 3 / 4, 5 / 4] := by
  decide +kernel

end GoSelect
