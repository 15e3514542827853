import Verif.Proofs.LarsCopies

/-!
# C155: copies of features leave the LARS path as it is
-/

namespace GoSelect

open Finset Spec

section
variable {K : Type} [Field K] [LinearOrder K] [IsStrictOrderedRing K]

/-- **C155, paths that no feature leaves.** `X'` is `X` with further columns that are copies of columns of `X`.  If
`LassoLars` returns a path for `X`, the estimator solves the normal equations for the selections of that path, and no
feature of a node is missing in the next one, then `LassoLars` returns the same path for `X'`: the same
regularisations, selections (so no copy is ever selected) and coefficients.  Without the condition that no feature
leaves this is false: `C155_refuted`. -/
theorem C155_path_partial (X X' : Mat K) (y : Nat → K) (tol lambMin : K) (htol : 0 < tol) (hmin : 0 ≤ lambMin)
    (est : Nat → List Nat → List K → Option (List K × List K)) (path : List (LassoLarsNode K))
    (hcop : WithCopies X X') (hstay : NeverLeaves path)
    (hest : ∀ n ∈ path, ∀ k signs c d, est k n.selection signs = some (c, d) →
      signs.length = n.selection.length → SolvesNormal X y n.selection signs c d)
    (h : LarsReturns X y tol lambMin est path) :
    LarsReturns X' y tol lambMin est path ∧
      ∀ path', LarsReturns X' y tol lambMin est path' → path' = path := by
  obtain ⟨s, hs, hr⟩ := h
  have hpos : 0 < X.nc := by
    unfold larsInit at hs
    split at hs
    · cases hs
    · omega
  have hlast : s.last = none := by
    unfold larsInit at hs
    split at hs
    · cases hs
    · simp only [Option.some.injEq] at hs
      subst hs
      rfl
  have hsgn : ∀ i ∈ s.activeSet, s.allSigns i = 1 ∨ s.allSigns i = -1 := by
    unfold larsInit at hs
    split at hs
    · cases hs
    · simp only [Option.some.injEq] at hs
      subst hs
      intro i hi
      rw [List.mem_singleton.1 hi]
      simp only [if_true]
      split
      · right; rfl
      · left; rfl
  have hr' := hcop.run htol hmin hest hstay (larsInit_inv hs) hsgn hlast hr
  have hs' : larsInit X' y = some s := by rw [hcop.init hpos, hs]
  refine ⟨⟨s, hs', hr'⟩, ?_⟩
  rintro path' ⟨t, ht, hrt⟩
  rw [hs', Option.some.injEq] at ht
  subst ht
  exact hrt.unique hr'

end

/-! ### The example of C63 with a copy of each column -/

namespace CopiesExample

def X' : Mat ℚ := ⟨2, 4, fun i j => if i = j % 2 then 1 else 0⟩

theorem copies : WithCopies LarsExample.X X' := by
  constructor
  · rfl
  · decide
  · decide +kernel
  · intro j h1 h2
    refine ⟨j % 2, ?_, ?_⟩
    · show j % 2 < 2
      omega
    · intro r _
      show (if r = j % 2 then (1 : ℚ) else 0) = if r = j % 2 then 1 else 0
      rfl

/-- Neither copy is selected. -/
example : LarsReturns X' LarsExample.y lassoTol (1 / 2) (larsToyEst LarsExample.y)
    [⟨[0], 3, [1]⟩, ⟨[0, -2], 1, [0, 1]⟩] := by
  refine (C155_path_partial LarsExample.X X' LarsExample.y lassoTol (1 / 2) (by unfold lassoTol; norm_num) (by norm_num)
    (larsToyEst LarsExample.y) _ copies ?_ ?_ ?_).1
  · intro k a b ha hb
    rcases k with _ | _ | k
    · simp only [List.getElem?_cons_zero, Option.some.injEq, zero_add, List.getElem?_cons_succ] at ha hb
      subst ha; subst hb
      decide
    · simp at hb
    · simp at hb
  · intro n hn k signs c d he hl
    simp only [List.mem_cons, List.not_mem_nil, or_false] at hn
    rcases hn with rfl | rfl
    · obtain ⟨a, rfl⟩ : ∃ a, signs = [a] := List.length_eq_one_iff.1 hl
      simp only [larsToyEst, Option.some.injEq, Prod.mk.injEq] at he
      obtain ⟨rfl, rfl⟩ := he
      refine ⟨rfl, rfl, fun k hk => ?_, fun k hk => ?_⟩ <;>
        · obtain rfl : k = 0 := by simpa using hk
          simp [LarsExample.X, LarsExample.y, Finset.sum_range_succ]
    · obtain ⟨a, b, rfl⟩ : ∃ a b, signs = [a, b] := List.length_eq_two.1 hl
      simp only [larsToyEst, Option.some.injEq, Prod.mk.injEq] at he
      obtain ⟨rfl, rfl⟩ := he
      refine ⟨rfl, rfl, fun k hk => ?_, fun k hk => ?_⟩ <;>
        · have : k = 0 ∨ k = 1 := by simp only [List.length_cons, List.length_nil] at hk; omega
          rcases this with rfl | rfl <;> simp [LarsExample.X, LarsExample.y, Finset.sum_range_succ]
  · refine ⟨_, rfl, runs_of_runFuel (n := 3) ?_⟩
    decide +kernel

end CopiesExample

/-! ### The copy of a feature that leaves -/

namespace CopyLeaves

/-- Four normalised features; a fifth column is a copy of the first. -/
def X (nc : Nat) : Mat ℚ :=
  ⟨9, nc, fun r j =>
    if j = 1 then dir 3 r
    else if j = 2 then 2 / 3 * dir 0 r - 2 / 3 * dir 1 r + 1 / 3 * dir 2 r
    else if j = 3 then 1 / 2 * dir 0 r - 1 / 2 * dir 1 r - 1 / 2 * dir 2 r - 1 / 2 * dir 3 r
    else 2 / 3 * dir 1 r + 2 / 3 * dir 2 r - 1 / 3 * dir 3 r⟩

def y (r : Nat) : ℚ := -(3 / 7) * dir 0 r + 2 / 7 * dir 2 r - 6 / 7 * dir 3 r

/-- The inverses of the Gram matrices. -/
def inverses : List (List Nat × List (List ℚ)) := [
  ([1], [[1/8]]),
  ([0, 1], [[9/64, 3/64], [3/64, 9/64]]),
  ([0, 1, 3], [[27/64, 21/64, 3/8], [21/64, 27/64, 3/8], [3/8, 3/8, 1/2]]),
  ([1, 3], [[1/6, 1/12], [1/12, 1/6]]),
  ([0, 1, 2, 3], [[9/16, 1/2, -3/16, 5/8], [1/2, 91/144, -11/48, 49/72], [-3/16, -11/48, 1/4, -1/3],
    [5/8, 49/72, -1/3, 17/18]]),
  ([1, 3, 4], [[27/64, 3/8, 21/64], [3/8, 1/2, 3/8], [21/64, 3/8, 27/64]]),
  ([1, 2, 3, 4], [[91/144, -11/48, 49/72, 1/2], [-11/48, 1/4, -1/3, -3/16], [49/72, -1/3, 17/18, 5/8],
    [1/2, -3/16, 5/8, 9/16]])]

def inv (E : List Nat) (k m : Nat) : ℚ := (((inverses.lookup E).getD []).getD k []).getD m 0

/-- The estimator that solves the normal equations. -/
def est (_ : Nat) (E : List Nat) (signs : List ℚ) : Option (List ℚ × List ℚ) :=
  if E ∈ inverses.map Prod.fst then some (invEst (X 5) y inv E signs) else none

theorem est_solves (k : Nat) (E : List Nat) (signs c d : List ℚ) (h : est k E signs = some (c, d)) :
    SolvesNormal (X 5) y E signs c d := by
  unfold est at h
  split at h
  · rename_i hE
    simp only [Option.some.injEq] at h
    have hc : c = (invEst (X 5) y inv E signs).1 := by rw [h]
    have hd : d = (invEst (X 5) y inv E signs).2 := by rw [h]
    rw [hc, hd]
    apply solves_of_inverse
    clear hc hd h
    revert E
    decide +kernel
  · cases h

/-- The path of the four features. -/
def path : List (LassoLarsNode ℚ) := [
  ⟨[0], 48/7, [1]⟩,
  ⟨[0, -4/7], 16/7, [0, 1]⟩,
  ⟨[3/56, -5/8, 0], 12/7, [0, 1, 3]⟩,
  ⟨[-5/7, -2/21], 32/21, [1, 3]⟩,
  ⟨[0, -1, -8/21], 8/21, [0, 1, 3]⟩,
  ⟨[-3/28, -31/28, 0, -1/2], 2/7, [0, 1, 2, 3]⟩]

/-- The path with the copy. -/
def path' : List (LassoLarsNode ℚ) := [
  ⟨[0], 48/7, [1]⟩,
  ⟨[0, -4/7], 16/7, [0, 1]⟩,
  ⟨[3/56, -5/8, 0], 12/7, [0, 1, 3]⟩,
  ⟨[-5/7, -2/21], 32/21, [1, 3]⟩,
  ⟨[-5/7, -2/21, 0], 32/21, [1, 3, 4]⟩,
  ⟨[-17/14, 0, -22/35, -3/10], 16/35, [1, 2, 3, 4]⟩]

end CopyLeaves

open CopyLeaves in
/-- **C155 is false.** The data are normalised, the estimator solves the normal equations, and every node of the path
of the four features minimises the lasso objective.  The first feature joins, leaves and joins again.  With a copy of
it as a fifth column the copy joins at the very regularisation at which the original leaves (only the feature that
has just left is kept from joining), and that its coefficient has the wrong sign from there on goes unnoticed because
the crossing is at the current regularisation.  The last node does not minimise the lasso objective. -/
theorem C155_refuted : ∃ (X X' : Mat ℚ) (y : Nat → ℚ) (lambMin : ℚ)
    (est : Nat → List Nat → List ℚ → Option (List ℚ × List ℚ)) (path path' : List (LassoLarsNode ℚ))
    (n : LassoLarsNode ℚ),
    IsNormalized X' y ∧ 0 < lambMin ∧ WithCopies X X' ∧
    (∀ k E signs c d, est k E signs = some (c, d) → SolvesNormal X' y E signs c d) ∧
    LarsReturns X y lassoTol lambMin est path ∧
    (∀ n ∈ path, IsLassoMin X y n.lamb (spread n.selection n.coeff)) ∧
    LarsReturns X' y lassoTol lambMin est path' ∧
    n ∈ path' ∧ ¬ IsLassoMin X' y n.lamb (spread n.selection n.coeff) := by
  refine ⟨CopyLeaves.X 4, CopyLeaves.X 5, CopyLeaves.y, 1 / 100, CopyLeaves.est, CopyLeaves.path, CopyLeaves.path',
    ⟨[-17/14, 0, -22/35, -3/10], 16/35, [1, 2, 3, 4]⟩, ?_, by norm_num, ⟨rfl, by decide, fun _ _ _ _ => rfl, ?_⟩,
    est_solves, ?_, ?_, ?_, by simp [CopyLeaves.path'], ?_⟩
  · unfold IsNormalized
    decide +kernel
  · intro j h1 h2
    have h1' : 4 ≤ j := h1
    have h2' : j < 5 := h2
    obtain rfl : j = 4 := by omega
    exact ⟨0, by decide, fun r _ => rfl⟩
  · refine ⟨_, rfl, runs_of_runFuel (n := 8) ?_⟩
    decide +kernel
  · intro n hn
    apply lasso_min_of_kkt
    revert n
    decide +kernel
  · refine ⟨_, rfl, runs_of_runFuel (n := 8) ?_⟩
    decide +kernel
  · intro h
    refine absurd (h (fun i => if i = 1 then -103 / 105 else if i = 3 then -38 / 105 else 0)) (not_le.2 ?_)
    decide +kernel

end GoSelect
