import Verif.Proofs.LarsLength

/-! C163: how long the paths of `LassoLars` are. -/

namespace GoSelect

open Finset Spec

section
variable {K : Type} [Field K] [LinearOrder K] [IsStrictOrderedRing K]

/-- An iteration appends a node, the last one need not. -/
theorem larsBody_length {X : Mat K} {y : Nat → K} {tol lambMin : K}
    {est : Nat → List Nat → List K → Option (List K × List K)} {s : LarsState K} :
    (∀ r, larsBody X y tol lambMin est s = .ret r → r.length ≤ s.res.length + 1 ∧ (¬ s.lamb > lambMin → r = s.res)) ∧
    ∀ s', larsBody X y tol lambMin est s = .next s' → s'.res.length = s.res.length + 1 := by
  rcases larsBody_cases (X := X) (y := y) (tol := tol) (lambMin := lambMin) (est := est) (s := s) with h | ⟨-, h⟩ |
    ⟨hl, -, c, d, jts, -, -, -, -, h⟩
  · rw [h]; simp
  · rw [h]
    refine ⟨fun r hr => ?_, by simp⟩
    simp only [Outcome.ret.injEq] at hr
    subst hr
    exact ⟨Nat.le_succ _, fun _ => rfl⟩
  · rw [h]
    unfold larsMove
    simp only
    split <;> split <;> simp only [Outcome.ret.injEq, reduceCtorEq, false_implies, implies_true, true_and, and_true,
      Outcome.next.injEq] <;> rintro r rfl
    · exact ⟨by simp, fun h => absurd hl h⟩
    · simp
    · exact ⟨by simp, fun h => absurd hl h⟩
    · simp

/-- **C163.** For `lambMin ≥ 0` a path has at most (⌊L / tol⌋ + 1)(p + 1) nodes, where `L` bounds the correlations of the `p`
columns with the target; for every estimator. -/
theorem C163_length [FloorSemiring K] (X : Mat K) (y : Nat → K) (tol lambMin L : K) (htol : 0 < tol) (hmin : 0 ≤ lambMin)
    (hL : ∀ i < X.nc, |∑ r ∈ range X.nr, X.get r i * y r| ≤ L)
    (est : Nat → List Nat → List K → Option (List K × List K)) (path : List (LassoLarsNode K))
    (h : LarsReturns X y tol lambMin est path) : path.length ≤ (⌊L / tol⌋₊ + 1) * (X.nc + 1) := by
  obtain ⟨s, hs, hr⟩ := h
  have hi : LarsInv X.nc lambMin s := larsInit_inv hs
  let mu : LarsState K → Nat := fun s => ⌊s.lamb / tol⌋₊ * (X.nc + 1) + (X.nc - s.activeSet.length)
  have h0 : s.res.length + mu s + 1 ≤ (⌊L / tol⌋₊ + 1) * (X.nc + 1) := by
    have hs' := hs
    unfold larsInit at hs'
    split at hs'
    · cases hs'
    · rename_i hn
      simp only [Option.some.injEq] at hs'
      obtain ⟨-, m1, -⟩ := maxTime_spec ((List.range X.nc).map (fun i => some |larsXy X y i|))
      subst hs'
      have hle : (maxTime ((List.range X.nc).map (fun i => some |larsXy X y i|))).1 ≤ L := by
        rcases m1 with ⟨h, -⟩ | ⟨-, h⟩
        · rw [h]
          exact le_trans (abs_nonneg _) (hL 0 (by omega))
        · rw [List.getElem?_map, Option.map_eq_some_iff] at h
          obtain ⟨a, ha, hb⟩ := h
          simp only [Option.some.injEq] at hb
          rw [← hb]
          exact hL a (List.mem_range.1 (List.mem_of_getElem? ha))
      have h1 := Nat.mul_le_mul_right (X.nc + 1) (Nat.floor_le_floor (div_le_div_of_nonneg_right hle (le_of_lt htol)))
      simp only [mu, List.length_nil, List.length_singleton]
      rw [Nat.add_mul, Nat.one_mul]
      omega
  clear hs
  generalize (⌊L / tol⌋₊ + 1) * (X.nc + 1) = B at h0
  have hclaim : path.length ≤ s.res.length + mu s + 1 := by
    clear h0
    induction hr with
    | @ret s r hb =>
      have := (larsBody_length.1 _ hb).1
      omega
    | @next s s' r hb hr' ih =>
      have hi' := (larsBody_inv hi).2 _ hb
      have hres := larsBody_length.2 _ hb
      by_cases hl' : s'.lamb > lambMin
      · have hpos' : 0 < s'.lamb := lt_of_le_of_lt hmin hl'
        have ih := ih hi'
        have hlen : s.activeSet.length ≤ X.nc := by
          have h1 := hi.nodup.subperm (l₂ := List.range X.nc) (fun f hf => List.mem_range.2 (hi.range f hf))
          simpa using h1.length_le
        have hlen' : s'.activeSet.length ≤ X.nc := by
          have h1 := hi'.nodup.subperm (l₂ := List.range X.nc) (fun f hf => List.mem_range.2 (hi'.range f hf))
          simpa using h1.length_le
        have hmu : mu s' + 1 ≤ mu s := by
          rcases (larsBody_next htol hb).2 with ⟨h1, h2⟩ | ⟨h1, h2⟩
          · have h4 := Nat.mul_le_mul_right (X.nc + 1)
              (Nat.floor_le_floor (div_le_div_of_nonneg_right h1 (le_of_lt htol)))
            simp only [mu]
            omega
          · have h3 : s'.lamb ≤ s.lamb - tol := by
              rcases h1 with h1 | h1
              · exact absurd h1 (ne_of_gt hpos')
              · exact h1
            have h4 : ⌊s'.lamb / tol⌋₊ + 1 ≤ ⌊s.lamb / tol⌋₊ := by
              rw [← Nat.floor_add_one (div_nonneg (le_of_lt hpos') (le_of_lt htol))]
              apply Nat.floor_le_floor
              rw [← div_self (ne_of_gt htol), ← add_div]
              apply div_le_div_of_nonneg_right _ (le_of_lt htol)
              linarith
            have h5 := Nat.mul_le_mul_right (X.nc + 1) h4
            rw [Nat.add_mul, Nat.one_mul] at h5
            simp only [mu]
            omega
        omega
      · have hpath : r = s'.res := by
          cases hr' with
          | ret h => exact (larsBody_length.1 _ h).2 hl'
          | next h _ => exact absurd (larsBody_next htol h).1 hl'
        rw [hpath, hres]
        omega
  exact le_trans hclaim h0

/-- The pieces of the path up to a state of the loop. -/
structure LarsPieces (X : Mat K) (y : Nat → K) (s : LarsState K) (l : List (LarsPiece K)) : Prop where
  ok : ∀ p ∈ l, p.Ok X y
  dec : l.Pairwise (fun p q => q.hi ≤ p.lo)
  lo : ∀ p ∈ l, s.lamb ≤ p.lo
  sel : l.map LarsPiece.E = s.res.map LassoLarsNode.selection

theorem larsBody_piece {X : Mat K} {y : Nat → K} {tol lambMin : K}
    {est : Nat → List Nat → List K → Option (List K × List K)} {s s' : LarsState K} {l : List (LarsPiece K)} (htol : 0 < tol)
    (htol' : tol < 10) (hmin : 0 ≤ lambMin) (hi : LarsInv X.nc lambMin s) (hs : LarsSound X y s)
    (hok : LarsStepOk X y tol lambMin est s) (hp : LarsPieces X y s l) (hb : larsBody X y tol lambMin est s = .next s') :
    ∃ p, LarsPieces X y s' (l ++ [p]) := by
  rcases larsBody_cases (X := X) (y := y) (tol := tol) (lambMin := lambMin) (est := est) (s := s) with h | ⟨-, h⟩ |
    ⟨hl, hne, c, d, jts, he, -, -, hj, h⟩
  · rw [h] at hb; cases hb
  · rw [h] at hb; cases hb
  · obtain ⟨hsol, hreg⟩ := hok hl c d he
    have hperm := List.perm_insertionSort (· ≤ ·) s.activeSet
    have hpos : 0 < s.lamb := lt_of_le_of_lt hmin hl
    rw [h] at hb
    generalize s.activeSet.insertionSort (· ≤ ·) = E at *
    have hn : E.Nodup := hperm.nodup_iff.2 hi.nodup
    have hr : ∀ i ∈ E, i < X.nc := fun i hE => hi.range i (hperm.mem_iff.1 hE)
    have hneE : E ≠ [] := by
      intro h0
      rw [h0] at hperm
      exact hne hperm.symm.eq_nil
    have hg := hs.good hpos E _ _ (fun i => hperm.mem_iff) hreg.indep (larsEq_signs hn hr hsol)
    have hpiece := lars_piece hn hr htol htol' hpos hneE (fun i hE => hs.sgn i (hperm.mem_iff.1 hE)) hsol hreg hg hj
    have hmove : s'.lamb = max (maxJoinTime jts E).1 (maxTime (tCross tol s.lamb c d)).1 ∧
        s'.res = s.res ++ [⟨betaLARS c d s.lamb, s.lamb, E⟩] := by
      unfold larsMove at hb
      simp only at hb
      split at hb
      · rename_i hgt
        split at hb
        · cases hb
        · simp only [Outcome.next.injEq] at hb
          subst hb
          exact ⟨(max_eq_left (le_of_lt hgt)).symm, rfl⟩
      · rename_i hgt
        split at hb
        · cases hb
        · simp only [Outcome.next.injEq] at hb
          subst hb
          exact ⟨(max_eq_right (not_lt.1 hgt)).symm, rfl⟩
    refine ⟨⟨E, s.allSigns, spread E c, spread E d, s.lamb,
      max (maxJoinTime jts E).1 (maxTime (tCross tol s.lamb c d)).1⟩, ?_, ?_, ?_, ?_⟩
    · intro p hp'
      rcases List.mem_append.1 hp' with hp' | hp'
      · exact hp.ok p hp'
      · rw [List.mem_singleton.1 hp']
        exact hpiece
    · rw [List.pairwise_append]
      refine ⟨hp.dec, by simp, fun p hp' q hq => ?_⟩
      rw [List.mem_singleton.1 hq]
      exact hp.lo p hp'
    · intro p hp'
      rcases List.mem_append.1 hp' with hp' | hp'
      · rw [hmove.1]
        exact le_trans (le_of_lt hpiece.lo_lt) (hp.lo p hp')
      · rw [List.mem_singleton.1 hp', hmove.1]
    · rw [hmove.2, List.map_append, List.map_append, hp.sel]
      rfl

/-- Without degenerate iterations the path consists of such pieces. -/
theorem lars_pieces (X : Mat K) (y : Nat → K) (tol lambMin : K) (htol : 0 < tol) (htol' : tol < 10)
    (hmin : 0 ≤ lambMin) (est : Nat → List Nat → List K → Option (List K × List K)) (path : List (LassoLarsNode K))
    (hu : Spec.UniqueMax X y) (hok : ∀ s, LarsReach X y tol lambMin est s → LarsStepOk X y tol lambMin est s)
    (h : LarsReturns X y tol lambMin est path) :
    ∃ l : List (LarsPiece K), (∀ p ∈ l, p.Ok X y) ∧ l.Pairwise (fun p q => q.hi ≤ p.lo) ∧
      l.map LarsPiece.E = path.map LassoLarsNode.selection := by
  obtain ⟨s, hs, hr⟩ := h
  have hi : LarsInv X.nc lambMin s := larsInit_inv hs
  have hsound := init_sound hs hu
  have hreach : LarsReach X y tol lambMin est s := .init hs
  have hp : ∃ l, LarsPieces X y s l := by
    have : s.res = [] := by
      unfold larsInit at hs
      split at hs
      · cases hs
      · simp only [Option.some.injEq] at hs
        subst hs; rfl
    exact ⟨[], by simp, by simp, by simp, by simp [this]⟩
  clear hs
  induction hr with
  | @ret s r hb =>
    rcases step_sound htol htol' hmin hi hsound (hok s hreach) with h | ⟨-, h⟩ | ⟨s', h, -⟩
    · rw [h] at hb; cases hb
    · rw [h] at hb
      simp only [Outcome.ret.injEq] at hb
      subst hb
      obtain ⟨l, hl⟩ := hp
      exact ⟨l, hl.ok, hl.dec, hl.sel⟩
    · rw [h] at hb; cases hb
  | @next s s' r hb _ ih =>
    refine ih ((larsBody_inv hi).2 _ hb) ?_ (.step hreach hb) ?_
    · rcases step_sound htol htol' hmin hi hsound (hok s hreach) with h | ⟨-, h⟩ | ⟨s'', h, h'⟩
      · rw [h] at hb; cases hb
      · rw [h] at hb; cases hb
      · rw [h] at hb
        simp only [Outcome.next.injEq] at hb
        subst hb
        exact h'
    · obtain ⟨l, hl⟩ := hp
      obtain ⟨p, hp⟩ := larsBody_piece htol htol' hmin hi hsound (hok s hreach) hl hb
      exact ⟨_, hp⟩

/-- **C163.** If the estimator solves the normal equations and no iteration is degenerate, a path for `p` features has at most
(3^p - 1) / 2 nodes. -/
theorem C163_combinations (X : Mat K) (y : Nat → K) (tol lambMin : K) (htol : 0 < tol) (htol' : tol < 10)
    (hmin : 0 ≤ lambMin) (est : Nat → List Nat → List K → Option (List K × List K)) (path : List (LassoLarsNode K))
    (hu : Spec.UniqueMax X y) (hok : ∀ s, LarsReach X y tol lambMin est s → LarsStepOk X y tol lambMin est s)
    (h : LarsReturns X y tol lambMin est path) : 2 * path.length + 1 ≤ 3 ^ X.nc := by
  obtain ⟨l, h1, h2, h3⟩ := lars_pieces X y tol lambMin htol htol' hmin est path hu hok h
  have hlen : l.length = path.length := by simpa using congrArg List.length h3
  rw [← hlen]
  exact pieces_card h1 h2

/-- **C163.** A selection of `k` features occurs in at most 2^(k-1) nodes of such a path; so a single feature is selected alone in
at most one. -/
theorem C163_selection (X : Mat K) (y : Nat → K) (tol lambMin : K) (htol : 0 < tol) (htol' : tol < 10)
    (hmin : 0 ≤ lambMin) (est : Nat → List Nat → List K → Option (List K × List K)) (path : List (LassoLarsNode K))
    (hu : Spec.UniqueMax X y) (hok : ∀ s, LarsReach X y tol lambMin est s → LarsStepOk X y tol lambMin est s)
    (h : LarsReturns X y tol lambMin est path) (S : List Nat) :
    2 * (path.map LassoLarsNode.selection).count S ≤ 2 ^ S.length := by
  obtain ⟨l, h1, h2, h3⟩ := lars_pieces X y tol lambMin htol htol' hmin est path hu hok h
  have hcount : (path.map LassoLarsNode.selection).count S = (l.filter (fun p => p.E == S)).length := by
    rw [← h3, List.count, List.countP_map, List.countP_eq_length_filter]
    rfl
  rw [hcount]
  exact pieces_sel (X := X) (y := y) (fun p hp => h1 p (List.mem_filter.1 hp).1)
    (fun p hp => by simpa using (List.mem_filter.1 hp).2) (h2.sublist List.filter_sublist)

end

/-- The path of two nodes of the example of C83. -/
example : ∃ path, LarsReturns LarsExample.X LarsExample.y lassoTol (1 / 2) (larsToyEst LarsExample.y) path ∧
    path.length = 2 ∧ 2 * path.length + 1 ≤ 3 ^ 2 ∧ 2 * (path.map LassoLarsNode.selection).count [1] ≤ 2 ^ 1 := by
  have h : LarsReturns LarsExample.X LarsExample.y lassoTol (1 / 2) (larsToyEst LarsExample.y)
      [⟨[0], 3, [1]⟩, ⟨[0, -2], 1, [0, 1]⟩] := by
    refine ⟨_, rfl, runs_of_runFuel (n := 3) ?_⟩
    decide +kernel
  exact ⟨_, h, rfl, C163_combinations _ _ _ _ (by norm_num [lassoTol]) (by norm_num [lassoTol]) (by norm_num) _ _
    LarsExample.unique LarsExample.ok h, C163_selection _ _ _ _ (by norm_num [lassoTol]) (by norm_num [lassoTol]) (by norm_num)
    _ _ LarsExample.unique LarsExample.ok h [1]⟩

/-- At most (30 + 1) · 3 nodes for a tolerance of 1 / 10. -/
example (est : Nat → List Nat → List ℚ → Option (List ℚ × List ℚ)) (path : List (LassoLarsNode ℚ))
    (h : LarsReturns LarsExample.X LarsExample.y (1 / 10) 0 est path) : path.length ≤ 93 := by
  have := C163_length LarsExample.X LarsExample.y (1 / 10) 0 3 (by norm_num) (le_refl _) (by decide +kernel) est path h
  norm_num at this
  exact this

/-- Two columns of different lengths. -/
def longPathX : Mat ℚ := ⟨2, 2, fun r j => if j = 0 then (if r = 0 then 2 else 0) else 1 / 2⟩

def longPathY (r : Nat) : ℚ := if r = 0 then 3 / 2 else 5 / 2

/-- Inverses of the Gram matrices of `longPathX`. -/
def longPathInv (E : List Nat) (k m : Nat) : ℚ :=
  if E = [0] then 1 / 4 else if E = [1] then 2
  else if k = 0 ∧ m = 0 then 1 / 2 else if k = 1 ∧ m = 1 then 4 else -1

def longPathEst (_ : Nat) (E : List Nat) (signs : List ℚ) : Option (List ℚ × List ℚ) :=
  if E ∈ [[0], [1], [0, 1]] then some (invEst longPathX longPathY longPathInv E signs) else none

/-- **C163 (attained).** For two features the bounds are attained: a path of four nodes with the features {0}, {0, 1}, {1} and
{0, 1} again; feature 0 leaves and comes back with the other sign. -/
theorem C163_attained : ∃ (X : Mat ℚ) (y : Nat → ℚ) (lambMin : ℚ)
    (est : Nat → List Nat → List ℚ → Option (List ℚ × List ℚ)) (path : List (LassoLarsNode ℚ)),
    X.nc = 2 ∧ 0 < lambMin ∧ Spec.UniqueMax X y ∧
    (∀ k E signs c d, est k E signs = some (c, d) → SolvesNormal X y E signs c d) ∧
    LarsReturns X y lassoTol lambMin est path ∧ 2 * path.length + 1 = 3 ^ X.nc ∧
    2 * (path.map LassoLarsNode.selection).count [0, 1] = 2 ^ 2 ∧
    ∀ n ∈ path, IsLassoMin X y n.lamb (spread n.selection n.coeff) := by
  refine ⟨longPathX, longPathY, 1 / 10, longPathEst, [⟨[0], 3, [0]⟩, ⟨[1 / 3, 0], 5 / 3, [0, 1]⟩, ⟨[2], 1, [1]⟩,
    ⟨[0, 10 / 3], 1 / 3, [0, 1]⟩], rfl, by norm_num, ?_, ?_, ?_, rfl, by decide +kernel, ?_⟩
  · intro i hi j hj hij h
    exfalso
    simp only [longPathX] at hi hj
    have h0 : larsXy longPathX longPathY 0 = 3 := by decide +kernel
    have h1 : larsXy longPathX longPathY 1 = 2 := by decide +kernel
    have hi' : i = 0 ∨ i = 1 := by omega
    have hj' : j = 0 ∨ j = 1 := by omega
    rcases hi' with rfl | rfl <;> rcases hj' with rfl | rfl <;> simp [h0, h1] at hij h
  · intro k E signs c d h
    unfold longPathEst at h
    split at h
    · rename_i hE
      simp only [Option.some.injEq] at h
      have hc : c = (invEst longPathX longPathY longPathInv E signs).1 := by rw [h]
      have hd : d = (invEst longPathX longPathY longPathInv E signs).2 := by rw [h]
      rw [hc, hd]
      apply solves_of_inverse
      simp only [longPathX]
      clear hc hd h
      revert E
      decide +kernel
    · cases h
  · refine ⟨_, rfl, runs_of_runFuel (n := 8) ?_⟩
    decide +kernel
  · intro n hn
    apply lasso_min_of_kkt
    revert n
    simp only [longPathX]
    decide +kernel

end GoSelect
