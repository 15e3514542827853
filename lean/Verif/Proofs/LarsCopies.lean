import Verif.Props.C83

/-!
# LARS paths with copies of features
-/

namespace GoSelect

open Finset Spec

namespace Spec

variable {K : Type} [Field K] [LinearOrder K]

/-- `X'` is `X` with further columns, each of which is a copy of a column of `X`. -/
structure WithCopies (X X' : Mat K) : Prop where
  nr : X'.nr = X.nr
  nc : X.nc ≤ X'.nc
  old : ∀ r < X.nr, ∀ i < X.nc, X'.get r i = X.get r i
  copy : ∀ j, X.nc ≤ j → j < X'.nc → ∃ i < X.nc, ∀ r < X.nr, X'.get r j = X.get r i

/-- No feature of a node is missing in the next one. -/
def NeverLeaves (path : List (LassoLarsNode K)) : Prop :=
  ∀ k a b, path[k]? = some a → path[k + 1]? = some b → ∀ i ∈ a.selection, i ∈ b.selection

end Spec

section
variable {K : Type} [Field K] [LinearOrder K] {X X' : Mat K} {y : Nat → K}

/-- Every column of the larger matrix is one of the smaller. -/
theorem Spec.WithCopies.orig (h : WithCopies X X') {j : Nat} (hj : j < X'.nc) :
    ∃ i < X.nc, (j < X.nc → i = j) ∧ ∀ r < X.nr, X'.get r j = X.get r i := by
  rcases Nat.lt_or_ge j X.nc with hlt | hge
  · exact ⟨j, hlt, fun _ => rfl, fun r hr => h.old r hr j hlt⟩
  · obtain ⟨i, hi, he⟩ := h.copy j hge hj
    exact ⟨i, hi, fun hlt => absurd hlt (by omega), he⟩

theorem Spec.WithCopies.xy (h : WithCopies X X') {i j : Nat} (he : ∀ r < X.nr, X'.get r j = X.get r i) :
    larsXy X' y j = larsXy X y i := by
  unfold larsXy
  rw [h.nr]
  exact Finset.sum_congr rfl (fun r hr => by rw [he r (mem_range.1 hr)])

theorem Spec.WithCopies.fit (h : WithCopies X X') {active : List Nat} (ha : ∀ i ∈ active, i < X.nc) (v : List K) {r : Nat}
    (hr : r < X.nr) : larsFit X' active v r = larsFit X active v r := by
  unfold larsFit
  refine Finset.sum_congr rfl (fun k hk => ?_)
  have hk' := mem_range.1 hk
  rw [h.old r hr]
  apply ha
  rw [List.getD_eq_getElem?_getD, List.getElem?_eq_getElem hk']
  exact List.getElem_mem hk'

theorem Spec.WithCopies.xx (h : WithCopies X X') {active : List Nat} (ha : ∀ i ∈ active, i < X.nc) (v : List K) {i j : Nat}
    (he : ∀ r < X.nr, X'.get r j = X.get r i) : larsXX X' active v j = larsXX X active v i := by
  unfold larsXX
  rw [h.nr]
  exact Finset.sum_congr rfl (fun r hr => by rw [he r (mem_range.1 hr), h.fit ha v (mem_range.1 hr)])

theorem Spec.WithCopies.sign (h : WithCopies X X') {active : List Nat} (ha : ∀ i ∈ active, i < X.nc) (v : List K) {j : Nat}
    (hj : j < X.nc) : joinFeatSign X' y j active v = joinFeatSign X y j active v := by
  unfold joinFeatSign
  rw [h.nr]
  have : ∑ r ∈ range X.nr, X'.get r j * (y r - larsFit X' active v r) =
      ∑ r ∈ range X.nr, X.get r j * (y r - larsFit X active v r) :=
    Finset.sum_congr rfl (fun r hr => by rw [h.old r (mem_range.1 hr) j hj, h.fit ha v (mem_range.1 hr)])
  rw [this]

variable [IsStrictOrderedRing K]

/-- The first maximum is not moved by values that are not larger. -/
theorem maxTime_append (v w : List (Option K)) (h : ∀ t, some t ∈ w → t ≤ (maxTime v).1) :
    maxTime (v ++ w) = maxTime v := by
  have key : ∀ (w : List (Option K)) (s : K × Nat) (k : Nat), (∀ t, some t ∈ w → t ≤ s.1) →
      (w.zipIdx k).foldl (fun s ti => match ti.1 with
        | some t => if t > s.1 then (t, ti.2) else s
        | none => s) s = s := by
    intro w
    induction w with
    | nil => intro s k _; rfl
    | cons a w ih =>
      intro s k h
      rw [List.zipIdx_cons, List.foldl_cons]
      cases a with
      | none => exact ih s _ (fun t ht => h t (by simp [ht]))
      | some t =>
        have e : ¬ t > s.1 := not_lt.2 (h t (by simp))
        simp only [if_neg e]
        exact ih s _ (fun t ht => h t (by simp [ht]))
  have h2 := key w (maxTime v) (0 + v.length) h
  unfold maxTime at h2 ⊢
  rw [List.zipIdx_append, List.foldl_append]
  exact h2

/-- The joining time of a copy of an active feature is 0. -/
theorem joinTime_copy {tol lamb s : K} (htol : 0 < tol) (hl : 0 < lamb) (hs : s = 1 ∨ s = -1) (i : Nat) :
    joinTime tol lamb none i 0 s = some 0 := by
  have hin : -tol ≤ (0 : K) ∧ (0 : K) ≤ lamb + tol := ⟨by linarith, by linarith⟩
  rcases hs with rfl | rfl
  · have h2 : (-1 - 1 : K) ≠ 0 := by norm_num
    simp [joinTime, Fl.divFin, timeIn, h2, hin, sub_self]
  · have h2 : (1 - -1 : K) ≠ 0 := by norm_num
    simp [joinTime, Fl.divFin, timeIn, h2, hin]

/-- An iteration in a state without a feature that has just left is the same with and without the copies. -/
theorem Spec.WithCopies.body (h : WithCopies X X') {tol lambMin : K} (htol : 0 < tol) (hmin : 0 ≤ lambMin)
    {est : Nat → List Nat → List K → Option (List K × List K)}
    {s : LarsState K}
    (hest : s.lamb > lambMin → ∀ k signs c d, est k (s.activeSet.insertionSort (· ≤ ·)) signs = some (c, d) →
      signs.length = (s.activeSet.insertionSort (· ≤ ·)).length →
      SolvesNormal X y (s.activeSet.insertionSort (· ≤ ·)) signs c d)
    (hi : LarsInv X.nc lambMin s) (hsgn : ∀ i ∈ s.activeSet, s.allSigns i = 1 ∨ s.allSigns i = -1)
    (hlast : s.last = none) (hnp : larsBody X y tol lambMin est s ≠ .panic) :
    larsBody X' y tol lambMin est s = larsBody X y tol lambMin est s := by
  rcases larsBody_cases (X := X) (y := y) (tol := tol) (lambMin := lambMin) (est := est) (s := s) with hp | ⟨hl, hp⟩ |
    ⟨hl, hne, c, d, jts, he, hc, hd, hj, hp⟩
  · exact absurd hp hnp
  · rw [hp]
    unfold larsBody
    rw [if_pos hl]
  · rw [hp]
    set E := s.activeSet.insertionSort (· ≤ ·) with hE
    have hmem : ∀ i, i ∈ E ↔ i ∈ s.activeSet := fun i => List.mem_insertionSort _
    have hnd : E.Nodup := (List.perm_insertionSort _ _).nodup_iff.2 hi.nodup
    have hr : ∀ i ∈ E, i < X.nc := fun i hiE => hi.range i ((hmem i).1 hiE)
    have hsol := hest hl _ _ _ _ he (by simp)
    have heq := larsEq_of_solves hnd hr hsol
    have hlen : jts.length = X.nc := by simpa using mapM_length hj
    have hlp : 0 < s.lamb := lt_of_le_of_lt hmin hl
    rw [hlast] at hj
    have hget : ∀ i < X.nc, joinTime tol s.lamb none i (larsXy X y i - larsXX X E c i) (larsXX X E d i) = jts[i]? := by
      intro i hiX
      have := mapM_getElem hj i (by simpa using hiX)
      rw [List.getElem_range] at this
      rw [List.getElem?_eq_getElem (by omega)]
      exact this
    -- the times of all features of the larger matrix
    have htime : ∀ j < X'.nc, ∃ i < X.nc, (j < X.nc → i = j) ∧
        joinTime tol s.lamb none j (larsXy X' y j - larsXX X' E c j) (larsXX X' E d j) =
          if i ∈ E then some 0 else jts[i]? := by
      intro j hjX
      obtain ⟨i, hiX, hij, hcol⟩ := h.orig hjX
      refine ⟨i, hiX, hij, ?_⟩
      rw [h.xy hcol, h.xx hr c hcol, h.xx hr d hcol]
      by_cases hiE : i ∈ E
      · rw [if_pos hiE, larsXX_eq hnd hr, larsXX_eq hnd hr, heq.eqC i hiE, heq.eqD i hiE, sub_self, spread_signs _ hiE]
        exact joinTime_copy htol hlp (hsgn i ((hmem i).1 hiE)) j
      · rw [if_neg hiE, ← hget i hiX]
        rfl
    have hsome : ∃ jts', tJoin X' y tol s.lamb E c d none = some jts' := by
      apply mapM_isSome
      intro j hjX
      obtain ⟨i, hiX, -, ht⟩ := htime j (List.mem_range.1 hjX)
      by_cases hiE : i ∈ E
      · exact ⟨0, by rw [ht, if_pos hiE]⟩
      · rw [if_neg hiE, List.getElem?_eq_getElem (by omega)] at ht
        exact ⟨_, ht⟩
    obtain ⟨jts', hj'⟩ := hsome
    have hlen' : jts'.length = X'.nc := by simpa using mapM_length hj'
    have hget' : ∀ j < X'.nc, ∃ i < X.nc, (j < X.nc → i = j) ∧ jts'[j]? = if i ∈ E then some 0 else jts[i]? := by
      intro j hjX
      obtain ⟨i, hiX, hij, ht⟩ := htime j hjX
      refine ⟨i, hiX, hij, ?_⟩
      rw [← ht]
      have := mapM_getElem hj' j (by simpa using hjX)
      rw [List.getElem_range] at this
      rw [List.getElem?_eq_getElem (by omega)]
      exact this.symm
    have hmax : maxJoinTime jts' E = maxJoinTime jts E := by
      unfold maxJoinTime
      set v := E.foldl (fun v ind => v.set ind (-1)) jts with hv
      set v' := E.foldl (fun v ind => v.set ind (-1)) jts' with hv'
      have gv : ∀ i, v[i]? = if i ∈ E ∧ i < jts.length then some (-1) else jts[i]? := setNeg_get jts E
      have gv' : ∀ i, v'[i]? = if i ∈ E ∧ i < jts'.length then some (-1) else jts'[i]? := setNeg_get jts' E
      have lv : v.length = X.nc := by
        rw [← hlen]
        have : ∀ (l : List Nat) (w : List K), (l.foldl (fun v ind => v.set ind (-1)) w).length = w.length := by
          intro l
          induction l with
          | nil => intro w; rfl
          | cons a l ih => intro w; rw [List.foldl_cons, ih, List.length_set]
        exact this E jts
      have htake : v'.take X.nc = v := by
        apply List.ext_getElem?
        intro i
        rcases Nat.lt_or_ge i X.nc with hiX | hiX
        · rw [List.getElem?_take_of_lt hiX, gv, gv', hlen, hlen']
          obtain ⟨i', -, hii, ht⟩ := hget' i (lt_of_lt_of_le hiX h.nc)
          obtain rfl := hii hiX
          by_cases hiE : i' ∈ E
          · rw [if_pos ⟨hiE, lt_of_lt_of_le hiX h.nc⟩, if_pos ⟨hiE, hiX⟩]
          · rw [if_neg (fun hh => hiE hh.1), if_neg (fun hh => hiE hh.1), ht, if_neg hiE]
        · rw [List.getElem?_eq_none (by rw [List.length_take]; omega), List.getElem?_eq_none (by omega)]
      have hsplit : v' = v ++ v'.drop X.nc := by
        rw [← htake, List.take_append_drop]
      rw [hsplit, List.map_append]
      apply maxTime_append
      obtain ⟨m0, -, m2⟩ := maxTime_spec (v.map some)
      intro t ht
      rw [List.mem_map] at ht
      obtain ⟨t', ht', e⟩ := ht
      obtain rfl : t' = t := by simpa using e
      obtain ⟨k, hk, hkt⟩ := List.getElem_of_mem ht'
      have hkl : X.nc + k < v'.length := by
        rw [List.length_drop] at hk
        omega
      have hk' : v'[X.nc + k]? = some t' := by
        rw [List.getElem?_eq_getElem hkl, ← hkt, List.getElem_drop]
      rw [gv'] at hk'
      have hnotE : X.nc + k ∉ E := fun hh => absurd (hr _ hh) (by omega)
      rw [if_neg (fun hh => hnotE hh.1)] at hk'
      have hkX : X.nc + k < X'.nc := by
        rw [← hlen']
        exact (List.getElem?_eq_some_iff.1 hk').1
      obtain ⟨i, hiX, -, hti⟩ := hget' (X.nc + k) hkX
      rw [hk'] at hti
      by_cases hiE : i ∈ E
      · rw [if_pos hiE] at hti
        simp only [Option.some.injEq] at hti
        rw [hti]
        exact m0
      · rw [if_neg hiE] at hti
        apply m2
        rw [List.mem_map]
        refine ⟨t', ?_, rfl⟩
        apply List.mem_of_getElem? (i := i)
        rw [gv, if_neg (fun hh => hiE hh.1)]
        exact hti.symm
    have hbody : larsBody X' y tol lambMin est s = larsMove X' y s E c d (maxJoinTime jts' E) (maxTime (tCross tol s.lamb c d)) := by
      unfold larsBody
      rw [if_neg (not_not.2 hl), if_neg hne]
      simp only
      rw [← hE, he]
      simp only
      rw [if_neg (by rw [hsol.lenC, hsol.lenD]; simp), hlast, hj']
    rw [hbody, hmax]
    unfold larsMove
    obtain ⟨-, jm, -⟩ := maxJoinTime_spec jts E
    have hXpos : 0 < X.nc := by
      obtain ⟨a, ha⟩ := List.exists_mem_of_ne_nil _ hne
      exact lt_of_le_of_lt (Nat.zero_le _) (hi.range a ha)
    by_cases hjc : (maxJoinTime jts E).1 > (maxTime (tCross tol s.lamb c d)).1
    · have hpos : 0 < (maxJoinTime jts E).1 := lt_of_le_of_lt (maxTime_spec _).1 hjc
      have hjX : (maxJoinTime jts E).2 < X.nc := by
        rw [← hlen]
        exact (List.getElem?_eq_some_iff.1 (jm hpos).2).1
      simp only
      rw [if_pos hjc, if_pos hjc, h.sign hr _ hjX]
    · simp only
      rw [if_neg hjc, if_neg hjc]

/-- The first feature is the same with and without the copies. -/
theorem Spec.WithCopies.init (h : WithCopies X X') (hpos : 0 < X.nc) : larsInit X' y = larsInit X y := by
  unfold larsInit
  rw [h.nr]
  by_cases hz : X.nr = 0
  · rw [if_pos (.inl hz), if_pos (.inl hz)]
  · rw [if_neg (by have := h.nc; omega), if_neg (by omega)]
    have e : (List.range X'.nc).map (fun i => some |larsXy X' y i|) = (List.range X.nc).map (fun i => some |larsXy X y i|) ++
        (List.range (X'.nc - X.nc)).map (fun k => some |larsXy X' y (X.nc + k)|) := by
      have : X'.nc = X.nc + (X'.nc - X.nc) := by have := h.nc; omega
      conv_lhs => rw [this]
      rw [List.range_add, List.map_append, List.map_map]
      congr 1
      refine List.map_congr_left (fun i hi => ?_)
      rw [h.xy (fun r hr => h.old r hr i (List.mem_range.1 hi))]
    have hmx : maxTime ((List.range X'.nc).map (fun i => some |larsXy X' y i|)) =
        maxTime ((List.range X.nc).map (fun i => some |larsXy X y i|)) := by
      rw [e]
      apply maxTime_append
      obtain ⟨-, -, m2⟩ := maxTime_spec ((List.range X.nc).map (fun i => some |larsXy X y i|))
      intro t ht
      rw [List.mem_map] at ht
      obtain ⟨k, hk, hkt⟩ := ht
      have hkX : X.nc + k < X'.nc := by have := List.mem_range.1 hk; omega
      obtain ⟨i, hiX, -, hcol⟩ := h.orig hkX
      rw [h.xy hcol] at hkt
      apply m2
      rw [List.mem_map]
      exact ⟨i, List.mem_range.2 hiX, hkt⟩
    have hidx : (maxTime ((List.range X.nc).map (fun i => some |larsXy X y i|))).2 < X.nc := by
      obtain ⟨-, m1, -⟩ := maxTime_spec ((List.range X.nc).map (fun i => some |larsXy X y i|))
      rcases m1 with ⟨-, m1⟩ | ⟨-, m1⟩
      · rw [m1]; exact hpos
      · have := (List.getElem?_eq_some_iff.1 m1).1
        simpa using this
    rw [hmx]
    simp only
    rw [h.xy (fun r hr => h.old r hr _ hidx)]

/-- What an iteration records. -/
theorem larsBody_records {X : Mat K} {y : Nat → K} {tol lambMin : K}
    {est : Nat → List Nat → List K → Option (List K × List K)} {s : LarsState K} (hl : s.lamb > lambMin) :
    (∀ r, larsBody X y tol lambMin est s = .ret r →
      ∃ n : LassoLarsNode K, n.selection = s.activeSet.insertionSort (· ≤ ·) ∧ r = s.res ++ [n]) ∧
    (∀ s', larsBody X y tol lambMin est s = .next s' →
      ∃ n : LassoLarsNode K, n.selection = s.activeSet.insertionSort (· ≤ ·) ∧ s'.res = s.res ++ [n]) := by
  rcases larsBody_cases (X := X) (y := y) (tol := tol) (lambMin := lambMin) (est := est) (s := s) with hp | ⟨hl', hp⟩ |
    ⟨-, hne, c, d, jts, he, hc, hd, hj, hp⟩
  · rw [hp]; simp
  · exact absurd hl hl'
  · rw [hp]
    refine ⟨fun r hb => ⟨⟨betaLARS c d s.lamb, s.lamb, s.activeSet.insertionSort (· ≤ ·)⟩, rfl, ?_⟩,
      fun s' hb => ⟨⟨betaLARS c d s.lamb, s.lamb, s.activeSet.insertionSort (· ≤ ·)⟩, rfl, ?_⟩⟩
    · unfold larsMove at hb
      simp only at hb
      split at hb <;> split at hb <;> simp only [Outcome.ret.injEq, reduceCtorEq] at hb <;> exact hb.symm
    · unfold larsMove at hb
      simp only at hb
      split at hb <;> split at hb <;> simp only [Outcome.next.injEq, reduceCtorEq] at hb <;> subst hb <;> rfl

/-- The nodes recorded so far begin the path, and the next one is of the active features. -/
theorem lars_begins {X : Mat K} {y : Nat → K} {tol lambMin : K}
    {est : Nat → List Nat → List K → Option (List K × List K)} {s : LarsState K} {path : List (LassoLarsNode K)}
    (h : Runs (larsBody X y tol lambMin est) s path) :
    (s.lamb > lambMin → ∃ n : LassoLarsNode K, n.selection = s.activeSet.insertionSort (· ≤ ·) ∧ s.res ++ [n] <+: path) ∧
      s.res <+: path := by
  induction h with
  | @ret s r hb =>
    by_cases hl : s.lamb > lambMin
    · obtain ⟨n, hn, hr⟩ := (larsBody_records hl).1 r hb
      rw [hr]
      exact ⟨fun _ => ⟨n, hn, List.prefix_refl _⟩, List.prefix_append _ _⟩
    · refine ⟨fun h => absurd h hl, ?_⟩
      unfold larsBody at hb
      rw [if_pos hl] at hb
      simp only [Outcome.ret.injEq] at hb
      rw [hb]
  | @next s s' r hb _ ih =>
    by_cases hl : s.lamb > lambMin
    · obtain ⟨n, hn, hr⟩ := (larsBody_records hl).2 s' hb
      have := ih.2
      rw [hr] at this
      exact ⟨fun _ => ⟨n, hn, this⟩, (List.prefix_append _ _).trans this⟩
    · unfold larsBody at hb
      rw [if_pos hl] at hb
      cases hb

/-- The signs of the active features stay 1 or -1. -/
theorem larsBody_signs {X : Mat K} {y : Nat → K} {tol lambMin : K}
    {est : Nat → List Nat → List K → Option (List K × List K)} {s s' : LarsState K}
    (hsgn : ∀ i ∈ s.activeSet, s.allSigns i = 1 ∨ s.allSigns i = -1)
    (hb : larsBody X y tol lambMin est s = .next s') : ∀ i ∈ s'.activeSet, s'.allSigns i = 1 ∨ s'.allSigns i = -1 := by
  rcases larsBody_cases (X := X) (y := y) (tol := tol) (lambMin := lambMin) (est := est) (s := s) with h' | ⟨-, h'⟩ |
    ⟨hl, hne, c, d, jts, he, hc, hd, hj, h'⟩
  · rw [h'] at hb; cases hb
  · rw [h'] at hb; cases hb
  · rw [h'] at hb
    have hperm := List.perm_insertionSort (· ≤ ·) s.activeSet
    have hcne : c ≠ [] := fun h0 => hne (List.eq_nil_of_length_eq_zero (by rw [← hc, h0]; rfl))
    have hci : (maxTime (tCross tol s.lamb c d)).2 < (s.activeSet.insertionSort (· ≤ ·)).length := by
      rw [hperm.length_eq, ← hc]; exact cross_index hcne
    unfold larsMove at hb
    simp only at hb
    split at hb <;> split at hb <;> simp only [Outcome.next.injEq, reduceCtorEq] at hb <;> subst hb
    · intro i hi
      simp only
      split
      · unfold joinFeatSign; split <;> simp
      · rename_i hij
        rcases List.mem_append.1 hi with hi | hi
        · exact hsgn i (hperm.mem_iff.1 hi)
        · exact absurd (List.mem_singleton.1 hi) hij
    · intro i hi
      simp only
      exact hsgn i (hperm.mem_iff.1 ((List.eraseIdx_sublist _ _).subset ((dropped_sub hci).mem_iff.1 hi)))

/-- When a feature has just left it is not active any more. -/
theorem larsBody_left {X : Mat K} {y : Nat → K} {tol lambMin : K}
    {est : Nat → List Nat → List K → Option (List K × List K)} {s s' : LarsState K} (hi : LarsInv X.nc lambMin s)
    (hb : larsBody X y tol lambMin est s = .next s') :
    s'.last = none ∨ ∃ f ∈ s.activeSet, f ∉ s'.activeSet := by
  rcases larsBody_cases (X := X) (y := y) (tol := tol) (lambMin := lambMin) (est := est) (s := s) with h' | ⟨-, h'⟩ |
    ⟨hl, hne, c, d, jts, he, hc, hd, hj, h'⟩
  · rw [h'] at hb; cases hb
  · rw [h'] at hb; cases hb
  · rw [h'] at hb
    have hperm := List.perm_insertionSort (· ≤ ·) s.activeSet
    have hnd : (s.activeSet.insertionSort (· ≤ ·)).Nodup := hperm.nodup_iff.2 hi.nodup
    have hcne : c ≠ [] := fun h0 => hne (List.eq_nil_of_length_eq_zero (by rw [← hc, h0]; rfl))
    have hci : (maxTime (tCross tol s.lamb c d)).2 < (s.activeSet.insertionSort (· ≤ ·)).length := by
      rw [hperm.length_eq, ← hc]; exact cross_index hcne
    unfold larsMove at hb
    simp only at hb
    split at hb <;> split at hb <;> simp only [Outcome.next.injEq, reduceCtorEq] at hb <;> subst hb
    · exact .inl rfl
    · refine .inr ⟨_, hperm.mem_iff.1 (List.getElem_mem hci), fun hf => ?_⟩
      have := (dropped_sub hci).mem_iff.1 hf
      rw [List.mem_eraseIdx_iff_getElem] at this
      obtain ⟨k, hk, hne', he'⟩ := this
      exact hne' ((hnd.getElem_inj_iff).1 he')

/-- The run is the same with and without the copies as long as no feature leaves. -/
theorem Spec.WithCopies.run (h : WithCopies X X') {tol lambMin : K} (htol : 0 < tol) (hmin : 0 ≤ lambMin)
    {est : Nat → List Nat → List K → Option (List K × List K)} {s : LarsState K} {path : List (LassoLarsNode K)}
    (hest : ∀ n ∈ path, ∀ k signs c d, est k n.selection signs = some (c, d) →
      signs.length = n.selection.length → SolvesNormal X y n.selection signs c d)
    (hstay : NeverLeaves path) (hi : LarsInv X.nc lambMin s)
    (hsgn : ∀ i ∈ s.activeSet, s.allSigns i = 1 ∨ s.allSigns i = -1) (hlast : s.last = none)
    (hr : Runs (larsBody X y tol lambMin est) s path) : Runs (larsBody X' y tol lambMin est) s path := by
  induction hr with
  | @ret s r hb =>
    refine .ret ?_
    rw [h.body htol hmin ?_ hi hsgn hlast (by rw [hb]; simp), hb]
    intro hl
    obtain ⟨n, hn, hpre⟩ := (lars_begins (.ret hb)).1 hl
    rw [← hn]
    exact hest n (hpre.subset (by simp))
  | @next s s' r hb hr' ih =>
    have hpre := (lars_begins (.next hb hr')).1
    have hb' : larsBody X' y tol lambMin est s = .next s' := by
      rw [h.body htol hmin ?_ hi hsgn hlast (by rw [hb]; simp), hb]
      intro hl
      obtain ⟨n, hn, hp⟩ := hpre hl
      rw [← hn]
      exact hest n (hp.subset (by simp))
    refine .next hb' ?_
    rcases larsBody_left hi hb with hnone | ⟨f, hf, hf'⟩
    · exact ih hest hstay ((larsBody_inv hi).2 _ hb) (larsBody_signs hsgn hb) hnone
    · -- a feature has left, so that was the last node
      have hl : s.lamb > lambMin := by
        by_contra hl
        unfold larsBody at hb
        rw [if_pos hl] at hb
        cases hb
      obtain ⟨n, hn, hres⟩ := (larsBody_records hl).2 s' hb
      have hterm : ¬ s'.lamb > lambMin := by
        intro hl'
        obtain ⟨n', hn', t, ht⟩ := (lars_begins hr').1 hl'
        have hsub := hstay s.res.length n n' (by rw [← ht, hres]; simp) (by rw [← ht, hres]; simp) f
          (by rw [hn]; exact (List.mem_insertionSort _).2 hf)
        rw [hn'] at hsub
        exact hf' ((List.mem_insertionSort _).1 hsub)
      have hret : ∀ Z : Mat K, larsBody Z y tol lambMin est s' = .ret s'.res := by
        intro Z
        unfold larsBody
        rw [if_pos hterm]
      rw [Runs.unique hr' (.ret (hret X))]
      exact .ret (hret X')

end

end GoSelect
