import Verif.Model.AnnealingGap
import Verif.Model.LarsGap
import Verif.Props.C141
import Verif.Proofs.MapM

/-!
# C143: LARS on data with missing values
-/

namespace GoSelect

open Spec Finset

theorem joinTimeFl_nan (lamb b : Fl ℝ) : joinTimeFl lamb .nan b = none := by
  unfold joinTimeFl
  simp only [Fl.nan_div]
  rw [if_neg (fun h => h.2.1 rfl), if_neg (fun h => h.2.1 rfl)]

/-- A column with a gap is NaN throughout after the normalisation. -/
theorem gap_column {X Z : Mat (Fl ℝ)} (h : normalizedMatrixFl X = some Z) {c : Nat} (hc : c < X.nc) (hg : Gap X c) :
    ∀ r < X.nr, Z.get r c = .nan := by
  intro r hr
  by_cases h2 : 2 ≤ X.nr
  · exact (normalised_of h).gap h2 c hc hg r
  · have h1 : X.nr = 1 := by omega
    obtain rfl : r = 0 := by omega
    obtain ⟨x, hx, hn⟩ := sub_mean_nan (gap_notFinite hg)
    have hx' : x = X.get 0 c := by
      unfold colOf at hx
      rw [h1] at hx
      simpa using hx
    unfold normalizedMatrixFl at h
    split at h
    · cases h
    · obtain rfl := Option.some.inj h
      simp only
      rw [← hx', hn, Fl.nan_div]

/-- The normalised response is not 0 everywhere. -/
theorem response_somewhere {y : List (Fl ℝ)} (hy : 0 < y.length) :
    ∃ r < y.length, (normalizedResponse y).getD r .nan ≠ .fin 0 := by
  by_cases hf : NotFinite y
  · exact ⟨0, hy, by rw [response_gap hf]; simp⟩
  · rcases hv : finValues y with _ | v
    · exact absurd (finValues_none.1 hv) hf
    · have e := finValues_isFin hv
      subst e
      by_cases hs : goStd v = 0
      · refine ⟨0, hy, ?_⟩
        rw [List.length_map] at hy
        rw [normalizedResponse_fin]
        simp only [List.getD_eq_getElem?_getD, List.getElem?_map, List.getElem?_eq_getElem hy, Option.map_some,
          Option.getD_some, hs]
        unfold Fl.divFin
        rw [if_pos rfl]
        split
        · simp
        · split <;> simp
      · obtain ⟨r, hr, hne⟩ := response_nonzero hs
        refine ⟨r, by rw [List.length_map]; exact hr, ?_⟩
        rw [response_fin hs hr]
        simpa using hne

/-- **C143, the library.** A missing or infinite value in a feature: `LassoLars` panics before its first node if the
largest inner product of a column and the response exceeds `lambMin`; otherwise the path is empty.  In both cases there is
no node. -/
theorem C143_no_node {dot : Nat → (Nat → Fl ℝ) → (Nat → Fl ℝ) → Fl ℝ} (hd : GonumDot dot)
    (est : List Nat → List (Fl ℝ) → Option (List (Fl ℝ) × List (Fl ℝ))) {X Z : Mat (Fl ℝ)}
    (h : normalizedMatrixFl X = some Z) {c : Nat} (hc : c < X.nc) (hg : Gap X c) {y : List (Fl ℝ)}
    (hy : y.length = X.nr) : larsFirstNode dot est Z (fun r => (normalizedResponse y).getD r .nan) = false := by
  have hn := normalised_of h
  have hpos : 0 < y.length := by
    obtain ⟨r, hr, -⟩ := hg
    omega
  obtain ⟨r, hr, hne⟩ := response_somewhere hpos
  have hxy : xTyFl dot Z (fun r => (normalizedResponse y).getD r .nan) c = .nan :=
    hd.nan _ _ _ r (by rw [hn.nr, ← hy]; exact hr) (Or.inl ⟨gap_column h hc hg r (by omega), hne⟩)
  unfold larsFirstNode
  simp only
  split
  · rfl
  · rename_i c' d' _
    split
    · rfl
    · rw [Bool.eq_false_iff]
      intro hs
      rw [Option.isSome_iff_exists] at hs
      obtain ⟨l, hl⟩ := hs
      unfold tJoinFl at hl
      have := mapM_getElem hl c (by rw [List.length_range, hn.nc]; exact hc)
      rw [List.getElem_range, hxy, Fl.nan_sub, joinTimeFl_nan] at this
      cases this

/-- **C143.** The lasso command (type lars) writes no file for data with a missing or infinite value in a feature: it
panics, or it ends without a node and without a file, whatever the response, the smallest lambda and the estimator. -/
theorem C143_noticed {dot : Nat → (Nat → Fl ℝ) → (Nat → Fl ℝ) → Fl ℝ} (hd : GonumDot dot)
    (est : List Nat → List (Fl ℝ) → Option (List (Fl ℝ) × List (Fl ℝ))) {X : Mat (Fl ℝ)} {c : Nat} (hc : c < X.nc)
    (hg : Gap X c) (y : List (Fl ℝ)) (lambMin : ℝ) :
    larsGapStart dot est X y lambMin = .panic ∨ larsGapStart dot est X y lambMin = .empty false := by
  unfold larsGapStart
  split
  · exact Or.inl rfl
  rename_i Z hZ
  split
  · exact Or.inl rfl
  rename_i hdim
  push Not at hdim
  split
  · left
    rw [C143_no_node hd est hZ hc hg hdim.2.2]
    rfl
  · right
    congr 1
    rw [decide_eq_false_iff_not]
    rintro ⟨-, h⟩
    obtain ⟨r, hr, hbad⟩ := hg
    have := h c hc r hr
    obtain ⟨a, ha⟩ : ∃ a, X.get r c = .fin a := by
      cases hx : X.get r c with
      | fin a => exact ⟨a, rfl⟩
      | _ => rw [hx] at this; cases this
    exact hbad a ha

/-! ### Complete data -/

/-- What the first iteration of `LassoLars` on numbers means for the command. -/
def startOf {α β : Type} : Option (Outcome α (List β)) → LarsStart
  | none => .panic
  | some .panic => .panic
  | some (.ret []) => .empty true
  | some (.ret (_ :: _)) => .iterates
  | some (.next _) => .iterates

theorem fl_le_fin (a b : ℝ) : Fl.le (.fin a) (.fin b) ↔ a ≤ b := by
  unfold Fl.le
  constructor
  · rintro ⟨-, -, h⟩
    exact not_lt.1 fun h' => h (Fl.lt_fin.2 h')
  · intro h
    exact ⟨by simp, by simp, fun h' => absurd (Fl.lt_fin.1 h') (not_lt.2 h)⟩

theorem time_fin (x : Fl ℝ) (lamb : ℝ) :
    (Fl.le (.fin (-lassoTol)) x ∧ Fl.le x (.fin (lamb + lassoTol))) ↔ ∃ t, timeIn (-lassoTol) (lamb + lassoTol) x = some t ∧
      x = .fin t := by
  cases x with
  | fin t =>
    rw [fl_le_fin, fl_le_fin, timeIn]
    constructor
    · intro h
      exact ⟨t, if_pos h, rfl⟩
    · rintro ⟨t', h, -⟩
      by_contra hcon
      rw [if_neg hcon] at h
      cases h
  | nan =>
    constructor
    · rintro ⟨⟨-, h, -⟩, -⟩; exact absurd rfl h
    · rintro ⟨t, h, -⟩; cases h
  | posInf =>
    constructor
    · rintro ⟨-, -, -, h⟩; exact absurd (show Fl.ltB _ _ = true from rfl) h
    · rintro ⟨t, h, -⟩; cases h
  | negInf =>
    constructor
    · rintro ⟨⟨-, -, h⟩, -⟩; exact absurd (show Fl.ltB _ _ = true from rfl) h
    · rintro ⟨t, h, -⟩; cases h

theorem joinTimeFl_fin (lamb num b : ℝ) (i : Nat) :
    joinTimeFl (.fin lamb) (.fin num) (.fin b) = (joinTime lassoTol lamb none i num b).map .fin := by
  unfold joinTimeFl joinTime
  simp only
  have e1 : Fl.div (.fin num) (Fl.sub (.fin 1) (.fin b)) = Fl.divFin num (1 - b) := by rw [Fl.sub_fin]; rfl
  have e2 : Fl.div (.fin num) (Fl.sub (.fin (-1)) (.fin b)) = Fl.divFin num (-1 - b) := by rw [Fl.sub_fin]; rfl
  have e3 : Fl.add (.fin lamb) (.fin (lassoTol : ℝ)) = .fin (lamb + lassoTol) := rfl
  rw [e1, e2, e3]
  by_cases h1 : Fl.le (.fin (-lassoTol)) (Fl.divFin num (1 - b)) ∧ Fl.le (Fl.divFin num (1 - b)) (.fin (lamb + lassoTol))
  · rw [if_pos h1]
    obtain ⟨t, ht, e⟩ := (time_fin _ _).1 h1
    rw [ht, e]
    rfl
  · rw [if_neg h1]
    have hn : timeIn (-lassoTol) (lamb + lassoTol) (Fl.divFin num (1 - b)) = none := by
      rcases ht : timeIn (-lassoTol) (lamb + lassoTol) (Fl.divFin num (1 - b)) with _ | t
      · rfl
      · refine absurd ((time_fin _ _).2 ⟨t, ht, ?_⟩) h1
        cases hx : Fl.divFin num (1 - b) with
        | fin t' =>
          rw [hx, timeIn] at ht
          split at ht
          · rw [Option.some.inj ht]
          · cases ht
        | _ => rw [hx] at ht; cases ht
    rw [hn]
    simp only
    by_cases h2 : Fl.le (.fin (-lassoTol)) (Fl.divFin num (-1 - b)) ∧
        Fl.le (Fl.divFin num (-1 - b)) (.fin (lamb + lassoTol))
    · rw [if_pos h2]
      obtain ⟨t, ht, e⟩ := (time_fin _ _).1 h2
      rw [ht, e]
      rfl
    · rw [if_neg h2]
      rcases ht : timeIn (-lassoTol) (lamb + lassoTol) (Fl.divFin num (-1 - b)) with _ | t
      · rfl
      · refine absurd ((time_fin _ _).2 ⟨t, ht, ?_⟩) h2
        cases hx : Fl.divFin num (-1 - b) with
        | fin t' =>
          rw [hx, timeIn] at ht
          split at ht
          · rw [Option.some.inj ht]
          · cases ht
        | _ => rw [hx] at ht; cases ht

theorem larsFirstFl_fin (f : Nat → ℝ) (g : Nat → Fl ℝ) (n : Nat) (h : ∀ i < n, g i = .fin (f i)) :
    larsFirstFl g n = (.fin (maxTime ((List.range n).map (fun i => some |f i|))).1,
      (maxTime ((List.range n).map (fun i => some |f i|))).2) := by
  unfold larsFirstFl maxTime
  have hz : ∀ n, ((List.range n).map (fun i => some |f i|)).zipIdx = (List.range n).map (fun i => (some |f i|, i)) := by
    intro n
    exact List.ext_getElem (by simp) (fun i _ _ => by simp)
  rw [hz, List.foldl_map]
  have key : ∀ (l : List Nat) (m : ℝ × Nat), (∀ i ∈ l, i < n) →
      l.foldl (fun m i => if m.1 < Fl.abs (g i) then (Fl.abs (g i), i) else m) (Fl.fin m.1, m.2) =
        (fun m : ℝ × Nat => (Fl.fin m.1, m.2)) (l.foldl (fun s i => if |f i| > s.1 then (|f i|, i) else s) m) := by
    intro l
    induction l with
    | nil => intro m _; rfl
    | cons i l ih =>
      intro m hl
      rw [List.foldl_cons, List.foldl_cons, h i (hl i List.mem_cons_self), Fl.abs_fin]
      by_cases hlt : m.1 < |f i|
      · rw [if_pos (show (Fl.fin m.1, m.2).1 < Fl.fin |f i| from Fl.lt_fin.2 hlt), if_pos hlt]
        exact ih (|f i|, i) (fun j hj => hl j (List.mem_cons_of_mem _ hj))
      · rw [if_neg (show ¬ (Fl.fin m.1, m.2).1 < Fl.fin |f i| from fun h => hlt (Fl.lt_fin.1 h)), if_neg hlt]
        exact ih m (fun j hj => hl j (List.mem_cons_of_mem _ hj))
  exact key (List.range n) (0, 0) (fun i hi => List.mem_range.1 hi)

/-- **C143, complete data.** Without missing values the command starts as `LassoLars` on numbers does: it panics if the
first iteration does, it writes a file without nodes if no inner product exceeds `lambMin`, and otherwise it goes on. -/
theorem C143_complete {dot : Nat → (Nat → Fl ℝ) → (Nat → Fl ℝ) → Fl ℝ} (hd : GonumDot dot) {X : Mat ℝ} {Z : Mat (Fl ℝ)}
    (h : normalizedMatrixFl (finMat X) = some Z) {y : List ℝ} (hl : y.length = X.nr) (hs : goStd y ≠ 0) (lambMin : ℝ)
    {est : Nat → List Nat → List ℝ → Option (List ℝ × List ℝ)}
    {estFl : List Nat → List (Fl ℝ) → Option (List (Fl ℝ) × List (Fl ℝ))}
    (hest : ∀ active signs, estFl active (signs.map .fin) =
      (est 0 active signs).map (fun p => (p.1.map .fin, p.2.map .fin))) :
    larsGapStart dot estFl (finMat X) (y.map .fin) lambMin =
      startOf ((larsInit (normMat X) (normResponse y)).map (larsBody (normMat X) (normResponse y) lassoTol lambMin est)) := by
  have hn := normalised_of h
  have hnr : Z.nr = X.nr := hn.nr
  have hnc : Z.nc = X.nc := hn.nc
  have hZ : ∀ c, ∀ r < X.nr, Z.get r c = .fin ((normMat X).get r c) := fun c r hr =>
    (hn.fin c (fun r => X.get r c) (fun r _ => rfl)).1 r hr
  have hy : ∀ r < X.nr, (normalizedResponse (y.map .fin)).getD r .nan = .fin (normResponse y r) := fun r hr =>
    response_fin hs (by omega)
  have hxy : ∀ i, xTyFl dot Z (fun r => (normalizedResponse (y.map .fin)).getD r .nan) i =
      .fin (larsXy (normMat X) (normResponse y) i) := by
    intro i
    unfold xTyFl larsXy
    rw [hnr]
    exact hd.fin _ _ _ _ _ (fun r hr => hZ i r hr) hy
  have hfirst := larsFirstFl_fin _ _ X.nc (fun i _ => hxy i)
  unfold larsGapStart larsInit
  rw [h]
  simp only
  have hmn : (normMat X).nr = X.nr ∧ (normMat X).nc = X.nc := ⟨rfl, rfl⟩
  have hfm : (finMat X).nr = X.nr ∧ (finMat X).nc = X.nc := ⟨rfl, rfl⟩
  rw [hmn.1, hmn.2, hfm.1, hfm.2, List.length_map]
  by_cases hdim : X.nr = 0 ∨ X.nc = 0
  · rw [if_pos (by tauto), if_pos hdim]
    rfl
  rw [if_neg (by tauto), if_neg hdim, Option.map_some]
  set m := maxTime ((List.range X.nc).map (fun i => some |larsXy (normMat X) (normResponse y) i|)) with hm
  rw [hnc, hfirst]
  unfold larsBody
  simp only
  by_cases hlam : m.1 > lambMin
  · rw [if_pos (Fl.lt_fin.2 hlam), if_neg (not_not.2 hlam), if_neg (show ¬ [m.2] = [] by simp)]
    have hsort : [m.2].insertionSort (· ≤ ·) = [m.2] := rfl
    rw [hsort]
    simp only [List.map_cons, List.map_nil, List.length_nil, if_true]
    have hnode : larsFirstNode dot estFl Z (fun r => (normalizedResponse (y.map .fin)).getD r .nan) =
        (match est 0 [m.2] [if larsXy (normMat X) (normResponse y) m.2 < 0 then -1 else 1] with
        | none => false
        | some (c, d) => if c.length ≠ 1 ∨ d.length ≠ 1 then false
          else (tJoin (normMat X) (normResponse y) lassoTol m.1 [m.2] c d none).isSome) := by
      unfold larsFirstNode
      simp only
      rw [hnc, hfirst]
      simp only [hxy]
      have hsign : (if (Fl.fin (larsXy (normMat X) (normResponse y) m.2)) < .fin 0 then Fl.fin (-1) else .fin 1) =
          .fin (if larsXy (normMat X) (normResponse y) m.2 < 0 then (-1 : ℝ) else 1) := by
        by_cases hneg : larsXy (normMat X) (normResponse y) m.2 < 0
        · rw [if_pos (Fl.lt_fin.2 hneg), if_pos hneg]
        · rw [if_neg (fun h => hneg (Fl.lt_fin.1 h)), if_neg hneg]
      rw [hsign]
      have := hest [m.2] [if larsXy (normMat X) (normResponse y) m.2 < 0 then -1 else 1]
      rw [List.map_singleton] at this
      rw [this]
      rcases he : est 0 [m.2] [if larsXy (normMat X) (normResponse y) m.2 < 0 then -1 else 1] with _ | ⟨c, d⟩
      · rfl
      · simp only [Option.map_some, List.length_map]
        split
        · rfl
        · rename_i hlen
          push Not at hlen
          have hfit : ∀ (v : List ℝ), v.length = 1 → ∀ r < X.nr, larsFitFl dot Z [m.2] (v.map .fin) r =
              .fin (larsFit (normMat X) [m.2] v r) := by
            intro v hv r hr
            unfold larsFitFl larsFit
            refine hd.fin _ _ _ _ _ (fun k _ => hZ _ r hr) (fun k hk => ?_)
            have : k < v.length := by rw [hv]; exact hk
            simp [List.getD_eq_getElem?_getD, List.getElem?_eq_getElem this]
          have hxx : ∀ (v : List ℝ), v.length = 1 → ∀ i, dot Z.nr (fun r => Z.get r i) (larsFitFl dot Z [m.2] (v.map .fin)) =
              .fin (larsXX (normMat X) [m.2] v i) := by
            intro v hv i
            rw [hnr]
            exact hd.fin _ _ _ _ _ (fun r hr => hZ i r hr) (fun r hr => hfit v hv r hr)
          unfold tJoinFl tJoin
          rw [hnc, hmn.2]
          simp only [hxy, hxx c hlen.1, hxx d hlen.2, Fl.sub_fin]
          simp only [fun i => joinTimeFl_fin m.1 (larsXy (normMat X) (normResponse y) i - larsXX (normMat X) [m.2] c i)
            (larsXX (normMat X) [m.2] d i) i]
          rw [Bool.eq_iff_iff, Option.isSome_iff_exists, Option.isSome_iff_exists]
          constructor
          · rintro ⟨l, hl⟩
            refine mapM_isSome fun a ha => ?_
            obtain ⟨k, hk, rfl⟩ := List.getElem_of_mem ha
            have := mapM_getElem hl k hk
            rw [Option.map_eq_some_iff] at this
            obtain ⟨b, hb, -⟩ := this
            exact ⟨b, hb⟩
          · rintro ⟨l, hl⟩
            refine mapM_isSome fun a ha => ?_
            obtain ⟨k, hk, rfl⟩ := List.getElem_of_mem ha
            exact ⟨_, by rw [mapM_getElem hl k hk]; rfl⟩
    rw [hnode]
    rcases he : est 0 [m.2] [if larsXy (normMat X) (normResponse y) m.2 < 0 then -1 else 1] with _ | ⟨c, d⟩
    · rfl
    · simp only [List.length_singleton]
      split
      · rfl
      · rcases ht : tJoin (normMat X) (normResponse y) lassoTol m.1 [m.2] c d none with _ | jt
        · rfl
        · simp only [Option.isSome_some, if_true]
          unfold larsMove
          simp only
          split
          · split <;> rfl
          · split <;> rfl
  · rw [if_neg (fun h => hlam (Fl.lt_fin.1 h)), if_pos hlam]
    simp only [startOf]
    congr 1
    rw [decide_eq_true_eq]
    refine ⟨fun v hv => ?_, fun c _ r _ => rfl⟩
    obtain ⟨a, -, rfl⟩ := List.mem_map.1 hv
    rfl

/-- The data of C141, with a gap in the third column. -/
example (est : List Nat → List (Fl ℝ) → Option (List (Fl ℝ) × List (Fl ℝ))) (lambMin : ℝ) :
    larsGapStart (fun n x z => Fl.sum ((List.range n).map (fun r => Fl.mul (x r) (z r)))) est Missing.raw
        (Missing.resp.map .fin) lambMin = .panic ∨
      larsGapStart (fun n x z => Fl.sum ((List.range n).map (fun r => Fl.mul (x r) (z r)))) est Missing.raw
        (Missing.resp.map .fin) lambMin = .empty false :=
  C143_noticed plainDot_ok est (c := 2) (by decide) Missing.raw_gap _ lambMin

/-- Those data without the third column. -/
example (est : Nat → List Nat → List ℝ → Option (List ℝ × List ℝ)) (lambMin : ℝ) :
    larsGapStart (fun n x z => Fl.sum ((List.range n).map (fun r => Fl.mul (x r) (z r))))
        (fun active signs => (est 0 active (signs.map Fl.number)).map (fun p => (p.1.map .fin, p.2.map .fin)))
        (finMat Missing.known) (Missing.resp.map .fin) lambMin =
      startOf ((larsInit (normMat Missing.known) (normResponse Missing.resp)).map
        (larsBody (normMat Missing.known) (normResponse Missing.resp) lassoTol lambMin est)) := by
  obtain ⟨Z, hZ⟩ := Missing.known_ok
  refine C143_complete plainDot_ok hZ rfl (by rw [Missing.resp_stat.2]; exact one_ne_zero) lambMin fun active signs => ?_
  have : (signs.map Fl.fin).map Fl.number = signs := by
    rw [List.map_map]
    exact List.map_id _
  rw [this]

end GoSelect
