import Verif.Proofs.NestedLasso
import Verif.Proofs.LoopRun

/-! C50: nested lasso reports features by their original number.  C51: nested lasso shrinks and stops. -/

namespace GoSelect

open Spec

/-! ### Specification -/

/-- `M` consists of the columns `cols` of `D`. -/
structure Spec.Restricts (M D : Mat ℝ) (cols : List Nat) : Prop where
  nr : M.nr = D.nr
  nc : M.nc = cols.length
  get : ∀ r < D.nr, ∀ k (hk : k < cols.length), M.get r k = D.get r cols[k]

/-- A path over the columns `cols`, with the features numbered as in the original. -/
def Spec.renumber (cols : List Nat) (path : List (LassoLarsNode ℝ)) : List (LassoLarsNode ℝ) :=
  path.map (fun n => { n with selection := n.selection.map (fun v => cols.getD v 0) })

/-- Nested lasso in terms of the columns of one matrix: starting with the columns `cols` of the normalised matrix
`D`, the rounds give `paths`, with features numbered by the columns of `D`. -/
inductive Spec.Rounds (lars : Mat ℝ → List ℝ → Option (List (LassoLarsNode ℝ))) (keep : ℝ) (D : Mat ℝ)
    (w : List ℝ) : List Nat → List (List (LassoLarsNode ℝ)) → Prop
  | last (cols : List Nat) (M : Mat ℝ) (path : List (LassoLarsNode ℝ)) (hM : Spec.Restricts M D cols)
      (hp : lars M w = some path) (hn : nestedNum keep cols.length ≤ 2) :
      Spec.Rounds lars keep D w cols [Spec.renumber cols path]
  | more (cols : List Nat) (M : Mat ℝ) (path : List (LassoLarsNode ℝ)) (rest : List (List (LassoLarsNode ℝ)))
      (hM : Spec.Restricts M D cols) (hp : lars M w = some path) (hn : 2 < nestedNum keep cols.length)
      (hr : Spec.Rounds lars keep D w
        ((pickMostRelevantFeatures path (nestedNum keep cols.length)).map (fun v => cols.getD v.toNat 0)) rest) :
      Spec.Rounds lars keep D w cols (Spec.renumber cols path :: rest)

/-- `lars` runs `LassoLars` with tolerance `tol`, limit `lambMin` and some estimator. -/
def Spec.RunsLars (tol lambMin : ℝ) (lars : Mat ℝ → List ℝ → Option (List (LassoLarsNode ℝ))) : Prop :=
  ∀ X y path, lars X y = some path → ∃ est, LarsReturns X (fun r => y.getD r 0) tol lambMin est path

/-! ### C50 -/

section
variable {K : Type}

/-- C50: a selection is mapped to the columns with the same names, if the target is the last column of the current
data set and the original names are distinct. -/
theorem C50_names_partial (orig cur : Dataset K) (ho : WellFormed orig) (hc : cur.targetCol = cur.X.nc)
    (selection out : List Nat) (hs : ∀ v ∈ selection, v < cur.X.nc)
    (hf : ∀ v ∈ selection, ∃ i < orig.X.nc, cur.getFeatName v = orig.getFeatName i)
    (h : mapSelectionByName orig cur.names selection = some out) :
    out.length = selection.length ∧ ∀ k (hk : k < selection.length) (hk' : k < out.length),
      out[k] < orig.X.nc ∧ orig.getFeatName out[k] = cur.getFeatName selection[k] := by
  unfold mapSelectionByName at h
  have hlen := mapM_length h
  refine ⟨hlen, fun k hk hk' => ?_⟩
  obtain ⟨i, hi, hname⟩ := hf _ (List.getElem_mem hk)
  obtain ⟨name, hn1, hn2⟩ := C42_inverse orig ho.names ho.distinct i hi
  have hv := hs _ (List.getElem_mem hk)
  have hget : cur.names[selection[k]]? = some name := by
    rw [hn1, getFeatName_eq] at hname
    unfold featPos at hname
    rwa [if_pos (by rw [hc]; exact_mod_cast hv)] at hname
  have := mapM_getElem h k hk
  simp only [hget, Option.bind_some, hn2] at this
  rw [if_neg (by omega), Int.toNat_natCast, Option.some.injEq] at this
  rw [← this]
  exact ⟨hi, hname.symm⟩

theorem mapSelectionByName_eq (orig cur : Dataset K) (ho : WellFormed orig) (hc : cur.targetCol = cur.X.nc)
    (cols : List Nat) (hlen : cols.length = cur.X.nc) (hcols : ∀ v ∈ cols, v < orig.X.nc)
    (hname : ∀ k (hk : k < cols.length), cur.getFeatName k = orig.getFeatName cols[k])
    (selection : List Nat) (hs : ∀ v ∈ selection, v < cur.X.nc) :
    mapSelectionByName orig cur.names selection = some (selection.map (fun v => cols.getD v 0)) := by
  unfold mapSelectionByName
  apply mapM_of_forall
  intro v hv
  have hv' := hs v hv
  have hvc : v < cols.length := by omega
  obtain ⟨name, hn1, hn2⟩ := C42_inverse orig ho.names ho.distinct cols[v] (hcols _ (List.getElem_mem hvc))
  have hget : cur.names[v]? = some name := by
    have h := hname v hvc
    rw [hn1, getFeatName_eq] at h
    unfold featPos at h
    rwa [if_pos (by rw [hc]; exact_mod_cast hv')] at h
  rw [hget]
  simp only [Option.bind_some, hn2]
  rw [if_neg (by omega), Int.toNat_natCast, List.getD_eq_getElem?_getD, List.getElem?_eq_getElem hvc]
  rfl

end

/-- The invariant of the rounds: the current data set has the columns `cols` of the normalised original. -/
structure NestedInv (data : Dataset ℝ) (D : Mat ℝ) (w : List ℝ) (cur : Dataset ℝ) (cols : List Nat) : Prop where
  wf : WellFormed cur
  normal : Normal cur
  target : cur.targetCol = cur.X.nc
  restricts : Spec.Restricts cur.X D cols
  y : cur.Y = w
  range : ∀ v ∈ cols, v < data.X.nc
  names : ∀ k (hk : k < cols.length), cur.getFeatName k = data.getFeatName cols[k]

theorem getFeatName_congr {d d' : Dataset ℝ} (h1 : d'.names = d.names) (h2 : d'.targetCol = d.targetCol) (i : Int) :
    d'.getFeatName i = d.getFeatName i := by
  unfold Dataset.getFeatName; rw [h1, h2]

/-- The subset of the survivors, normalised again. -/
theorem nested_subset {data cur sub : Dataset ℝ} {D : Mat ℝ} {w : List ℝ} {cols : List Nat}
    (h : NestedInv data D w cur cols) (features : List Int) (hne : features ≠ []) (hf : FeaturesOf cur features)
    (hd : features.Nodup) {n : NormalizedData}
    (hs : (cur.getSubset features).bind normalizeInPlace = some (n, sub)) :
    NestedInv data D w sub (features.map (fun v => cols.getD v.toNat 0)) := by
  have hrows := h.normal.rows
  have hnc := h.restricts.nc
  obtain ⟨s, hs1, hs2⟩ := C43_wellFormed cur h.wf (by omega) features hne hf hd
  obtain ⟨s', g1, g2, g3, g4⟩ := C43_features cur h.wf (by omega) features hne hf
  obtain ⟨s'', k1, k2, k3, k4, k5⟩ := C43_target cur h.wf (by omega) features hne hf
  rw [hs1, Option.some.injEq] at g1 k1
  subst g1
  subst k1
  rw [hs1, Option.bind_some] at hs
  have hidx : ∀ k (hk : k < features.length), ∃ i : Nat, features[k] = i ∧ i < cur.X.nc := by
    intro k hk
    obtain ⟨a, b⟩ := hf _ (List.getElem_mem hk)
    obtain ⟨i, hi⟩ := Int.eq_ofNat_of_zero_le a
    exact ⟨i, hi, by omega⟩
  have hcol : ∀ k (hk : k < features.length), colOf s.X k = colOf cur.X features[k].toNat := by
    intro k hk
    unfold colOf
    rw [g2]
    apply List.map_congr_left
    intro r _
    exact (g4 k hk).2 r
  have hnorm : Normal s := by
    refine ⟨by omega, ?_, hs2.y, by rw [k2]; exact h.normal.mean, by rw [k2]; exact h.normal.var⟩
    intro c hc
    rw [g3] at hc
    rw [hcol c hc]
    obtain ⟨i, hi, hlt⟩ := hidx c hc
    rw [hi, Int.toNat_natCast]
    exact h.normal.cols i hlt
  obtain ⟨-, -, -, e1, e2, -, -, e3⟩ := normalizeInPlace_some (by omega) hs2.y hs
  obtain ⟨f1, f2, f3, f4⟩ := normalizeInPlace_fix hnorm hs
  have hgetD : ∀ i, i < cur.X.nc → cols.getD i 0 = cols[i]?.getD 0 := fun i _ => List.getD_eq_getElem?_getD
  refine ⟨⟨by rw [e1, f2]; exact hs2.names, by rw [e1]; exact hs2.distinct, by rw [e2]; exact hs2.target0,
    by rw [e2, f2]; exact hs2.target1, by rw [f4, f1]; exact hs2.y⟩, e3, by rw [e2, k3, f2, g3], ?_,
    by rw [f4, k2, h.y], ?_, ?_⟩
  · refine ⟨by rw [f1, g2, h.restricts.nr], by rw [f2, g3, List.length_map], ?_⟩
    intro r hr k hk
    rw [List.length_map] at hk
    obtain ⟨i, hi, hlt⟩ := hidx k hk
    have hic : i < cols.length := by omega
    rw [f3 r (by rw [g2, h.restricts.nr]; exact hr) k (by omega), (g4 k hk).2 r, List.getElem_map]
    simp only [hi, Int.toNat_natCast]
    rw [h.restricts.get r hr i hic, List.getD_eq_getElem?_getD, List.getElem?_eq_getElem hic]
    rfl
  · intro v hv
    obtain ⟨f, hfm, rfl⟩ := List.mem_map.1 hv
    obtain ⟨k, hk, rfl⟩ := List.mem_iff_getElem.1 hfm
    obtain ⟨i, hi, hlt⟩ := hidx k hk
    have hic : i < cols.length := by omega
    rw [hi, Int.toNat_natCast, List.getD_eq_getElem?_getD, List.getElem?_eq_getElem hic]
    exact h.range _ (List.getElem_mem hic)
  · intro k hk
    rw [List.length_map] at hk
    obtain ⟨i, hi, hlt⟩ := hidx k hk
    have hic : i < cols.length := by omega
    rw [getFeatName_congr e1 e2, (g4 k hk).1, List.getElem_map]
    simp only [hi, Int.toNat_natCast]
    rw [h.names i hic, List.getD_eq_getElem?_getD, List.getElem?_eq_getElem hic]
    rfl

/-- The survivors are features of the path. -/
theorem survivors_mem {V : Type} (path : List (LassoLarsNode V)) (num : Int) :
    (pickMostRelevantFeatures path num).Nodup ∧
    ∀ v ∈ pickMostRelevantFeatures path num, ∃ n ∈ path, ∃ f ∈ n.selection, v = (f : Int) := by
  obtain ⟨k, d, -, h2, h3, h4, -⟩ := C67_features path num
  rw [h2]
  constructor
  · exact h3.map (fun a b h => by simpa using h)
  · intro v hv
    obtain ⟨f, hf, rfl⟩ := List.mem_map.1 hv
    have := (h4 f).1 hf
    unfold pathFeatures at this
    obtain ⟨n, hn, hfn⟩ := List.mem_flatMap.1 this
    exact ⟨n, List.mem_of_mem_take hn, f, hfn, rfl⟩

/-- One round. -/
theorem nested_round {lars : Mat ℝ → List ℝ → Option (List (LassoLarsNode ℝ))} {tol lambMin keep : ℝ}
    (hl : Spec.RunsLars tol lambMin lars) {data : Dataset ℝ} (hd : WellFormed data) {D : Mat ℝ} {w : List ℝ}
    {s : NestedState} {cols : List Nat} (h : NestedInv data D w s.cur cols) :
    nestedBody lars keep data s = .panic ∨
    ∃ path, lars s.cur.X w = some path ∧ OneByOne path ∧
      ((nestedNum keep cols.length ≤ 2 ∧
          nestedBody lars keep data s = .ret (s.paths ++ [Spec.renumber cols path])) ∨
        (2 < nestedNum keep cols.length ∧ ∃ cur,
          nestedBody lars keep data s = .next ⟨cur, s.paths ++ [Spec.renumber cols path]⟩ ∧
          NestedInv data D w cur
            ((pickMostRelevantFeatures path (nestedNum keep cols.length)).map (fun v => cols.getD v.toNat 0)))) := by
  unfold nestedBody
  rw [h.y]
  cases hp : lars s.cur.X w with
  | none => exact .inl rfl
  | some path =>
    obtain ⟨est, hpath⟩ := hl _ _ _ hp
    have hok := (C63_path _ _ _ _ _ _ hpath).1
    have hlen : cols.length = s.cur.X.nc := h.restricts.nc.symm
    have hmap : mapNodes data s.cur.names path = some (Spec.renumber cols path) := by
      unfold mapNodes Spec.renumber
      apply mapM_of_forall
      intro n hn
      rw [mapSelectionByName_eq data s.cur hd h.target cols hlen h.range h.names n.selection (hok n hn).range]
      rfl
    simp only [hmap]
    rw [← hlen]
    by_cases hn : nestedNum keep cols.length ≤ 2
    · rw [if_pos hn]
      exact .inr ⟨path, rfl, lars_oneByOne hpath, .inl ⟨hn, rfl⟩⟩
    · rw [if_neg hn]
      cases hs : (s.cur.getSubset (pickMostRelevantFeatures path (nestedNum keep cols.length))).bind
          normalizeInPlace with
      | none => exact .inl rfl
      | some p =>
        obtain ⟨n, cur⟩ := p
        refine .inr ⟨path, rfl, lars_oneByOne hpath, .inr ⟨by omega, cur, rfl, ?_⟩⟩
        obtain ⟨m1, m2⟩ := survivors_mem path (nestedNum keep cols.length)
        refine nested_subset h _ ?_ ?_ m1 hs
        · intro e
          rw [e] at hs
          simp [Dataset.getSubset] at hs
        · intro v hv
          obtain ⟨n, hn, f, hf, rfl⟩ := m2 v hv
          have := (hok n hn).range f hf
          omega

theorem nested_rounds {lars : Mat ℝ → List ℝ → Option (List (LassoLarsNode ℝ))} {tol lambMin keep : ℝ}
    (hl : Spec.RunsLars tol lambMin lars) {data : Dataset ℝ} (hd : WellFormed data) {D : Mat ℝ} {w : List ℝ}
    {s : NestedState} {raw : List (List (LassoLarsNode ℝ))} (hr : Runs (nestedBody lars keep data) s raw) :
    ∀ cols, NestedInv data D w s.cur cols → ∃ rest, raw = s.paths ++ rest ∧ Spec.Rounds lars keep D w cols rest := by
  induction hr with
  | @ret s r hb =>
    intro cols h
    rcases nested_round (keep := keep) hl hd h with hp | ⟨path, h1, -, ⟨h2, h3⟩ | ⟨h2, cur, h3, h4⟩⟩
    · rw [hp] at hb; cases hb
    · rw [h3] at hb
      cases hb
      exact ⟨_, rfl, .last cols _ path h.restricts h1 h2⟩
    · rw [h3] at hb; cases hb
  | @next s s' r hb _ ih =>
    intro cols h
    rcases nested_round (keep := keep) hl hd h with hp | ⟨path, h1, -, ⟨h2, h3⟩ | ⟨h2, cur, h3, h4⟩⟩
    · rw [hp] at hb; cases hb
    · rw [h3] at hb; cases hb
    · rw [h3] at hb
      cases hb
      obtain ⟨rest, e, hrest⟩ := ih _ h4
      refine ⟨_ :: rest, ?_, .more cols _ path rest h.restricts h1 h2 hrest⟩
      rw [e]
      simp

theorem nested_init {data cur : Dataset ℝ} {n : NormalizedData} (hd : WellFormed data) (hnr : 0 < data.X.nr)
    (ht : data.targetCol = data.X.nc) (h : normalizeInPlace data.copy = some (n, cur)) :
    newNormalizedData data.X data.Y = some n ∧ normalizeArray data.Y = cur.Y.map .fin ∧
      NestedInv data n.X cur.Y cur (List.range data.X.nc) := by
  obtain ⟨h1, h2, h3, h4, h5, h6, h7, h8⟩ := normalizeInPlace_some (d := data.copy) hnr hd.y h
  refine ⟨h1, h2, ?_⟩
  have g1 : cur.X.nr = data.X.nr := h6
  have g2 : cur.X.nc = data.X.nc := h7
  have g3 : cur.names = data.names := h4
  have g4 : cur.targetCol = data.targetCol := h5
  refine ⟨⟨by rw [g3, g2]; exact hd.names, by rw [g3]; exact hd.distinct, by rw [g4]; exact hd.target0,
    by rw [g4, g2]; exact hd.target1, by rw [h8.ylen]⟩, h8, by rw [g4, g2, ht], ⟨by rw [h3], ?_, ?_⟩, rfl, ?_, ?_⟩
  · rw [g2, List.length_range]
  · intro r _ k hk
    rw [List.getElem_range, h3]
  · intro v hv
    exact List.mem_range.1 hv
  · intro k hk
    rw [List.getElem_range]
    exact getFeatName_congr g3 g4 _

/-- **C50** (partial: the target is the last column of the original).  `NestedLasso` computes the LARS paths of
nested sets of columns of the normalised original matrix, and numbers the features as in the original.  Missing:
other target columns, for which the claim is false (`C50_refuted`). -/
theorem C50_rounds_partial {lars : Mat ℝ → List ℝ → Option (List (LassoLarsNode ℝ))} {tol lambMin keep : ℝ}
    (hl : Spec.RunsLars tol lambMin lars) (data : Dataset ℝ) (hd : WellFormed data) (hnr : 0 < data.X.nr)
    (ht : data.targetCol = data.X.nc) (paths : List (List (LassoLarsNode ℝ))) (after : Dataset ℝ)
    (h : NestedReturns lars keep data paths after) :
    ∃ n w raw, newNormalizedData data.X data.Y = some n ∧ normalizeArray data.Y = w.map .fin ∧
      Spec.Rounds lars keep n.X w (List.range data.X.nc) raw ∧ raw.mapM (path2Unnormalized n) = some paths := by
  obtain ⟨n0, cur, raw, n, h1, h2, h3, h4⟩ := h
  obtain ⟨g1, g2, g3⟩ := nested_init hd hnr ht h1
  obtain ⟨rest, e, hr⟩ := nested_rounds hl hd h2 _ g3
  simp only [List.nil_append] at e
  subst e
  obtain ⟨k1, -⟩ := normalizeInPlace_some hnr hd.y h3
  rw [g1, Option.some.injEq] at k1
  subst k1
  exact ⟨n0, cur.Y, raw, g1, g2, hr, h4⟩

/-! ### C51 -/

theorem goInt_lt {keep : ℝ} (h1 : keep < 1) {n : Nat} (h : 2 < nestedNum keep n) :
    (nestedNum keep n : ℝ) ≤ keep * n ∧ nestedNum keep n < n := by
  have hle : (nestedNum keep n : ℝ) ≤ keep * n := by
    unfold nestedNum goInt at h ⊢
    split
    · exact Int.floor_le _
    · rename_i h0
      rw [if_neg h0] at h
      exfalso
      have : ⌈keep * (n : ℝ)⌉ ≤ 0 := Int.ceil_le.2 (by push_cast; exact le_of_lt (not_le.1 h0))
      omega
  refine ⟨hle, ?_⟩
  have hn : (0 : ℝ) < n := by
    rcases Nat.eq_zero_or_pos n with rfl | hn
    · exfalso
      unfold nestedNum goInt at h
      simp at h
    · exact_mod_cast hn
  have : (nestedNum keep n : ℝ) < (n : ℝ) := by nlinarith
  exact_mod_cast this

/-- **C51 (shrinks).** A round that is followed by another one leaves at most `keep` times as many features, and
fewer than before. -/
theorem C51_shrinks {lars : Mat ℝ → List ℝ → Option (List (LassoLarsNode ℝ))} {tol lambMin keep : ℝ}
    (hl : Spec.RunsLars tol lambMin lars) (hk : keep < 1) (data : Dataset ℝ) (s s' : NestedState)
    (h : nestedBody lars keep data s = .next s') :
    s'.cur.X.nc < s.cur.X.nc ∧ (s'.cur.X.nc : ℝ) ≤ keep * s.cur.X.nc := by
  unfold nestedBody at h
  cases hp : lars s.cur.X s.cur.Y with
  | none => rw [hp] at h; cases h
  | some path =>
    rw [hp] at h
    simp only at h
    split at h
    · cases h
    split at h
    · cases h
    rename_i hn
    rw [not_le] at hn
    split at h
    · cases h
    rename_i n cur hs
    cases h
    simp only
    obtain ⟨est, hpath⟩ := hl _ _ _ hp
    have hle := survivors_le (lars_oneByOne hpath) (nestedNum keep s.cur.X.nc) (by omega)
    obtain ⟨g1, g2⟩ := goInt_lt hk hn
    have hcur : cur.X.nc = (pickMostRelevantFeatures path (nestedNum keep s.cur.X.nc)).length := by
      rw [Option.bind_eq_some_iff] at hs
      obtain ⟨sub, hs1, hs2⟩ := hs
      have e1 : sub.X.nc = (pickMostRelevantFeatures path (nestedNum keep s.cur.X.nc)).length := by
        unfold Dataset.getSubset at hs1
        split at hs1
        · cases hs1
        split at hs1
        · cases hs1
        split at hs1
        · cases hs1; rfl
        · cases hs1
      unfold normalizeInPlace at hs2
      rw [Option.bind_eq_some_iff] at hs2
      obtain ⟨m, hm, hs2⟩ := hs2
      rw [Option.map_eq_some_iff] at hs2
      obtain ⟨w, -, hs2⟩ := hs2
      simp only [Prod.mk.injEq] at hs2
      rw [← hs2.2, ← e1]
      rcases newNormalizedData_inv sub.X sub.Y with ⟨-, k1⟩ | ⟨d', k1, k2, -⟩
      · rw [hm] at k1; cases k1
      · rw [hm, Option.some.injEq] at k1
        subst k1
        exact k2.nc
    rw [hcur]
    constructor
    · omega
    · refine le_trans ?_ g1
      exact_mod_cast hle

/-- **C51 (stops).** The number of rounds is bounded by the number of features. -/
theorem C51_rounds {lars : Mat ℝ → List ℝ → Option (List (LassoLarsNode ℝ))} {tol lambMin keep : ℝ}
    (hl : Spec.RunsLars tol lambMin lars) (hk : keep < 1) (data : Dataset ℝ) (run : Nat → NestedState) (m : Nat)
    (h : ∀ k < m, nestedBody lars keep data (run k) = .next (run (k + 1))) :
    m + (run m).cur.X.nc ≤ (run 0).cur.X.nc := by
  induction m with
  | zero => omega
  | succ m ih =>
    have := ih (fun k hk => h k (by omega))
    have := (C51_shrinks hl hk data _ _ (h m (by omega))).1
    omega

/-- **C51 (stops).** Every execution of the loop ends, by `break` or by a panic. -/
theorem C51_stops {lars : Mat ℝ → List ℝ → Option (List (LassoLarsNode ℝ))} {tol lambMin keep : ℝ}
    (hl : Spec.RunsLars tol lambMin lars) (hk : keep < 1) (data : Dataset ℝ) (s : NestedState) :
    ∃ (m : Nat) (run : Nat → NestedState), run 0 = s ∧ m ≤ s.cur.X.nc ∧
      (∀ k < m, nestedBody lars keep data (run k) = .next (run (k + 1))) ∧
      ((∃ r, nestedBody lars keep data (run m) = .ret r) ∨ nestedBody lars keep data (run m) = .panic) := by
  induction hn : s.cur.X.nc using Nat.strong_induction_on generalizing s with
  | _ n ih =>
    subst hn
    cases hb : nestedBody lars keep data s with
    | ret r => exact ⟨0, fun _ => s, rfl, by omega, by simp, .inl ⟨r, hb⟩⟩
    | panic => exact ⟨0, fun _ => s, rfl, by omega, by simp, .inr hb⟩
    | next s' =>
      have hlt := (C51_shrinks hl hk data _ _ hb).1
      obtain ⟨m, run, h0, h1, h2, h3⟩ := ih _ hlt s' rfl
      refine ⟨m + 1, fun k => if k = 0 then s else run (k - 1), rfl, by omega, ?_, ?_⟩
      · intro k hk'
        rcases Nat.eq_zero_or_pos k with rfl | hpos
        · simp [hb, h0]
        · have := h2 (k - 1) (by omega)
          rw [show k - 1 + 1 = k by omega] at this
          simp only [show ¬ k = 0 by omega, if_false, show ¬ k + 1 = 0 by omega, Nat.add_sub_cancel]
          exact this
      · simpa using h3

/-- C51: a round without any survivor panics in `GetSubset`. -/
theorem C51_empty_path {lars : Mat ℝ → List ℝ → Option (List (LassoLarsNode ℝ))} (keep : ℝ) (data : Dataset ℝ)
    (s : NestedState) (h : lars s.cur.X s.cur.Y = some []) (hn : 2 < nestedNum keep s.cur.X.nc) :
    nestedBody lars keep data s = .panic := by
  unfold nestedBody
  rw [h]
  have e : pickMostRelevantFeatures ([] : List (LassoLarsNode ℝ)) (nestedNum keep s.cur.X.nc) = [] := rfl
  simp only [mapNodes, List.mapM_nil, e]
  simp [Dataset.getSubset, not_le.2 hn]

/-- **C51 (input).** The call normalises the caller's data set: names and target column are unchanged, the matrix
and the response are unchanged if they were normalised already. -/
theorem C51_after_partial {lars : Mat ℝ → List ℝ → Option (List (LassoLarsNode ℝ))} {keep : ℝ} (data : Dataset ℝ)
    (hd : WellFormed data) (hnr : 0 < data.X.nr) (paths : List (List (LassoLarsNode ℝ))) (after : Dataset ℝ)
    (h : NestedReturns lars keep data paths after) :
    after.names = data.names ∧ after.targetCol = data.targetCol ∧ after.X.nr = data.X.nr ∧
      after.X.nc = data.X.nc ∧ Normal after ∧
      (Normal data → after.Y = data.Y ∧ ∀ r < data.X.nr, ∀ c < data.X.nc, after.X.get r c = data.X.get r c) := by
  obtain ⟨n0, cur, raw, n, -, -, h3, -⟩ := h
  obtain ⟨-, -, -, e1, e2, e3, e4, e5⟩ := normalizeInPlace_some hnr hd.y h3
  refine ⟨e1, e2, e3, e4, e5, fun hn => ?_⟩
  obtain ⟨-, -, g3, g4⟩ := normalizeInPlace_fix hn h3
  exact ⟨g4, g3⟩

/-- **C51 (number of rounds).** A round is followed by another only while the features shrink by the factor `keep`: a
call that returns `k + 1` paths, `k > 0`, has `3 ≤ keep ^ k * nc` for the number `nc` of features. -/
theorem C51_count {lars : Mat ℝ → List ℝ → Option (List (LassoLarsNode ℝ))} {tol lambMin keep : ℝ}
    (hl : Spec.RunsLars tol lambMin lars) (hk0 : 0 ≤ keep) (hk : keep < 1) (data : Dataset ℝ) (hd : WellFormed data)
    (hnr : 0 < data.X.nr) (paths : List (List (LassoLarsNode ℝ))) (after : Dataset ℝ)
    (h : NestedReturns lars keep data paths after) :
    ∃ k, paths.length = k + 1 ∧ (0 < k → 3 ≤ keep ^ k * data.X.nc) := by
  obtain ⟨n0, cur, raw, n, h1, h2, h3, h4⟩ := h
  obtain ⟨-, -, -, -, -, -, e4, -⟩ := normalizeInPlace_some (d := data.copy) hnr hd.y h1
  have e4 : cur.X.nc = data.X.nc := e4
  have key : ∀ (s : NestedState) raw, Runs (nestedBody lars keep data) s raw →
      ∃ k, raw.length = s.paths.length + (k + 1) ∧ (0 < k → 3 ≤ keep ^ k * s.cur.X.nc) := by
    intro s raw hr
    induction hr with
    | @ret s r hb =>
      refine ⟨0, ?_, by simp⟩
      unfold nestedBody at hb
      split at hb
      · cases hb
      simp only at hb
      split at hb
      · cases hb
      split at hb
      · cases hb
        simp
      · split at hb <;> cases hb
    | @next s s' r hb hr ih =>
      obtain ⟨k, ih1, ih2⟩ := ih
      have hsh := (C51_shrinks hl hk data _ _ hb).2
      obtain ⟨hlen, hnum⟩ : s'.paths.length = s.paths.length + 1 ∧ 2 < nestedNum keep s.cur.X.nc := by
        unfold nestedBody at hb
        split at hb
        · cases hb
        simp only at hb
        split at hb
        · cases hb
        split at hb
        · cases hb
        · rename_i hn
          split at hb
          · cases hb
          · cases hb
            exact ⟨by simp, not_le.1 hn⟩
      refine ⟨k + 1, by omega, fun _ => ?_⟩
      by_cases hk1 : 0 < k
      · calc (3 : ℝ) ≤ keep ^ k * s'.cur.X.nc := ih2 hk1
          _ ≤ keep ^ k * (keep * s.cur.X.nc) := mul_le_mul_of_nonneg_left hsh (pow_nonneg hk0 k)
          _ = keep ^ (k + 1) * s.cur.X.nc := by ring
      · obtain rfl : k = 0 := by omega
        have := (goInt_lt hk hnum).1
        have h3 : (3 : ℝ) ≤ (nestedNum keep s.cur.X.nc : ℝ) := by exact_mod_cast hnum
        rw [zero_add, pow_one]
        exact h3.trans this
  obtain ⟨k, k1, k2⟩ := key _ _ h2
  refine ⟨k, ?_, fun hk' => by rw [← e4]; exact k2 hk'⟩
  rw [mapM_length h4]
  simpa using k1

/-! #### The call returns -/

theorem larsXy_restricts {M D : Mat ℝ} {cols : List Nat} (h : Spec.Restricts M D cols) (y : Nat → ℝ) (k : Nat)
    (hk : k < cols.length) : larsXy M y k = larsXy D y cols[k] := by
  unfold larsXy
  rw [h.nr]
  apply Finset.sum_congr rfl
  intro r hr
  rw [h.get r (Finset.mem_range.1 hr) k hk]

theorem newNormalizedData_ok {X : Mat ℝ} (y : List ℝ) (h : ∀ c < X.nc, c ≠ 0 → goStd (colOf X c) = 1) :
    ∃ d, newNormalizedData X y = some d := by
  rcases newNormalizedData_inv X y with ⟨⟨c, hc, h0, hs⟩, -⟩ | ⟨d, h1, -⟩
  · rw [h c hc h0] at hs
    norm_num at hs
  · exact ⟨d, h1⟩

/-- Columns of the normalised original: unit deviation or all zeros. -/
def UnitOrZero (D : Mat ℝ) (nc : Nat) : Prop :=
  ∀ c < nc, goStd (colOf D c) = 1 ∨ ∀ r < D.nr, D.get r c = 0

theorem getD_mem {l : List Nat} {i : Nat} (h : i < l.length) : l.getD i 0 ∈ l := by
  rw [List.getD_eq_getElem?_getD, List.getElem?_eq_getElem h]
  exact List.getElem_mem h

/-- One round does not panic. -/
theorem nested_no_panic {lars : Mat ℝ → List ℝ → Option (List (LassoLarsNode ℝ))} {tol lambMin keep : ℝ}
    (hmin : 0 ≤ lambMin) (hl : Spec.RunsLars tol lambMin lars) {data : Dataset ℝ} (hd : WellFormed data) {D : Mat ℝ}
    {w : List ℝ} (hD : UnitOrZero D data.X.nc)
    {s : NestedState} (hlars : ∃ path, lars s.cur.X w = some path) {cols : List Nat} (h : NestedInv data D w s.cur cols) (hnd : cols.Nodup)
    (hc : ∃ f ∈ cols, lambMin < |larsXy D (fun r => w.getD r 0) f|) :
    ∃ path, lars s.cur.X w = some path ∧
      (∀ n ∈ path, ∀ f ∈ n.selection, ∃ r < D.nr, D.get r (cols.getD f 0) ≠ 0) ∧
      nestedBody lars keep data s ≠ .panic ∧
      ((pickMostRelevantFeatures path (nestedNum keep cols.length)).map (fun v => cols.getD v.toNat 0)).Nodup ∧
      ∃ f ∈ (pickMostRelevantFeatures path (nestedNum keep cols.length)).map (fun v => cols.getD v.toNat 0),
        lambMin < |larsXy D (fun r => w.getD r 0) f| := by
  have hlen : cols.length = s.cur.X.nc := h.restricts.nc.symm
  obtain ⟨f, hf, hcorr⟩ := hc
  obtain ⟨path, hp⟩ := hlars
  obtain ⟨est, hpath⟩ := hl _ _ _ hp
  have hok := (C63_path _ _ _ _ _ _ hpath).1
  have hnz := lars_nonzero hmin hpath
  obtain ⟨k, hk, rfl⟩ := List.mem_iff_getElem.1 hf
  obtain ⟨j, n, rest, e, hsel, hj, hjmax⟩ := lars_first hpath ⟨k, by omega, by
    rw [larsXy_restricts h.restricts _ k hk]; exact hcorr⟩
  obtain ⟨m1, m2⟩ := survivors_mem path (nestedNum keep cols.length)
  have hrange : ∀ v ∈ pickMostRelevantFeatures path (nestedNum keep cols.length), 0 ≤ v ∧ v.toNat < cols.length := by
    intro v hv
    obtain ⟨n, hn, f, hf, rfl⟩ := m2 v hv
    have := (hok n hn).range f hf
    omega
  have hjs : (j : Int) ∈ pickMostRelevantFeatures path (nestedNum keep cols.length) := by
    obtain ⟨k', d, -, h2, -, h4, -, h6, -⟩ := C67_features path (nestedNum keep cols.length)
    rw [h2]
    apply List.mem_map.2
    refine ⟨j, (h4 j).2 ?_, rfl⟩
    have hk' : 0 < k' := by
      rcases h6 with h6 | h6
      · rw [h6, e]; simp
      · exact h6.1
    obtain ⟨k'', rfl⟩ : ∃ k'', k' = k'' + 1 := ⟨k' - 1, by omega⟩
    rw [e, List.take_succ_cons]
    simp [pathFeatures, hsel]
  have hnz' : ∀ n ∈ path, ∀ f ∈ n.selection, ∃ r < D.nr, D.get r (cols.getD f 0) ≠ 0 := by
    intro n hn f hf
    obtain ⟨r, hr, hne⟩ := hnz n hn f hf
    have hflt := (hok n hn).range f hf
    rw [h.restricts.nr] at hr
    refine ⟨r, hr, ?_⟩
    rw [h.restricts.get r hr f (by omega)] at hne
    rwa [List.getD_eq_getElem?_getD, List.getElem?_eq_getElem (by omega)]
  refine ⟨path, hp, hnz', ?_, ?_, ?_⟩
  · -- no panic
    have hmap : mapNodes data s.cur.names path = some (Spec.renumber cols path) := by
      unfold mapNodes Spec.renumber
      apply mapM_of_forall
      intro n hn
      rw [mapSelectionByName_eq data s.cur hd h.target cols hlen h.range h.names n.selection (hok n hn).range]
      rfl
    unfold nestedBody
    rw [h.y, hp]
    simp only [hmap]
    rw [← hlen]
    by_cases hn : nestedNum keep cols.length ≤ 2
    · rw [if_pos hn]; simp
    · rw [if_neg hn]
      have hrows := h.normal.rows
      have hfe : FeaturesOf s.cur (pickMostRelevantFeatures path (nestedNum keep cols.length)) := by
        intro v hv
        have := hrange v hv
        omega
      obtain ⟨sub, hs1, hs2⟩ := C43_wellFormed s.cur h.wf (by omega) _ (List.ne_nil_of_mem hjs) hfe m1
      obtain ⟨s', g1, g2, g3, g4⟩ := C43_features s.cur h.wf (by omega) _ (List.ne_nil_of_mem hjs) hfe
      obtain ⟨s'', k1, k2, -⟩ := C43_target s.cur h.wf (by omega) _ (List.ne_nil_of_mem hjs) hfe
      rw [hs1, Option.some.injEq] at g1 k1
      subst g1
      subst k1
      rw [hs1, Option.bind_some]
      have hstd : ∀ c < sub.X.nc, c ≠ 0 → goStd (colOf sub.X c) = 1 := by
        intro c hc _
        rw [g3] at hc
        have hv := List.getElem_mem hc
        obtain ⟨n', hn', f, hf, hvf⟩ := m2 _ hv
        have hflt := (hok n' hn').range f hf
        have hcol : colOf sub.X c = colOf D (cols.getD f 0) := by
          unfold colOf
          rw [g2, h.restricts.nr]
          apply List.map_congr_left
          intro r hr
          rw [(g4 c hc).2 r, hvf, Int.toNat_natCast,
            h.restricts.get r (List.mem_range.1 hr) f (by omega), List.getD_eq_getElem?_getD,
            List.getElem?_eq_getElem (by omega : f < cols.length)]
          rfl
        rw [hcol]
        have hmem := h.range _ (getD_mem (by omega : f < cols.length))
        rcases hD _ hmem with h1 | h1
        · exact h1
        · obtain ⟨r, hr, hne⟩ := hnz' n' hn' f hf
          exact absurd (h1 r hr) hne
      obtain ⟨m, hm⟩ := newNormalizedData_ok sub.Y hstd
      have hy := newNormalizedData_y hm
      rw [k2] at hy
      rw [normalizeArray_fix s.cur.Y (by rw [h.normal.ylen]; exact hrows) h.normal.mean h.normal.var] at hy
      unfold normalizeInPlace
      rw [hm, Option.bind_some, hy, finValues_fin]
      simp
  · -- distinct
    rw [List.nodup_map_iff_inj_on m1]
    intro a ha b hb hab
    obtain ⟨a1, a2⟩ := hrange a ha
    obtain ⟨b1, b2⟩ := hrange b hb
    rw [List.getD_eq_getElem?_getD, List.getD_eq_getElem?_getD, List.getElem?_eq_getElem a2,
      List.getElem?_eq_getElem b2] at hab
    have := (List.Nodup.getElem_inj_iff hnd).1 hab
    omega
  · refine ⟨cols.getD j 0, List.mem_map.2 ⟨j, hjs, by simp⟩, ?_⟩
    have hjl : j < cols.length := by omega
    rw [List.getD_eq_getElem?_getD, List.getElem?_eq_getElem hjl]
    simp only [Option.getD_some]
    rw [← larsXy_restricts h.restricts _ j hjl]
    refine lt_of_lt_of_le hcorr ?_
    rw [← larsXy_restricts h.restricts _ k hk]
    exact hjmax k (by omega)

theorem biasLoop_total (n : NormalizedData) (coeff : List ℝ) (sel : List Nat)
    (hv : ∀ v ∈ sel, v < n.mu.length ∧ v < n.std.length) (i : Nat) (hi : i + sel.length ≤ coeff.length) (sum : ℝ) :
    ∃ b, biasLoop n coeff sel i sum = some b := by
  induction sel generalizing i sum with
  | nil => exact ⟨sum, rfl⟩
  | cons v sel ih =>
    obtain ⟨h1, h2⟩ := hv v (List.mem_cons_self ..)
    simp only [List.length_cons] at hi
    rw [biasLoop, List.getElem?_eq_getElem (by omega : i < coeff.length), List.getElem?_eq_getElem h1,
      List.getElem?_eq_getElem h2]
    exact ih (fun v hv' => hv v (List.mem_cons_of_mem _ hv')) (i + 1) (by omega) _

theorem unnormLoop_total (n : NormalizedData) (sel : List Nat)
    (hv : ∀ v ∈ sel, v < n.std.length ∧ ¬ (v = 0 ∧ n.hasBias = true)) (i : Nat) (coeff : List ℝ)
    (hi : i + sel.length ≤ coeff.length) : ∃ out, unnormLoop n sel i coeff = some out := by
  induction sel generalizing i coeff with
  | nil => exact ⟨coeff, rfl⟩
  | cons v sel ih =>
    obtain ⟨h1, h2⟩ := hv v (List.mem_cons_self ..)
    simp only [List.length_cons] at hi
    rw [unnormLoop, List.getElem?_eq_getElem (by omega : i < coeff.length)]
    simp only [linearNormalizationTransformation]
    rw [if_neg h2, List.getElem?_eq_getElem h1]
    exact ih (fun v hv' => hv v (List.mem_cons_of_mem _ hv')) (i + 1) _ (by rw [List.length_set]; omega)

theorem unnormalizeNode_total (n : NormalizedData) (node : LassoLarsNode ℝ)
    (hl : node.coeff.length = node.selection.length)
    (hv : ∀ v ∈ node.selection, v < n.mu.length ∧ v < n.std.length ∧ ¬ (v = 0 ∧ n.hasBias = true)) :
    ∃ out, unnormalizeNode n node = some out := by
  obtain ⟨b, hb⟩ := biasLoop_total n node.coeff node.selection (fun v h => ⟨(hv v h).1, (hv v h).2.1⟩) 0 (by omega) 0
  obtain ⟨c, hc⟩ := unnormLoop_total n node.selection (fun v h => (hv v h).2) 0 node.coeff (by omega)
  unfold unnormalizeNode linearTransformationBias
  rw [hb]
  simp only [hc]
  split
  · exact ⟨_, rfl⟩
  · exact ⟨_, rfl⟩

/-- A node that can be transformed back. -/
def GoodNode (D : Mat ℝ) (nc : Nat) (n : LassoLarsNode ℝ) : Prop :=
  n.coeff.length = n.selection.length ∧ ∀ f ∈ n.selection, f < nc ∧ ∃ r < D.nr, D.get r f ≠ 0

/-- The invariant for total correctness. -/
def NestedOk (lambMin : ℝ) (data : Dataset ℝ) (D : Mat ℝ) (w : List ℝ) (s : NestedState) : Prop :=
  (∀ p ∈ s.paths, ∀ n ∈ p, GoodNode D data.X.nc n) ∧
  ∃ cols, NestedInv data D w s.cur cols ∧ cols.Nodup ∧ ∃ f ∈ cols, lambMin < |larsXy D (fun r => w.getD r 0) f|

theorem nested_step_ok {lars : Mat ℝ → List ℝ → Option (List (LassoLarsNode ℝ))} {tol lambMin keep : ℝ}
    (hmin : 0 ≤ lambMin) (hl : Spec.RunsLars tol lambMin lars) {data : Dataset ℝ} (hd : WellFormed data) {D : Mat ℝ}
    {w : List ℝ} (hD : UnitOrZero D data.X.nc)
    (hlars : ∀ M cols, cols.Nodup → cols ≠ [] → (∀ v ∈ cols, v < data.X.nc) → Spec.Restricts M D cols →
      ∃ path, lars M w = some path)
    {s : NestedState} (h : NestedOk lambMin data D w s) :
    nestedBody lars keep data s ≠ .panic ∧
    (∀ r, nestedBody lars keep data s = .ret r → ∀ p ∈ r, ∀ n ∈ p, GoodNode D data.X.nc n) ∧
    ∀ s', nestedBody lars keep data s = .next s' → NestedOk lambMin data D w s' := by
  obtain ⟨hgood, cols, hi, hnd, hc⟩ := h
  obtain ⟨path, hp, hnz, hpanic, hnd', hc'⟩ := nested_no_panic (keep := keep) hmin hl hd hD
    (hlars s.cur.X cols hnd (List.ne_nil_of_mem hc.choose_spec.1) hi.range hi.restricts) hi hnd hc
  obtain ⟨est, hpath⟩ := hl _ _ _ hp
  have hok := (C63_path _ _ _ _ _ _ hpath).1
  have hlen := hi.restricts.nc
  have hnew : ∀ n ∈ Spec.renumber cols path, GoodNode D data.X.nc n := by
    intro n hn
    unfold Spec.renumber at hn
    obtain ⟨n', hn', rfl⟩ := List.mem_map.1 hn
    refine ⟨by simp [(hok n' hn').coeff], ?_⟩
    intro f hf
    simp only at hf
    obtain ⟨g, hg, rfl⟩ := List.mem_map.1 hf
    have hglt := (hok n' hn').range g hg
    exact ⟨hi.range _ (getD_mem (by omega)), hnz n' hn' g hg⟩
  have hall : ∀ p ∈ s.paths ++ [Spec.renumber cols path], ∀ n ∈ p, GoodNode D data.X.nc n := by
    intro p hp'
    rw [List.mem_append, List.mem_singleton] at hp'
    rcases hp' with hp' | rfl
    · exact hgood p hp'
    · exact hnew
  refine ⟨hpanic, ?_, ?_⟩
  · intro r hr
    rcases nested_round (keep := keep) hl hd hi with h0 | ⟨path', h1, -, ⟨h2, h3⟩ | ⟨h2, cur, h3, h4⟩⟩
    · exact absurd h0 hpanic
    · rw [hp, Option.some.injEq] at h1
      subst h1
      rw [h3] at hr
      cases hr
      exact hall
    · rw [h3] at hr; cases hr
  · intro s' hs'
    rcases nested_round (keep := keep) hl hd hi with h0 | ⟨path', h1, -, ⟨h2, h3⟩ | ⟨h2, cur, h3, h4⟩⟩
    · exact absurd h0 hpanic
    · rw [h3] at hs'; cases hs'
    · rw [hp, Option.some.injEq] at h1
      subst h1
      rw [h3] at hs'
      cases hs'
      exact ⟨hall, _, h4, hnd', hc'⟩

theorem nested_good {lars : Mat ℝ → List ℝ → Option (List (LassoLarsNode ℝ))} {tol lambMin keep : ℝ}
    (hmin : 0 ≤ lambMin) (hl : Spec.RunsLars tol lambMin lars) {data : Dataset ℝ} (hd : WellFormed data) {D : Mat ℝ}
    {w : List ℝ} (hD : UnitOrZero D data.X.nc)
    (hlars : ∀ M cols, cols.Nodup → cols ≠ [] → (∀ v ∈ cols, v < data.X.nc) → Spec.Restricts M D cols →
      ∃ path, lars M w = some path)
    {s : NestedState} {raw : List (List (LassoLarsNode ℝ))} (hr : Runs (nestedBody lars keep data) s raw)
    (h : NestedOk lambMin data D w s) : ∀ p ∈ raw, ∀ m ∈ p, GoodNode D data.X.nc m := by
  induction hr with
  | ret hb => exact (nested_step_ok hmin hl hd hD hlars h).2.1 _ hb
  | next hb _ ih => exact ih ((nested_step_ok hmin hl hd hD hlars h).2.2 _ hb)

/-- If the rounds come to an end, the call returns. -/
theorem nested_returns_of {lars : Mat ℝ → List ℝ → Option (List (LassoLarsNode ℝ))} {tol lambMin keep : ℝ}
    (hmin : 0 ≤ lambMin) (hl : Spec.RunsLars tol lambMin lars) (data : Dataset ℝ)
    (hd : WellFormed data) (ht : data.targetCol = data.X.nc) (hnr : 2 ≤ data.X.nr) (hy : ¬ Constant data.Y)
    (hcol : ∀ c < data.X.nc, 1 / 10 ^ 10 ≤ goStd (colOf data.X c) ∨ (c = 0 ∧ Constant (colOf data.X c)))
    (hlars : ∀ n w, newNormalizedData data.X data.Y = some n → normalizeArray data.Y = w.map .fin →
      (∃ f < data.X.nc, lambMin < |larsXy n.X (fun r => w.getD r 0) f|) ∧
      ∀ M cols, cols.Nodup → cols ≠ [] → (∀ v ∈ cols, v < data.X.nc) → Spec.Restricts M n.X cols →
        ∃ path, lars M w = some path)
    (hfin : ∀ n w (run : Nat → NestedState), newNormalizedData data.X data.Y = some n →
      normalizeArray data.Y = w.map .fin → NestedOk lambMin data n.X w (run 0) →
      ¬ ∀ k, nestedBody lars keep data (run k) = .next (run (k + 1))) :
    ∃ paths after, NestedReturns lars keep data paths after := by
  obtain ⟨w, hw, hwl, -⟩ := C48_array data.Y (by rw [hd.y]; exact hnr) hy
  obtain ⟨n, hn⟩ : ∃ n, newNormalizedData data.X data.Y = some n := by
    cases hn : newNormalizedData data.X data.Y with
    | some n => exact ⟨n, rfl⟩
    | none =>
      obtain ⟨c, hc, h0, hs⟩ := (C48_panic _ _).1 hn
      rcases hcol c hc with h | h
      · exact absurd hs (not_lt.2 h)
      · exact absurd h.1 h0
  obtain ⟨hcorr, hpath⟩ := hlars n w hn hw
  have hnorm : normalizeInPlace data = some (n, { data with
      X := n.X
      Y := w }) := by
    unfold normalizeInPlace
    rw [hn, Option.bind_some, newNormalizedData_y hn, hw, finValues_fin]
    rfl
  have hcopy : normalizeInPlace data.copy = some (n, { data with
      X := n.X
      Y := w }) := hnorm
  obtain ⟨-, -, hinv⟩ := nested_init hd (by omega) ht hcopy
  obtain ⟨hnr', hnc', -⟩ := newNormalizedData_cols hnr hn
  have hzero : Constant (colOf data.X 0) → 0 < data.X.nc → ∀ r < data.X.nr, n.X.get r 0 = 0 :=
    fun h1 h2 => ((C48_bias data.X data.Y h2 n hn).2 h1).2
  have hD : UnitOrZero n.X data.X.nc := by
    intro c hc
    rcases hcol c hc with h | ⟨rfl, h⟩
    · left
      rw [goStd_eq _ (by simp [colOf, hnr', hnr]), ((C48_dataset data.X data.Y hnr n hn).2.2.1 c hc h).2,
        Real.sqrt_one]
    · right
      rw [hnr']
      exact hzero h hc
  have hstart : NestedOk lambMin data n.X w ⟨{ data with
      X := n.X
      Y := w }, []⟩ := by
    refine ⟨by simp, List.range data.X.nc, hinv, List.nodup_range, ?_⟩
    obtain ⟨f, hf, h⟩ := hcorr
    exact ⟨f, List.mem_range.2 hf, h⟩
  obtain ⟨raw, hraw⟩ := runs_of_progress (body := nestedBody lars keep data) (NestedOk lambMin data n.X w) hstart
    (fun s hs => (nested_step_ok hmin hl hd hD hpath hs).1)
    (fun s s' hs hb => (nested_step_ok hmin hl hd hD hpath hs).2.2 s' hb)
    (fun run h0 => hfin n w run hn hw (by rw [h0]; exact hstart))
  have hgood : ∀ p ∈ raw, ∀ m ∈ p, GoodNode n.X data.X.nc m := by
    exact nested_good hmin hl hd hD hpath hraw hstart
  have hlens : n.mu.length = data.X.nc ∧ n.std.length = data.X.nc := by
    rcases newNormalizedData_inv data.X data.Y with ⟨-, h1⟩ | ⟨d', h1, h2, -⟩
    · rw [hn] at h1; cases h1
    · rw [hn, Option.some.injEq] at h1
      subst h1
      exact ⟨h2.muLen, h2.stdLen⟩
  obtain ⟨paths, hpaths⟩ := mapM_isSome (f := path2Unnormalized n) (l := raw) (by
    intro p hp
    apply mapM_isSome
    intro m hm
    obtain ⟨g1, g2⟩ := hgood p hp m hm
    apply unnormalizeNode_total n m g1
    intro v hv
    obtain ⟨k1, r, hr, hne⟩ := g2 v hv
    refine ⟨by omega, by omega, ?_⟩
    rintro ⟨rfl, hb⟩
    rw [(C48_bias data.X data.Y k1 n hn).1] at hb
    rcases hcol 0 k1 with h | ⟨-, h⟩
    · exact absurd hb (not_lt.2 h)
    · rw [hnr'] at hr
      exact hne (hzero h k1 r hr))
  exact ⟨paths, _, n, _, raw, n, hcopy, hraw, hnorm, hpaths⟩

/-- **C51 (returns).** `NestedLasso` returns if the target is the last column, every column but the first varies and
the first varies or is constant, some feature is correlated with the response more than `lambMin`, and `LassoLars`
does not panic on any set of columns. -/
theorem C51_returns {lars : Mat ℝ → List ℝ → Option (List (LassoLarsNode ℝ))} {tol lambMin keep : ℝ}
    (hmin : 0 ≤ lambMin) (hk : keep < 1) (hl : Spec.RunsLars tol lambMin lars) (data : Dataset ℝ)
    (hd : WellFormed data) (ht : data.targetCol = data.X.nc) (hnr : 2 ≤ data.X.nr) (hy : ¬ Constant data.Y)
    (hcol : ∀ c < data.X.nc, 1 / 10 ^ 10 ≤ goStd (colOf data.X c) ∨ (c = 0 ∧ Constant (colOf data.X c)))
    (hlars : ∀ n w, newNormalizedData data.X data.Y = some n → normalizeArray data.Y = w.map .fin →
      (∃ f < data.X.nc, lambMin < |larsXy n.X (fun r => w.getD r 0) f|) ∧
      ∀ M cols, cols.Nodup → cols ≠ [] → (∀ v ∈ cols, v < data.X.nc) → Spec.Restricts M n.X cols →
        ∃ path, lars M w = some path) :
    ∃ paths after, NestedReturns lars keep data paths after :=
  nested_returns_of hmin hl data hd ht hnr hy hcol hlars (fun _ _ run _ _ _ hall => by
    have := C51_rounds hl hk data run ((run 0).cur.X.nc + 1) (fun k _ => hall k)
    omega)

/-! ### Examples and refutations -/

namespace NestedExample

/-- Two orthogonal columns with mean 0 and variance 1. -/
def colA : Nat → ℝ
  | 0 => 1 | 1 => -1 | 2 => 1 | 3 => -1 | _ => 0

def colB : Nat → ℝ
  | 0 => 1 | 1 => 1 | 2 => -1 | 3 => -1 | _ => 0

def ys : List ℝ := [1, 1, -1, -1, 0]

/-- The columns and the response times two; the target is the first column. -/
noncomputable def data : Dataset ℝ :=
  ⟨⟨5, 2, fun r c => if c = 0 then 2 * colA r else 2 * colB r⟩, [2, 2, -2, -2, 0], ["y", "a", "b"], 0⟩

theorem wf : WellFormed data := ⟨rfl, by decide, by decide, by decide, rfl⟩

/-- The normalised matrix. -/
def IsNormed (M : Mat ℝ) : Prop := M.nr = 5 ∧ M.nc = 2 ∧ ∀ r < 5, M.get r 0 = colA r ∧ M.get r 1 = colB r

theorem std_A : goStd (colOf data.X 0) = 2 ∧ goMean (colOf data.X 0) = 0 := by
  have h : colOf data.X 0 = [2, -2, 2, -2, 0] := by
    simp [colOf, data, List.range_succ, colA]
  rw [h]
  have h0 : goMean [2, -2, 2, -2, 0] = 0 := by norm_num [goMean]
  refine ⟨?_, h0⟩
  unfold goStd
  simp only [h0]
  norm_num
  rw [show (4 : ℝ) = 2 ^ 2 by norm_num, Real.sqrt_sq (by norm_num)]

theorem std_B : goStd (colOf data.X 1) = 2 ∧ goMean (colOf data.X 1) = 0 := by
  have h : colOf data.X 1 = [2, 2, -2, -2, 0] := by
    simp [colOf, data, List.range_succ, colB]
  rw [h]
  have h0 : goMean [2, 2, -2, -2, 0] = 0 := by norm_num [goMean]
  refine ⟨?_, h0⟩
  unfold goStd
  simp only [h0]
  norm_num
  rw [show (4 : ℝ) = 2 ^ 2 by norm_num, Real.sqrt_sq (by norm_num)]

theorem norm_y : normalizeArray data.Y = ys.map .fin := by
  have h := std_B
  have hcol : colOf data.X 1 = data.Y := by simp [colOf, data, List.range_succ, colB]
  rw [hcol] at h
  unfold normalizeArray
  rw [h.1, h.2]
  simp [data, ys, Fl.divFin]

theorem normed : ∃ n, newNormalizedData data.X data.Y = some n ∧ IsNormed n.X ∧ n.hasBias = false ∧
    n.std = [2, 2] ∧ n.mu = [0, 0] := by
  rcases newNormalizedData_inv data.X data.Y with ⟨⟨c, hc, h0, hs⟩, -⟩ | ⟨d, h1, h2, -⟩
  · exfalso
    have : c = 1 := by
      have : c < 2 := hc
      omega
    subst this
    rw [std_B.1] at hs
    norm_num at hs
  · refine ⟨d, h1, ⟨h2.nr, h2.nc, fun r hr => ⟨?_, ?_⟩⟩, ?_, ?_, ?_⟩
    · rw [h2.done r 0 (by decide) hr, std_A.1, std_A.2, if_neg (by norm_num)]
      simp [data]
    · rw [h2.done r 1 (by decide) hr, std_B.1, std_B.2, if_neg (by norm_num)]
      simp [data]
    · rw [Bool.eq_false_iff]
      intro hb
      rw [C48_bias data.X data.Y (by decide) d h1 |>.1, std_A.1] at hb
      norm_num at hb
    · apply List.ext_getElem?
      intro i
      have hl : d.std.length = 2 := h2.stdLen
      rcases i with _ | _ | i
      · rw [h2.std 0 (by decide), std_A.1]; rfl
      · rw [h2.std 1 (by decide), std_B.1]; rfl
      · rw [List.getElem?_eq_none (by omega), List.getElem?_eq_none (by simp)]
    · apply List.ext_getElem?
      intro i
      have hl : d.mu.length = 2 := h2.muLen
      rcases i with _ | _ | i
      · rw [h2.mu 0 (by decide), std_A.2]; rfl
      · rw [h2.mu 1 (by decide), std_B.2]; rfl
      · rw [List.getElem?_eq_none (by omega), List.getElem?_eq_none (by simp)]

/-- The path of the two columns: feature 1 alone, down to zero. -/
noncomputable def path : List (LassoLarsNode ℝ) := [⟨[0], 4, [1]⟩]

theorem xy {M : Mat ℝ} (h : IsNormed M) :
    larsXy M (fun r => ys.getD r 0) 0 = 0 ∧ larsXy M (fun r => ys.getD r 0) 1 = 4 := by
  obtain ⟨h1, h2, h3⟩ := h
  unfold larsXy
  rw [h1]
  simp only [Finset.sum_range_succ, Finset.sum_range_zero]
  obtain ⟨a0, b0⟩ := h3 0 (by omega)
  obtain ⟨a1, b1⟩ := h3 1 (by omega)
  obtain ⟨a2, b2⟩ := h3 2 (by omega)
  obtain ⟨a3, b3⟩ := h3 3 (by omega)
  obtain ⟨a4, b4⟩ := h3 4 (by omega)
  rw [a0, a1, a2, a3, a4, b0, b1, b2, b3, b4]
  constructor <;> norm_num [ys, colA, colB]

theorem xx {M : Mat ℝ} (h : IsNormed M) (v : ℝ) : larsXX M [1] [v] 0 = 0 ∧ larsXX M [1] [v] 1 = 4 * v := by
  obtain ⟨h1, h2, h3⟩ := h
  unfold larsXX larsFit
  rw [h1]
  simp only [Finset.sum_range_succ, Finset.sum_range_zero, List.length_singleton]
  obtain ⟨a0, b0⟩ := h3 0 (by omega)
  obtain ⟨a1, b1⟩ := h3 1 (by omega)
  obtain ⟨a2, b2⟩ := h3 2 (by omega)
  obtain ⟨a3, b3⟩ := h3 3 (by omega)
  obtain ⟨a4, b4⟩ := h3 4 (by omega)
  simp only [List.getD_cons_zero, a0, a1, a2, a3, a4, b0, b1, b2, b3, b4]
  constructor <;> simp [colA, colB] <;> ring

theorem lars_path {M : Mat ℝ} (h : IsNormed M) :
    LarsReturns M (fun r => ys.getD r 0) lassoTol 1 (fun _ _ _ => some ([1], [1 / 4])) path := by
  obtain ⟨x0, x1⟩ := xy h
  have hm : maxTime ((List.range M.nc).map (fun i => some |larsXy M (fun r => ys.getD r 0) i|)) = (4, 1) := by
    rw [h.2.1]
    simp only [List.range_succ, List.range_zero, List.nil_append, List.cons_append, List.map_cons, List.map_nil, x0, x1]
    norm_num [maxTime, List.zipIdx]
  unfold LarsReturns larsInit
  rw [if_neg (by rw [h.1, h.2.1]; decide)]
  refine ⟨_, rfl, ?_⟩
  rw [hm]
  have hj : tJoin M (fun r => ys.getD r 0) lassoTol 4 [1] [1] [1 / 4] none = some [0, 0] := by
    unfold tJoin
    rw [h.2.1, mapM_some_iff]
    simp only [List.range_succ, List.range_zero, List.nil_append, List.cons_append, List.map_cons, List.map_nil, x0, x1,
      (xx h _).1, (xx h _).2]
    norm_num [joinTime, timeIn, Fl.divFin, lassoTol]
  refine .next (s' := ⟨0, [], fun i => if i = 1 then 1 else 0, some (1, 0), path⟩) ?_ (.ret ?_)
  · unfold larsBody
    simp only
    rw [if_neg (by norm_num), if_neg (by simp)]
    simp only [List.insertionSort_cons, List.insertionSort_nil, List.orderedInsert_nil, List.length_singleton, ne_eq,
      not_true_eq_false, or_self, if_false, hj, x1]
    norm_num [larsMove, maxJoinTime, maxTime, tCross, crossTime, Fl.divFin, lassoTol, betaLARS, path]
  · unfold larsBody
    rw [if_pos (by norm_num)]

open Classical in
/-- `LassoLars` on the two columns. -/
noncomputable def lars (M : Mat ℝ) (y : List ℝ) : Option (List (LassoLarsNode ℝ)) :=
  if IsNormed M ∧ y = ys then some path else none

theorem runsLars : Spec.RunsLars lassoTol 1 lars := by
  intro M y p hp
  unfold lars at hp
  split at hp
  · rename_i h
    cases hp
    rw [h.2]
    exact ⟨_, lars_path h.1⟩
  · cases hp

theorem num : nestedNum (1 / 2) 2 = 1 := by
  unfold nestedNum goInt
  norm_num

/-- The nodes are reported for feature 0, which is not the selected one. -/
theorem returns : ∃ paths after, NestedReturns lars (1 / 2) data paths after ∧
    paths.map (fun p => p.map (·.selection)) = [[[0]]] ∧ after.X.get 0 0 = 1 := by
  obtain ⟨n, hn, hX, hb, hstd, hmu⟩ := normed
  have hnorm : normalizeInPlace data = some (n, { data with
      X := n.X
      Y := ys }) := by
    unfold normalizeInPlace
    rw [hn, Option.bind_some, newNormalizedData_y hn, norm_y, finValues_fin]
    rfl
  refine ⟨[[⟨[0], 4, [0]⟩]], _, ⟨n, _, [[⟨[0], 4, [0]⟩]], n, hnorm, .ret ?_, hnorm, ?_⟩, rfl, ?_⟩
  · unfold nestedBody
    have hl : lars n.X ys = some path := by unfold lars; rw [if_pos ⟨hX, rfl⟩]
    have hm : mapNodes data data.names path = some [⟨[0], 4, [0]⟩] := by
      unfold mapNodes path mapSelectionByName
      simp [data, Dataset.featNoByName, featNoLoop]
    simp only [hl, hm, hX.2.1, num]
    norm_num
  · have : unnormalizeNode n ⟨[0], 4, [0]⟩ = some ⟨[0], 4, [0]⟩ := by
      unfold unnormalizeNode linearTransformationBias
      simp [biasLoop, unnormLoop, linearNormalizationTransformation, hb, hstd, hmu]
    simp [path2Unnormalized, this]
  · simp only
    rw [(hX.2.2 0 (by omega)).1]
    rfl

/-! #### Every set of columns -/

/-- Column `f` of `M` is `colB`, the others are `colA`. -/
structure HasB (M : Mat ℝ) (f : Nat) : Prop where
  nr : M.nr = 5
  lt : f < M.nc
  b : ∀ r < 5, M.get r f = colB r
  a : ∀ c < M.nc, c ≠ f → ∀ r < 5, M.get r c = colA r

theorem xy' {M : Mat ℝ} {f : Nat} (h : HasB M f) (c : Nat) (hc : c < M.nc) :
    larsXy M (fun r => ys.getD r 0) c = if c = f then 4 else 0 := by
  unfold larsXy
  rw [h.nr]
  simp only [Finset.sum_range_succ, Finset.sum_range_zero]
  split
  · rename_i e
    subst e
    rw [h.b 0 (by omega), h.b 1 (by omega), h.b 2 (by omega), h.b 3 (by omega), h.b 4 (by omega)]
    norm_num [ys, colB]
  · rename_i e
    rw [h.a c hc e 0 (by omega), h.a c hc e 1 (by omega), h.a c hc e 2 (by omega), h.a c hc e 3 (by omega),
      h.a c hc e 4 (by omega)]
    norm_num [ys, colA]

theorem xx' {M : Mat ℝ} {f : Nat} (h : HasB M f) (v : ℝ) (c : Nat) (hc : c < M.nc) :
    larsXX M [f] [v] c = if c = f then 4 * v else 0 := by
  unfold larsXX larsFit
  rw [h.nr]
  simp only [Finset.sum_range_succ, Finset.sum_range_zero, List.length_singleton, List.getD_cons_zero]
  rw [h.b 0 (by omega), h.b 1 (by omega), h.b 2 (by omega), h.b 3 (by omega), h.b 4 (by omega)]
  split
  · rename_i e
    subst e
    rw [h.b 0 (by omega), h.b 1 (by omega), h.b 2 (by omega), h.b 3 (by omega), h.b 4 (by omega)]
    simp [colB]
    ring
  · rename_i e
    rw [h.a c hc e 0 (by omega), h.a c hc e 1 (by omega), h.a c hc e 2 (by omega), h.a c hc e 3 (by omega),
      h.a c hc e 4 (by omega)]
    simp [colA, colB]

theorem lars_path' {M : Mat ℝ} {f : Nat} (h : HasB M f) :
    LarsReturns M (fun r => ys.getD r 0) lassoTol 1 (fun _ _ _ => some ([1], [1 / 4])) [⟨[0], 4, [f]⟩] := by
  have hlt := h.lt
  have hm : maxTime ((List.range M.nc).map (fun i => some |larsXy M (fun r => ys.getD r 0) i|)) = (4, f) := by
    obtain ⟨-, h2, h3⟩ := maxTime_spec ((List.range M.nc).map (fun i => some |larsXy M (fun r => ys.getD r 0) i|))
    have h4 := h3 4 (List.mem_map.2 ⟨f, List.mem_range.2 hlt, by rw [xy' h f hlt]; norm_num⟩)
    rcases h2 with ⟨h2, -⟩ | ⟨h1, h2⟩
    · rw [h2] at h4; norm_num at h4
    · rw [List.getElem?_map, Option.map_eq_some_iff] at h2
      obtain ⟨a, ha, h2⟩ := h2
      obtain ⟨hal, ha⟩ := List.getElem?_eq_some_iff.1 ha
      rw [List.getElem_range] at ha
      rw [List.length_range] at hal
      simp only [Option.some.injEq] at h2
      rw [← ha, xy' h _ hal] at h2
      split at h2
      · rename_i e
        rw [Prod.ext_iff]
        exact ⟨by rw [← h2]; norm_num, e⟩
      · rw [← h2] at h1; norm_num at h1
  unfold LarsReturns larsInit
  rw [if_neg (by rw [h.nr]; omega)]
  refine ⟨_, rfl, ?_⟩
  rw [hm]
  have hj : tJoin M (fun r => ys.getD r 0) lassoTol 4 [f] [1] [1 / 4] none = some (List.replicate M.nc 0) := by
    unfold tJoin
    rw [mapM_some_iff, List.map_replicate, List.eq_replicate_iff]
    refine ⟨by simp, fun b hb => ?_⟩
    obtain ⟨c, hc, rfl⟩ := List.mem_map.1 hb
    rw [List.mem_range] at hc
    rw [xy' h c hc, xx' h _ c hc, xx' h _ c hc]
    split
    · norm_num [joinTime, timeIn, Fl.divFin, lassoTol]
    · norm_num [joinTime, timeIn, Fl.divFin, lassoTol]
  have hjm : (maxJoinTime (List.replicate M.nc (0 : ℝ)) [f]).1 = 0 := by
    obtain ⟨h1, h2, -⟩ := maxJoinTime_spec (List.replicate M.nc (0 : ℝ)) [f]
    rcases lt_or_eq_of_le h1 with h3 | h3
    · have := List.mem_of_getElem? (h2 h3).2
      exact List.eq_of_mem_replicate this
    · exact h3.symm
  refine .next (s' := ⟨0, [], fun i => if i = f then 1 else 0, some (f, 0), [⟨[0], 4, [f]⟩]⟩) ?_ (.ret ?_)
  · unfold larsBody
    simp only
    rw [if_neg (by norm_num), if_neg (by simp)]
    simp only [List.insertionSort_cons, List.insertionSort_nil, List.orderedInsert_nil, List.length_singleton, ne_eq,
      not_true_eq_false, or_self, if_false, hj, xy' h f hlt, if_true]
    unfold larsMove
    rw [hjm]
    norm_num [maxTime, tCross, crossTime, Fl.divFin, lassoTol, betaLARS]
  · unfold larsBody
    rw [if_pos (by norm_num)]

/-- The same data, with the target last. -/
noncomputable def dataL : Dataset ℝ := { data with
  names := ["a", "b", "y"]
  targetCol := 2 }

theorem wfL : WellFormed dataL := ⟨rfl, by decide, by decide, by decide, rfl⟩

open Classical in
/-- `LassoLars` on any matrix. -/
noncomputable def larsAny (M : Mat ℝ) (y : List ℝ) : Option (List (LassoLarsNode ℝ)) :=
  if h : ∃ path est, LarsReturns M (fun r => y.getD r 0) lassoTol 1 est path then some h.choose else none

theorem runsLarsAny : Spec.RunsLars lassoTol 1 larsAny := by
  intro M y p hp
  unfold larsAny at hp
  split at hp
  · rename_i h
    cases hp
    exact h.choose_spec
  · cases hp

theorem larsAny_some {M D : Mat ℝ} (hD : IsNormed D) {cols : List Nat} (hn : cols.Nodup) (hne : cols ≠ [])
    (hc : ∀ v ∈ cols, v < 2) (hM : Spec.Restricts M D cols) : ∃ path, larsAny M ys = some path := by
  have key : ∃ path est, LarsReturns M (fun r => ys.getD r 0) lassoTol 1 est path := by
    have hpos : 0 < cols.length := List.length_pos_iff.2 hne
    have hget : ∀ r < 5, ∀ k (hk : k < cols.length), M.get r k = if cols[k] = 0 then colA r else colB r := by
      intro r hr k hk
      have := hc _ (List.getElem_mem hk)
      rw [hM.get r (by rw [hD.1]; exact hr) k hk]
      split
      · rename_i e
        rw [e]
        exact (hD.2.2 r hr).1
      · rename_i e
        have : cols[k] = 1 := by omega
        rw [this]
        exact (hD.2.2 r hr).2
    have hnc := hM.nc
    by_cases h1 : 1 ∈ cols
    · obtain ⟨f, hf, e⟩ := List.mem_iff_getElem.1 h1
      refine ⟨_, _, lars_path' (f := f) ⟨by rw [hM.nr, hD.1], by omega, ?_, ?_⟩⟩
      · intro r hr
        rw [hget r hr f hf, e]
        rfl
      · intro c hc' hcf r hr
        have hcl : c < cols.length := by omega
        have h0 : cols[c] = 0 := by
          have := hc _ (List.getElem_mem hcl)
          by_contra hne0
          have : cols[c] = cols[f] := by omega
          exact hcf ((List.Nodup.getElem_inj_iff hn).1 this)
        rw [hget r hr c hcl, h0]
        rfl
    · refine ⟨[], fun _ _ _ => none, C63_empty _ _ _ _ (by rw [hM.nr, hD.1]; omega) (by omega) _ (by norm_num) ?_⟩
      intro i hi
      have hil : i < cols.length := by omega
      have h0 : cols[i] = 0 := by
        have := hc _ (List.getElem_mem hil)
        by_contra hne0
        exact h1 (by
          have e : cols[i] = 1 := by omega
          rw [← e]
          exact List.getElem_mem hil)
      have : larsXy M (fun r => ys.getD r 0) i = 0 := by
        unfold larsXy
        rw [hM.nr, hD.1]
        simp only [Finset.sum_range_succ, Finset.sum_range_zero]
        rw [hget 0 (by omega) i hil, hget 1 (by omega) i hil, hget 2 (by omega) i hil, hget 3 (by omega) i hil,
          hget 4 (by omega) i hil, h0]
        norm_num [ys, colA]
      rw [this]
      norm_num
  unfold larsAny
  rw [dif_pos key]
  exact ⟨_, rfl⟩

/-- The hypotheses of `C51_returns` hold for these data, and hence those of `C50_rounds_partial`. -/
theorem returnsL : ∃ paths after, NestedReturns larsAny (1 / 2) dataL paths after := by
  obtain ⟨m, hm, hX, -⟩ := normed
  refine C51_returns (tol := lassoTol) (lambMin := 1) (by norm_num) (by norm_num) runsLarsAny dataL wfL rfl
    (by decide) ?_ ?_ ?_
  · intro h
    have := h 2 (by simp [dataL, data]) 0 (by simp [dataL, data])
    norm_num at this
  · intro c hc
    left
    have hc' : c < 2 := hc
    have : c = 0 ∨ c = 1 := by omega
    rcases this with rfl | rfl
    · show _ ≤ goStd (colOf data.X 0)
      rw [std_A.1]; norm_num
    · show _ ≤ goStd (colOf data.X 1)
      rw [std_B.1]; norm_num
  · intro n w hn hw
    have e1 : m = n := Option.some.inj (hm.symm.trans hn)
    have e2 : ys = w :=
      (List.map_injective_iff.2 (fun a b hab => by cases hab; rfl)) ((norm_y.symm.trans hw : ys.map Fl.fin = w.map Fl.fin))
    subst e1
    subst e2
    refine ⟨⟨1, by decide, by rw [(xy hX).2]; norm_num⟩, ?_⟩
    intro M cols h1 h2 h3 h4
    exact larsAny_some hX h1 h2 h3 h4

example : ∃ n w raw, newNormalizedData dataL.X dataL.Y = some n ∧ normalizeArray dataL.Y = w.map .fin ∧
    Spec.Rounds larsAny (1 / 2) n.X w [0, 1] raw := by
  obtain ⟨paths, after, h⟩ := returnsL
  obtain ⟨n, w, raw, h1, h2, h3, -⟩ := C50_rounds_partial runsLarsAny dataL wfL (by decide) rfl paths after h
  exact ⟨n, w, raw, h1, h2, h3⟩

/-- Four normalised columns: one round is not enough. -/
noncomputable def data4 : Dataset ℝ :=
  ⟨⟨5, 4, fun r c => if c = 2 then colB r else colA r⟩, ys, ["a", "b", "c", "d", "y"], 4⟩

theorem std4 (c : Nat) : goStd (colOf data4.X c) = 1 ∧ goMean (colOf data4.X c) = 0 := by
  by_cases hc : c = 2
  · have h : colOf data4.X c = [1, 1, -1, -1, 0] := by simp [colOf, data4, List.range_succ, colB, hc]
    rw [h]
    have h0 : goMean [1, 1, -1, -1, 0] = 0 := by norm_num [goMean]
    refine ⟨?_, h0⟩
    unfold goStd
    simp only [h0]
    norm_num
  · have h : colOf data4.X c = [1, -1, 1, -1, 0] := by simp [colOf, data4, List.range_succ, colA, hc]
    rw [h]
    have h0 : goMean [1, -1, 1, -1, 0] = 0 := by norm_num [goMean]
    refine ⟨?_, h0⟩
    unfold goStd
    simp only [h0]
    norm_num

theorem inv4 : NestedInv data4 data4.X ys data4 (List.range 4) := by
  refine ⟨⟨rfl, by decide, by decide, by decide, rfl⟩, ⟨by decide, fun c _ => ⟨(std4 c).2, .inl (std4 c).1⟩, rfl, ?_, ?_⟩, rfl,
    ⟨rfl, by simp [data4], fun r _ k hk => by simp⟩, rfl, fun v hv => List.mem_range.1 hv, fun k hk => by simp⟩
  · norm_num [data4, ys, mean]
  · norm_num [data4, ys, variance, mean]

/-- Two columns equal to `colA`: `LassoLars` still returns. -/
theorem larsAny4 (M : Mat ℝ) (cols : List Nat) (hn : cols.Nodup) (hne : cols ≠ []) (hc : ∀ v ∈ cols, v < 4)
    (hM : Spec.Restricts M data4.X cols) : ∃ path, larsAny M ys = some path := by
  have key : ∃ path est, LarsReturns M (fun r => ys.getD r 0) lassoTol 1 est path := by
    have hpos : 0 < cols.length := List.length_pos_iff.2 hne
    have hnc := hM.nc
    have hnr : M.nr = 5 := hM.nr
    have hget : ∀ r < 5, ∀ k (hk : k < cols.length), M.get r k = if cols[k] = 2 then colB r else colA r :=
      fun r hr k hk => hM.get r hr k hk
    by_cases h2 : 2 ∈ cols
    · obtain ⟨f, hf, e⟩ := List.mem_iff_getElem.1 h2
      refine ⟨_, _, lars_path' (f := f) ⟨hnr, by omega, ?_, ?_⟩⟩
      · intro r hr
        rw [hget r hr f hf, if_pos e]
      · intro c hc' hcf r hr
        have hcl : c < cols.length := by omega
        rw [hget r hr c hcl, if_neg]
        intro e'
        exact hcf ((List.Nodup.getElem_inj_iff hn).1 (e'.trans e.symm))
    · refine ⟨[], fun _ _ _ => none, C63_empty _ _ _ _ (by omega) (by omega) _ (by norm_num) ?_⟩
      intro i hi
      have hil : i < cols.length := by omega
      have h0 : cols[i] ≠ 2 := fun e => h2 (e ▸ List.getElem_mem hil)
      have : larsXy M (fun r => ys.getD r 0) i = 0 := by
        unfold larsXy
        rw [hnr]
        simp only [Finset.sum_range_succ, Finset.sum_range_zero]
        rw [hget 0 (by omega) i hil, hget 1 (by omega) i hil, hget 2 (by omega) i hil, hget 3 (by omega) i hil,
          hget 4 (by omega) i hil]
        simp only [if_neg h0]
        norm_num [ys, colA]
      rw [this]
      norm_num
  unfold larsAny
  rw [dif_pos key]
  exact ⟨_, rfl⟩

/-- The hypotheses of `C51_shrinks`: a first round that is followed by a second one. -/
example : ∃ s', nestedBody larsAny (4 / 5) data4 ⟨data4, []⟩ = .next s' ∧ s'.cur.X.nc < 4 := by
  have hwf : WellFormed data4 := inv4.wf
  have hxy : larsXy data4.X (fun r => ys.getD r 0) 2 = 4 := by
    unfold larsXy
    simp only [data4, Finset.sum_range_succ, Finset.sum_range_zero]
    norm_num [ys, colB]
  obtain ⟨path, -, -, hp, -⟩ := nested_no_panic (keep := 4 / 5) (s := ⟨data4, []⟩) (by norm_num) runsLarsAny hwf
    (fun c _ => .inl (std4 c).1) (larsAny4 _ _ List.nodup_range (by decide) inv4.range inv4.restricts) inv4
    List.nodup_range ⟨2, by decide, by rw [hxy]; norm_num⟩
  have hnum : nestedNum (4 / 5) 4 = 3 := by
    unfold nestedNum goInt
    rw [if_pos (by norm_num)]
    rw [Int.floor_eq_iff]
    norm_num
  rcases nested_round (keep := 4 / 5) (s := ⟨data4, []⟩) runsLarsAny hwf inv4 with h | ⟨path', -, -, ⟨h, -⟩ | ⟨-, cur, h, -⟩⟩
  · exact absurd h hp
  · rw [List.length_range, hnum] at h
    norm_num at h
  · exact ⟨_, h, (C51_shrinks runsLarsAny (by norm_num) data4 _ _ h).1⟩

end NestedExample

/-- **C50 is false in general.** The target is the first column.  `LassoLars` selects feature 1, named "b";
`NestedLasso` reports feature 0, named "a". -/
theorem C50_refuted : ∃ (data : Dataset ℝ) (lars : Mat ℝ → List ℝ → Option (List (LassoLarsNode ℝ)))
    (n : NormalizedData) (w : List ℝ) (path : List (LassoLarsNode ℝ)) (paths : List (List (LassoLarsNode ℝ)))
    (after : Dataset ℝ),
    WellFormed data ∧ Spec.RunsLars lassoTol 1 lars ∧ newNormalizedData data.X data.Y = some n ∧
    normalizeArray data.Y = w.map .fin ∧ lars n.X w = some path ∧ path.map (·.selection) = [[1]] ∧
    NestedReturns lars (1 / 2) data paths after ∧ paths.map (fun p => p.map (·.selection)) = [[[0]]] ∧
    data.getFeatName 1 = some "b" ∧ data.getFeatName 0 = some "a" := by
  obtain ⟨n, hn, hX, -⟩ := NestedExample.normed
  obtain ⟨paths, after, h1, h2, -⟩ := NestedExample.returns
  refine ⟨NestedExample.data, NestedExample.lars, n, NestedExample.ys, NestedExample.path, paths, after,
    NestedExample.wf, NestedExample.runsLars, hn, NestedExample.norm_y, ?_, rfl, h1, h2, by decide, by decide⟩
  unfold NestedExample.lars
  rw [if_pos ⟨hX, rfl⟩]

/-- **C51 is false as stated**: the caller's matrix is overwritten. -/
theorem C51_refuted : ∃ (data : Dataset ℝ) (lars : Mat ℝ → List ℝ → Option (List (LassoLarsNode ℝ)))
    (paths : List (List (LassoLarsNode ℝ))) (after : Dataset ℝ),
    WellFormed data ∧ Spec.RunsLars lassoTol 1 lars ∧ NestedReturns lars (1 / 2) data paths after ∧
    after.X.get 0 0 ≠ data.X.get 0 0 := by
  obtain ⟨paths, after, h1, -, h3⟩ := NestedExample.returns
  refine ⟨NestedExample.data, NestedExample.lars, paths, after, NestedExample.wf, NestedExample.runsLars, h1, ?_⟩
  rw [h3]
  norm_num [NestedExample.data, NestedExample.colA]

/-- Subsets put the target last: names are mapped back. -/
example : let orig : Dataset ℚ := ⟨⟨2, 3, fun _ _ => 0⟩, [0, 0], ["y", "a", "b", "c"], 0⟩
    (orig.getSubset [2, 0]).map (·.names) = some ["c", "a", "y"] ∧
    mapSelectionByName orig ["c", "a", "y"] [0, 1] = some [2, 0] ∧
    mapSelectionByName orig orig.names [1, 2] = some [0, 1] := by
  refine ⟨?_, ?_, ?_⟩ <;> decide

end GoSelect
