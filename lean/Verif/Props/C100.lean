import Verif.Model.NestedCommand
import Verif.Props.C87_C88
import Verif.Props.C89

/-! # C100: the file of the nested lasso command. -/

namespace GoSelect

open Finset Spec

/-! ### Specification -/

/-- Sum of squared errors of sparse coefficients. -/
noncomputable def Spec.fitErrors (X : Mat ℝ) (y : List ℝ) (selection : List Nat) (coeff : List ℝ) : ℝ :=
  ∑ r ∈ range X.nr, (y.getD r 0 - sparsePredict (X.get r) selection coeff) ^ 2

/-- Sum of squared errors of sparse coefficients together with the intercept that suits them best: columns and response
are taken relative to their means. -/
noncomputable def Spec.centredErrors (X : Mat ℝ) (y : List ℝ) (selection : List Nat) (coeff : List ℝ) : ℝ :=
  ∑ r ∈ range X.nr, (y.getD r 0 - mean y -
    sparsePredict (fun c => X.get r c - mean ((List.range X.nr).map (fun r => X.get r c))) selection coeff) ^ 2

/-! ### The rounds -/

theorem sparsePredict_renumber {M D : Mat ℝ} {cols : List Nat} (h : Spec.Restricts M D cols) {r : Nat} (hr : r < D.nr)
    (sel : List Nat) (coeff : List ℝ) (hs : ∀ v ∈ sel, v < cols.length) :
    sparsePredict (M.get r) sel coeff = sparsePredict (D.get r) (sel.map (fun v => cols.getD v 0)) coeff := by
  unfold sparsePredict
  induction sel generalizing coeff with
  | nil => simp
  | cons v sel ih =>
    cases coeff with
    | nil => simp
    | cons c coeff =>
      have hv := hs v (by simp)
      simp only [List.map_cons, List.zipWith_cons_cons, List.sum_cons]
      rw [ih coeff (fun u hu => hs u (by simp [hu])), h.get r hr v hv, List.getD_eq_getElem?_getD,
        List.getElem?_eq_getElem hv]
      rfl

theorem sse_fitErrors {M : Mat ℝ} {y : List ℝ} {node : LassoLarsNode ℝ} (h : RawNode M.nc node) :
    sse M (coeffOf node) (vec y) = fitErrors M y node.selection node.coeff := by
  unfold sse fitErrors
  refine sum_congr rfl (fun r _ => ?_)
  rw [sparsePredict_eq h]
  have : vec y r = y.getD r 0 := rfl
  rw [this]
  ring

/-- The criteria of a round, for the path with the original numbers. -/
theorem roundCriteria_some {sort : List (Fl ℝ × Nat) → List (Fl ℝ × Nat)} {data cur : Dataset ℝ} {D : Mat ℝ}
    {w : List ℝ} {cols : List Nat} (h : NestedInv data D w cur cols) {path : List (LassoLarsNode ℝ)}
    (hp : ∀ m ∈ path, m.selection ≠ [] ∧ RawNode cur.X.nc m) {c : List (Fl ℝ) × List (Fl ℝ)}
    (hc : roundCriteria sort cur path = some c) :
    c = ((renumber cols path).map (fun m => withLog aicc m.selection.length D.nr (fitErrors D w m.selection m.coeff)),
      (renumber cols path).map (fun m => withLog bic m.selection.length D.nr (fitErrors D w m.selection m.coeff))) := by
  have key : ∀ crit : Nat → Nat → ℝ → ℝ, getCriteria cur.X cur.Y path (withLog crit) =
      some ((renumber cols path).map (fun m => withLog crit m.selection.length D.nr
        (fitErrors D w m.selection m.coeff))) := by
    intro crit
    rw [C68_criteria_partial cur.X cur.Y path (withLog crit) h.normal.ylen
      (fun m hm => ⟨(hp m hm).1, (hp m hm).2.sorted, (hp m hm).2.range, (hp m hm).2.coeff⟩)]
    unfold renumber
    rw [List.map_map, Option.some.injEq]
    refine List.map_congr_left (fun m hm => ?_)
    simp only [Function.comp, List.length_map]
    rw [sse_fitErrors (hp m hm).2, h.restricts.nr, h.y]
    congr 1
    unfold fitErrors
    rw [h.restricts.nr]
    refine sum_congr rfl (fun r hr => ?_)
    rw [sparsePredict_renumber h.restricts (mem_range.1 hr) _ _
      (fun v hv => by rw [← h.restricts.nc]; exact (hp m hm).2.range v hv)]
  unfold roundCriteria at hc
  rw [key, key] at hc
  simp only [Option.bind_eq_bind, Option.bind_some] at hc
  obtain ⟨rows, -, hc⟩ := Option.bind_eq_some_iff.1 hc
  exact (Option.some.inj hc).symm

/-- What is known of the nodes of a round. -/
structure RoundNode (nc : Nat) (m : LassoLarsNode ℝ) : Prop where
  nonempty : m.selection ≠ []
  range : ∀ f ∈ m.selection, f < nc
  coeff : m.coeff.length = m.selection.length

theorem nested_crits {lars : Mat ℝ → List ℝ → Option (List (LassoLarsNode ℝ))} {tol lambMin keep : ℝ}
    {sort : List (Fl ℝ × Nat) → List (Fl ℝ × Nat)}
    (hl : Spec.RunsLars tol lambMin lars) {data : Dataset ℝ} (hd : WellFormed data) {D : Mat ℝ} {w : List ℝ}
    {s : NestedState × List (List (Fl ℝ) × List (Fl ℝ))}
    {res : List (List (LassoLarsNode ℝ)) × List (List (Fl ℝ) × List (Fl ℝ))}
    (hr : Runs (nestedCritBody lars sort keep data) s res) :
    ∀ cols, NestedInv data D w s.1.cur cols → ∃ rest, res.1 = s.1.paths ++ rest ∧
      res.2 = s.2 ++ rest.map (fun p =>
        (p.map (fun m => withLog aicc m.selection.length D.nr (fitErrors D w m.selection m.coeff)),
          p.map (fun m => withLog bic m.selection.length D.nr (fitErrors D w m.selection m.coeff)))) ∧
      Spec.Rounds lars keep D w cols rest ∧ ∀ p ∈ rest, ∀ m ∈ p, RoundNode data.X.nc m := by
  have hround : ∀ (s : NestedState × List (List (Fl ℝ) × List (Fl ℝ))) cols (path : List (LassoLarsNode ℝ)) c,
      NestedInv data D w s.1.cur cols → lars s.1.cur.X w = some path → roundCriteria sort s.1.cur path = some c →
      c = ((renumber cols path).map (fun m => withLog aicc m.selection.length D.nr (fitErrors D w m.selection m.coeff)),
        (renumber cols path).map (fun m => withLog bic m.selection.length D.nr (fitErrors D w m.selection m.coeff))) ∧
      ∀ m ∈ renumber cols path, RoundNode data.X.nc m := by
    intro s cols path c h h1 hc
    obtain ⟨est, hpath⟩ := hl _ _ _ h1
    have hok := (C63_path _ _ _ _ _ _ hpath).1
    refine ⟨roundCriteria_some h (fun m hm => ⟨(hok m hm).nonempty, (hok m hm).sorted, (hok m hm).range,
      (hok m hm).coeff⟩) hc, ?_⟩
    intro m hm
    obtain ⟨m', hm', rfl⟩ := List.mem_map.1 hm
    refine ⟨?_, ?_, ?_⟩
    · simpa using (hok m' hm').nonempty
    · intro f hf
      obtain ⟨v, hv, rfl⟩ := List.mem_map.1 hf
      have hvl : v < cols.length := by rw [← h.restricts.nc]; exact (hok m' hm').range v hv
      rw [List.getD_eq_getElem?_getD, List.getElem?_eq_getElem hvl]
      exact h.range _ (List.getElem_mem hvl)
    · simpa using (hok m' hm').coeff
  induction hr with
  | @ret s r hb =>
    intro cols h
    unfold nestedCritBody at hb
    split at hb
    · cases hb
    rename_i c hc
    obtain ⟨path', hp', hc⟩ := Option.bind_eq_some_iff.1 hc
    rw [h.y] at hp'
    rcases nested_round (keep := keep) hl hd h with hp | ⟨path, h1, -, ⟨h2, h3⟩ | ⟨h2, cur, h3, h4⟩⟩
    · rw [hp] at hb; cases hb
    · rw [h3] at hb
      cases hb
      rw [h1, Option.some.injEq] at hp'
      subst hp'
      obtain ⟨e, hn⟩ := hround s cols path c h h1 hc
      exact ⟨[renumber cols path], rfl, by rw [e]; rfl, .last cols _ path h.restricts h1 h2, by simpa using hn⟩
    · rw [h3] at hb; cases hb
  | @next s s' r hb _ ih =>
    intro cols h
    unfold nestedCritBody at hb
    split at hb
    · cases hb
    rename_i c hc
    obtain ⟨path', hp', hc⟩ := Option.bind_eq_some_iff.1 hc
    rw [h.y] at hp'
    rcases nested_round (keep := keep) hl hd h with hp | ⟨path, h1, -, ⟨h2, h3⟩ | ⟨h2, cur, h3, h4⟩⟩
    · rw [hp] at hb; cases hb
    · rw [h3] at hb; cases hb
    · rw [h3] at hb
      cases hb
      rw [h1, Option.some.injEq] at hp'
      subst hp'
      obtain ⟨e, hn⟩ := hround s cols path c h h1 hc
      obtain ⟨rest, e1, e2, e3, e4⟩ := ih _ h4
      refine ⟨renumber cols path :: rest, ?_, ?_, .more cols _ path rest h.restricts h1 h2 e3, ?_⟩
      · rw [e1]; simp
      · rw [e2, e]; simp
      · intro p hp
        rcases List.mem_cons.1 hp with rfl | hp
        · exact hn
        · exact e4 p hp

/-! ### Units of the data as read -/

theorem stdY_ne {Y w : List ℝ} (hY : Y ≠ []) (h : normalizeArray Y = w.map .fin) : goStd Y ≠ 0 ∧
    ∀ r < Y.length, w.getD r 0 = (Y.getD r 0 - goMean Y) / goStd Y := by
  have e : ∀ r (hr : r < Y.length), ∃ v, w[r]? = some v ∧ Fl.divFin (Y[r] - goMean Y) (goStd Y) = .fin v := by
    intro r hr
    have e := congrArg (fun l => l[r]?) h
    simp only [normalizeArray, List.getElem?_map, List.getElem?_eq_getElem hr, Option.map_some] at e
    rw [eq_comm, Option.map_eq_some_iff] at e
    obtain ⟨v, h1, h2⟩ := e
    exact ⟨v, h1, h2.symm⟩
  have hne : goStd Y ≠ 0 := by
    intro h0
    obtain ⟨v, -, e⟩ := e 0 (List.length_pos_iff.2 hY)
    unfold Fl.divFin at e
    rw [if_pos h0] at e
    split at e
    · cases e
    · split at e <;> cases e
  refine ⟨hne, fun r hr => ?_⟩
  obtain ⟨v, h1, h2⟩ := e r hr
  unfold Fl.divFin at h2
  rw [if_neg hne, Fl.fin.injEq] at h2
  rw [List.getD_eq_getElem?_getD, h1, List.getD_eq_getElem?_getD, List.getElem?_eq_getElem hr, ← h2]
  rfl

/-- Errors in normalised units are errors with an intercept, divided by the variance of the response. -/
theorem fitErrors_centred (X : Mat ℝ) (Y w : List ℝ) (n : NormalizedData) (hn : newNormalizedData X Y = some n)
    (hY : Y.length = X.nr) (hnr : 0 < X.nr) (hw : normalizeArray Y = w.map .fin)
    (hcol : Constant (colOf X 0) ∨ 1 / 10 ^ 10 ≤ goStd (colOf X 0)) (node node' : LassoLarsNode ℝ)
    (hr : RoundNode X.nc node) (hu : unnormalizeNode n node = some node') :
    fitErrors n.X w node.selection node.coeff = centredErrors X Y node'.selection node'.coeff / variance Y := by
  have hY0 : Y ≠ [] := by
    intro e
    rw [e] at hY
    simp at hY
    omega
  obtain ⟨hstd, hwr⟩ := stdY_ne hY0 hw
  have hlen := (normalizeArray_fin hY0 hw).1
  have hvar : goStd Y ^ 2 = variance Y := by
    rw [goStd_eq Y hlen, Real.sq_sqrt]
    have := Real.sqrt_ne_zero'.1 (by rw [goStd_eq Y hlen] at hstd; exact hstd)
    exact this.le
  rcases newNormalizedData_inv X Y with ⟨-, h1⟩ | ⟨d', h1, h2, h3, h4, h5⟩
  · rw [hn] at h1; simp at h1
  rw [hn, Option.some.injEq] at h1
  subst h1
  unfold unnormalizeNode at hu
  cases hb : linearTransformationBias n node.selection node.coeff with
  | none => rw [hb] at hu; simp at hu
  | some bias =>
    rw [hb] at hu
    simp only at hu
    cases hul : unnormLoop n node.selection 0 node.coeff with
    | none => rw [hul] at hu; simp at hu
    | some out =>
      rw [hul] at hu
      simp only at hu
      obtain ⟨ho, hz⟩ := unnormLoop_some n node.selection 0 [] node.coeff out rfl (by simpa using hul)
        (by rw [hr.coeff])
      rw [List.nil_append, List.drop_of_length_le (by rw [hr.coeff]), List.append_nil] at ho
      have hg : ∀ r < X.nr, ∀ v ∈ node.selection,
          n.X.get r v = (X.get r v - mean (colOf X v)) / n.std.getD v 0 ∧ n.std.getD v 0 ≠ 0 := by
        intro r hlt v hv
        have hv' := hr.range v hv
        have hs : 1 / 10 ^ 10 ≤ goStd (colOf X v) := by
          rw [← not_lt]
          intro hlt
          by_cases h0 : v = 0
          · subst h0
            exact hz 0 hv ⟨rfl, h2.bias.2 ⟨by omega, hlt⟩⟩
          · exact absurd (h2.later v hv' h0) (not_le.2 hlt)
        rw [h2.done r v hv' hlt, List.getD_eq_getElem?_getD, h2.std v hv', Option.getD_some, if_neg (not_lt.2 hs),
          goMean_eq]
        exact ⟨rfl, (lt_of_lt_of_le (by norm_num) hs).ne'⟩
      have hpred : ∀ r < X.nr, sparsePredict (fun c => X.get r c - mean (colOf X c)) node.selection out =
          n.stdY * sparsePredict (n.X.get r) node.selection node.coeff := by
        intro r hlt
        rw [ho]
        have hg' := hg r hlt
        clear hul ho hz hb hg
        have hc : ∀ (sel : List Nat) (coeff : List ℝ), (∀ v ∈ sel, n.X.get r v =
            (X.get r v - mean (colOf X v)) / n.std.getD v 0 ∧ n.std.getD v 0 ≠ 0) →
            sparsePredict (fun c => X.get r c - mean (colOf X c)) sel
              (List.zipWith (fun s c => c * n.stdY / n.std.getD s 0) sel coeff) =
            n.stdY * sparsePredict (n.X.get r) sel coeff := by
          intro sel
          induction sel with
          | nil => intro coeff _; simp [sparsePredict]
          | cons v sel ih =>
            intro coeff h
            cases coeff with
            | nil => simp [sparsePredict]
            | cons c coeff =>
              have h1 := ih coeff (fun u hu => h u (by simp [hu]))
              obtain ⟨h2, h3⟩ := h v (by simp)
              unfold sparsePredict at h1 ⊢
              simp only [List.zipWith_cons_cons, List.sum_cons]
              rw [h1, h2, mul_add]
              congr 1
              field_simp
        exact hc _ _ hg'
      have hpred' : ∀ r < X.nr, sparsePredict (fun c => X.get r c - mean (colOf X c)) node'.selection node'.coeff =
          n.stdY * sparsePredict (n.X.get r) node.selection node.coeff := by
        intro r hlt
        rw [← hpred r hlt]
        by_cases hbias : n.hasBias = true
        · rw [if_pos hbias, Option.some.injEq] at hu
          subst hu
          have hlt0 := (h2.bias.1 hbias).2
          have hc := hcol.resolve_right (not_le.2 hlt0)
          have hx : X.get r 0 - mean (colOf X 0) = 0 := by
            have hall : ∀ x ∈ colOf X 0, x = X.get r 0 := fun x hx =>
              hc x hx _ (List.mem_map.2 ⟨r, List.mem_range.2 hlt, rfl⟩)
            have hrep : colOf X 0 = List.replicate X.nr (X.get r 0) := by
              rw [List.eq_replicate_iff]
              exact ⟨by simp [colOf], hall⟩
            rw [hrep]
            unfold mean
            rw [List.sum_replicate, List.length_replicate, nsmul_eq_mul]
            have : (X.nr : ℝ) ≠ 0 := by exact_mod_cast hnr.ne'
            field_simp
            ring
          unfold sparsePredict
          simp only [List.zipWith_cons_cons, List.sum_cons, hx, mul_zero, zero_add]
        · rw [if_neg hbias, Option.some.injEq] at hu
          subst hu
          rfl
      have hstd2 : variance Y ≠ 0 := by rw [← hvar]; exact pow_ne_zero 2 hstd
      rw [eq_div_iff hstd2, ← hvar]
      unfold fitErrors centredErrors
      rw [h2.nr, sum_mul]
      refine sum_congr rfl (fun r hr' => ?_)
      have hlt := mem_range.1 hr'
      have e : (fun c => X.get r c - mean ((List.range X.nr).map (fun r => X.get r c))) =
          (fun c => X.get r c - mean (colOf X c)) := rfl
      rw [e, hpred' r hlt, hwr r (by omega), h4, ← goMean_eq]
      field_simp

/-! ### The command -/

theorem morseLars_some {svd : Mat ℝ → SVD ℝ} {lambMin : ℝ} {X : Mat ℝ} {y : List ℝ} {path : List (LassoLarsNode ℝ)} :
    morseLars svd lambMin X y = some path ↔ LarsReturns X (fun r => y.getD r 0) lassoTol lambMin (morseEst svd X y) path := by
  unfold morseLars
  constructor
  · intro h
    split at h
    · rename_i hex
      cases h
      exact hex.choose_spec
    · cases h
  · intro h
    have hex : ∃ path, LarsReturns X (fun r => y.getD r 0) lassoTol lambMin (morseEst svd X y) path := ⟨path, h⟩
    rw [dif_pos hex, Option.some.injEq]
    obtain ⟨s, h1, h2⟩ := h
    obtain ⟨s', h1', h2'⟩ := hex.choose_spec
    rw [h1, Option.some.injEq] at h1'
    subst h1'
    exact h2'.unique h2

theorem morseLars_runs (svd : Mat ℝ → SVD ℝ) (lambMin : ℝ) : Spec.RunsLars lassoTol lambMin (morseLars svd lambMin) :=
  fun _ _ _ h => ⟨_, morseLars_some.1 h⟩

/-- The result of `NestedLasso` in terms of the rounds in normalised units. -/
theorem nestedCommand_rounds {svd : Mat ℝ → SVD ℝ} {sort : List (Fl ℝ × Nat) → List (Fl ℝ × Nat)} {lambMin keep : ℝ}
    {dset : Dataset ℝ} (hd : WellFormed dset) (hnr : 0 < dset.X.nr) (ht : dset.targetCol = dset.X.nc)
    {res : NestedFile} {out : Option NestedFile} (h : NestedCommand svd sort lambMin keep dset res out) :
    ∃ n w raw, newNormalizedData dset.X dset.Y = some n ∧ normalizeArray dset.Y = w.map .fin ∧
      res.dset = ⟨n.X, w, dset.names, dset.targetCol⟩ ∧
      Spec.Rounds (morseLars svd lambMin) keep n.X w (List.range dset.X.nc) raw ∧ raw.length = res.paths.length ∧
      ∀ (k : Nat) (p : NestedPath), res.paths[k]? = some p → ∃ q, raw[k]? = some q ∧ path2Unnormalized n q = some p.nodes ∧
        (∀ m ∈ q, RoundNode dset.X.nc m) ∧
        p.aicc = q.map (fun m => withLog aicc m.selection.length dset.X.nr (fitErrors n.X w m.selection m.coeff)) ∧
        p.bic = q.map (fun m => withLog bic m.selection.length dset.X.nr (fitErrors n.X w m.selection m.coeff)) := by
  obtain ⟨⟨n0, cur, raw, crits, n, paths, h1, h2, h3, h4, h5⟩, -⟩ := h
  obtain ⟨g1, g2, g3⟩ := nested_init hd hnr ht h1
  obtain ⟨rest, e1, e2, hr, hn⟩ := nested_crits (morseLars_runs svd lambMin) hd h2 _ g3
  simp only [List.nil_append] at e1 e2
  subst e1
  obtain ⟨k1, k2, k3, k4, k5, -⟩ := normalizeInPlace_some hnr hd.y h3
  rw [g1, Option.some.injEq] at k1
  subst k1
  have hw : cur.Y = res.dset.Y := by
    rw [g2] at k2
    exact List.map_injective_iff.2 (fun a b hab => by cases hab; rfl) k2
  have hnrn : n0.X.nr = dset.X.nr := by
    rcases newNormalizedData_inv dset.X dset.Y with ⟨-, e⟩ | ⟨d', e, e', -⟩
    · rw [g1] at e; simp at e
    rw [g1, Option.some.injEq] at e
    subst e
    exact e'.nr
  have hlen := mapM_length h4
  refine ⟨n0, cur.Y, raw, g1, g2, ?_, hr, ?_, ?_⟩
  · cases hres : res.dset
    rw [hres] at k3 k4 k5 hw
    simp only at k3 k4 k5 hw
    rw [k3, k4, k5, hw]
  · rw [h5, List.length_zipWith, e2, List.length_map, hlen, Nat.min_self]
  · intro k p hp
    rw [h5, List.getElem?_zipWith] at hp
    have hk : k < raw.length := by
      by_contra hk
      rw [List.getElem?_eq_none (by omega)] at hp
      simp at hp
    have hk' : k < paths.length := by omega
    rw [List.getElem?_eq_getElem hk', e2, List.getElem?_map, List.getElem?_eq_getElem hk] at hp
    simp only [Option.map_some, Option.some.injEq] at hp
    subst hp
    refine ⟨raw[k], List.getElem?_eq_getElem hk, mapM_getElem h4 k hk, hn _ (List.getElem_mem hk), ?_, ?_⟩
    · simp only [hnrn]
    · simp only [hnrn]

open Classical in
/-- The column that stands for the intercept is not counted. -/
noncomputable def Spec.numSlopes (X : Mat ℝ) (selection : List Nat) : Nat :=
  selection.length - if Constant ((List.range X.nr).map (fun r => X.get r 0)) then 1 else 0

theorem nestedCommand_criteria {svd : Mat ℝ → SVD ℝ} {sort : List (Fl ℝ × Nat) → List (Fl ℝ × Nat)} {lambMin keep : ℝ}
    {dset : Dataset ℝ} (hd : WellFormed dset) (hnr : 0 < dset.X.nr) (hnc : 0 < dset.X.nc)
    (ht : dset.targetCol = dset.X.nc) (hcol : Constant (colOf dset.X 0) ∨ 1 / 10 ^ 10 ≤ goStd (colOf dset.X 0))
    {res : NestedFile} {out : Option NestedFile} (h : NestedCommand svd sort lambMin keep dset res out) :
    ∀ p ∈ res.paths,
      p.aicc = p.nodes.map (fun m => withLog aicc (numSlopes dset.X m.selection) dset.X.nr
        (centredErrors dset.X dset.Y m.selection m.coeff / variance dset.Y)) ∧
      p.bic = p.nodes.map (fun m => withLog bic (numSlopes dset.X m.selection) dset.X.nr
        (centredErrors dset.X dset.Y m.selection m.coeff / variance dset.Y)) := by
  obtain ⟨n, w, raw, h1, h2, -, -, -, h3⟩ := nestedCommand_rounds hd hnr ht h
  intro p hp
  obtain ⟨k, hk, rfl⟩ := List.mem_iff_getElem.1 hp
  obtain ⟨q, -, hq, hrn, ha, hb⟩ := h3 k _ (List.getElem?_eq_getElem hk)
  have key : ∀ crit : Nat → Nat → ℝ → ℝ,
      q.map (fun m => withLog crit m.selection.length dset.X.nr (fitErrors n.X w m.selection m.coeff)) =
      (res.paths[k]).nodes.map (fun m => withLog crit (numSlopes dset.X m.selection) dset.X.nr
        (centredErrors dset.X dset.Y m.selection m.coeff / variance dset.Y)) := by
    intro crit
    have hlen := mapM_length hq
    apply List.ext_getElem (by simp [hlen])
    intro i hi hi'
    simp only [List.getElem_map]
    rw [List.length_map] at hi hi'
    have hu : unnormalizeNode n q[i] = some (res.paths[k]).nodes[i] := mapM_getElem hq i hi
    have hr := hrn _ (List.getElem_mem hi)
    rw [fitErrors_centred dset.X dset.Y w n h1 hd.y hnr h2 hcol _ _ hr hu]
    congr 1
    obtain ⟨-, -, s1, s2⟩ := unnormalizeNode_shape hr.coeff hu
    have hbias := C48_bias dset.X dset.Y hnc n h1
    unfold numSlopes
    by_cases hc : Constant (colOf dset.X 0)
    · rw [(s1 (hbias.2 hc).1).1]
      have hc' : Constant ((List.range dset.X.nr).map (fun r => dset.X.get r 0)) := hc
      rw [if_pos hc', List.length_cons, Nat.add_sub_cancel]
    · have hc' : ¬ Constant ((List.range dset.X.nr).map (fun r => dset.X.get r 0)) := hc
      have hb : n.hasBias = false := by
        rw [Bool.eq_false_iff]
        exact fun hb => absurd (hbias.1.1 hb) (not_lt.2 (hcol.resolve_left hc))
      rw [s2 hb, if_neg hc', Nat.sub_zero]
  exact ⟨by rw [ha, key], by rw [hb, key]⟩

theorem centred_nonneg (X : Mat ℝ) (y : List ℝ) (sel : List Nat) (coeff : List ℝ) : 0 ≤ centredErrors X y sel coeff :=
  sum_nonneg (fun _ _ => sq_nonneg _)

/-- C100: the data set in the file is the normalised one: mean 0 and standard deviation 1. -/
theorem C100_data (svd : Mat ℝ → SVD ℝ) (sort : List (Fl ℝ × Nat) → List (Fl ℝ × Nat)) (lambMin keep : ℝ)
    (dset : Dataset ℝ) (hd : WellFormed dset) (hnr : 0 < dset.X.nr) (res : NestedFile) (out : Option NestedFile)
    (h : NestedCommand svd sort lambMin keep dset res out) :
    res.dset.names = dset.names ∧ res.dset.targetCol = dset.targetCol ∧ res.dset.X.nr = dset.X.nr ∧
    res.dset.X.nc = dset.X.nc ∧ res.dset.Y.length = dset.Y.length ∧
    (∀ r < dset.X.nr, res.dset.Y.getD r 0 = (dset.Y.getD r 0 - mean dset.Y) / Real.sqrt (variance dset.Y)) ∧
    ∀ c < dset.X.nc, let col := (List.range dset.X.nr).map (fun r => dset.X.get r c)
      ∀ r < dset.X.nr, res.dset.X.get r c = (dset.X.get r c - mean col) /
        (if Real.sqrt (variance col) < 1 / 10 ^ 10 then 1 else Real.sqrt (variance col)) := by
  obtain ⟨⟨n0, cur, raw, crits, n, paths, h1, h2, h3, h4, h5⟩, -⟩ := h
  obtain ⟨k1, k2, k3, k4, k5, k6, k7, -⟩ := normalizeInPlace_some hnr hd.y h3
  have hY0 : dset.Y ≠ [] := by
    intro e
    have := hd.y
    rw [e] at this
    simp at this
    omega
  obtain ⟨l1, l2, -, -⟩ := normalizeArray_fin hY0 k2
  have hy := hd.y
  refine ⟨k4, k5, k6, k7, l2, ?_, ?_⟩
  · intro r hr
    rw [(stdY_ne hY0 k2).2 r (by omega), goMean_eq, goStd_eq _ l1]
  · intro c hc col r hr
    rcases newNormalizedData_inv dset.X dset.Y with ⟨-, e⟩ | ⟨d', e, e', -⟩
    · rw [k1] at e; simp at e
    rw [k1, Option.some.injEq] at e
    subst e
    have e2 : colOf dset.X c = col := rfl
    rw [k3, e'.done r c hc hr, goMean_eq, e2, goStd_eq col (by simp [col]; omega)]

/-- C100: what the criteria in the file are.  Each belongs to the reported coefficients together with the best
intercept, on the data as read, with the errors divided by the variance of the response; the intercept is not counted
as a coefficient.  The target is the last column; the first column is constant or has a standard deviation of at least
`1e-10`.  Missing: agreement with the coefficients and the data in the file, which is false (`C100_refuted`). -/
theorem C100_criteria_partial (svd : Mat ℝ → SVD ℝ) (sort : List (Fl ℝ × Nat) → List (Fl ℝ × Nat)) (lambMin keep : ℝ)
    (dset : Dataset ℝ) (hd : WellFormed dset) (hnr : 0 < dset.X.nr) (hnc : 0 < dset.X.nc)
    (ht : dset.targetCol = dset.X.nc) (hcol : Constant (colOf dset.X 0) ∨ 1 / 10 ^ 10 ≤ goStd (colOf dset.X 0))
    (res file : NestedFile) (h : NestedCommand svd sort lambMin keep dset res (some file)) :
    file = res ∧ ∀ p ∈ file.paths,
      p.aicc = p.nodes.map (fun m => .fin (savedAicc (numSlopes dset.X m.selection) dset.X.nr
        (centredErrors dset.X dset.Y m.selection m.coeff / variance dset.Y))) ∧
      p.bic = p.nodes.map (fun m => .fin (savedBic (numSlopes dset.X m.selection) dset.X.nr
        (centredErrors dset.X dset.Y m.selection m.coeff / variance dset.Y))) := by
  have hc := nestedCommand_criteria hd hnr hnc ht hcol h
  obtain ⟨-, hout⟩ := h
  split at hout
  · rename_i hall
    rw [Option.some.injEq] at hout
    subst hout
    refine ⟨rfl, fun p hp => ?_⟩
    obtain ⟨ha, hb⟩ := hc p hp
    have hall' := List.all_eq_true.1 hall p hp
    rw [List.all_append, Bool.and_eq_true, ha, hb] at hall'
    have hpos : ∀ m ∈ p.nodes, 0 < centredErrors dset.X dset.Y m.selection m.coeff / variance dset.Y := by
      intro m hm
      have h1 := List.all_eq_true.1 hall'.1 _ (List.mem_map.2 ⟨m, hm, rfl⟩)
      unfold withLog at h1
      by_contra hle
      rw [if_neg hle] at h1
      split at h1 <;> simp [Fl.isFin] at h1
    constructor
    · rw [ha]
      refine List.map_congr_left (fun m hm => ?_)
      rw [withLog, if_pos (hpos m hm), savedAicc_eq]
    · rw [hb]
      refine List.map_congr_left (fun m hm => ?_)
      rw [withLog, if_pos (hpos m hm), bic, savedBic, add_comm]
  · cases hout

/-- C100: no file is written exactly when a node fits the response exactly, up to an intercept. -/
theorem C100_written (svd : Mat ℝ → SVD ℝ) (sort : List (Fl ℝ × Nat) → List (Fl ℝ × Nat)) (lambMin keep : ℝ)
    (dset : Dataset ℝ) (hd : WellFormed dset) (hnr : 0 < dset.X.nr) (hnc : 0 < dset.X.nc)
    (ht : dset.targetCol = dset.X.nc) (hcol : Constant (colOf dset.X 0) ∨ 1 / 10 ^ 10 ≤ goStd (colOf dset.X 0))
    (res : NestedFile) (out : Option NestedFile) (h : NestedCommand svd sort lambMin keep dset res out) :
    out = none ↔ ∃ p ∈ res.paths, ∃ m ∈ p.nodes, centredErrors dset.X dset.Y m.selection m.coeff = 0 := by
  have hc := nestedCommand_criteria hd hnr hnc ht hcol h
  have hvar : 0 < variance dset.Y := by
    obtain ⟨n, w, raw, -, h2, -⟩ := nestedCommand_rounds hd hnr ht h
    have hY0 : dset.Y ≠ [] := by
      intro e
      have := hd.y
      rw [e] at this
      simp at this
      omega
    have h3 := (stdY_ne hY0 h2).1
    rw [goStd_eq _ (normalizeArray_fin hY0 h2).1] at h3
    exact Real.sqrt_ne_zero'.1 h3
  obtain ⟨-, hout⟩ := h
  have hiff : res.paths.all (fun p => (p.aicc ++ p.bic).all Fl.isFin) = true ↔
      ∀ p ∈ res.paths, ∀ m ∈ p.nodes, 0 < centredErrors dset.X dset.Y m.selection m.coeff := by
    rw [List.all_eq_true]
    refine forall₂_congr (fun p hp => ?_)
    obtain ⟨ha, hb⟩ := hc p hp
    rw [ha, hb]
    simp only [List.all_append, List.all_map, Bool.and_eq_true, List.all_eq_true, Function.comp,
      withLog_fin (div_nonneg (centred_nonneg _ _ _ _) hvar.le), and_self]
    refine forall₂_congr (fun m _ => ?_)
    rw [div_pos_iff_of_pos_right hvar]
  rw [hout]
  split
  · rename_i hall
    rw [hiff] at hall
    refine iff_of_false (by simp) ?_
    rintro ⟨p, hp, m, hm, h0⟩
    exact absurd h0 (hall p hp m hm).ne'
  · rename_i hall
    rw [hiff] at hall
    push_neg at hall
    obtain ⟨p, hp, m, hm, hle⟩ := hall
    exact iff_of_true rfl ⟨p, hp, m, hm, le_antisymm hle (centred_nonneg _ _ _ _)⟩

theorem critBody_runs {lars : Mat ℝ → List ℝ → Option (List (LassoLarsNode ℝ))} {keep : ℝ}
    {sort : List (Fl ℝ × Nat) → List (Fl ℝ × Nat)} {data : Dataset ℝ}
    {s : NestedState × List (List (Fl ℝ) × List (Fl ℝ))}
    {res : List (List (LassoLarsNode ℝ)) × List (List (Fl ℝ) × List (Fl ℝ))}
    (hr : Runs (nestedCritBody lars sort keep data) s res) : Runs (nestedBody lars keep data) s.1 res.1 := by
  induction hr with
  | @ret s r hb =>
    unfold nestedCritBody at hb
    split at hb
    · cases hb
    split at hb <;> cases hb
    exact .ret ‹_›
  | @next s s' r hb _ ih =>
    unfold nestedCritBody at hb
    split at hb
    · cases hb
    split at hb <;> cases hb
    exact .next ‹_› ih

/-- C100: the number of paths in a file written with the default fraction 0.8 is at most one more than the logarithm of
a third of the number of features, to the base 5/4. -/
theorem C100_default_paths (svd : Mat ℝ → SVD ℝ) (sort : List (Fl ℝ × Nat) → List (Fl ℝ × Nat)) (lambMin : ℝ) (dset : Dataset ℝ)
    (hd : WellFormed dset) (hnr : 0 < dset.X.nr) (ht : dset.targetCol = dset.X.nc) (res : NestedFile)
    (out : Option NestedFile) (h : NestedCommand svd sort lambMin nestedDefaults.2 dset res out) :
    ∃ k, res.paths.length = k + 1 ∧ (0 < k → 3 * (5 / 4 : ℝ) ^ k ≤ dset.X.nc) := by
  obtain ⟨⟨n0, cur, raw', crits, n', paths, h1, h2, h3, h4, h5⟩, -⟩ := h
  have hk : nestedDefaults.2 = 4 / 5 := rfl
  obtain ⟨k, e1, e2⟩ := C51_count (morseLars_runs svd lambMin) (by rw [hk]; norm_num)
    (by rw [hk]; norm_num) dset hd hnr paths res.dset ⟨n0, cur, raw', n', h1, critBody_runs h2, h3, h4⟩
  obtain ⟨-, -, g3⟩ := nested_init hd hnr ht h1
  obtain ⟨rest, r1, r2, -, -⟩ := nested_crits (morseLars_runs svd lambMin) hd h2 _ g3
  simp only [List.nil_append] at r1 r2
  refine ⟨k, ?_, fun hk0 => ?_⟩
  · rw [h5, List.length_zipWith, r2, List.length_map, ← r1, ← mapM_length h4, Nat.min_self, e1]
  · have e := e2 hk0
    rw [hk] at e
    have hp : (0 : ℝ) < (5 / 4) ^ k := by positivity
    have he : (5 / 4 : ℝ) ^ k * (4 / 5) ^ k = 1 := by rw [← mul_pow]; norm_num
    nlinarith [mul_le_mul_of_nonneg_left e hp.le]

theorem rounds_lars {lars : Mat ℝ → List ℝ → Option (List (LassoLarsNode ℝ))} {keep : ℝ} {D : Mat ℝ} {w : List ℝ}
    {cols : List Nat} {raw : List (List (LassoLarsNode ℝ))} (h : Spec.Rounds lars keep D w cols raw) :
    ∀ q ∈ raw, ∃ M cols' path, Spec.Restricts M D cols' ∧ lars M w = some path ∧ q = renumber cols' path := by
  induction h with
  | last cols M path hM hp hn =>
    intro q hq
    rw [List.mem_singleton] at hq
    exact ⟨M, cols, path, hM, hp, hq⟩
  | more cols M path rest hM hp hn hr ih =>
    intro q hq
    rcases List.mem_cons.1 hq with rfl | hq
    · exact ⟨M, cols, path, hM, hp, rfl⟩
    · exact ih q hq

/-- C100: a file is always written: as long as the regularisation is positive the residual correlates with the selected
columns.  The decompositions of the selected columns are exact and not truncated. -/
theorem C100_always (svd : Mat ℝ → SVD ℝ) (sort : List (Fl ℝ × Nat) → List (Fl ℝ × Nat)) (lambMin keep : ℝ)
    (dset : Dataset ℝ) (hd : WellFormed dset) (hnr : 0 < dset.X.nr) (hnc : 0 < dset.X.nc)
    (ht : dset.targetCol = dset.X.nc) (hcol : Constant (colOf dset.X 0) ∨ 1 / 10 ^ 10 ≤ goStd (colOf dset.X 0))
    (hmin : 0 ≤ lambMin) (res : NestedFile) (out : Option NestedFile)
    (h : NestedCommand svd sort lambMin keep dset res out)
    (hsvd : ∀ p ∈ res.paths, ∀ m ∈ p.nodes, ∀ (E : List Nat) (A : Mat ℝ),
      (m.selection = E ∨ m.selection = 0 :: E) → A.nr = dset.X.nr → A.nc = E.length →
      (∀ r < dset.X.nr, ∀ k < E.length, A.get r k = res.dset.X.get r (E.getD k 0)) → numSlopes dset.X m.selection = E.length →
      (svd A).Of A ∧ E.length ≤ dset.X.nr ∧ ∀ k, k < (svd A).p → 1 / 10 ^ 6 < (svd A).s k * (svd A).s k) :
    out = some res := by
  have hw := C100_written svd sort lambMin keep dset hd hnr hnc ht hcol res out h
  obtain ⟨n, w, raw, h1, h2, hds, hrounds, -, h3⟩ := nestedCommand_rounds hd hnr ht h
  obtain ⟨-, hout⟩ := h
  by_contra hne
  have hnone : out = none := by
    rw [hout] at hne ⊢
    split at hne
    · exact absurd rfl hne
    · rename_i hc
      rw [if_neg hc]
  obtain ⟨p, hp, m', hm', h0⟩ := hw.1 hnone
  obtain ⟨k, hk, rfl⟩ := List.mem_iff_getElem.1 hp
  obtain ⟨q, hq1, hq, hrn, -, -⟩ := h3 k _ (List.getElem?_eq_getElem hk)
  obtain ⟨mid, hmid, hu⟩ := path2_mem hq hm'
  have hr := hrn mid hmid
  have hfit := fitErrors_centred dset.X dset.Y w n h1 hd.y hnr h2 hcol mid m' hr hu
  rw [h0, zero_div] at hfit
  obtain ⟨M, cols, path, hM, hpath, rfl⟩ := rounds_lars hrounds q (List.mem_of_getElem? hq1)
  obtain ⟨m, hm, rfl⟩ := List.mem_map.1 hmid
  have hnrn : n.X.nr = dset.X.nr := by
    rcases newNormalizedData_inv dset.X dset.Y with ⟨-, e⟩ | ⟨d', e, e', -⟩
    · rw [h1] at e; simp at e
    rw [h1, Option.some.injEq] at e
    subst e
    exact e'.nr
  have hlars := morseLars_some.1 hpath
  have hok := (C63_path M _ _ _ _ path hlars).1
  have hbias := C48_bias dset.X dset.Y hnc n h1
  have hsel : ∀ v ∈ path, ∀ f ∈ v.selection, f < cols.length := fun v hv f hf => by
    rw [← hM.nc]; exact (hok v hv).range f hf
  obtain ⟨sgn, hsgn⟩ := C64_path svd M w lassoTol lambMin path hlars (fun v hv => by
    have hvq : { v with selection := v.selection.map (fun f => cols.getD f 0) } ∈ renumber cols path :=
      List.mem_map.2 ⟨v, hv, rfl⟩
    obtain ⟨v', hv1, hv2⟩ : ∃ v' ∈ (res.paths[k]).nodes,
        unnormalizeNode n { v with selection := v.selection.map (fun f => cols.getD f 0) } = some v' := by
      have h' := (mapM_some_iff).1 hq
      have : unnormalizeNode n { v with selection := v.selection.map (fun f => cols.getD f 0) } ∈
          (res.paths[k]).nodes.map some := by
        rw [← h']
        exact List.mem_map.2 ⟨_, hvq, rfl⟩
      obtain ⟨v', h1, h2⟩ := List.mem_map.1 this
      exact ⟨v', h1, h2.symm⟩
    obtain ⟨-, -, s1, s2⟩ := unnormalizeNode_shape (hrn _ hvq).coeff hv2
    have hE : (v'.selection = v.selection.map (fun f => cols.getD f 0) ∨
        v'.selection = 0 :: v.selection.map (fun f => cols.getD f 0)) ∧
        numSlopes dset.X v'.selection = (v.selection.map (fun f => cols.getD f 0)).length := by
      unfold numSlopes
      by_cases hc : Constant (colOf dset.X 0)
      · have e := (s1 (hbias.2 hc).1).1
        have hc' : Constant ((List.range dset.X.nr).map (fun r => dset.X.get r 0)) := hc
        refine ⟨.inr e, ?_⟩
        rw [if_pos hc', e, List.length_cons, Nat.add_sub_cancel]
      · have hc' : ¬ Constant ((List.range dset.X.nr).map (fun r => dset.X.get r 0)) := hc
        have hb : n.hasBias = false := by
          rw [Bool.eq_false_iff]
          exact fun hb => absurd (hbias.1.1 hb) (not_lt.2 (hcol.resolve_left hc))
        refine ⟨.inl (s2 hb), ?_⟩
        rw [if_neg hc', s2 hb, Nat.sub_zero]
    have := hsvd _ hp v' hv1 (v.selection.map (fun f => cols.getD f 0)) (activeCols M v.selection) hE.1
      (by show M.nr = _; rw [hM.nr, hnrn]) (by simp [activeCols]) (by
        intro r hr' j hj
        rw [List.length_map] at hj
        have hf := hsel v hv _ (List.getElem_mem hj)
        show M.get r (v.selection.getD j 0) = _
        rw [hds, List.getD_eq_getElem?_getD, List.getElem?_eq_getElem hj, Option.getD_some,
          hM.get r (by rw [hnrn]; exact hr') _ hf]
        simp [List.getD_eq_getElem?_getD, hj, hf]) hE.2
    rw [List.length_map] at this
    rw [hM.nr, hnrn]
    exact this) m hm
  have hzero : ∀ r < n.X.nr, w.getD r 0 - sparsePredict (M.get r) m.selection m.coeff = 0 := by
    intro r hr'
    unfold fitErrors at hfit
    have := (sum_eq_zero_iff_of_nonneg (fun _ _ => sq_nonneg _)).1 hfit r (mem_range.2 hr')
    rw [sparsePredict_renumber hM hr' _ _ (hsel m hm)]
    exact pow_eq_zero_iff (two_ne_zero) |>.1 this
  have hmok := hok m hm
  obtain ⟨i, hi⟩ := List.exists_mem_of_ne_nil _ hmok.nonempty
  obtain ⟨g1, g2⟩ := hsgn i hi
  have hcorr : correlation M (vec w) (spread m.selection m.coeff) i = 0 := by
    unfold correlation
    rw [hM.nr]
    refine sum_eq_zero (fun r hr' => ?_)
    have h3 := hzero r (mem_range.1 hr')
    rw [sparsePredict_eq ⟨hmok.sorted, hmok.range, hmok.coeff⟩] at h3
    have h4 : residual M (vec w) (spread m.selection m.coeff) r = w.getD r 0 - lin M (coeffOf m) r := rfl
    rw [h4, h3, mul_zero]
  rw [hcorr] at g2
  have hl : 0 < m.lamb := lt_of_le_of_lt hmin hmok.lamb
  rcases g1 with g1 | g1 <;> rw [g1] at g2 <;> linarith

/-! ### Example -/

namespace NestedCommandExample

open NestedExample

/-- A column of ones and two orthogonal columns; the response is `3 colA + 4 colB`. -/
noncomputable def dset : Dataset ℝ :=
  ⟨⟨5, 3, fun r c => if c = 0 then 1 else if c = 1 then colA r else colB r⟩, [7, 1, -1, -7, 0], ["one", "a", "b", "y"], 3⟩

theorem wf : WellFormed dset := ⟨rfl, by decide, by decide, by decide, rfl⟩

/-- The normalised response. -/
noncomputable def w : List ℝ := [7 / 5, 1 / 5, -1 / 5, -7 / 5, 0]

/-- The normalised matrix. -/
def IsN (M : Mat ℝ) : Prop :=
  M.nr = 5 ∧ M.nc = 3 ∧ ∀ r < 5, M.get r 0 = 0 ∧ M.get r 1 = colA r ∧ M.get r 2 = colB r

theorem col0 : Constant (colOf dset.X 0) := by
  intro a ha b hb
  obtain ⟨r, -, rfl⟩ := List.mem_map.1 ha
  obtain ⟨r', -, rfl⟩ := List.mem_map.1 hb
  rfl

theorem stat (c : Nat) (hc : c = 1 ∨ c = 2) : goStd (colOf dset.X c) = 1 ∧ goMean (colOf dset.X c) = 0 := by
  rcases hc with rfl | rfl
  · have h : colOf dset.X 1 = [1, -1, 1, -1, 0] := by simp [colOf, dset, List.range_succ, colA]
    rw [h]
    have h0 : goMean [1, -1, 1, -1, 0] = 0 := by norm_num [goMean]
    refine ⟨?_, h0⟩
    unfold goStd
    simp only [h0]
    norm_num
  · have h : colOf dset.X 2 = [1, 1, -1, -1, 0] := by simp [colOf, dset, List.range_succ, colB]
    rw [h]
    have h0 : goMean [1, 1, -1, -1, 0] = 0 := by norm_num [goMean]
    refine ⟨?_, h0⟩
    unfold goStd
    simp only [h0]
    norm_num

theorem stat0 : goStd (colOf dset.X 0) = 0 ∧ goMean (colOf dset.X 0) = 1 := by
  refine ⟨goStd_constant _ col0, ?_⟩
  have h : colOf dset.X 0 = [1, 1, 1, 1, 1] := by simp [colOf, dset, List.range_succ]
  rw [h]
  norm_num [goMean]

theorem statY : goStd dset.Y = 5 ∧ goMean dset.Y = 0 := by
  have h0 : goMean [7, 1, -1, -7, 0] = 0 := by norm_num [goMean]
  refine ⟨?_, h0⟩
  show goStd [7, 1, -1, -7, 0] = 5
  unfold goStd
  simp only [h0]
  norm_num
  rw [show (25 : ℝ) = 5 ^ 2 by norm_num, Real.sqrt_sq (by norm_num)]

theorem norm_w : normalizeArray dset.Y = w.map .fin := by
  unfold normalizeArray
  rw [statY.1, statY.2]
  simp [dset, w, Fl.divFin]

theorem normed : ∃ n, newNormalizedData dset.X dset.Y = some n ∧ IsN n.X ∧ n.hasBias = true ∧
    n.std = [0, 1, 1] ∧ n.mu = [1, 0, 0] ∧ n.stdY = 5 ∧ n.muY = 0 := by
  rcases newNormalizedData_inv dset.X dset.Y with ⟨⟨c, hc, h0, hs⟩, -⟩ | ⟨d, h1, h2, -, h4, h5⟩
  · exfalso
    have hc' : c < 3 := hc
    rw [(stat c (by omega)).1] at hs
    norm_num at hs
  · refine ⟨d, h1, ⟨h2.nr, h2.nc, fun r hr => ⟨?_, ?_, ?_⟩⟩, ?_, ?_, ?_, by rw [h4, statY.1], by rw [h5, statY.2]⟩
    · rw [h2.done r 0 (by decide) hr, stat0.1, stat0.2, if_pos (by norm_num)]
      simp [dset]
    · rw [h2.done r 1 (by decide) hr, (stat 1 (.inl rfl)).1, (stat 1 (.inl rfl)).2, if_neg (by norm_num)]
      simp [dset]
    · rw [h2.done r 2 (by decide) hr, (stat 2 (.inr rfl)).1, (stat 2 (.inr rfl)).2, if_neg (by norm_num)]
      simp [dset]
    · exact ((C48_bias dset.X dset.Y (by decide) d h1).2 col0).1
    · apply List.ext_getElem?
      intro i
      have hl : d.std.length = 3 := h2.stdLen
      rcases i with _ | _ | _ | i
      · rw [h2.std 0 (by decide), stat0.1]; rfl
      · rw [h2.std 1 (by decide), (stat 1 (.inl rfl)).1]; rfl
      · rw [h2.std 2 (by decide), (stat 2 (.inr rfl)).1]; rfl
      · rw [List.getElem?_eq_none (by omega), List.getElem?_eq_none (by simp)]
    · apply List.ext_getElem?
      intro i
      have hl : d.mu.length = 3 := h2.muLen
      rcases i with _ | _ | _ | i
      · rw [h2.mu 0 (by decide), stat0.2]; rfl
      · rw [h2.mu 1 (by decide), (stat 1 (.inl rfl)).2]; rfl
      · rw [h2.mu 2 (by decide), (stat 2 (.inr rfl)).2]; rfl
      · rw [List.getElem?_eq_none (by omega), List.getElem?_eq_none (by simp)]

/-- The decomposition of orthogonal columns of norm 2. -/
noncomputable def svd (M : Mat ℝ) : SVD ℝ :=
  ⟨M.nc, fun r k => M.get r k / 2, fun _ => 2, fun i k => if i = k then 1 else 0⟩

theorem rows {M : Mat ℝ} (h : IsN M) (f : Nat → ℝ) : ∑ r ∈ range M.nr, f r = f 0 + f 1 + f 2 + f 3 + f 4 := by
  rw [h.1]
  simp only [sum_range_succ, sum_range_zero, zero_add]

theorem xy {M : Mat ℝ} (h : IsN M) : larsXy M (fun r => w.getD r 0) 0 = 0 ∧
    larsXy M (fun r => w.getD r 0) 1 = 12 / 5 ∧ larsXy M (fun r => w.getD r 0) 2 = 16 / 5 := by
  unfold larsXy
  rw [rows h, rows h, rows h]
  obtain ⟨-, -, h3⟩ := h
  simp only [(h3 0 (by omega)).1, (h3 1 (by omega)).1, (h3 2 (by omega)).1, (h3 3 (by omega)).1, (h3 4 (by omega)).1,
    (h3 0 (by omega)).2.1, (h3 1 (by omega)).2.1, (h3 2 (by omega)).2.1, (h3 3 (by omega)).2.1, (h3 4 (by omega)).2.1,
    (h3 0 (by omega)).2.2, (h3 1 (by omega)).2.2, (h3 2 (by omega)).2.2, (h3 3 (by omega)).2.2, (h3 4 (by omega)).2.2]
  norm_num [w, colA, colB]

theorem xx1 {M : Mat ℝ} (h : IsN M) (v : ℝ) :
    larsXX M [2] [v] 0 = 0 ∧ larsXX M [2] [v] 1 = 0 ∧ larsXX M [2] [v] 2 = 4 * v := by
  unfold larsXX larsFit
  rw [rows h, rows h, rows h]
  obtain ⟨-, -, h3⟩ := h
  simp only [sum_range_succ, sum_range_zero, List.length_singleton, List.getD_cons_zero,
    (h3 0 (by omega)).1, (h3 1 (by omega)).1, (h3 2 (by omega)).1, (h3 3 (by omega)).1, (h3 4 (by omega)).1,
    (h3 0 (by omega)).2.1, (h3 1 (by omega)).2.1, (h3 2 (by omega)).2.1, (h3 3 (by omega)).2.1, (h3 4 (by omega)).2.1,
    (h3 0 (by omega)).2.2, (h3 1 (by omega)).2.2, (h3 2 (by omega)).2.2, (h3 3 (by omega)).2.2, (h3 4 (by omega)).2.2]
  simp only [colA, colB]
  refine ⟨by ring, by ring, by ring⟩

theorem xx2 {M : Mat ℝ} (h : IsN M) (u v : ℝ) :
    larsXX M [1, 2] [u, v] 0 = 0 ∧ larsXX M [1, 2] [u, v] 1 = 4 * u ∧ larsXX M [1, 2] [u, v] 2 = 4 * v := by
  unfold larsXX larsFit
  rw [rows h, rows h, rows h]
  obtain ⟨-, -, h3⟩ := h
  simp only [sum_range_succ, sum_range_zero, List.length_cons, List.length_nil, List.getD_cons_zero,
    List.getD_cons_succ, Nat.reduceAdd,
    (h3 0 (by omega)).1, (h3 1 (by omega)).1, (h3 2 (by omega)).1, (h3 3 (by omega)).1, (h3 4 (by omega)).1,
    (h3 0 (by omega)).2.1, (h3 1 (by omega)).2.1, (h3 2 (by omega)).2.1, (h3 3 (by omega)).2.1, (h3 4 (by omega)).2.1,
    (h3 0 (by omega)).2.2, (h3 1 (by omega)).2.2, (h3 2 (by omega)).2.2, (h3 3 (by omega)).2.2, (h3 4 (by omega)).2.2]
  simp only [colA, colB]
  refine ⟨by ring, by ring, by ring⟩

theorem est1 {M : Mat ℝ} (h : IsN M) (k : Nat) : morseEst svd M w k [2] [1] = some ([4 / 5], [1 / 4]) := by
  obtain ⟨h1, h2, h3⟩ := h
  unfold morseEst morsePenroseC morsePenroseD pseudoInverseXTX
  simp only [activeCols, h1]
  rw [if_neg (by simp [w]), if_neg (by simp)]
  simp only [svd, sum_range_succ, sum_range_zero, List.getD_cons_zero, List.length_singleton, List.range_succ,
    List.range_zero, List.nil_append, List.map_cons, List.map_nil]
  rw [(h3 0 (by omega)).2.2, (h3 1 (by omega)).2.2, (h3 2 (by omega)).2.2, (h3 3 (by omega)).2.2,
    (h3 4 (by omega)).2.2]
  norm_num [colB, w]

theorem est2 {M : Mat ℝ} (h : IsN M) (k : Nat) :
    morseEst svd M w k [1, 2] [1, 1] = some ([3 / 5, 4 / 5], [1 / 4, 1 / 4]) := by
  obtain ⟨h1, h2, h3⟩ := h
  unfold morseEst morsePenroseC morsePenroseD pseudoInverseXTX
  simp only [activeCols, h1]
  rw [if_neg (by simp [w]), if_neg (by simp)]
  simp only [svd, sum_range_succ, sum_range_zero, List.getD_cons_zero, List.getD_cons_succ, List.length_cons,
    List.length_nil, Nat.reduceAdd, List.range_succ, List.range_zero, List.nil_append, List.cons_append, List.map_cons,
    List.map_nil,
    (h3 0 (by omega)).2.1, (h3 1 (by omega)).2.1, (h3 2 (by omega)).2.1, (h3 3 (by omega)).2.1, (h3 4 (by omega)).2.1,
    (h3 0 (by omega)).2.2, (h3 1 (by omega)).2.2, (h3 2 (by omega)).2.2, (h3 3 (by omega)).2.2, (h3 4 (by omega)).2.2]
  norm_num [colA, colB, w]

/-- The path: column 2 enters first, then column 1. -/
noncomputable def path : List (LassoLarsNode ℝ) := [⟨[0], 16 / 5, [2]⟩, ⟨[0, 1 / 5], 12 / 5, [1, 2]⟩]

theorem lars_path {M : Mat ℝ} (h : IsN M) :
    LarsReturns M (fun r => w.getD r 0) lassoTol 1 (morseEst svd M w) path := by
  obtain ⟨x0, x1, x2⟩ := xy h
  have hm : maxTime ((List.range M.nc).map (fun i => some |larsXy M (fun r => w.getD r 0) i|)) = (16 / 5, 2) := by
    rw [h.2.1]
    simp only [List.range_succ, List.range_zero, List.nil_append, List.cons_append, List.map_cons, List.map_nil, x0, x1,
      x2]
    norm_num [maxTime, List.zipIdx]
  unfold LarsReturns larsInit
  rw [if_neg (by rw [h.1, h.2.1]; decide)]
  refine ⟨_, rfl, ?_⟩
  rw [hm]
  have hj1 : tJoin M (fun r => w.getD r 0) lassoTol (16 / 5) [2] [4 / 5] [1 / 4] none = some [0, 12 / 5, 0] := by
    unfold tJoin
    rw [h.2.1, mapM_some_iff]
    simp only [List.range_succ, List.range_zero, List.nil_append, List.cons_append, List.map_cons, List.map_nil, x0, x1,
      x2, (xx1 h _).1, (xx1 h _).2.1, (xx1 h _).2.2]
    norm_num [joinTime, timeIn, Fl.divFin, lassoTol]
  have hj2 : tJoin M (fun r => w.getD r 0) lassoTol (12 / 5) [1, 2] [3 / 5, 4 / 5] [1 / 4, 1 / 4] none =
      some [0, 0, 0] := by
    unfold tJoin
    rw [h.2.1, mapM_some_iff]
    simp only [List.range_succ, List.range_zero, List.nil_append, List.cons_append, List.map_cons, List.map_nil, x0, x1,
      x2, (xx2 h _ _).1, (xx2 h _ _).2.1, (xx2 h _ _).2.2]
    norm_num [joinTime, timeIn, Fl.divFin, lassoTol]
  have hsign : joinFeatSign M (fun r => w.getD r 0) 1 [2] (betaLARS [4 / 5] [1 / 4] (12 / 5)) = 1 := by
    unfold joinFeatSign
    rw [if_pos]
    have e : ∑ r ∈ range M.nr, M.get r 1 * (w.getD r 0 - larsFit M [2] (betaLARS [4 / 5] [1 / 4] (12 / 5)) r) =
        larsXy M (fun r => w.getD r 0) 1 - larsXX M [2] (betaLARS [4 / 5] [1 / 4] (12 / 5)) 1 := by
      unfold larsXy larsXX
      rw [← sum_sub_distrib]
      exact sum_congr rfl (fun r _ => by ring)
    have e2 : betaLARS [4 / 5] [1 / 4] (12 / 5 : ℝ) = [1 / 5] := by norm_num [betaLARS]
    rw [e, e2, x1, (xx1 h _).2.1]
    norm_num
  refine .next (s' := ⟨12 / 5, [2, 1], fun i => if i = 1 then 1 else if i = 2 then 1 else 0, none,
    [⟨[0], 16 / 5, [2]⟩]⟩) ?_ (.next (s' := ⟨0, [2], fun i => if i = 1 then 1 else if i = 2 then 1 else 0,
    some (1, 0), path⟩) ?_ (.ret ?_))
  · unfold larsBody
    simp only
    rw [if_neg (by norm_num), if_neg (by simp)]
    have hs : (if larsXy M (fun r => w.getD r 0) 2 < 0 then (-1 : ℝ) else 1) = 1 := by
      rw [x2, if_neg (by norm_num)]
    simp only [List.insertionSort_cons, List.insertionSort_nil, List.orderedInsert_nil, List.map_cons, List.map_nil,
      if_true, hs, List.length_nil, est1 h, List.length_singleton, ne_eq, not_true_eq_false, or_self, if_false, hj1]
    have hjm : maxJoinTime [0, (12 : ℝ) / 5, 0] [2] = (12 / 5, 1) := by norm_num [maxJoinTime, maxTime]
    have hcm : maxTime (tCross lassoTol (16 / 5 : ℝ) [4 / 5] [1 / 4]) = (0, 0) := by
      norm_num [maxTime, tCross, crossTime, Fl.divFin, lassoTol]
    rw [hjm, hcm]
    unfold larsMove
    simp only
    rw [if_pos (by norm_num), if_neg (by norm_num), hsign]
    have hb : betaLARS [4 / 5] [1 / 4] (16 / 5 : ℝ) = [0] := by norm_num [betaLARS]
    rw [hb]
    rfl
  · unfold larsBody
    simp only
    rw [if_neg (by norm_num), if_neg (by simp)]
    have hso : ([2, 1] : List Nat).insertionSort (· ≤ ·) = [1, 2] := by decide
    simp only [hso, List.map_cons, List.map_nil, if_true, Nat.reduceEqDiff, if_false, List.length_singleton]
    rw [est2 h]
    simp only [List.length_cons, List.length_nil, Nat.reduceAdd, ne_eq, not_true_eq_false, or_self, if_false, hj2]
    have hjm : maxJoinTime [0, (0 : ℝ), 0] [1, 2] = (0, 0) := by norm_num [maxJoinTime, maxTime]
    have hcm : maxTime (tCross lassoTol (12 / 5 : ℝ) [3 / 5, 4 / 5] [1 / 4, 1 / 4]) = (0, 0) := by
      norm_num [maxTime, tCross, crossTime, Fl.divFin, lassoTol, List.range_succ]
    rw [hjm, hcm]
    unfold larsMove
    simp only
    rw [if_neg (by norm_num), if_neg (by norm_num)]
    have hb : betaLARS [3 / 5, 4 / 5] [1 / 4, 1 / 4] (12 / 5 : ℝ) = [0, 1 / 5] := by
      norm_num [betaLARS, List.range_succ]
    rw [hb]
    rfl
  · unfold larsBody
    rw [if_pos (by norm_num)]

theorem errors {M : Mat ℝ} (h : IsN M) : fitErrors M w [2] [0] = 4 ∧ fitErrors M w [1, 2] [0, 1 / 5] = 72 / 25 := by
  unfold fitErrors
  rw [rows h, rows h]
  obtain ⟨-, -, h3⟩ := h
  simp only [sparsePredict, List.zipWith_cons_cons, List.zipWith_nil_left, List.sum_cons, List.sum_nil,
    (h3 0 (by omega)).2.1, (h3 1 (by omega)).2.1, (h3 2 (by omega)).2.1, (h3 3 (by omega)).2.1, (h3 4 (by omega)).2.1,
    (h3 0 (by omega)).2.2, (h3 1 (by omega)).2.2, (h3 2 (by omega)).2.2, (h3 3 (by omega)).2.2, (h3 4 (by omega)).2.2]
  norm_num [w, colA, colB]

theorem num : nestedNum (1 / 2) 3 = 1 := by
  unfold nestedNum goInt
  norm_num

theorem rawNodes {nc : Nat} (h : nc = 3) : ∀ m ∈ path, m.selection ≠ [] ∧ RawNode nc m := by
  subst h
  intro m hm
  simp only [path, List.mem_cons, List.not_mem_nil, or_false] at hm
  rcases hm with rfl | rfl
  · exact ⟨by simp, ⟨by simp, by simp, rfl⟩⟩
  · exact ⟨by simp, ⟨by simp, by simp, rfl⟩⟩

theorem criteria {M : Mat ℝ} (h : IsN M) (crit : Nat → Nat → ℝ → Fl ℝ) :
    getCriteria M w path crit = some [crit 1 5 4, crit 2 5 (72 / 25)] := by
  have hr := rawNodes h.2.1
  rw [C68_criteria_partial M w path crit (by rw [h.1]; rfl)
    (fun m hm => ⟨(hr m hm).1, (hr m hm).2.sorted, (hr m hm).2.range, (hr m hm).2.coeff⟩)]
  have h1 : sse M (coeffOf ⟨[0], 16 / 5, [2]⟩) (vec w) = 4 := by
    rw [sse_fitErrors (hr _ (by simp [path])).2, (errors h).1]
  have h2 : sse M (coeffOf ⟨[0, 1 / 5], 12 / 5, [1, 2]⟩) (vec w) = 72 / 25 := by
    rw [sse_fitErrors (hr _ (by simp [path])).2, (errors h).2]
  simp only [path, List.map_cons, List.map_nil, h1, h2, h.1]
  rfl

/-- The nodes of the file. -/
noncomputable def nodes : List (LassoLarsNode ℝ) := [⟨[0, 0], 16 / 5, [0, 2]⟩, ⟨[0, 0, 1], 12 / 5, [0, 1, 2]⟩]

/-- The command runs on the data and writes the file. -/
theorem command_keep {keep : ℝ} (hk : nestedNum keep 3 ≤ 2) :
    ∃ file, NestedCommand svd id 1 keep dset file (some file) ∧ IsN file.dset.X ∧ file.dset.Y = w ∧
    ∃ b, file.paths = [⟨nodes, [.fin (savedAicc 1 5 4), .fin (savedAicc 2 5 (72 / 25))], b⟩] := by
  obtain ⟨n, hn, hX, hb, hstd, hmu, hsy, hmy⟩ := normed
  have hnorm : normalizeInPlace dset = some (n, ⟨n.X, w, dset.names, dset.targetCol⟩) := by
    unfold normalizeInPlace
    rw [hn, Option.bind_some, newNormalizedData_y hn, norm_w, finValues_fin]
    rfl
  have hl : morseLars svd 1 n.X w = some path := morseLars_some.2 (lars_path hX)
  have hc : roundCriteria id ⟨n.X, w, dset.names, dset.targetCol⟩ path = some ([.fin (aicc 1 5 4), .fin (aicc 2 5 (72 / 25))], [.fin (bic 1 5 4), .fin (bic 2 5 (72 / 25))]) := by
    unfold roundCriteria
    rw [criteria hX, criteria hX]
    have e : ∀ (crit : Nat → Nat → ℝ → ℝ), withLog crit 1 5 4 = .fin (crit 1 5 4) ∧
        withLog crit 2 5 (72 / 25) = .fin (crit 2 5 (72 / 25)) :=
      fun crit => ⟨if_pos (by norm_num), if_pos (by norm_num)⟩
    rw [(e aicc).1, (e aicc).2, (e bic).1, (e bic).2]
    simp [printHighscore, argsort, path, List.range_succ]
  have hu : path2Unnormalized n path = some nodes := by
    have h1 : unnormalizeNode n ⟨[0], 16 / 5, [2]⟩ = some ⟨[0, 0], 16 / 5, [0, 2]⟩ := by
      unfold unnormalizeNode linearTransformationBias
      simp [biasLoop, unnormLoop, linearNormalizationTransformation, hb, hstd, hmu, hsy, hmy]
    have h2 : unnormalizeNode n ⟨[0, 1 / 5], 12 / 5, [1, 2]⟩ = some ⟨[0, 0, 1], 12 / 5, [0, 1, 2]⟩ := by
      unfold unnormalizeNode linearTransformationBias
      simp [biasLoop, unnormLoop, linearNormalizationTransformation, hb, hstd, hmu, hsy, hmy]
    unfold path2Unnormalized path nodes
    rw [mapM_some_iff]
    simp only [List.map_cons, List.map_nil, h1, h2]
  have hm : mapNodes dset dset.names path = some path := by
    unfold mapNodes path mapSelectionByName
    simp [dset, Dataset.featNoByName, featNoLoop]
  refine ⟨⟨⟨n.X, w, dset.names, dset.targetCol⟩, [⟨nodes, [.fin (aicc 1 5 4), .fin (aicc 2 5 (72 / 25))],
        [.fin (bic 1 5 4), .fin (bic 2 5 (72 / 25))]⟩]⟩,
    ⟨⟨n, _, [path], [([.fin (aicc 1 5 4), .fin (aicc 2 5 (72 / 25))], [.fin (bic 1 5 4), .fin (bic 2 5 (72 / 25))])], n,
      [nodes], hnorm, .ret ?_, hnorm, ?_, rfl⟩, ?_⟩, hX, rfl, [.fin (bic 1 5 4), .fin (bic 2 5 (72 / 25))], ?_⟩
  · unfold nestedCritBody nestedBody
    simp only [hl, Option.bind_some, hc, hm, hX.2.1, if_pos hk]
    rfl
  · simp [hu]
  · simp [Fl.isFin]
  · rw [savedAicc_eq, savedAicc_eq]

theorem command : ∃ file, NestedCommand svd id 1 (1 / 2) dset file (some file) ∧ IsN file.dset.X ∧ file.dset.Y = w ∧
    ∃ b, file.paths = [⟨nodes, [.fin (savedAicc 1 5 4), .fin (savedAicc 2 5 (72 / 25))], b⟩] :=
  command_keep (by rw [num]; norm_num)

/-- Hypotheses of `C100_default_paths`, with a single path. -/
example : ∃ file, NestedCommand svd id 1 nestedDefaults.2 dset file (some file) ∧ WellFormed dset ∧ 0 < dset.X.nr ∧
    dset.targetCol = dset.X.nc := by
  have : nestedNum nestedDefaults.2 3 ≤ 2 := by
    unfold nestedNum goInt nestedDefaults
    norm_num
  obtain ⟨file, h, -⟩ := command_keep this
  exact ⟨file, h, wf, by decide, rfl⟩

/-- `svd` decomposes one or two of the orthogonal columns. -/
theorem svd_of {M A : Mat ℝ} (h : IsN M) {E : List Nat} (hE : E = [2] ∨ E = [1, 2]) (h1 : A.nr = 5) (h2 : A.nc = E.length)
    (h3 : ∀ r < 5, ∀ k < E.length, A.get r k = M.get r (E.getD k 0)) : (svd A).Of A := by
  have hl : E.length ≤ 2 := by rcases hE with rfl | rfl <;> simp
  refine ⟨?_, ?_, ?_, ?_, fun k _ => by norm_num [svd], fun k l _ _ => le_refl _⟩
  · show A.nc = min A.nr A.nc
    omega
  · intro i j hi hj
    simp only [svd]
    rw [sum_eq_single j (fun k _ hk => by rw [if_neg (fun e => hk e.symm)]; ring)
      (fun hk => absurd (mem_range.2 hj) hk), if_pos rfl]
    ring
  · intro k l hk hl'
    have hk' : k < E.length := by rw [← h2]; exact hk
    have hl'' : l < E.length := by rw [← h2]; exact hl'
    simp only [svd, h1, sum_range_succ, sum_range_zero, h3 0 (by omega) k hk', h3 1 (by omega) k hk',
      h3 2 (by omega) k hk', h3 3 (by omega) k hk', h3 4 (by omega) k hk', h3 0 (by omega) l hl'', h3 1 (by omega) l hl'',
      h3 2 (by omega) l hl'', h3 3 (by omega) l hl'', h3 4 (by omega) l hl'']
    obtain ⟨-, -, h4⟩ := h
    have hv : ∀ j < E.length, (E.getD j 0 = 1 ∧ E = [1, 2] ∧ j = 0) ∨ (E.getD j 0 = 2 ∧ j + 1 = E.length) := by
      intro j hj
      rcases hE with rfl | rfl
      · have : j = 0 := by simpa using hj
        subst this
        simp
      · have : j = 0 ∨ j = 1 := by simp at hj; omega
        rcases this with rfl | rfl <;> simp
    rcases hv k hk' with ⟨e1, e2, e3⟩ | ⟨e1, e3⟩ <;> rcases hv l hl'' with ⟨f1, f2, f3⟩ | ⟨f1, f3⟩ <;> rw [e1, f1] <;>
      simp only [(h4 0 (by omega)).2.1, (h4 1 (by omega)).2.1, (h4 2 (by omega)).2.1, (h4 3 (by omega)).2.1,
        (h4 4 (by omega)).2.1, (h4 0 (by omega)).2.2, (h4 1 (by omega)).2.2, (h4 2 (by omega)).2.2,
        (h4 3 (by omega)).2.2, (h4 4 (by omega)).2.2, colA, colB]
    · rw [if_pos (by omega)]
      norm_num
    · subst e2
      rw [if_neg (by simp at f3; omega)]
      norm_num
    · subst f2
      rw [if_neg (by simp at e3; omega)]
      norm_num
    · rw [if_pos (by omega)]
      norm_num
  · intro k l hk hl'
    simp only [svd]
    have hk' : k < A.nc := hk
    by_cases e : k = l
    · subst e
      rw [sum_eq_single k (fun j _ hj => by rw [if_neg hj]; ring) (fun hj => absurd (mem_range.2 hk') hj)]
      simp
    · rw [if_neg e]
      refine sum_eq_zero (fun j _ => ?_)
      by_cases e' : j = k
      · rw [if_neg (fun e'' => e (e'.symm.trans e''))]
        ring
      · rw [if_neg e']
        ring

/-- Hypotheses of all theorems of C100. -/
theorem hypotheses : ∃ file, NestedCommand svd id 1 (1 / 2) dset file (some file) ∧ WellFormed dset ∧ 0 < dset.X.nr ∧
    0 < dset.X.nc ∧ dset.targetCol = dset.X.nc ∧ Constant (colOf dset.X 0) ∧
    ∀ p ∈ file.paths, ∀ m ∈ p.nodes, ∀ (E : List Nat) (A : Mat ℝ),
      (m.selection = E ∨ m.selection = 0 :: E) → A.nr = dset.X.nr → A.nc = E.length →
      (∀ r < dset.X.nr, ∀ k < E.length, A.get r k = file.dset.X.get r (E.getD k 0)) →
      numSlopes dset.X m.selection = E.length →
      (svd A).Of A ∧ E.length ≤ dset.X.nr ∧ ∀ k, k < (svd A).p → 1 / 10 ^ 6 < (svd A).s k * (svd A).s k := by
  obtain ⟨file, hf, hX, hY, b, hp⟩ := command
  refine ⟨file, hf, wf, by decide, by decide, rfl, col0, ?_⟩
  intro p hp' m hm E A hE h1 h2 h3 hs
  rw [hp, List.mem_singleton] at hp'
  subst hp'
  have hcol : Constant ((List.range dset.X.nr).map (fun r => dset.X.get r 0)) := col0
  unfold numSlopes at hs
  rw [if_pos hcol] at hs
  have hE' : E = [2] ∨ E = [1, 2] := by
    simp only [nodes, List.mem_cons, List.not_mem_nil, or_false] at hm
    rcases hm with rfl | rfl <;> rcases hE with rfl | hE
    · simp at hs
    · exact .inl (by simpa using hE.symm)
    · simp at hs
    · exact .inr (by simpa using hE.symm)
  refine ⟨svd_of hX hE' h1 h2 h3, ?_, fun k _ => by norm_num [svd]⟩
  rcases hE' with rfl | rfl <;> decide

example := hypotheses

end NestedCommandExample

/-- The claim fails: no reading of the saved nodes on the saved data or on the data of the user, with or without the
intercept counted, gives the saved criterion. -/
theorem C100_refuted : ∃ (svd : Mat ℝ → SVD ℝ) (lambMin keep : ℝ) (dset : Dataset ℝ) (file : NestedFile),
    WellFormed dset ∧ dset.targetCol = dset.X.nc ∧ NestedCommand svd id lambMin keep dset file (some file) ∧
    ∀ D, D = dset ∨ D = file.dset → ∀ count, (count = fun m : LassoLarsNode ℝ => m.selection.length) ∨
      (count = fun m => numSlopes dset.X m.selection) → ∃ p ∈ file.paths, ∃ (i : Nat) (m : LassoLarsNode ℝ),
        p.nodes[i]? = some m ∧
        p.aicc[i]? ≠ some (.fin (savedAicc (count m) D.X.nr (fitErrors D.X D.Y m.selection m.coeff))) := by
  open NestedCommandExample NestedExample in
  obtain ⟨file, hf, hX, hY, b, hp⟩ := command
  refine ⟨svd, 1, 1 / 2, dset, file, wf, rfl, hf, fun D hD count hcount => ⟨_, by rw [hp]; exact List.mem_singleton_self _,
    1, ⟨[0, 0, 1], 12 / 5, [0, 1, 2]⟩, rfl, ?_⟩⟩
  have hk : count ⟨[0, 0, 1], 12 / 5, [0, 1, 2]⟩ = 3 ∨ count ⟨[0, 0, 1], 12 / 5, [0, 1, 2]⟩ = 2 := by
    rcases hcount with rfl | rfl
    · exact .inl rfl
    · right
      show numSlopes dset.X [0, 1, 2] = 2
      unfold numSlopes
      rw [if_pos (show Constant ((List.range dset.X.nr).map (fun r => dset.X.get r 0)) from col0)]
      rfl
  have hD' : D.X.nr = 5 ∧ (fitErrors D.X D.Y [0, 1, 2] [0, 0, 1] = 72 ∨ fitErrors D.X D.Y [0, 1, 2] [0, 0, 1] = 8 / 5) := by
    rcases hD with rfl | rfl
    · refine ⟨rfl, .inl ?_⟩
      simp only [fitErrors, dset, sum_range_succ, sum_range_zero, sparsePredict, List.zipWith_cons_cons,
        List.zipWith_nil_left, List.sum_cons, List.sum_nil]
      norm_num [colA, colB]
    · refine ⟨hX.1, .inr ?_⟩
      rw [hY]
      unfold fitErrors
      rw [rows hX]
      obtain ⟨-, -, h3⟩ := hX
      simp only [sparsePredict, List.zipWith_cons_cons, List.zipWith_nil_left, List.sum_cons, List.sum_nil,
        (h3 0 (by omega)).1, (h3 1 (by omega)).1, (h3 2 (by omega)).1, (h3 3 (by omega)).1, (h3 4 (by omega)).1,
        (h3 0 (by omega)).2.1, (h3 1 (by omega)).2.1, (h3 2 (by omega)).2.1, (h3 3 (by omega)).2.1,
        (h3 4 (by omega)).2.1, (h3 0 (by omega)).2.2, (h3 1 (by omega)).2.2, (h3 2 (by omega)).2.2,
        (h3 3 (by omega)).2.2, (h3 4 (by omega)).2.2]
      norm_num [w, colA, colB]
  obtain ⟨h5, h6⟩ := hD'
  rw [h5]
  intro h
  simp only [List.getElem?_cons_succ, List.getElem?_cons_zero, Option.some.injEq, Fl.fin.injEq] at h
  have h72 : Real.log 72 = Real.log (72 / 25) + Real.log 25 := by
    rw [← Real.log_mul (by norm_num) (by norm_num)]
    norm_num
  have h85 : Real.log (72 / 25) = Real.log (8 / 5) + Real.log (9 / 5) := by
    rw [← Real.log_mul (by norm_num) (by norm_num)]
    norm_num
  have h25 : 0 < Real.log 25 := Real.log_pos (by norm_num)
  have h95 : 0 < Real.log (9 / 5) := Real.log_pos (by norm_num)
  have h95' : Real.log (9 / 5) ≤ 9 / 5 - 1 := Real.log_le_sub_one_of_pos (by norm_num)
  rcases hk with hk | hk <;> rcases h6 with h6 | h6 <;> rw [hk, h6] at h <;> unfold savedAicc at h <;> norm_num at h <;>
    linarith

end GoSelect
