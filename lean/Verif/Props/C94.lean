import Verif.Model.LassoPlots
import Verif.Props.C44_C45
import Verif.Props.C87_C88

/-! # C94: loading and plotting the file of the lasso command -/

namespace GoSelect

open Finset Spec

/-! ### Loading -/

theorem jsonNumbers_fin (l : List ℝ) : jsonNumbers (l.map .fin) = some l := by
  unfold jsonNumbers
  rw [mapM_some_iff, List.map_map]
  exact List.map_congr_left (fun _ _ => rfl)

/-- What a loaded file and the saved one have in common: everything. -/
structure Spec.LoadedAs (p : LassoLoaded) (file : LassoFile) : Prop where
  dset : ∃ e, p.dset = some e ∧ SameData e file.dset
  nodes : p.nodes = file.nodes
  aicc : p.aicc.map .fin = file.aicc
  bic : p.bic.map .fin = file.bic

/-- C94: with a JSON codec that round-trips, a file of the command holds only numbers that JSON can express, and is loaded
as it was saved. -/
theorem C94_load (marshal : LassoFileJson → Option String) (unmarshal : String → Option LassoFileJson)
    (hj : ∀ j text, marshal j = some text → unmarshal text = some j)
    (svd : Mat ℝ → SVD ℝ) (sort : List (Fl ℝ × Nat) → List (Fl ℝ × Nat)) (f : LassoFlags)
    (dset : Dataset ℝ) (nodes : List (LassoLarsNode ℝ)) (rows : List (HighscoreRow ℝ (Fl ℝ))) (file : LassoFile)
    (hy : dset.Y.length = dset.X.nr) (hnr : 0 < dset.X.nr) (hnc : 0 < dset.X.nc)
    (h : LassoFit svd sort f dset nodes rows (some file)) :
    ∃ j, lassoFileToJson file = some j ∧ ∀ text, marshal j = some text →
      ∃ p, lassoLarsPathFromBytes unmarshal text = some p ∧ LoadedAs p file := by
  obtain ⟨h1, h2, -, h4, h5⟩ := C87_saved svd sort f dset nodes rows file hy h
  obtain ⟨a, ha⟩ : ∃ a : List ℝ, file.aicc = a.map .fin := ⟨_, by rw [h4]; exact (List.map_map ..).symm⟩
  obtain ⟨b, hb⟩ : ∃ b : List ℝ, file.bic = b.map .fin := ⟨_, by rw [h5]; exact (List.map_map ..).symm⟩
  have hj1 : lassoFileToJson file = some ⟨toJSONDataset file.dset, file.nodes, a, b⟩ := by
    unfold lassoFileToJson
    rw [ha, hb, jsonNumbers_fin, jsonNumbers_fin]
    rfl
  obtain ⟨e, he, hs⟩ := C45_struct_round_trip file.dset (by rw [h1]; exact hnr) (by rw [h1]; exact hnc)
  refine ⟨_, hj1, fun text ht => ⟨⟨some e, file.nodes, a, b⟩, ?_, ⟨e, rfl, hs⟩, rfl, ha.symm, hb.symm⟩⟩
  unfold lassoLarsPathFromBytes
  rw [hj _ _ ht]
  simp only [he, Option.map_some]

/-- C94: a malformed document is loaded without an error, as a path without data and nodes; both plots then panic. -/
theorem C94_malformed (unmarshal : String → Option LassoFileJson) (text : String) (h : unmarshal text = none) :
    ∃ p, lassoLarsPathFromBytes unmarshal text = some p ∧ p.dset = none ∧ p.nodes = [] ∧
      plotQualityScores p = none ∧ plotDeviations p = none := by
  refine ⟨⟨none, [], [], []⟩, ?_, rfl, rfl, rfl, rfl⟩
  unfold lassoLarsPathFromBytes
  rw [h]

/-- C94: only a missing file is noticed. -/
theorem C94_missing (unmarshal : String → Option LassoFileJson) (files : String → Option String) (fname : String) :
    (files fname = none → lassoLarsPathFromJSON unmarshal files fname = none) ∧
    ∀ text, files fname = some text →
      lassoLarsPathFromJSON unmarshal files fname = lassoLarsPathFromBytes unmarshal text := by
  unfold lassoLarsPathFromJSON
  refine ⟨fun h => by rw [h], fun text h => by rw [h]⟩

/-! ### Points -/

theorem newLine_iff (pts : List (Fl ℝ × Fl ℝ)) (out : List (ℝ × ℝ)) :
    newLine pts = some out ↔ pts ≠ [] ∧ pts = out.map (fun p => (.fin p.1, .fin p.2)) := by
  unfold newLine
  cases pts with
  | nil => simp
  | cons a l =>
    rw [if_neg (by simp), mapM_some_iff]
    simp only [ne_eq, reduceCtorEq, not_false_eq_true, true_and]
    generalize a :: l = pts
    induction pts generalizing out with
    | nil => cases out <;> simp
    | cons p pts ih =>
      cases out with
      | nil => simp
      | cons q out =>
        rw [List.map_cons, List.map_cons, List.map_cons, List.cons.injEq, List.cons.injEq, ih out]
        refine and_congr_left (fun _ => ?_)
        obtain ⟨x, y⟩ := p
        obtain ⟨u, v⟩ := q
        cases x <;> cases y <;> simp

theorem log10Fl_fin (x v : ℝ) : log10Fl x = .fin v ↔ 0 < x ∧ v = Real.logb 10 x := by
  unfold log10Fl
  split
  · rename_i h
    simp [h, eq_comm]
  · rename_i h
    split <;> simp [h]

theorem withLog_eq_fin (crit : Nat → Nat → ℝ → ℝ) (k n : Nat) (r v : ℝ) :
    withLog crit k n r = .fin v ↔ 0 < r ∧ v = crit k n r := by
  unfold withLog
  split
  · rename_i h
    simp [h, eq_comm]
  · rename_i h
    split <;> simp [h]

/-- A line through one point per node. -/
theorem newLine_map {nodes : List (LassoLarsNode ℝ)} {F : LassoLarsNode ℝ → Fl ℝ × Fl ℝ}
    {G : LassoLarsNode ℝ → ℝ × ℝ} {P : LassoLarsNode ℝ → Prop}
    (h : ∀ n ∈ nodes, ∀ q : ℝ × ℝ, F n = (.fin q.1, .fin q.2) ↔ P n ∧ q = G n) (out : List (ℝ × ℝ)) :
    newLine (nodes.map F) = some out ↔ nodes ≠ [] ∧ (∀ n ∈ nodes, P n) ∧ out = nodes.map G := by
  rw [newLine_iff, ne_eq, List.map_eq_nil_iff]
  refine and_congr_right (fun hne => ?_)
  clear hne
  induction nodes generalizing out with
  | nil => cases out <;> simp
  | cons n nodes ih =>
    cases out with
    | nil => simp
    | cons q out =>
      rw [List.map_cons, List.map_cons, List.map_cons, List.cons.injEq, List.cons.injEq,
        ih (fun m hm => h m (List.mem_cons_of_mem _ hm)), h n List.mem_cons_self]
      simp only [List.mem_cons, forall_eq_or_imp]
      tauto

theorem mapM_rss {γ : Type} (X : Mat ℝ) (y : List ℝ) (nodes : List (LassoLarsNode ℝ))
    (g : LassoLarsNode ℝ → ℝ → γ) (hy : y.length = X.nr) (h : ∀ n ∈ nodes, SavedNode X.nc n) :
    nodes.mapM (fun n => do
      let model ← selected2Model (n.selection.map Int.ofNat) X.nc
      let design ← getDesignMatrix model X
      let r ← rss design n.coeff y
      return g n r) = some (nodes.map (fun n => g n (sse X (coeffOf n) (vec y)))) := by
  refine mapM_of_forall (fun n hn => ?_)
  have hn := h n hn
  have := C68_criteria_partial X y [n] (fun _ _ r => g n r) hy (fun m hm => by
    rw [List.mem_singleton.1 hm]; exact ⟨hn.nonempty, hn.sorted, hn.range, hn.coeff⟩)
  unfold getCriteria at this
  have h2 := mapM_getElem this 0 (by simp)
  simpa using h2

/-- C94: `PlotQualityScores` draws the AICc of the coefficients of every node over the decimal logarithm of its
regularisation; it panics exactly when there are no nodes, a regularisation is not positive, or a node fits exactly. -/
theorem C94_quality (p : LassoLoaded) (d : Dataset ℝ) (hd : p.dset = some d) (hy : d.Y.length = d.X.nr)
    (h : ∀ n ∈ p.nodes, SavedNode d.X.nc n) (out : List (ℝ × ℝ)) :
    plotQualityScores p = some out ↔ p.nodes ≠ [] ∧
      (∀ n ∈ p.nodes, 0 < n.lamb ∧ 0 < sse d.X (coeffOf n) (vec d.Y)) ∧
      out = p.nodes.map (fun n =>
        (Real.logb 10 n.lamb, savedAicc n.selection.length d.X.nr (sse d.X (coeffOf n) (vec d.Y)))) := by
  have hc := C68_criteria_partial d.X d.Y p.nodes (withLog aicc) hy
    (fun n hn => ⟨(h n hn).nonempty, (h n hn).sorted, (h n hn).range, (h n hn).coeff⟩)
  have e : plotQualityScores p = newLine (p.nodes.map (fun n => (log10Fl n.lamb,
      withLog aicc n.selection.length d.X.nr (sse d.X (coeffOf n) (vec d.Y))))) := by
    unfold plotQualityScores
    rw [hd]
    simp only [Option.bind_eq_bind, Option.bind_some, hc, List.zipWith_map_right, List.zipWith_self]
  rw [e]
  refine newLine_map (fun n _ q => ?_) out
  rw [Prod.mk.injEq, log10Fl_fin, withLog_eq_fin, savedAicc_eq, Prod.ext_iff]
  tauto

/-- C94: `PlotDeviations` draws the decimal logarithm of the root mean square error of every node, and panics in the
same cases. -/
theorem C94_deviations (p : LassoLoaded) (d : Dataset ℝ) (hd : p.dset = some d) (hy : d.Y.length = d.X.nr)
    (hnr : 0 < d.X.nr) (h : ∀ n ∈ p.nodes, SavedNode d.X.nc n) (out : List (ℝ × ℝ)) :
    plotDeviations p = some out ↔ p.nodes ≠ [] ∧
      (∀ n ∈ p.nodes, 0 < n.lamb ∧ 0 < sse d.X (coeffOf n) (vec d.Y)) ∧
      out = p.nodes.map (fun n =>
        (Real.logb 10 n.lamb, Real.logb 10 (Real.sqrt (sse d.X (coeffOf n) (vec d.Y) / d.X.nr)))) := by
  have e : plotDeviations p = newLine (p.nodes.map (fun n => (log10Fl n.lamb,
      log10Fl (Real.sqrt (sse d.X (coeffOf n) (vec d.Y) / d.X.nr))))) := by
    unfold plotDeviations
    rw [hd]
    simp only [Option.bind_eq_bind, Option.bind_some]
    have := mapM_rss d.X d.Y p.nodes
      (fun n r => (log10Fl n.lamb, log10Fl (Real.sqrt (r / d.X.nr)))) hy h
    simp only [Option.bind_eq_bind] at this
    rw [this, Option.bind_some]
  rw [e]
  refine newLine_map (fun n _ q => ?_) out
  have hn : (0 : ℝ) < d.X.nr := by exact_mod_cast hnr
  rw [Prod.mk.injEq, log10Fl_fin, log10Fl_fin, Real.sqrt_pos, div_pos_iff_of_pos_right hn, Prod.ext_iff]
  tauto

/-! ### The file of the command -/

/-- C94: the regularisations of the command are positive. -/
theorem C94_lambdas (svd : Mat ℝ → SVD ℝ) (sort : List (Fl ℝ × Nat) → List (Fl ℝ × Nat)) (f : LassoFlags)
    (dset : Dataset ℝ) (nodes : List (LassoLarsNode ℝ)) (rows : List (HighscoreRow ℝ (Fl ℝ))) (out : Option LassoFile)
    (h0 : 0 ≤ f.lambMin) (h1 : f.lassoType = "cd" → 0 < f.lambMin ∧ 0 < f.lambMax)
    (h : LassoFit svd sort f dset nodes rows out) : ∀ n ∈ nodes, 0 < n.lamb := by
  obtain ⟨n, y, hn, hfin, ⟨-, -, rfl, -⟩ | ⟨raw, a, b, hraw, hp, -⟩⟩ := h
  · simp
  intro node' hnode
  obtain ⟨node, hmem, hun⟩ := path2_mem hp hnode
  rw [(unnormalizeNode_shape (lassoRaw_nodes hraw _ hmem).coeff hun).1]
  unfold LassoRawPath at hraw
  split at hraw
  · exact lt_of_le_of_lt h0 ((C63_path n.X _ _ _ _ raw hraw).1 node hmem).lamb
  · split at hraw
    · rename_i hcd
      obtain ⟨h1, h2⟩ := h1 hcd
      obtain ⟨C, lambs, -, hlog, hraw⟩ := hraw
      have hs := (crdPath_raw (fun _ => by rfl) hraw).2.subset (List.mem_map_of_mem hmem)
      rw [List.mem_reverse] at hs
      unfold logspace at hlog
      split at hlog
      · rw [← Option.some.inj hlog] at hs; simp at hs
      · split at hlog
        · rw [← Option.some.inj hlog, List.mem_singleton] at hs
          rw [hs]; exact h1
        · split at hlog
          · cases hlog
          · split at hlog
            · cases hlog
            · rw [← Option.some.inj hlog] at hs
              obtain ⟨i, -, hi⟩ := List.mem_map.1 hs
              rw [← hi]
              exact Real.exp_pos _
    · subst hraw
      simp at hmem

theorem sse_same {e d : Dataset ℝ} (h : SameData e d) {n : LassoLarsNode ℝ} :
    sse e.X (coeffOf n) (vec e.Y) = sse d.X (coeffOf n) (vec d.Y) := by
  unfold sse lin
  rw [h.nr, h.nc, h.Y]
  refine sum_congr rfl (fun r hr => ?_)
  congr 2
  refine sum_congr rfl (fun c hc => ?_)
  rw [h.get r c (mem_range.1 hr) (mem_range.1 hc)]

/-- C94: the plots of a loaded file of the command.  Unless the path is empty both succeed; the first shows the AICc
values stored in the file. -/
theorem C94_command (svd : Mat ℝ → SVD ℝ) (sort : List (Fl ℝ × Nat) → List (Fl ℝ × Nat)) (f : LassoFlags)
    (dset : Dataset ℝ) (nodes : List (LassoLarsNode ℝ)) (rows : List (HighscoreRow ℝ (Fl ℝ))) (file : LassoFile)
    (hy : dset.Y.length = dset.X.nr) (hnr : 0 < dset.X.nr)
    (h0 : 0 ≤ f.lambMin) (h1 : f.lassoType = "cd" → 0 < f.lambMin ∧ 0 < f.lambMax)
    (h : LassoFit svd sort f dset nodes rows (some file)) (p : LassoLoaded) (hp : LoadedAs p file) :
    (nodes = [] → plotQualityScores p = none ∧ plotDeviations p = none) ∧
    (nodes ≠ [] → ∃ q r, plotQualityScores p = some q ∧ plotDeviations p = some r ∧
      q.map Prod.fst = nodes.map (fun n => Real.logb 10 n.lamb) ∧ q.map (fun z => .fin z.2) = file.aicc ∧
      r = nodes.map (fun n => (Real.logb 10 n.lamb,
        Real.logb 10 (Real.sqrt (sse dset.X (coeffOf n) (vec dset.Y) / dset.X.nr))))) := by
  obtain ⟨g1, g2, g3, g4, g5⟩ := C87_saved svd sort f dset nodes rows file hy h
  obtain ⟨⟨e, he, hs⟩, hnodes, -, -⟩ := hp
  rw [g1] at hs
  rw [g2] at hnodes
  have hye : e.Y.length = e.X.nr := by rw [hs.Y, hs.nr, hy]
  have hok : ∀ n ∈ p.nodes, SavedNode e.X.nc n := by rw [hnodes, hs.nc]; exact g3
  have hq := C94_quality p e he hye hok
  have hr := C94_deviations p e he hye (by rw [hs.nr]; exact hnr) hok
  rw [hnodes] at hq hr
  have hl := C94_lambdas svd sort f dset nodes rows _ h0 h1 h
  have hpos : ∀ n ∈ nodes, 0 < sse dset.X (coeffOf n) (vec dset.Y) := by
    intro n hn
    obtain ⟨-, ⟨-, -, -, h3⟩ | ⟨-, h3, -⟩⟩ := lassoFit_end hy h
    · cases h3
    · refine lt_of_le_of_ne (sse_nonneg_real _ _ _) (fun h4 => ?_)
      exact absurd (h3.2 ⟨n, hn, h4.symm⟩) (by simp)
  simp only [sse_same hs, hs.nr] at hq hr
  refine ⟨fun hnil => ⟨?_, ?_⟩, fun hne => ⟨_, _, (hq _).2 ⟨hne, fun n hn => ⟨hl n hn, hpos n hn⟩, rfl⟩,
    (hr _).2 ⟨hne, fun n hn => ⟨hl n hn, hpos n hn⟩, rfl⟩, ?_, ?_, rfl⟩⟩
  · cases hc : plotQualityScores p with
    | none => rfl
    | some out => exact absurd hnil ((hq out).1 hc).1
  · cases hc : plotDeviations p with
    | none => rfl
    | some out => exact absurd hnil ((hr out).1 hc).1
  · rw [List.map_map]; rfl
  · rw [List.map_map, g4]; rfl

/-- Hypotheses of C94: a loaded path with one node, on four rows with squared error 4; both lines are drawn. -/
example : plotQualityScores ⟨some ⟨⟨4, 1, fun _ _ => 1⟩, [0, 2, 0, 2], ["a", "y"], 1⟩, [⟨[1], 100, [0]⟩], [], []⟩ =
      some [(2, 4 * Real.log 4 + 2 + 4 / 2)] ∧
    plotDeviations ⟨some ⟨⟨4, 1, fun _ _ => 1⟩, [0, 2, 0, 2], ["a", "y"], 1⟩, [⟨[1], 100, [0]⟩], [], []⟩ =
      some [(2, 0)] := by
  have hs : sse (⟨4, 1, fun _ _ => 1⟩ : Mat ℝ) (coeffOf ⟨[1], 100, [0]⟩) (vec [0, 2, 0, 2]) = 4 := by
    simp only [sse, lin, sum_range_succ, sum_range_zero, coeffOf, vec]
    norm_num
  have hlog : Real.logb 10 100 = 2 := by
    rw [show (100 : ℝ) = 10 ^ (2 : ℕ) by norm_num, Real.logb_pow, Real.logb_self_eq_one (by norm_num)]
    norm_num
  have hok : ∀ n ∈ [(⟨[1], 100, [0]⟩ : LassoLarsNode ℝ)], SavedNode 1 n := by
    intro n hn
    rw [List.mem_singleton.1 hn]
    exact ⟨by simp, by simp, by simp, by simp⟩
  refine ⟨(C94_quality _ _ rfl rfl hok _).2 ⟨by simp, ?_, ?_⟩,
    (C94_deviations _ _ rfl rfl (by decide) hok _).2 ⟨by simp, ?_, ?_⟩⟩
  · simp only [List.mem_singleton, forall_eq, hs]
    norm_num
  · simp only [List.map_cons, List.map_nil, hs, hlog, savedAicc, List.length_singleton]
    norm_num
  · simp only [List.mem_singleton, forall_eq, hs]
    norm_num
  · simp only [List.map_cons, List.map_nil, hs, hlog]
    norm_num

open Classical in
/-- Hypotheses of C94 on a run of the command, with a codec for its one document. -/
example : ∃ rows file, ∃ marshal : LassoFileJson → Option String, ∃ unmarshal text j p, LassoFit LassoExample.svd id LassoExample.flags NestedExample.data
      NestedExample.path rows (some file) ∧ (∀ j text, marshal j = some text → unmarshal text = some j) ∧
    lassoFileToJson file = some j ∧ marshal j = some text ∧ lassoLarsPathFromBytes unmarshal text = some p ∧
    LoadedAs p file ∧ ∃ q, plotQualityScores p = some q ∧ q.map Prod.snd = [5 * Real.log 16 + 2 + 4 / 3] := by
  obtain ⟨rows, file, h, ha, -⟩ := LassoExample.fit_file
  have hnr : 0 < NestedExample.data.X.nr := by decide
  have hnc : 0 < NestedExample.data.X.nc := by decide
  obtain ⟨j, hj, -⟩ := C94_load (fun _ => none) (fun _ => none) (by simp) _ _ _ _ _ _ _ rfl hnr hnc h
  have hcodec : ∀ j' text, (fun k => if k = j then some "{}" else none) j' = some text →
      (fun t => if t = "{}" then some j else none) text = some j' := by
    intro j' text h
    simp only [Option.ite_none_right_eq_some, Option.some.injEq] at h
    simp [h.1, ← h.2]
  obtain ⟨j', hj', hload⟩ := C94_load _ _ hcodec _ _ _ _ _ _ _ rfl hnr hnc h
  rw [hj, Option.some.injEq] at hj'
  subst hj'
  obtain ⟨p, hp, hl⟩ := hload "{}" (if_pos rfl)
  obtain ⟨q, -, hq, -, -, hq2, -⟩ := (C94_command _ _ _ _ _ _ _ rfl hnr (by norm_num [LassoExample.flags])
    (by simp [LassoExample.flags]) h p hl).2 (by simp [NestedExample.path])
  refine ⟨rows, file, _, _, "{}", j, p, h, hcodec, hj, if_pos rfl, hp, hl, q, hq, ?_⟩
  rw [ha] at hq2
  cases q with
  | nil => simp at hq2
  | cons z q => simpa using hq2

end GoSelect
