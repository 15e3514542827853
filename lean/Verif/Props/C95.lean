import Verif.Model.PlotCommand
import Verif.Props.C79_C80
import Verif.Props.C94

/-! # C95: the command that plots a lasso path -/

namespace GoSelect

open Finset Spec

theorem newLine_fin {out : List (ℝ × ℝ)} (h : out ≠ []) :
    newLine (out.map (fun p => (.fin p.1, .fin p.2))) = some out :=
  (newLine_iff _ _).2 ⟨by simpa using h, rfl⟩

theorem log10Fl_pos {x : ℝ} (h : 0 < x) : log10Fl x = .fin (Real.logb 10 x) := (log10Fl_fin x _).2 ⟨h, rfl⟩

/-- A positive number of type `float64` has a logarithm above the start value of the entrance line. -/
theorem lowest_lt {x : ℝ} (h : (2 : ℝ)⁻¹ ^ 1074 ≤ x) : lowestFloat < Real.logb 10 x := by
  have hpos : (0 : ℝ) < 2⁻¹ ^ 1074 := by positivity
  have h1 : Real.logb 10 ((2 : ℝ)⁻¹ ^ 1074) ≤ Real.logb 10 x := Real.logb_le_logb_of_le (by norm_num) hpos h
  refine lt_of_lt_of_le ?_ h1
  rw [Real.logb_pow, Real.logb_inv]
  have h2 : Real.logb 10 2 ≤ 1 := by
    rw [← Real.logb_self_eq_one (b := 10) (by norm_num)]
    exact Real.logb_le_logb_of_le (by norm_num) (by norm_num) (by norm_num)
  have h3 : lowestFloat < -1074 := by
    unfold lowestFloat
    have h4 : (1 : ℝ) ≤ 2 ^ 971 := one_le_pow₀ (by norm_num)
    rw [show (2 : ℝ) ^ 1024 = 2 ^ 971 * 2 ^ 53 by rw [← pow_add]]
    generalize (2 : ℝ) ^ 971 = t at h4 ⊢
    linarith
  push_cast
  nlinarith

/-- What the entrance figure has to show: every pair of a selected feature and the regularisation, and a line through the
largest regularisation of each feature. -/
structure Spec.EntranceFigure (nodes : List (LassoLarsNode ℝ)) (scatter line : List (ℝ × ℝ)) : Prop where
  points : scatter = nodes.flatMap (fun n => n.selection.map (fun f : Nat => ((f : ℝ), Real.logb 10 n.lamb)))
  sorted : line.Pairwise (fun p q => p.1 < q.1)
  features : ∀ f : Nat, (f : ℝ) ∈ line.map Prod.fst ↔ ∃ n ∈ nodes, f ∈ n.selection
  largest : ∀ p ∈ line, p ∈ scatter ∧ ∀ q ∈ scatter, q.1 = p.1 → q.2 ≤ p.2

theorem plotEntranceTimes_some (nodes : List (LassoLarsNode ℝ)) (hne : pathFeatures nodes ≠ [])
    (hb : ∀ v ∈ pathFeatures nodes, v ≤ 2147483647) (hl : ∀ n ∈ nodes, (2 : ℝ)⁻¹ ^ 1074 ≤ n.lamb) :
    ∃ scatter line, plotEntranceTimes nodes = some (.entrance scatter line) ∧ EntranceFigure nodes scatter line := by
  have hpos : ∀ n ∈ nodes, 0 < n.lamb := fun n hn => lt_of_lt_of_le (by positivity) (hl n hn)
  obtain ⟨pts, h1, h2, h3, h4⟩ := C80_entrances (Real.logb 10) lowestFloat nodes hne hb
    (fun n hn => lowest_lt (hl n hn))
  set scatter := nodes.flatMap (fun n => n.selection.map (fun f : Nat => ((f : ℝ), Real.logb 10 n.lamb))) with hs
  have hscat : nodes.flatMap (fun n => n.selection.map (fun f : Nat => ((.fin (f : ℝ) : Fl ℝ), log10Fl n.lamb))) =
      scatter.map (fun p => (.fin p.1, .fin p.2)) := by
    rw [hs, List.map_flatMap]
    refine List.flatMap_congr (fun n hn => ?_)
    rw [List.map_map, log10Fl_pos (hpos n hn)]
    rfl
  have hsne : scatter ≠ [] := by
    intro h
    apply hne
    rw [hs, List.flatMap_eq_nil_iff] at h
    unfold pathFeatures
    rw [List.flatMap_eq_nil_iff]
    exact fun n hn => List.map_eq_nil_iff.1 (h n hn)
  obtain ⟨x, hx⟩ := List.exists_mem_of_ne_nil _ hne
  have hpne : pts ≠ [] := by
    rintro rfl
    exact absurd ((h3 x).2 hx) (by simp)
  have hmem : ∀ (v : Nat) (l : ℝ), (v, l) ∈ entrances (Real.logb 10) nodes ↔ ((v : ℝ), l) ∈ scatter := by
    intro v l
    unfold entrances
    rw [hs]
    simp only [List.mem_flatMap, List.mem_map, Prod.mk.injEq, Nat.cast_inj]
  refine ⟨scatter, pts.map (fun p => ((p.1 : ℝ), p.2)), ?_, rfl, ?_, ?_, ?_⟩
  · unfold plotEntranceTimes
    rw [h1]
    simp only [Option.bind_eq_bind, Option.bind_some]
    rw [hscat, newLine_fin hsne]
    simp only [Option.bind_some]
    have : pts.map (fun p => ((.fin (p.1 : ℝ) : Fl ℝ), (.fin p.2 : Fl ℝ))) =
        (pts.map (fun p => ((p.1 : ℝ), p.2))).map (fun p => (.fin p.1, .fin p.2)) := by
      rw [List.map_map]; rfl
    rw [this, newLine_fin (by simpa using hpne)]
    rfl
  · rw [List.pairwise_map]
    exact h2.imp (fun h => Int.cast_lt.2 h)
  · intro f
    rw [List.map_map]
    have e : (f : ℝ) ∈ pts.map (Prod.fst ∘ fun p => ((p.1 : ℝ), p.2)) ↔ (f : Int) ∈ pts.map (·.1) := by
      simp only [List.mem_map, Function.comp]
      refine exists_congr (fun p => and_congr_right (fun _ => ?_))
      rw [show (f : ℝ) = ((f : Int) : ℝ) by simp, Int.cast_inj]
    rw [e, h3]
    unfold pathFeatures
    exact List.mem_flatMap
  · intro p hp
    obtain ⟨z, hz, rfl⟩ := List.mem_map.1 hp
    obtain ⟨v, hv, hv2, hv3⟩ := h4 z hz
    have hc : (z.1 : ℝ) = (v : ℝ) := by rw [hv]; simp
    refine ⟨?_, ?_⟩
    · simp only [hc]
      exact (hmem v z.2).1 hv2
    · intro q hq hqv
      simp only [hc] at hqv
      have : ((v : ℝ), q.2) ∈ scatter := by rw [← hqv]; exact hq
      exact hv3 _ ((hmem v q.2).2 this) rfl

theorem plotPathFigure_some (nodes : List (LassoLarsNode ℝ)) (range : Option (ℝ × ℝ)) (hne : pathFeatures nodes ≠ [])
    (hb : ∀ v ∈ pathFeatures nodes, v ≤ 2147483647) (hl : ∀ n ∈ nodes, 0 < n.lamb)
    (h : ∀ n ∈ nodes, n.selection.length ≤ n.coeff.length) :
    ∃ last ∈ pathFeatures nodes, (∀ v ∈ pathFeatures nodes, v ≤ last) ∧
      ∃ a b, nodes.getLast? = some a ∧ nodes.head? = some b ∧
      plotPathFigure nodes range = some (.path ((List.range last).map (fun f =>
        (f, nodes.map (fun n => (Real.logb 10 n.lamb, coeffOf n f)))))
        [(Real.logb 10 a.lamb, 0), (Real.logb 10 b.lamb, 0)] range) := by
  obtain ⟨last, h1, h2, a, b, ha, hbb, hp⟩ := C79_lines_partial log10Fl nodes hne hb h
  refine ⟨last, h1, h2, a, b, ha, hbb, ?_⟩
  have hnodes : nodes ≠ [] := by rintro rfl; exact hne rfl
  unfold plotPathFigure
  rw [hp]
  simp only [Option.bind_eq_bind, Option.bind_some]
  have e : ((List.range last).map (fun f => (f, nodes.map (fun n => (log10Fl n.lamb, coeffOf n f))))).mapM
      (fun l => (newLine (l.2.map (fun p => (p.1, .fin p.2)))).map (fun xy => (l.1, xy))) =
      some ((List.range last).map (fun f => (f, nodes.map (fun n => (Real.logb 10 n.lamb, coeffOf n f))))) := by
    rw [mapM_some_iff, List.map_map, List.map_map]
    refine List.map_congr_left (fun f _ => ?_)
    simp only [Function.comp, List.map_map]
    have : nodes.map ((fun p : Fl ℝ × ℝ => (p.1, (.fin p.2 : Fl ℝ))) ∘ fun n => (log10Fl n.lamb, coeffOf n f)) =
        (nodes.map (fun n => (Real.logb 10 n.lamb, coeffOf n f))).map (fun p => (.fin p.1, .fin p.2)) := by
      rw [List.map_map]
      refine List.map_congr_left (fun n hn => ?_)
      simp only [Function.comp, log10Fl_pos (hl n hn)]
    rw [this, newLine_fin (by simpa using hnodes)]
    rfl
  rw [e]
  simp only [Option.bind_some]
  rw [log10Fl_pos (hl a (List.mem_of_getLast? ha)), log10Fl_pos (hl b (List.mem_of_head? hbb))]
  have := newLine_fin (out := [(Real.logb 10 a.lamb, 0), (Real.logb 10 b.lamb, 0)]) (by simp)
  simp only [List.map_cons, List.map_nil] at this
  rw [this]
  rfl

/-- C95: the figures that the command makes of a file of the lasso command.  The range is that passed on. -/
theorem C95_figures_partial (svd : Mat ℝ → SVD ℝ) (sort : List (Fl ℝ × Nat) → List (Fl ℝ × Nat)) (f : LassoFlags)
    (dset : Dataset ℝ) (nodes : List (LassoLarsNode ℝ)) (rows : List (HighscoreRow ℝ (Fl ℝ))) (file : LassoFile)
    (hy : dset.Y.length = dset.X.nr) (hnr : 0 < dset.X.nr) (hnc : dset.X.nc ≤ 2147483648)
    (h0 : 0 ≤ f.lambMin) (h1 : f.lassoType = "cd" → 0 < f.lambMin ∧ 0 < f.lambMax)
    (h : LassoFit svd sort f dset nodes rows (some file)) (hne : nodes ≠ [])
    (hfl : ∀ n ∈ nodes, (2 : ℝ)⁻¹ ^ 1074 ≤ n.lamb) (p : LassoLoaded) (hp : LoadedAs p file) (pre ext : String)
    (range : Option (ℝ × ℝ)) :
    ∃ scatter line quality dev lines first final,
      analyseLasso p pre ext range = some [
        (pre ++ "_entrance." ++ ext, .entrance scatter line),
        (pre ++ "_quality." ++ ext, .curve quality),
        (pre ++ "_dev." ++ ext, .curve dev),
        (pre ++ "_path." ++ ext, .path lines [(Real.logb 10 final.lamb, 0), (Real.logb 10 first.lamb, 0)] range)] ∧
      EntranceFigure nodes scatter line ∧
      quality.map Prod.fst = nodes.map (fun n => Real.logb 10 n.lamb) ∧ quality.map (fun z => .fin z.2) = file.aicc ∧
      dev = nodes.map (fun n => (Real.logb 10 n.lamb,
        Real.logb 10 (Real.sqrt (sse dset.X (coeffOf n) (vec dset.Y) / dset.X.nr)))) ∧
      nodes.head? = some first ∧ nodes.getLast? = some final ∧
      ∃ last ∈ pathFeatures nodes, (∀ v ∈ pathFeatures nodes, v ≤ last) ∧
        lines = (List.range last).map (fun f => (f, nodes.map (fun n => (Real.logb 10 n.lamb, coeffOf n f)))) := by
  obtain ⟨-, hq⟩ := C94_command svd sort f dset nodes rows file hy hnr h0 h1 h p hp
  obtain ⟨q, r, hq1, hr1, hq2, hq3, hr2⟩ := hq hne
  obtain ⟨-, g2, g3, -, -⟩ := C87_saved svd sort f dset nodes rows file hy h
  have hnodes : p.nodes = nodes := by rw [hp.nodes, g2]
  have hfe : pathFeatures nodes ≠ [] := by
    obtain ⟨n, hn⟩ := List.exists_mem_of_ne_nil _ hne
    intro hnil
    exact (g3 n hn).nonempty (List.flatMap_eq_nil_iff.1 hnil n hn)
  have hb : ∀ v ∈ pathFeatures nodes, v ≤ 2147483647 := by
    intro v hv
    obtain ⟨n, hn, hv⟩ := List.mem_flatMap.1 hv
    have := (g3 n hn).range v hv
    omega
  obtain ⟨scatter, line, e1, e2⟩ := plotEntranceTimes_some nodes hfe hb hfl
  obtain ⟨last, l1, l2, a, b, ha, hbb, e3⟩ := plotPathFigure_some nodes range hfe hb
    (fun n hn => lt_of_lt_of_le (by positivity) (hfl n hn)) (fun n hn => (g3 n hn).coeff.ge)
  refine ⟨scatter, line, q, r, _, b, a, ?_, e2, hq2, hq3, hr2, hbb, ha, last, l1, l2, rfl⟩
  unfold analyseLasso
  rw [hnodes, e1, hq1, hr1, e3]
  rfl

/-- C95: the command analyses the file named by its flag, and the names of the four images are made of the prefix and the
extension it is given. -/
theorem C95_images (unmarshal : String → Option LassoFileJson) (files : String → Option String) (f : PlotFlags) :
    (∀ figs, plotLassoMain unmarshal files f = some figs → figs.map Prod.fst = [f.pre ++ "_entrance." ++ f.ext,
      f.pre ++ "_quality." ++ f.ext, f.pre ++ "_dev." ++ f.ext, f.pre ++ "_path." ++ f.ext]) ∧
    ((files f.json).bind (lassoLarsPathFromBytes unmarshal) = none → plotLassoMain unmarshal files f = none) ∧
    ∀ p, (files f.json).bind (lassoLarsPathFromBytes unmarshal) = some p →
      plotLassoMain unmarshal files f = analyseLasso p f.pre f.ext none := by
  have hr : axisRange 0 0 = none := by
    unfold axisRange
    rw [if_neg (by norm_num)]
  have he : plotLassoMain unmarshal files f =
      ((files f.json).bind (lassoLarsPathFromBytes unmarshal)).bind (fun p => analyseLasso p f.pre f.ext none) := by
    unfold plotLassoMain lassoLarsPathFromJSON
    simp only [hr]
    cases files f.json <;> rfl
  refine ⟨fun figs h => ?_, fun h => by rw [he, h]; rfl, fun p h => by rw [he, h]; rfl⟩
  rw [he] at h
  obtain ⟨p, -, h⟩ := Option.bind_eq_some_iff.1 h
  unfold analyseLasso at h
  obtain ⟨e, he, h⟩ := Option.bind_eq_some_iff.1 h
  obtain ⟨q, -, h⟩ := Option.bind_eq_some_iff.1 h
  obtain ⟨d, -, h⟩ := Option.bind_eq_some_iff.1 h
  obtain ⟨pa, hpa, h⟩ := Option.bind_eq_some_iff.1 h
  cases h
  rfl

/-- C95: the flags of the range have no effect. -/
theorem C95_range_ignored (unmarshal : String → Option LassoFileJson) (files : String → Option String) (f : PlotFlags) :
    (∀ a b, plotLassoMain unmarshal files { f with coeffMin := a, coeffMax := b } = plotLassoMain unmarshal files f) ∧
    ∀ figs, plotLassoMain unmarshal files f = some figs → ∀ name lines zero range,
      (name, .path lines zero range) ∈ figs → range = none := by
  refine ⟨fun a b => rfl, fun figs h name lines zero range hmem => ?_⟩
  have hr : axisRange 0 0 = none := by
    unfold axisRange
    rw [if_neg (by norm_num)]
  unfold plotLassoMain at h
  simp only [hr] at h
  obtain ⟨p, -, h⟩ := Option.bind_eq_some_iff.1 h
  unfold analyseLasso at h
  obtain ⟨e, he, h⟩ := Option.bind_eq_some_iff.1 h
  obtain ⟨q, -, h⟩ := Option.bind_eq_some_iff.1 h
  obtain ⟨d, -, h⟩ := Option.bind_eq_some_iff.1 h
  obtain ⟨pa, hpa, h⟩ := Option.bind_eq_some_iff.1 h
  cases h
  simp only [List.mem_cons, Prod.mk.injEq, reduceCtorEq, and_false, List.not_mem_nil, or_false, false_or] at hmem
  rcases hmem with ⟨-, hmem⟩ | ⟨-, hmem⟩
  · unfold plotEntranceTimes at he
    obtain ⟨_, -, he⟩ := Option.bind_eq_some_iff.1 he
    obtain ⟨_, -, he⟩ := Option.bind_eq_some_iff.1 he
    obtain ⟨_, -, he⟩ := Option.bind_eq_some_iff.1 he
    rw [← hmem] at he
    cases he
  · unfold plotPathFigure at hpa
    obtain ⟨_, -, hpa⟩ := Option.bind_eq_some_iff.1 hpa
    obtain ⟨_, -, hpa⟩ := Option.bind_eq_some_iff.1 hpa
    obtain ⟨_, -, hpa⟩ := Option.bind_eq_some_iff.1 hpa
    rw [← hmem] at hpa
    cases hpa
    rfl

/-- Full C95, the part about the range: two different values of the flags are the ends of the axis of the
coefficients.  False: `C95_refuted`. -/
def Spec.RangeApplied : Prop :=
  ∀ (unmarshal : String → Option LassoFileJson) (files : String → Option String) (f : PlotFlags)
    (figs : List (String × Figure)), plotLassoMain unmarshal files f = some figs → 1 < f.coeffMax - f.coeffMin →
    ∃ name lines zero, (name, .path lines zero (some (f.coeffMin, f.coeffMax))) ∈ figs

/-- C95: the range is not applied. -/
theorem C95_refuted : ¬ RangeApplied := by
  intro hall
  obtain ⟨rows, file, h, -, -⟩ := LassoExample.fit_file
  have hnr : 0 < NestedExample.data.X.nr := by decide
  obtain ⟨j, hj, hload⟩ := C94_load (fun _ => none) (fun _ => none) (by simp) _ _ _ _ _ _ _ rfl hnr (by decide) h
  have hload : ∃ p, lassoLarsPathFromBytes (fun _ => some j) "" = some p ∧ LoadedAs p file := by
    classical
    obtain ⟨j', hj', hload⟩ := C94_load (fun k => if k = j then some "" else none) (fun _ => some j)
      (by intro k t hk; simp only [Option.ite_none_right_eq_some] at hk; rw [hk.1]) _ _ _ _ _ _ _ rfl hnr (by decide) h
    rw [hj, Option.some.injEq] at hj'
    exact hload "" (by rw [if_pos hj'.symm])
  obtain ⟨p, hp, hl⟩ := hload
  obtain ⟨_, _, _, _, _, _, _, hfig, -⟩ := C95_figures_partial _ _ _ _ _ _ _ rfl hnr (by simp [NestedExample.data])
    (by norm_num [LassoExample.flags]) (by simp [LassoExample.flags]) h (by simp [NestedExample.path])
    (by simp only [NestedExample.path, List.mem_singleton, forall_eq]
        exact le_trans (pow_le_one₀ (by norm_num) (by norm_num)) (by norm_num)) p hl "" "" (axisRange 0 0)
  have e : plotLassoMain (fun _ => some j) (fun _ => some "") ⟨"", "", "", 0, 2⟩ = analyseLasso p "" "" (axisRange 0 0) := by
    unfold plotLassoMain lassoLarsPathFromJSON
    simp only [Option.bind_eq_bind, hp, Option.bind_some]
  have hm := e.trans hfig
  obtain ⟨name, lines, zero, hmem⟩ := hall _ _ _ _ hm (by norm_num)
  have := (C95_range_ignored _ _ _).2 _ hm _ _ _ _ hmem
  cases this

/-- Hypotheses of C95: figures of a run of the lasso command. -/
example : ∃ rows file, LassoFit LassoExample.svd id LassoExample.flags NestedExample.data NestedExample.path rows
      (some file) ∧ NestedExample.path ≠ [] ∧ (∀ n ∈ NestedExample.path, (2 : ℝ)⁻¹ ^ 1074 ≤ n.lamb) ∧
      pathFeatures NestedExample.path = [1] := by
  obtain ⟨rows, file, h, -, -⟩ := LassoExample.fit_file
  refine ⟨rows, file, h, by simp [NestedExample.path], ?_, rfl⟩
  simp only [NestedExample.path, List.mem_singleton, forall_eq]
  exact le_trans (pow_le_one₀ (by norm_num) (by norm_num)) (by norm_num)

end GoSelect
