import Verif.Model.LassoCommand
import Verif.Props.C02
import Verif.Props.C37_C38
import Verif.Props.C48_C49
import Verif.Props.C50_C51
import Verif.Props.C57
import Verif.Props.C59_C61
import Verif.Props.C63
import Verif.Props.C64
import Verif.Props.C67_C68
import Verif.Proofs.NestedLasso
import Verif.Props.C86

/-! # C87: what the lasso command saves.  C88: when it saves. -/

namespace GoSelect

open Finset Spec

/-! ### Paths before normalisation is undone -/

/-- A node of a path of either algorithm. -/
structure RawNode (nc : Nat) (n : LassoLarsNode ℝ) : Prop where
  sorted : n.selection.Pairwise (· < ·)
  range : ∀ f ∈ n.selection, f < nc
  coeff : n.coeff.length = n.selection.length

theorem crdPath_raw {problem : ℝ → CDProblem ℝ Unit} {nFeat : Nat} (hp : ∀ l, (problem l).nFeat = nFeat)
    {lambs : List ℝ} {maxIter : Nat} {path : List (LassoLarsNode ℝ)}
    (h : CrdPathReturns problem nFeat lambs maxIter path) :
    (∀ n ∈ path, RawNode nFeat n) ∧ (path.map (·.lamb)).Sublist lambs.reverse := by
  obtain ⟨s, h1, h2, h3⟩ := h
  have h4 := C57_stateless problem nFeat hp lambs maxIter s h1 h2
  simp only at h4
  rw [h3, Option.some.injEq] at h4
  set sol := lambs.reverse.map (fun l => crdNode nFeat (cdLoop (problem l) maxIter (cdInit (problem l) ())).1.beta l)
    with hsol
  have h5 := (List.map_injective_iff.2 (fun a b hab => Option.some.inj hab)) h4
  have hsub : path.Sublist sol := by
    rw [h5]
    split
    · exact List.Sublist.refl _
    · exact List.dropWhile_sublist _
  refine ⟨fun n hn => ?_, ?_⟩
  · have := hsub.subset hn
    rw [hsol] at this
    obtain ⟨l, -, rfl⟩ := List.mem_map.1 this
    refine ⟨?_, ?_, by simp [crdNode]⟩
    · exact (List.pairwise_lt_range).filter _
    · intro f hf
      exact List.mem_range.1 (List.mem_filter.1 hf).1
  · have := hsub.map (·.lamb)
    rw [hsol, List.map_map] at this
    have e : ((fun n : LassoLarsNode ℝ => n.lamb) ∘ fun l => crdNode nFeat
        (cdLoop (problem l) maxIter (cdInit (problem l) ())).1.beta l) = id := by
      funext l; rfl
    rwa [e, List.map_id] at this

theorem lassoRaw_nodes {svd : Mat ℝ → SVD ℝ} {f : LassoFlags} {X : Mat ℝ} {y : List ℝ}
    {path : List (LassoLarsNode ℝ)} (h : LassoRawPath svd f X y path) : ∀ n ∈ path, RawNode X.nc n := by
  unfold LassoRawPath at h
  split at h
  · intro n hn
    have := (C63_path X _ _ _ _ path h).1 n hn
    exact ⟨this.sorted, this.range, this.coeff⟩
  · split at h
    · obtain ⟨C, lambs, -, -, h⟩ := h
      refine (crdPath_raw (fun _ => ?_) h).1
      rfl
    · subst h
      simp

/-! ### Undoing the normalisation -/

theorem unnormalizeNode_shape {n : NormalizedData} {node node' : LassoLarsNode ℝ}
    (hl : node.coeff.length = node.selection.length) (hu : unnormalizeNode n node = some node') :
    node'.lamb = node.lamb ∧ node'.coeff.length = node'.selection.length ∧
      (n.hasBias = true → node'.selection = 0 :: node.selection ∧ 0 ∉ node.selection) ∧
      (n.hasBias = false → node'.selection = node.selection) := by
  unfold unnormalizeNode at hu
  cases hb : linearTransformationBias n node.selection node.coeff with
  | none => rw [hb] at hu; simp at hu
  | some bias =>
    rw [hb] at hu
    simp only at hu
    cases hul : unnormLoop n node.selection 0 node.coeff with
    | none => rw [hul] at hu; simp at hu
    | some out =>
      rw [hul] at hu
      simp only at hu
      obtain ⟨ho, hz⟩ := unnormLoop_some n node.selection 0 [] node.coeff out rfl (by simpa using hul) (by omega)
      rw [List.nil_append, List.drop_of_length_le (by omega), List.append_nil] at ho
      have hlen : out.length = node.selection.length := by rw [ho, List.length_zipWith]; omega
      by_cases hbias : n.hasBias = true
      · rw [if_pos hbias, Option.some.injEq] at hu
        subst hu
        refine ⟨rfl, by simp [hlen], fun _ => ⟨rfl, fun h0 => hz 0 h0 ⟨rfl, hbias⟩⟩, fun h => ?_⟩
        rw [hbias] at h
        cases h
      · rw [if_neg hbias, Option.some.injEq] at hu
        subst hu
        exact ⟨rfl, hlen, fun h => absurd h hbias, fun _ => rfl⟩

theorem path2_mem {n : NormalizedData} {raw nodes : List (LassoLarsNode ℝ)} (h : path2Unnormalized n raw = some nodes)
    {node' : LassoLarsNode ℝ} (hn : node' ∈ nodes) : ∃ node ∈ raw, unnormalizeNode n node = some node' := by
  have h' := (mapM_some_iff).1 h
  have : some node' ∈ raw.map (unnormalizeNode n) := by
    rw [h']
    exact List.mem_map.2 ⟨node', hn, rfl⟩
  obtain ⟨node, h1, h2⟩ := List.mem_map.1 this
  exact ⟨node, h1, h2⟩

/-- What is known of a node of the final path. -/
theorem final_node {X : Mat ℝ} {y : List ℝ} {n : NormalizedData} (hn : newNormalizedData X y = some n)
    {node node' : LassoLarsNode ℝ} (hr : RawNode n.X.nc node) (hu : unnormalizeNode n node = some node') :
    RawNode X.nc node' := by
  rcases newNormalizedData_inv X y with ⟨-, h1⟩ | ⟨d', h1, h2, -⟩
  · rw [hn] at h1; simp at h1
  rw [hn, Option.some.injEq] at h1
  subst h1
  obtain ⟨-, hc, h3, h4⟩ := unnormalizeNode_shape hr.coeff hu
  cases hb : n.hasBias with
  | true =>
    obtain ⟨h5, h6⟩ := h3 hb
    refine ⟨?_, ?_, hc⟩
    · rw [h5, List.pairwise_cons]
      refine ⟨fun a ha => Nat.pos_of_ne_zero (fun e => h6 (e ▸ ha)), hr.sorted⟩
    · rw [h5]
      intro f hf
      rcases List.mem_cons.1 hf with rfl | hf
      · exact (h2.bias.1 hb).1
      · rw [← h2.nc]; exact hr.range f hf
  | false =>
    rw [h2.nc] at hr
    refine ⟨?_, ?_, hc⟩
    · rw [h4 hb]; exact hr.sorted
    · rw [h4 hb]; exact hr.range

/-- `GetCriteria` panics for an empty selection. -/
theorem getCriteria_nonempty {β : Type} {X : Mat ℝ} {y : List ℝ} {nodes : List (LassoLarsNode ℝ)}
    {crit : Nat → Nat → ℝ → β} {l : List β} (h : getCriteria X y nodes crit = some l) :
    ∀ n ∈ nodes, n.selection ≠ [] := by
  intro n hn he
  have h' := (mapM_some_iff).1 h
  have hm : (do
      let model ← selected2Model (n.selection.map Int.ofNat) X.nc
      let design ← getDesignMatrix model X
      let r ← rss design n.coeff y
      return crit (numFeatures model) X.nr r : Option β) ∈ l.map some := by
    rw [← h']
    exact List.mem_map.2 ⟨n, hn, rfl⟩
  obtain ⟨v, -, hv⟩ := List.mem_map.1 hm
  cases hs : selected2Model (n.selection.map Int.ofNat) X.nc with
  | none => rw [hs] at hv; cases hv
  | some m =>
    rw [hs] at hv
    have hcard : numFeatures m = 0 := by
      rw [he] at hs
      obtain ⟨-, hm⟩ := C31_model _ _ _ hs
      rw [numFeatures_eq_card]
      refine List.length_eq_zero_iff.2 (List.eq_nil_iff_forall_not_mem.2 (fun i hi => ?_))
      have := (hm i).1 ((mem_features m i).1 hi)
      simp at this
    have hd : getDesignMatrix m X = none := by
      unfold getDesignMatrix
      simp [hcard]
    have hv' : some v = ((getDesignMatrix m X).bind fun design => (rss design n.coeff y).bind fun r =>
      some (crit (numFeatures m) X.nr r)) := hv
    rw [hd] at hv'
    cases hv'

/-! ### C87 -/

/-- The corrected Akaike criterion of `k` coefficients, `n` rows and the sum of squared errors `r`; the correction
has denominator 1 when `n - k - 1` is not positive. -/
noncomputable def Spec.savedAicc (k n : Nat) (r : ℝ) : ℝ :=
  n * Real.log r + 2 * k + (2 * k ^ 2 + 2 * k) / (if k + 1 < n then (n : ℝ) - k - 1 else 1)

/-- The Bayesian criterion. -/
noncomputable def Spec.savedBic (k n : Nat) (r : ℝ) : ℝ := n * Real.log r + k * Real.log n

theorem savedAicc_eq (k n : Nat) (r : ℝ) : aicc k n r = savedAicc k n r := by
  unfold savedAicc
  by_cases h : k + 1 < n
  · rw [C02_aicc_formula k n r h, if_pos h]
    ring
  · rw [aicc_eq, if_pos (by omega), if_neg h, aic]
    push_cast
    ring

theorem sse_nonneg_real (X : Mat ℝ) (b y : Nat → ℝ) : 0 ≤ sse X b y := sum_nonneg (fun _ _ => sq_nonneg _)

theorem withLog_fin {crit : Nat → Nat → ℝ → ℝ} {k n : Nat} {r : ℝ} (hr : 0 ≤ r) :
    (withLog crit k n r).isFin = true ↔ 0 < r := by
  unfold withLog
  by_cases h : 0 < r
  · simp [h, Fl.isFin]
  · have : r = 0 := le_antisymm (not_lt.1 h) hr
    simp [this, Fl.isFin]

/-- A node of the saved path refers to `nc` columns. -/
structure Spec.SavedNode (nc : Nat) (n : LassoLarsNode ℝ) : Prop where
  sorted : n.selection.Pairwise (· < ·)
  nonempty : n.selection ≠ []
  range : ∀ f ∈ n.selection, f < nc
  coeff : n.coeff.length = n.selection.length

/-- The nodes and their criteria. -/
theorem lassoFit_criteria {svd : Mat ℝ → SVD ℝ} {sort : List (Fl ℝ × Nat) → List (Fl ℝ × Nat)} {f : LassoFlags}
    {dset : Dataset ℝ} {nodes : List (LassoLarsNode ℝ)} {rows : List (HighscoreRow ℝ (Fl ℝ))} {out : Option LassoFile}
    (hy : dset.Y.length = dset.X.nr) (h : LassoFit svd sort f dset nodes rows out) :
    (∀ n ∈ nodes, SavedNode dset.X.nc n) ∧ ∀ crit : Nat → Nat → ℝ → ℝ, getCriteria dset.X dset.Y nodes (withLog crit) =
      some (nodes.map (fun n => withLog crit n.selection.length dset.X.nr (sse dset.X (coeffOf n) (vec dset.Y)))) := by
  obtain ⟨n, y, hn, hfin, ⟨h1, h2, rfl, -, h5⟩ | ⟨raw, a, b, hraw, hp, ha, hb, -, hout⟩⟩ := h
  · exact ⟨by simp, fun _ => rfl⟩
  have hne := getCriteria_nonempty ha
  have hok : ∀ n ∈ nodes, SavedNode dset.X.nc n := by
    intro node' hnode
    obtain ⟨node, h1, h2⟩ := path2_mem hp hnode
    have := final_node hn (lassoRaw_nodes hraw node h1) h2
    exact ⟨this.sorted, hne _ hnode, this.range, this.coeff⟩
  exact ⟨hok, fun crit => C68_criteria_partial dset.X dset.Y nodes (withLog crit) hy
      (fun n hn => ⟨(hok n hn).nonempty, (hok n hn).sorted, (hok n hn).range, (hok n hn).coeff⟩)⟩

/-- Everything about the end of the command. -/
theorem lassoFit_end {svd : Mat ℝ → SVD ℝ} {sort : List (Fl ℝ × Nat) → List (Fl ℝ × Nat)} {f : LassoFlags}
    {dset : Dataset ℝ} {nodes : List (LassoLarsNode ℝ)} {rows : List (HighscoreRow ℝ (Fl ℝ))} {out : Option LassoFile}
    (hy : dset.Y.length = dset.X.nr) (h : LassoFit svd sort f dset nodes rows out) :
    (∀ n ∈ nodes, SavedNode dset.X.nc n) ∧
    ((f.lassoType = "cd" ∧ f.covType ∉ ["empirical", "identity", "threshold"] ∧ nodes = [] ∧ out = none) ∨
      ¬ (f.lassoType = "cd" ∧ f.covType ∉ ["empirical", "identity", "threshold"]) ∧
      (out = none ↔ ∃ n ∈ nodes, sse dset.X (coeffOf n) (vec dset.Y) = 0) ∧
      ∀ file, out = some file → file.dset = dset ∧ file.nodes = nodes ∧
        file.aicc = nodes.map (fun n => .fin (savedAicc n.selection.length dset.X.nr
          (sse dset.X (coeffOf n) (vec dset.Y)))) ∧
        file.bic = nodes.map (fun n => .fin (savedBic n.selection.length dset.X.nr
          (sse dset.X (coeffOf n) (vec dset.Y))))) := by
  obtain ⟨hok, hcrit⟩ := lassoFit_criteria hy h
  obtain ⟨n, y, hn, hfin, ⟨h1, h2, rfl, -, h5⟩ | ⟨raw, a, b, hraw, hp, ha, hb, -, hout⟩⟩ := h
  · exact ⟨by simp, .inl ⟨h1, h2, rfl, h5⟩⟩
  rw [hcrit, Option.some.injEq] at ha hb
  have hall : (a ++ b).all Fl.isFin = true ↔ ∀ n ∈ nodes, 0 < sse dset.X (coeffOf n) (vec dset.Y) := by
    rw [← ha, ← hb]
    simp only [List.all_append, List.all_map, Bool.and_eq_true, List.all_eq_true, Function.comp,
      withLog_fin (sse_nonneg_real _ _ _), and_self]
  refine ⟨hok, .inr ⟨?_, ?_, ?_⟩⟩
  · rintro ⟨h1, h2⟩
    unfold LassoRawPath at hraw
    rw [if_neg (by rw [h1]; decide), if_pos h1] at hraw
    obtain ⟨C, lambs, hC, -⟩ := hraw
    unfold LassoCov at hC
    simp only [List.mem_cons, List.not_mem_nil, or_false, not_or] at h2
    rw [if_neg h2.1, if_neg h2.2.1, if_neg h2.2.2] at hC
    exact hC
  · rw [hout]
    split
    · rename_i hc
      rw [hall] at hc
      simp only [reduceCtorEq, false_iff, not_exists, not_and]
      exact fun n hn => (hc n hn).ne'
    · rename_i hc
      rw [hall] at hc
      push_neg at hc
      obtain ⟨m, hm, hle⟩ := hc
      exact iff_of_true rfl ⟨m, hm, le_antisymm hle (sse_nonneg_real _ _ _)⟩
  · intro file hfile
    rw [hout] at hfile
    split at hfile
    · rename_i hc
      rw [hall] at hc
      rw [Option.some.injEq] at hfile
      subst hfile
      refine ⟨rfl, rfl, ?_, ?_⟩
      · show a = _
        rw [← ha]
        refine List.map_congr_left (fun m hm => ?_)
        rw [withLog, if_pos (hc m hm), savedAicc_eq]
      · show b = _
        rw [← hb]
        refine List.map_congr_left (fun m hm => ?_)
        rw [withLog, if_pos (hc m hm), bic, savedBic, add_comm]
    · cases hfile

/-- C87: a file holds the data as read, a path whose nodes select distinct existing columns in ascending order with one
coefficient each, and per node the two criteria of these very coefficients on the data as read. -/
theorem C87_saved (svd : Mat ℝ → SVD ℝ) (sort : List (Fl ℝ × Nat) → List (Fl ℝ × Nat)) (f : LassoFlags)
    (dset : Dataset ℝ) (nodes : List (LassoLarsNode ℝ)) (rows : List (HighscoreRow ℝ (Fl ℝ))) (file : LassoFile)
    (hy : dset.Y.length = dset.X.nr) (h : LassoFit svd sort f dset nodes rows (some file)) :
    file.dset = dset ∧ file.nodes = nodes ∧ (∀ n ∈ nodes, SavedNode dset.X.nc n) ∧
    file.aicc = nodes.map (fun n => .fin (savedAicc n.selection.length dset.X.nr
      (sse dset.X (coeffOf n) (vec dset.Y)))) ∧
    file.bic = nodes.map (fun n => .fin (savedBic n.selection.length dset.X.nr
      (sse dset.X (coeffOf n) (vec dset.Y)))) := by
  obtain ⟨h1, ⟨-, -, -, h2⟩ | ⟨-, -, h2⟩⟩ := lassoFit_end hy h
  · cases h2
  · obtain ⟨h3, h4, h5, h6⟩ := h2 file rfl
    exact ⟨h3, h4, h1, h5, h6⟩

/-- C88: no file is written exactly when the covariance of coordinate descent is unknown or a node of the path
fits the response exactly. -/
theorem C88_written (svd : Mat ℝ → SVD ℝ) (sort : List (Fl ℝ × Nat) → List (Fl ℝ × Nat)) (f : LassoFlags)
    (dset : Dataset ℝ) (nodes : List (LassoLarsNode ℝ)) (rows : List (HighscoreRow ℝ (Fl ℝ))) (out : Option LassoFile)
    (hy : dset.Y.length = dset.X.nr) (h : LassoFit svd sort f dset nodes rows out) :
    out = none ↔ (f.lassoType = "cd" ∧ f.covType ∉ ["empirical", "identity", "threshold"]) ∨
      ∃ n ∈ nodes, ∀ r < dset.X.nr, ∑ j ∈ range dset.X.nc, dset.X.get r j * coeffOf n j = dset.Y.getD r 0 := by
  have hz : ∀ n : LassoLarsNode ℝ, sse dset.X (coeffOf n) (vec dset.Y) = 0 ↔ ∀ r < dset.X.nr,
      ∑ j ∈ range dset.X.nc, dset.X.get r j * coeffOf n j = dset.Y.getD r 0 := by
    intro n
    unfold sse
    rw [sum_eq_zero_iff_of_nonneg (fun _ _ => sq_nonneg _)]
    refine ⟨fun h r hr => ?_, fun h r hr => ?_⟩
    · have := pow_eq_zero_iff (two_ne_zero) |>.1 (h r (mem_range.2 hr))
      exact sub_eq_zero.1 this
    · have := h r (mem_range.1 hr)
      exact pow_eq_zero_iff (two_ne_zero) |>.2 (sub_eq_zero.2 this)
  obtain ⟨-, ⟨h1, h2, -, h3⟩ | ⟨h1, h2, -⟩⟩ := lassoFit_end hy h
  · exact iff_of_true h3 (.inl ⟨h1, h2⟩)
  · rw [h2]
    simp only [hz]
    exact ⟨.inr, fun h => h.resolve_left h1⟩

/-- C88: an algorithm that is neither "lars" nor "cd" is not reported: the file is written, with an empty path. -/
theorem C88_unknown (svd : Mat ℝ → SVD ℝ) (sort : List (Fl ℝ × Nat) → List (Fl ℝ × Nat)) (f : LassoFlags)
    (dset : Dataset ℝ) (nodes : List (LassoLarsNode ℝ)) (rows : List (HighscoreRow ℝ (Fl ℝ))) (out : Option LassoFile)
    (hy : dset.Y.length = dset.X.nr) (h1 : f.lassoType ≠ "lars") (h2 : f.lassoType ≠ "cd")
    (h : LassoFit svd sort f dset nodes rows out) : out = some ⟨dset, [], [], []⟩ := by
  have hnil : nodes = [] := by
    obtain ⟨n, y, -, -, ⟨h3, -⟩ | ⟨raw, a, b, hraw, hp, -⟩⟩ := h
    · exact absurd h3 h2
    · unfold LassoRawPath at hraw
      rw [if_neg h1, if_neg h2] at hraw
      subst hraw
      exact (Option.some.inj hp).symm
  subst hnil
  obtain ⟨-, ⟨h3, -⟩ | ⟨-, h3, h4⟩⟩ := lassoFit_end hy h
  · exact absurd h3 h2
  · cases ho : out with
    | none => rw [ho] at h3; simp at h3
    | some file =>
      obtain ⟨e1, e2, e3, e4⟩ := h4 file ho
      cases file
      simp_all

/-- C87: the regularisation never grows along the path; with coordinate descent for `0 < lmin ≤ lmax`. -/
theorem C87_lambdas (svd : Mat ℝ → SVD ℝ) (sort : List (Fl ℝ × Nat) → List (Fl ℝ × Nat)) (f : LassoFlags)
    (dset : Dataset ℝ) (nodes : List (LassoLarsNode ℝ)) (rows : List (HighscoreRow ℝ (Fl ℝ))) (out : Option LassoFile)
    (hf : f.lassoType = "cd" → 0 < f.lambMin ∧ f.lambMin ≤ f.lambMax)
    (h : LassoFit svd sort f dset nodes rows out) : nodes.Pairwise (fun a b => b.lamb ≤ a.lamb) := by
  obtain ⟨n, y, hn, hfin, ⟨-, -, rfl, -⟩ | ⟨raw, a, b, hraw, hp, -⟩⟩ := h
  · exact List.Pairwise.nil
  have hl : nodes.map (·.lamb) = raw.map (·.lamb) := by
    have hlen := mapM_length hp
    apply List.ext_getElem
    · simp [hlen]
    · intro i h1 h2
      rw [List.getElem_map, List.getElem_map]
      have hi : i < raw.length := by simpa using h2
      have := mapM_getElem hp i hi
      exact (unnormalizeNode_shape (lassoRaw_nodes hraw _ (List.getElem_mem hi)).coeff this).1
  have key : (raw.map (·.lamb)).Pairwise (fun a b => b ≤ a) := by
    unfold LassoRawPath at hraw
    split at hraw
    · rw [List.pairwise_map]
      exact (C63_path n.X _ _ _ _ raw hraw).2
    · split at hraw
      · rename_i hcd
        obtain ⟨h1, h2⟩ := hf hcd
        obtain ⟨C, lambs, -, hlog, hraw⟩ := hraw
        refine List.Pairwise.sublist (crdPath_raw (fun _ => ?_) hraw).2 ?_
        · rfl
        rw [List.pairwise_reverse]
        by_cases hnum : 2 ≤ f.num
        · obtain ⟨k, hk⟩ : ∃ k : Nat, f.num = k := ⟨f.num.toNat, by omega⟩
          rw [hk] at hlog
          exact (C38_increasing f.lambMin f.lambMax k h1 (lt_of_lt_of_le h1 h2) (by omega) lambs hlog).2.2 h2
        · unfold logspace at hlog
          split at hlog
          · rw [← Option.some.inj hlog]; exact List.Pairwise.nil
          · split at hlog
            · rw [← Option.some.inj hlog]; simp
            · rw [if_pos (by omega)] at hlog
              cases hlog
      · subst hraw
        exact List.Pairwise.nil
  rw [← hl, List.pairwise_map] at key
  exact key

/-- The covariance matrix that a name stands for: the means of the products of columns, the identity, or the means of
the products with the small ones set to 0. -/
def Spec.CovarianceOf (name : String) (X C : Mat ℝ) : Prop :=
  C.nr = X.nc ∧ C.nc = X.nc ∧
  ((name = "empirical" ∧ ∀ i j, i < X.nc → j < X.nc → C.get i j = (∑ r ∈ range X.nr, X.get r i * X.get r j) / X.nr) ∨
  (name = "identity" ∧ ∀ i j, i < X.nc → j < X.nc → C.get i j = if i = j then 1 else 0) ∨
  (name = "threshold" ∧ ∃ t, ∀ i j, i < X.nc → j < X.nc →
    let c := (∑ r ∈ range X.nr, X.get r i * X.get r j) / X.nr
    C.get i j = if |c| < t then 0 else c))

theorem LassoCov.spec {name : String} {X C : Mat ℝ} (h : LassoCov name X C) : CovarianceOf name X C := by
  have he : ∀ i j, (empiricalCov X).get i j = (∑ r ∈ range X.nr, X.get r i * X.get r j) / X.nr := by
    intro i j
    simp only [empiricalCov]
    ring
  unfold LassoCov at h
  split at h
  · subst h
    exact ⟨rfl, rfl, .inl ⟨‹_›, fun i j _ _ => he i j⟩⟩
  · split at h
    · subst h
      exact ⟨rfl, rfl, .inr (.inl ⟨‹_›, fun i j _ _ => rfl⟩)⟩
    · split at h
      · obtain ⟨_, t, -, hs⟩ := h
        obtain ⟨h1, h2, h3, -⟩ := C76_entries X X t C hs
        refine ⟨h1, h2, .inr (.inr ⟨‹_›, t, fun i j hi hj => ?_⟩)⟩
        have := h3 i j hi hj
        rwa [he] at this
      · exact h.elim

/-- C87: with coordinate descent the path is, from the largest regularisation of the grid `Logspace(lmin, lmax, num)` to
the smallest, what `LassoCrdDesc` returns for the normalised data, that regularisation and the tolerance of the flags;
nodes without features are left out as long as none with features has been met; then the normalisation is undone. -/
theorem C87_cd (svd : Mat ℝ → SVD ℝ) (sort : List (Fl ℝ × Nat) → List (Fl ℝ × Nat)) (f : LassoFlags)
    (dset : Dataset ℝ) (nodes : List (LassoLarsNode ℝ)) (rows : List (HighscoreRow ℝ (Fl ℝ))) (file : LassoFile)
    (hf : f.lassoType = "cd") (h : LassoFit svd sort f dset nodes rows (some file)) :
    ∃ n y C grid sol, newNormalizedData dset.X dset.Y = some n ∧ finValues n.y = some y ∧
      CovarianceOf f.covType n.X C ∧
      logspace f.lambMin f.lambMax f.num = some grid ∧
      List.Forall₂ (fun l node => node.lamb = l ∧ ∃ b, lassoCrdDesc (S := Unit)
        { nr := n.X.nr
          nFeat := n.X.nc
          cov := C
          XTy := fun j => ∑ r ∈ range n.X.nr, n.X.get r j * y.getD r 0
          lamb := l
          tol := f.tol
          corr := pureLasso } () none 100000 = some (b, none) ∧
        (∀ j, j ∈ node.selection ↔ j < n.X.nc ∧ 1 / 10 ^ 16 < |b j|) ∧ node.coeff = node.selection.map b)
        grid.reverse sol ∧
      path2Unnormalized n (if ∀ x ∈ sol, x.selection = [] then sol
        else sol.dropWhile (fun x => x.selection.isEmpty)) = some nodes := by
  obtain ⟨n, y, hn, hfin, ⟨-, -, -, -, h5⟩ | ⟨raw, a, b, hraw, hp, -⟩⟩ := h
  · cases h5
  unfold LassoRawPath at hraw
  rw [if_neg (by rw [hf]; decide), if_pos hf] at hraw
  obtain ⟨C, grid, hC, hg, s, h1, h2, h3⟩ := hraw
  obtain ⟨sol, g1, g2, g3⟩ := C57_result s h1 h2
  rw [h3, Option.some.injEq] at g3
  have g4 := (List.map_injective_iff.2 (fun a b hab => Option.some.inj hab)) g3
  refine ⟨n, y, C, grid, sol, hn, hfin, hC.spec, hg, ?_, by rw [← g4]; exact hp⟩
  rw [List.forall₂_iff_get]
  refine ⟨by simp [g1], fun i hi hi' => ?_⟩
  simp only [List.get_eq_getElem]
  obtain ⟨x0, l, hl, u, r, hr, hx⟩ := g2 i sol[i] (List.getElem?_eq_getElem hi')
  have hll : grid.reverse[i]? = some l := by
    rw [List.getElem?_reverse (by simpa using hi)]
    exact hl
  rw [(List.getElem?_eq_some_iff.1 hll).2, hx]
  refine ⟨rfl, r.1, ?_, fun j => ?_, rfl⟩
  · unfold lassoCrdDesc at hr ⊢
    split at hr
    · cases hr
    · rename_i hne
      rw [if_neg hne, ← Option.some.inj hr]
      rfl
  · simp [crdNode, lassoCrdDescZero]

/-! ### Residuals -/

theorem zipWith_sum_getD (g : Nat → ℝ → ℝ) (sel : List Nat) (c : List ℝ) (h : c.length = sel.length) :
    (List.zipWith g sel c).sum = ∑ k ∈ range sel.length, g (sel.getD k 0) (c.getD k 0) := by
  induction sel generalizing c with
  | nil => simp
  | cons v sel ih =>
    cases c with
    | nil => simp at h
    | cons a c =>
      rw [List.zipWith_cons_cons, List.sum_cons, List.length_cons, sum_range_succ', ih c (by simpa using h)]
      simp only [List.getD_cons_succ, List.getD_cons_zero]
      exact add_comm _ _

/-- The two ways to write the prediction of a sparse model. -/
theorem sparsePredict_eq {X : Mat ℝ} {n : LassoLarsNode ℝ} (h : RawNode X.nc n) (r : Nat) :
    sparsePredict (X.get r) n.selection n.coeff = lin X (coeffOf n) r := by
  have hnd : n.selection.Nodup := h.sorted.imp (fun h => Nat.ne_of_lt h)
  unfold sparsePredict
  rw [zipWith_sum_getD _ _ _ h.coeff]
  have := lin_cols hnd h.range (fun k => n.coeff.getD k 0) r
  have e : extend n.selection (fun k => n.coeff.getD k 0) = coeffOf n := rfl
  rw [e] at this
  rw [← this]
  exact sum_congr rfl (fun k _ => mul_comm _ _)

theorem sum_colOf (X : Mat ℝ) (c : Nat) : (colOf X c).sum = ∑ r ∈ range X.nr, X.get r c := by
  rfl

/-- The residual of the final coefficients in the original units: scaled, and shifted by the intercept that is lost. -/
theorem residual_original {X : Mat ℝ} {Y y : List ℝ} {n : NormalizedData} (hn : newNormalizedData X Y = some n)
    (hfin : finValues n.y = some y) (hY : Y.length = X.nr)
    {node node' : LassoLarsNode ℝ} (hr : RawNode n.X.nc node) (hu : unnormalizeNode n node = some node') :
    ∃ bias, linearTransformationBias n node.selection node.coeff = some bias ∧ ∀ r < X.nr,
      lin X (coeffOf node') r - vec Y r = n.stdY * (lin n.X (coeffOf node) r - vec y r) +
        (if n.hasBias then bias * (X.get r 0 - 1) else -bias) := by
  rcases newNormalizedData_inv X Y with ⟨-, h1⟩ | ⟨d', h1, h2, h3, h4, h5⟩
  · rw [hn] at h1; simp at h1
  rw [hn, Option.some.injEq] at h1
  subst h1
  have hfin' := finValues_some hfin
  rw [h3] at hfin'
  have hfr := final_node hn hr hu
  rw [h2.nc] at hr
  have hY' : ∀ r < X.nr, vec Y r = n.muY + n.stdY * vec y r := by
    intro r hlt
    have hlt' : r < Y.length := by omega
    have e := congrArg (fun l => l[r]?) hfin'
    simp only [normalizeArray, List.getElem?_map, List.getElem?_eq_getElem hlt', Option.map_some] at e
    have hly : r < y.length := by
      by_contra hc
      rw [List.getElem?_eq_none (by omega)] at e
      cases e
    rw [List.getElem?_eq_getElem hly, Option.map_some, Option.some.injEq] at e
    have hne : goStd Y ≠ 0 := by
      intro h0
      unfold Fl.divFin at e
      rw [if_pos h0] at e
      split at e
      · cases e
      · split at e <;> cases e
    unfold Fl.divFin at e
    rw [if_neg hne, Fl.fin.injEq] at e
    have e1 : vec Y r = Y[r] := by simp [vec, List.getD_eq_getElem?_getD, hlt']
    have e2 : vec y r = y[r] := by simp [vec, List.getD_eq_getElem?_getD, hly]
    rw [e1, e2, h4, h5, ← e, mul_div_cancel₀ _ hne]
    ring
  cases hb : linearTransformationBias n node.selection node.coeff with
  | none =>
    unfold unnormalizeNode at hu
    rw [hb] at hu
    cases hu
  | some bias =>
    refine ⟨bias, rfl, fun r hlt => ?_⟩
    obtain ⟨bias', e1, e2⟩ := unnormalize_predict X Y n hn node node' hr.coeff hr.range hu r hlt
    rw [hb, Option.some.injEq] at e1
    subst e1
    rw [sparsePredict_eq hfr] at e2
    have hr' : RawNode n.X.nc node := by rw [h2.nc]; exact hr
    rw [sparsePredict_eq hr'] at e2
    rw [e2, hY' r hlt]
    ring

/-- Residuals of normalised data sum to 0 when the selection has only columns with mean 0. -/
theorem residual_sum {X : Mat ℝ} {Y y : List ℝ} {n : NormalizedData} (hn : newNormalizedData X Y = some n)
    (hfin : finValues n.y = some y) (hY : Y.length = X.nr)
    {node node' : LassoLarsNode ℝ} (hr : RawNode n.X.nc node) (hu : unnormalizeNode n node = some node') :
    ∑ r ∈ range X.nr, (lin n.X (coeffOf node) r - vec y r) = 0 := by
  by_cases hY0 : Y = []
  · rw [hY0] at hY
    rw [← hY]
    simp
  rcases newNormalizedData_inv X Y with ⟨-, h1⟩ | ⟨d', h1, h2, h3, h4, h5⟩
  · rw [hn] at h1; simp at h1
  rw [hn, Option.some.injEq] at h1
  subst h1
  have hfin' := finValues_some hfin
  rw [h3] at hfin'
  obtain ⟨e1, e2, e3, -⟩ := normalizeArray_fin hY0 hfin'
  have hds := C48_dataset X Y (by omega) n hn
  have hmean : ∀ v : List ℝ, v.length = X.nr → mean v = 0 → v.sum = 0 := by
    intro v hv hm
    unfold mean at hm
    have : (v.length : ℝ) ≠ 0 := by
      have : v.length ≠ 0 := by omega
      exact_mod_cast this
    rcases div_eq_zero_iff.1 hm with h | h
    · exact h
    · exact absurd h this
  have hy0 : ∑ r ∈ range X.nr, vec y r = 0 := by
    have := hmean y (by omega) e3
    rw [← this]
    have hl : X.nr = y.length := by omega
    rw [hl]
    clear * -
    induction y with
    | nil => simp
    | cons a y ih =>
      rw [List.length_cons, sum_range_succ', List.sum_cons, ← ih]
      simp [vec, add_comm]
  rw [sum_sub_distrib, hy0, sub_zero]
  unfold lin
  rw [sum_comm]
  refine sum_eq_zero (fun j hj => ?_)
  rw [← sum_mul]
  by_cases hs : j ∈ node.selection
  · have hj' : j < X.nc := by rw [← h2.nc]; exact hr.range j hs
    have hm : mean (colOf n.X j) = 0 := by
      by_cases h0 : j = 0
      · subst h0
        have hnb : n.hasBias ≠ true := fun hb => ((unnormalizeNode_shape hr.coeff hu).2.2.1 hb).2 hs
        refine (hds.2.2.1 0 hj' (not_lt.1 (fun hlt => hnb (h2.bias.2 ⟨hj', hlt⟩)))).1
      · exact (hds.2.2.2.1 j hj' h0).1
    have := hmean _ (by simp [colOf, h2.nr]) hm
    rw [sum_colOf, h2.nr] at this
    rw [this, zero_mul]
  · rw [coeffOf, if_neg hs, mul_zero]

/-- With a first column of ones the sum of squared errors on the data as read is that of the fit in normalised
units, scaled; without a column that is nearly constant, the intercept is lost and adds `n bias²`. -/
theorem errors_original (X : Mat ℝ) (Y y : List ℝ) (n : NormalizedData) (hn : newNormalizedData X Y = some n)
    (hfin : finValues n.y = some y) (hY : Y.length = X.nr) (node node' : LassoLarsNode ℝ) (hr : RawNode n.X.nc node)
    (hu : unnormalizeNode n node = some node') :
    (0 < X.nc → (∀ r < X.nr, X.get r 0 = 1) →
      sse X (coeffOf node') (vec Y) = n.stdY ^ 2 * sse n.X (coeffOf node) (vec y)) ∧
    (n.hasBias = false → ∃ bias, linearTransformationBias n node.selection node.coeff = some bias ∧
      sse X (coeffOf node') (vec Y) = n.stdY ^ 2 * sse n.X (coeffOf node) (vec y) + X.nr * bias ^ 2) := by
  obtain ⟨bias, hb, hres⟩ := residual_original hn hfin hY hr hu
  have hnr : n.X.nr = X.nr := by
    rcases newNormalizedData_inv X Y with ⟨-, h1⟩ | ⟨d', h1, h2, -⟩
    · rw [hn] at h1; simp at h1
    rw [hn, Option.some.injEq] at h1
    subst h1
    exact h2.nr
  constructor
  · intro hnc hones
    have hbias : n.hasBias = true := by
      have hc : Constant (colOf X 0) := by
        intro a ha b hb
        unfold colOf at ha hb
        obtain ⟨r, h1, rfl⟩ := List.mem_map.1 ha
        obtain ⟨r', h1', rfl⟩ := List.mem_map.1 hb
        rw [hones r (List.mem_range.1 h1), hones r' (List.mem_range.1 h1')]
      exact ((C48_bias X Y hnc n hn).2 hc).1
    unfold sse
    rw [hnr, mul_sum]
    refine sum_congr rfl (fun r hlt => ?_)
    rw [hres r (mem_range.1 hlt), if_pos hbias, hones r (mem_range.1 hlt)]
    ring
  · intro hbias
    refine ⟨bias, hb, ?_⟩
    have hsum := residual_sum hn hfin hY hr hu
    unfold sse
    rw [hnr, mul_sum]
    have e : ∀ r ∈ range X.nr, (lin X (coeffOf node') r - vec Y r) ^ 2 =
        n.stdY ^ 2 * (lin n.X (coeffOf node) r - vec y r) ^ 2 + bias ^ 2 -
          2 * n.stdY * bias * (lin n.X (coeffOf node) r - vec y r) := by
      intro r hlt
      rw [hres r (mem_range.1 hlt), hbias]
      simp only [Bool.false_eq_true, if_false]
      ring
    rw [sum_congr rfl e, sum_sub_distrib, sum_add_distrib, ← mul_sum _ _ (2 * n.stdY * bias), hsum, sum_const,
      card_range]
    simp

/-- C88: with LARS a file is always written: as long as the regularisation is positive the residual correlates with the
selected columns, so no node fits exactly.  The decompositions are exact and not truncated; the first column is
constant or has a standard deviation of at least `1e-10`. -/
theorem C88_lars (svd : Mat ℝ → SVD ℝ) (sort : List (Fl ℝ × Nat) → List (Fl ℝ × Nat)) (f : LassoFlags)
    (dset : Dataset ℝ) (nodes : List (LassoLarsNode ℝ)) (rows : List (HighscoreRow ℝ (Fl ℝ))) (out : Option LassoFile)
    (hy : dset.Y.length = dset.X.nr) (hf : f.lassoType = "lars") (hmin : 0 ≤ f.lambMin)
    (hsvd : ∀ nd, newNormalizedData dset.X dset.Y = some nd → ∀ node ∈ nodes,
      let E := if nd.hasBias then node.selection.tail else node.selection
      (svd (activeCols nd.X E)).Of (activeCols nd.X E) ∧ E.length ≤ dset.X.nr ∧
        ∀ k, k < (svd (activeCols nd.X E)).p →
          1 / 10 ^ 6 < (svd (activeCols nd.X E)).s k * (svd (activeCols nd.X E)).s k)
    (hcol : Constant (colOf dset.X 0) ∨ 1 / 10 ^ 10 ≤ goStd (colOf dset.X 0))
    (h : LassoFit svd sort f dset nodes rows out) : ∃ file, out = some file := by
  rw [← Option.ne_none_iff_exists']
  intro hnone
  have hw := (C88_written svd sort f dset nodes rows out hy h).1 hnone
  rw [hf] at hw
  rcases hw with ⟨h0, -⟩ | ⟨node', hnode', hexact⟩
  · revert h0; decide
  obtain ⟨n, y, hn, hfin, ⟨h0, -⟩ | ⟨raw, a, b, hraw, hp, -⟩⟩ := h
  · rw [hf] at h0
    revert h0; decide
  obtain ⟨node, hnode, hu⟩ := path2_mem hp hnode'
  have hrn := lassoRaw_nodes hraw node hnode
  unfold LassoRawPath at hraw
  rw [if_pos hf] at hraw
  have hok := (C63_path n.X _ _ _ _ raw hraw).1 node hnode
  have hnc : n.X.nr = dset.X.nr := by
    rcases newNormalizedData_inv dset.X dset.Y with ⟨-, h1⟩ | ⟨d', h1, h2, -⟩
    · rw [hn] at h1; simp at h1
    rw [hn, Option.some.injEq] at h1
    subst h1
    exact h2.nr
  obtain ⟨sgn, hsgn⟩ := C64_path svd n.X y lassoTol f.lambMin raw hraw (fun m hm => by
    obtain ⟨m', hm1, hm2⟩ : ∃ m' ∈ nodes, unnormalizeNode n m = some m' := by
      have h' := (mapM_some_iff).1 hp
      have : unnormalizeNode n m ∈ nodes.map some := by
        rw [← h']
        exact List.mem_map.2 ⟨m, hm, rfl⟩
      obtain ⟨m', h1, h2⟩ := List.mem_map.1 this
      exact ⟨m', h1, h2.symm⟩
    have hk := hsvd n hn m' hm1
    have hmc := ((C63_path n.X _ _ _ _ raw hraw).1 m hm).coeff
    obtain ⟨-, -, s1, s2⟩ := unnormalizeNode_shape hmc hm2
    have hE : (if n.hasBias = true then m'.selection.tail else m'.selection) = m.selection := by
      cases hb : n.hasBias with
      | true => rw [if_pos rfl, (s1 hb).1, List.tail_cons]
      | false => rw [if_neg (by decide), s2 hb]
    simp only [hE] at hk
    rw [hnc]
    exact hk) node hnode
  obtain ⟨bias, -, hres⟩ := residual_original hn hfin hy hrn hu
  have hsum := residual_sum hn hfin hy hrn hu
  have hconst : ∃ c, ∀ r < dset.X.nr, lin n.X (coeffOf node) r - vec y r = c := by
    have hoff : ∃ o, ∀ r < dset.X.nr, (if n.hasBias then bias * (dset.X.get r 0 - 1) else -bias) = o := by
      cases hb : n.hasBias with
      | false => exact ⟨-bias, fun r _ => by simp⟩
      | true =>
        have hpos : 0 < dset.X.nc := by
          rcases newNormalizedData_inv dset.X dset.Y with ⟨-, h1⟩ | ⟨d', h1, h2, -⟩
          · rw [hn] at h1; simp at h1
          rw [hn, Option.some.injEq] at h1
          subst h1
          exact (h2.bias.1 hb).1
        have hlt := (C48_bias dset.X dset.Y hpos n hn).1.1 hb
        have hc := hcol.resolve_right (not_le.2 hlt)
        refine ⟨bias * (dset.X.get 0 0 - 1), fun r hr => ?_⟩
        rw [if_pos rfl]
        have : dset.X.get r 0 = dset.X.get 0 0 :=
          hc _ (List.mem_map.2 ⟨r, List.mem_range.2 hr, rfl⟩) _ (List.mem_map.2 ⟨0, List.mem_range.2 (by omega), rfl⟩)
        rw [this]
    obtain ⟨o, ho⟩ := hoff
    refine ⟨-o / n.stdY, fun r hr => ?_⟩
    have h1 := hres r hr
    have h2 : lin dset.X (coeffOf node') r = vec dset.Y r := hexact r hr
    rw [h2, sub_self, ho r hr] at h1
    have hstd : n.stdY ≠ 0 := by
      rcases newNormalizedData_inv dset.X dset.Y with ⟨-, h1⟩ | ⟨d', h1, h2, h3, h4, -⟩
      · rw [hn] at h1; simp at h1
      rw [hn, Option.some.injEq] at h1
      subst h1
      have hfin' := finValues_some hfin
      rw [h3] at hfin'
      rw [h4]
      intro h0
      have hlt : r < dset.Y.length := by omega
      have e := congrArg (fun l => l[r]?) hfin'
      simp only [normalizeArray, List.getElem?_map, List.getElem?_eq_getElem hlt, Option.map_some] at e
      rw [eq_comm, Option.map_eq_some_iff] at e
      obtain ⟨v, -, e⟩ := e
      unfold Fl.divFin at e
      rw [if_pos h0] at e
      split at e
      · cases e
      · split at e <;> cases e
    rw [eq_div_iff hstd]
    linarith
  obtain ⟨c, hc⟩ := hconst
  have hzero : ∀ r < dset.X.nr, lin n.X (coeffOf node) r - vec y r = 0 := by
    intro r hr
    have : ∑ r ∈ range dset.X.nr, (lin n.X (coeffOf node) r - vec y r) = dset.X.nr * c := by
      rw [sum_congr rfl (fun r hr => hc r (mem_range.1 hr)), sum_const, card_range, nsmul_eq_mul]
    rw [hsum] at this
    have hne : (dset.X.nr : ℝ) ≠ 0 := by
      have : dset.X.nr ≠ 0 := by omega
      exact_mod_cast this
    rw [hc r hr]
    rcases mul_eq_zero.1 this.symm with h | h
    · exact absurd h hne
    · exact h
  obtain ⟨i, hi⟩ := List.exists_mem_of_ne_nil _ hok.nonempty
  obtain ⟨h1, h2⟩ := hsgn i hi
  have hcorr : correlation n.X (vec y) (spread node.selection node.coeff) i = 0 := by
    unfold correlation
    rw [hnc]
    refine sum_eq_zero (fun r hr => ?_)
    have h3 := hzero r (mem_range.1 hr)
    have h4 : residual n.X (vec y) (spread node.selection node.coeff) r = 0 := by
      have : residual n.X (vec y) (spread node.selection node.coeff) r = -(lin n.X (coeffOf node) r - vec y r) :=
        (neg_sub _ _).symm
      rw [this, h3, neg_zero]
    rw [h4, mul_zero]
  rw [hcorr] at h2
  have hl : 0 < node.lamb := lt_of_le_of_lt hmin hok.lamb
  rcases h1 with h1 | h1 <;> rw [h1] at h2 <;> linarith

/-! ### C90 -/

/-- Full C90: every saved node has, on the data as read, the errors of the lasso fit that it stands for: `stdY²` times
the sum of squared errors in normalised units.  False: `C90_refuted`. -/
def Spec.ErrorsOfFit (svd : Mat ℝ → SVD ℝ) (f : LassoFlags) (dset : Dataset ℝ) : Prop :=
  ∀ (n : NormalizedData) (y : List ℝ) (raw nodes : List (LassoLarsNode ℝ)),
    newNormalizedData dset.X dset.Y = some n → finValues n.y = some y → LassoRawPath svd f n.X y raw →
    path2Unnormalized n raw = some nodes → ∀ (k : Nat) (node node' : LassoLarsNode ℝ), raw[k]? = some node →
      nodes[k]? = some node' → sse dset.X (coeffOf node') (vec dset.Y) = n.stdY ^ 2 * sse n.X (coeffOf node) (vec y)

theorem path2_getElem {n : NormalizedData} {raw nodes : List (LassoLarsNode ℝ)} (h : path2Unnormalized n raw = some nodes)
    {k : Nat} {node node' : LassoLarsNode ℝ} (h1 : raw[k]? = some node) (h2 : nodes[k]? = some node') :
    unnormalizeNode n node = some node' := by
  obtain ⟨l1, rfl⟩ := List.getElem?_eq_some_iff.1 h1
  obtain ⟨l2, rfl⟩ := List.getElem?_eq_some_iff.1 h2
  exact mapM_getElem h k l1

/-- C90 for data with a first column of ones.  Missing: other data, where it is false. -/
theorem C90_errors_partial (svd : Mat ℝ → SVD ℝ) (f : LassoFlags) (dset : Dataset ℝ)
    (hy : dset.Y.length = dset.X.nr) (hnc : 0 < dset.X.nc) (hones : ∀ r < dset.X.nr, dset.X.get r 0 = 1) :
    ErrorsOfFit svd f dset := by
  intro n y raw nodes hn hfin hraw hp k node node' h1 h2
  exact (errors_original dset.X dset.Y y n hn hfin hy node node'
    (lassoRaw_nodes hraw node (List.mem_of_getElem? h1)) (path2_getElem hp h1 h2)).1 hnc hones

/-- C90: without a constant column the intercept is lost, and its square is added to the error of every row. -/
theorem C90_offset (svd : Mat ℝ → SVD ℝ) (f : LassoFlags) (dset : Dataset ℝ) (hy : dset.Y.length = dset.X.nr)
    (n : NormalizedData) (y : List ℝ) (raw nodes : List (LassoLarsNode ℝ))
    (hn : newNormalizedData dset.X dset.Y = some n) (hfin : finValues n.y = some y)
    (hraw : LassoRawPath svd f n.X y raw) (hp : path2Unnormalized n raw = some nodes)
    (hcol : 1 / 10 ^ 10 ≤ goStd (colOf dset.X 0)) (k : Nat) (node node' : LassoLarsNode ℝ)
    (h1 : raw[k]? = some node) (h2 : nodes[k]? = some node') :
    ∃ bias, linearTransformationBias n node.selection node.coeff = some bias ∧
      sse dset.X (coeffOf node') (vec dset.Y) =
        n.stdY ^ 2 * sse n.X (coeffOf node) (vec y) + dset.X.nr * bias ^ 2 := by
  refine (errors_original dset.X dset.Y y n hn hfin hy node node'
    (lassoRaw_nodes hraw node (List.mem_of_getElem? h1)) (path2_getElem hp h1 h2)).2 ?_
  rcases newNormalizedData_inv dset.X dset.Y with ⟨-, e1⟩ | ⟨d', e1, e2, -⟩
  · rw [hn] at e1; simp at e1
  rw [hn, Option.some.injEq] at e1
  subst e1
  rw [Bool.eq_false_iff]
  exact fun hb => absurd (e2.bias.1 hb).2 (not_lt.2 hcol)

/-! ### Example -/

namespace LassoExample

open NestedExample

/-- The decomposition of a column of norm 2. -/
noncomputable def svd (M : Mat ℝ) : SVD ℝ := ⟨1, fun r _ => M.get r 0 / 2, fun _ => 2, fun _ _ => 1⟩

theorem svd_of {M : Mat ℝ} (h : IsNormed M) : (svd (activeCols M [1])).Of (activeCols M [1]) := by
  obtain ⟨h1, h2, h3⟩ := h
  refine ⟨?_, ?_, ?_, ?_, ?_, ?_⟩
  · simp [svd, activeCols, h1]
  · intro i j _ hj
    have : j = 0 := by simpa [activeCols] using hj
    subst this
    simp [svd, activeCols]
  · intro k l hk hl
    have : k = 0 := by simpa [svd] using hk
    subst this
    have : l = 0 := by simpa [svd] using hl
    subst this
    simp only [svd, activeCols, h1, sum_range_succ, sum_range_zero, List.getD_cons_zero]
    rw [(h3 0 (by omega)).2, (h3 1 (by omega)).2, (h3 2 (by omega)).2, (h3 3 (by omega)).2, (h3 4 (by omega)).2]
    norm_num [colB]
  · intro k l hk hl
    have : k = 0 := by simpa [svd] using hk
    subst this
    have : l = 0 := by simpa [svd] using hl
    subst this
    simp [svd, activeCols]
  · intro k _
    simp [svd]
  · intro k l _ _
    exact le_refl _

theorem est_value {M : Mat ℝ} (h : IsNormed M) : morseEst svd M ys 0 [1] [1] = some ([1], [1 / 4]) := by
  obtain ⟨h1, h2, h3⟩ := h
  unfold morseEst morsePenroseC morsePenroseD pseudoInverseXTX
  simp only [activeCols, h1]
  rw [if_neg (by simp [ys]), if_neg (by simp)]
  simp only [svd, sum_range_succ, sum_range_zero, List.getD_cons_zero, List.length_singleton, List.range_succ,
    List.range_zero, List.nil_append, List.map_cons, List.map_nil]
  rw [(h3 0 (by omega)).2, (h3 1 (by omega)).2, (h3 2 (by omega)).2, (h3 3 (by omega)).2, (h3 4 (by omega)).2]
  norm_num [colB, ys]

/-- Flags of the run. -/
noncomputable def flags : LassoFlags := ⟨1, 1, 50, "lars", "empirical", 1 / 10 ^ 4⟩

theorem raw {M : Mat ℝ} (h : IsNormed M) : LassoRawPath svd flags M ys path := by
  unfold LassoRawPath
  rw [if_pos (show flags.lassoType = "lars" from rfl)]
  obtain ⟨x0, x1⟩ := xy h
  have hm : maxTime ((List.range M.nc).map (fun i => some |larsXy M (fun r => ys.getD r 0) i|)) = (4, 1) := by
    rw [h.2.1]
    simp only [List.range_succ, List.range_zero, List.nil_append, List.cons_append, List.map_cons, List.map_nil, x0, x1]
    norm_num [maxTime, List.zipIdx]
  unfold LarsReturns larsInit
  rw [if_neg (by rw [h.1, h.2.1]; decide)]
  refine ⟨_, rfl, ?_⟩
  rw [hm]
  have hj : tJoin M (fun r => ys.getD r 0) lassoTol 4 [1] [1] [1 / 4] none = some [0, 0] := by
    unfold tJoin
    rw [h.2.1, mapM_some_iff]
    simp only [List.range_succ, List.range_zero, List.nil_append, List.cons_append, List.map_cons, List.map_nil, x0, x1,
      (xx h _).1, (xx h _).2]
    norm_num [joinTime, timeIn, Fl.divFin, lassoTol]
  refine .next (s' := ⟨0, [], fun i => if i = 1 then 1 else 0, some (1, 0), path⟩) ?_ (.ret ?_)
  · unfold larsBody
    simp only [flags]
    rw [if_neg (by norm_num), if_neg (by simp)]
    have he : (if larsXy M (fun r => ys.getD r 0) 1 < 0 then (-1 : ℝ) else 1) = 1 := by
      rw [x1, if_neg (by norm_num)]
    simp only [List.insertionSort_cons, List.insertionSort_nil, List.orderedInsert_nil, List.length_nil, List.map_cons,
      List.map_nil, if_true, he, est_value h, List.length_singleton, ne_eq, not_true_eq_false, or_self, if_false, hj]
    norm_num [larsMove, maxJoinTime, maxTime, tCross, crossTime, Fl.divFin, lassoTol, betaLARS, path]
  · unfold larsBody
    rw [if_pos (by norm_num [flags])]

theorem errors : sse data.X (coeffOf ⟨[0], 4, [1]⟩) (vec data.Y) = 16 := by
  simp only [sse, lin, data, sum_range_succ, sum_range_zero, coeffOf, vec]
  norm_num

/-- The command runs on the data and writes the file. -/
theorem fit : ∃ rows out, LassoFit svd id flags data path rows out := by
  obtain ⟨n, hn, hX, hb, hstd, hmu⟩ := normed
  have hp : path2Unnormalized n path = some path := by
    have : unnormalizeNode n ⟨[0], 4, [1]⟩ = some ⟨[0], 4, [1]⟩ := by
      unfold unnormalizeNode linearTransformationBias
      simp [biasLoop, unnormLoop, linearNormalizationTransformation, hb, hstd, hmu]
    simp [path2Unnormalized, this, path]
  have hc : ∀ crit : Nat → Nat → ℝ → Fl ℝ, getCriteria data.X data.Y path crit = some [crit 1 5 16] := by
    intro crit
    rw [C68_criteria_partial data.X data.Y path crit rfl]
    · simp only [path, List.map_cons, List.map_nil, errors]
      rfl
    · intro m hm
      simp only [path, List.mem_singleton] at hm
      subst hm
      simp [data]
  refine ⟨[⟨1, 4, 1, withLog aicc 1 5 16, withLog bic 1 5 16⟩], _, n, ys, hn,
    by rw [newNormalizedData_y hn, norm_y, finValues_fin], .inr ⟨path, _, _, raw hX, hp, hc _, hc _, ?_, rfl⟩⟩
  · simp [printHighscore, argsort, path, List.range_succ]

/-- Hypotheses of C87 and C88: a file is written and holds the values of 5 rows and squared error 16. -/
theorem fit_file : ∃ rows file, LassoFit svd id flags data path rows (some file) ∧
    file.aicc = [.fin (5 * Real.log 16 + 2 + 4 / 3)] ∧ file.bic = [.fin (5 * Real.log 16 + Real.log 5)] := by
  obtain ⟨rows, out, h⟩ := fit
  obtain ⟨file, rfl⟩ := C88_lars svd id flags data path rows out rfl rfl (by norm_num [flags]) (by
    intro nd hnd node hnode
    obtain ⟨n, hn, hX, hb, -⟩ := normed
    rw [hn, Option.some.injEq] at hnd
    subst hnd
    simp only [path, List.mem_singleton] at hnode
    subst hnode
    simp only [hb, Bool.false_eq_true, if_false]
    exact ⟨svd_of hX, by decide, fun k _ => by norm_num [svd]⟩)
    (.inr (by rw [std_A.1]; norm_num)) h
  obtain ⟨-, -, -, h1, h2⟩ := C87_saved svd id flags data path rows file rfl h
  refine ⟨rows, file, h, ?_, ?_⟩
  · rw [h1]
    simp only [path, List.map_cons, List.map_nil, errors]
    simp only [savedAicc, data, List.length_singleton]
    norm_num
  · rw [h2]
    simp only [path, List.map_cons, List.map_nil, errors]
    simp only [savedBic, data, List.length_singleton]
    norm_num

example := fit_file

/-- The call of `LassoCrdDescPath` returns for every list of regularisations. -/
theorem crdPath_exists (problem : ℝ → CDProblem ℝ Unit) (nFeat : Nat) (lambs : List ℝ) (maxIter : Nat)
    (hp : ∀ l, (problem l).nFeat = nFeat) (h0 : 0 < nFeat)
    (hc : ∀ l, (problem l).cov.nc = nFeat ∧ (problem l).cov.nr = nFeat) :
    let sol := lambs.reverse.map (fun l => crdNode nFeat (cdLoop (problem l) maxIter (cdInit (problem l) ())).1.beta l)
    CrdPathReturns problem nFeat lambs maxIter (if ∀ x ∈ sol, x.selection = [] then sol
      else sol.dropWhile (fun x => x.selection.isEmpty)) := by
  intro sol
  obtain ⟨s, h1, h2⟩ : ∃ s, PathReach lambs.length nFeat (crdSolve problem lambs maxIter) s ∧
      PathDone lambs.length nFeat s := by
    by_contra hno
    push_neg at hno
    have hstep : ∀ s, PathReach lambs.length nFeat (crdSolve problem lambs maxIter) s →
        ∃ s', PathStep lambs.length nFeat (crdSolve problem lambs maxIter) s s' := fun s hs =>
      C57_no_deadlock (C57_worker problem nFeat hp lambs maxIter)
        (fun k x0 hk => C57_worker_total problem lambs maxIter
          (fun l _ => ⟨by rw [hp]; exact h0, by rw [hp]; exact (hc l).1, by rw [hp]; exact (hc l).2⟩) k hk x0)
        s hs (hno s hs)
    choose g hg using hstep
    let run : Nat → {s // PathReach lambs.length nFeat (crdSolve problem lambs maxIter) s} := fun k =>
      Nat.rec ⟨poolInit (pathInit lambs.length), .init⟩ (fun _ s => ⟨g s.1 s.2, .step s.2 (hg s.1 s.2)⟩) k
    exact C57_terminates (fun k => (run k).1) rfl (fun k => hg (run k).1 (run k).2)
  exact ⟨s, h1, h2, C57_stateless problem nFeat hp lambs maxIter s h1 h2⟩

/-- Flags for coordinate descent with the identity as covariance matrix. -/
noncomputable def cdFlags : LassoFlags := ⟨3 / 10, 1, 1, "cd", "identity", 1 / 10 ^ 4⟩

theorem cdRaw {M : Mat ℝ} (h : IsNormed M) : LassoRawPath svd cdFlags M ys [⟨[1 / 2], 3 / 10, [1]⟩] := by
  obtain ⟨h1, h2, h3⟩ := h
  unfold LassoRawPath
  rw [if_neg (by decide), if_pos (by decide)]
  refine ⟨identityCov M, [3 / 10], by simp [LassoCov, cdFlags], by simp [logspace, cdFlags], ?_⟩
  set p : ℝ → CDProblem ℝ Unit := fun lamb => ⟨M.nr, M.nc, identityCov M, xTy M (fun r => ys.getD r 0), lamb,
    cdFlags.tol, pureLasso⟩ with hp
  have hid : IdProblem (p (3 / 10)) := ⟨fun i j => rfl, rfl⟩
  have x0 : xTy M (fun r => ys.getD r 0) 0 = 0 := by
    simp only [xTy, h1, sum_range_succ, sum_range_zero]
    rw [(h3 0 (by omega)).1, (h3 1 (by omega)).1, (h3 2 (by omega)).1, (h3 3 (by omega)).1, (h3 4 (by omega)).1]
    norm_num [colA, ys]
  have x1 : xTy M (fun r => ys.getD r 0) 1 = 4 := by
    simp only [xTy, h1, sum_range_succ, sum_range_zero]
    rw [(h3 0 (by omega)).2, (h3 1 (by omega)).2, (h3 2 (by omega)).2, (h3 3 (by omega)).2, (h3 4 (by omega)).2]
    norm_num [colB, ys]
  have b0 : (cdLoop (p (3 / 10)) 100000 (cdInit (p (3 / 10)) ())).1.beta 0 = 0 := by
    have hi : idCoeff (p (3 / 10)) 0 = 0 := by
      simp only [idCoeff, hp, x0]
      norm_num [softThreshold]
    rw [cdLoop_id hid 100000 _ (cdInit_id hid) 0 (by rw [hi]; rfl), hi]
  have b1 : (cdLoop (p (3 / 10)) 100000 (cdInit (p (3 / 10)) ())).1.beta 1 = 1 / 2 := by
    rw [cdLoop_id_pos hid 99999 1 le_rfl (by show 1 < M.nc; omega)]
    simp only [idCoeff, hp, x1, h1]
    norm_num [softThreshold]
  have := crdPath_exists p M.nc [3 / 10] 100000 (fun _ => rfl) (by rw [h2]; decide) (fun _ => ⟨rfl, rfl⟩)
  have hnode : crdNode M.nc (cdLoop (p (3 / 10)) 100000 (cdInit (p (3 / 10)) ())).1.beta (3 / 10) =
      ⟨[1 / 2], 3 / 10, [1]⟩ := by
    unfold crdNode
    rw [h2]
    have hsel : (List.range 2).filter (fun j => decide (|(cdLoop (p (3 / 10)) 100000
        (cdInit (p (3 / 10)) ())).1.beta j| > lassoCrdDescZero)) = [1] := by
      simp only [List.range_succ, List.range_zero, List.nil_append, List.cons_append, List.filter, b0, b1,
        lassoCrdDescZero]
      norm_num
    simp only [hsel, List.map_cons, List.map_nil, b1]
  simp only [List.reverse_singleton, List.map_cons, List.map_nil, hnode] at this
  simpa using this

theorem cdErrors : sse data.X (coeffOf ⟨[1 / 2], 3 / 10, [1]⟩) (vec data.Y) = 4 := by
  simp only [sse, lin, data, sum_range_succ, sum_range_zero, coeffOf, vec]
  norm_num [colB]

/-- Hypotheses of `C87_cd`. -/
theorem cdFit : ∃ rows file, LassoFit svd id cdFlags data [⟨[1 / 2], 3 / 10, [1]⟩] rows (some file) := by
  obtain ⟨n, hn, hX, hb, hstd, hmu⟩ := normed
  have hs : n.stdY = 2 := by
    rcases newNormalizedData_inv data.X data.Y with ⟨-, e1⟩ | ⟨m', e1, -, -, e2, -⟩
    · rw [hn] at e1; cases e1
    rw [hn, Option.some.injEq] at e1
    subst e1
    rw [e2, ← std_B.1]
    simp [colOf, data, List.range_succ, colB]
  have hp : path2Unnormalized n [⟨[1 / 2], 3 / 10, [1]⟩] = some [⟨[1 / 2], 3 / 10, [1]⟩] := by
    have : unnormalizeNode n ⟨[1 / 2], 3 / 10, [1]⟩ = some ⟨[1 / 2], 3 / 10, [1]⟩ := by
      unfold unnormalizeNode linearTransformationBias
      simp [biasLoop, unnormLoop, linearNormalizationTransformation, hb, hstd, hmu, hs]
    simp only [path2Unnormalized, List.mapM_cons, List.mapM_nil, this]
    rfl
  have hc : ∀ crit : Nat → Nat → ℝ → Fl ℝ, getCriteria data.X data.Y [⟨[1 / 2], 3 / 10, [1]⟩] crit =
      some [crit 1 5 4] := by
    intro crit
    rw [C68_criteria_partial data.X data.Y _ crit rfl]
    · simp only [List.map_cons, List.map_nil, cdErrors]
      rfl
    · intro m hm
      simp only [List.mem_singleton] at hm
      subst hm
      simp [data]
  refine ⟨[⟨1, 3 / 10, 1, withLog aicc 1 5 4, withLog bic 1 5 4⟩],
    ⟨data, [⟨[1 / 2], 3 / 10, [1]⟩], [withLog aicc 1 5 4], [withLog bic 1 5 4]⟩, n, ys, hn,
    by rw [newNormalizedData_y hn, norm_y, finValues_fin], .inr ⟨_, _, _, cdRaw hX, hp, hc _, hc _, ?_, ?_⟩⟩
  · simp [printHighscore, argsort, List.range_succ]
  · simp [withLog, Fl.isFin]

example := cdFit

/-- With another name for the algorithm the file has no nodes. -/
example : LassoFit svd id ⟨1, 1, 50, "LARS", "empirical", 1 / 10 ^ 4⟩ data [] [] (some ⟨data, [], [], []⟩) := by
  obtain ⟨n, hn, -⟩ := normed
  refine ⟨n, ys, hn, by rw [newNormalizedData_y hn, norm_y, finValues_fin], .inr ⟨[], [], [], ?_, rfl, rfl, rfl, ?_, by simp⟩⟩
  · unfold LassoRawPath
    rw [if_neg (by decide), if_neg (by decide)]
  · simp [printHighscore]

/-- The same data with 1 added to the response. -/
noncomputable def shifted : Dataset ℝ := { data with Y := [3, 3, -1, -1, 1] }

theorem shifted_y : normalizeArray shifted.Y = ys.map .fin ∧ goMean shifted.Y = 1 ∧ goStd shifted.Y = 2 := by
  have h0 : goMean [3, 3, -1, -1, 1] = 1 := by norm_num [goMean]
  have h1 : goStd [3, 3, -1, -1, 1] = 2 := by
    unfold goStd
    simp only [h0]
    norm_num
    rw [show (4 : ℝ) = 2 ^ 2 by norm_num, Real.sqrt_sq (by norm_num)]
  refine ⟨?_, h0, h1⟩
  unfold normalizeArray
  simp only [shifted, h0, h1]
  norm_num [ys, Fl.divFin]

end LassoExample

open LassoExample NestedExample in
/-- C90 is false in general: data without a constant column, where the mean of the response is not 0. -/
theorem C90_refuted : ∃ svd f dset, dset.Y.length = dset.X.nr ∧ ¬ ErrorsOfFit svd f dset := by
  refine ⟨LassoExample.svd, flags, shifted, rfl, fun hall => ?_⟩
  obtain ⟨n, hn, hX, hb, hstd, hmu, hY⟩ : ∃ n, newNormalizedData shifted.X shifted.Y = some n ∧ IsNormed n.X ∧
      n.hasBias = false ∧ n.std = [2, 2] ∧ n.mu = [0, 0] ∧ n.muY = 1 := by
    obtain ⟨m, hm, hX, hb, hstd, hmu⟩ := normed
    rcases newNormalizedData_inv shifted.X shifted.Y with ⟨h, -⟩ | ⟨d, h1, h2, h3, h4, h5⟩
    · have : newNormalizedData data.X data.Y = none := (C48_panic _ _).2 h
      rw [hm] at this
      cases this
    · rcases newNormalizedData_inv data.X data.Y with ⟨-, e1⟩ | ⟨m', e1, e2, -⟩
      · rw [hm] at e1; cases e1
      rw [hm, Option.some.injEq] at e1
      subst e1
      refine ⟨d, h1, ⟨h2.nr, h2.nc, fun r hr => ?_⟩, ?_, ?_, ?_, by rw [h5, shifted_y.2.1]⟩
      · have g : ∀ c < 2, d.X.get r c = m.X.get r c := fun c hc => by
          rw [h2.done r c hc hr, e2.done r c hc hr]
          rfl
        rw [g 0 (by omega), g 1 (by omega)]
        exact hX.2.2 r hr
      · rw [← hb, Bool.eq_iff_iff, h2.bias, e2.bias]
        rfl
      · rw [← hstd]
        apply List.ext_getElem?
        intro i
        by_cases hi : i < 2
        · rw [h2.std i hi, e2.std i hi]
          rfl
        · have l1 : d.std.length = 2 := h2.stdLen
          have l2 : m.std.length = 2 := e2.stdLen
          rw [List.getElem?_eq_none (by omega), List.getElem?_eq_none (by omega)]
      · rw [← hmu]
        apply List.ext_getElem?
        intro i
        by_cases hi : i < 2
        · rw [h2.mu i hi, e2.mu i hi]
          rfl
        · have l1 : d.mu.length = 2 := h2.muLen
          have l2 : m.mu.length = 2 := e2.muLen
          rw [List.getElem?_eq_none (by omega), List.getElem?_eq_none (by omega)]
  have hp : path2Unnormalized n path = some path := by
    have : unnormalizeNode n ⟨[0], 4, [1]⟩ = some ⟨[0], 4, [1]⟩ := by
      unfold unnormalizeNode linearTransformationBias
      simp [biasLoop, unnormLoop, linearNormalizationTransformation, hb, hstd, hmu]
    simp [path2Unnormalized, this, path]
  have hfin : finValues n.y = some ys := by rw [newNormalizedData_y hn, shifted_y.1, finValues_fin]
  have h1 := hall n ys path path hn hfin (raw hX) hp 0 ⟨[0], 4, [1]⟩ ⟨[0], 4, [1]⟩ rfl rfl
  obtain ⟨bias, hbias, h2⟩ := C90_offset LassoExample.svd flags shifted rfl n ys path path hn hfin (raw hX) hp
    (by show (1 : ℝ) / 10 ^ 10 ≤ goStd (colOf data.X 0); rw [std_A.1]; norm_num) 0 ⟨[0], 4, [1]⟩ ⟨[0], 4, [1]⟩ rfl rfl
  have hb1 : bias = 1 := by
    unfold linearTransformationBias at hbias
    simp [biasLoop, hstd, hmu, hY] at hbias
    exact hbias.symm
  rw [h1, hb1] at h2
  have : (shifted.X.nr : ℝ) = 5 := by norm_num [shifted, data]
  rw [this] at h2
  linarith

/-- Data with a column of ones, to which `C90_errors_partial` applies. -/
example : ErrorsOfFit LassoExample.svd LassoExample.flags
    ⟨⟨2, 2, fun r c => if c = 0 then 1 else r⟩, [1, 3], ["one", "a", "y"], 2⟩ :=
  C90_errors_partial _ _ _ rfl (by decide) (fun r _ => by simp)

end GoSelect
