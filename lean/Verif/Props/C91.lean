import Verif.Proofs.SaCoeff
import Verif.Proofs.SaWalk
import Verif.Props.C27_C29

/-! C91: what the simulated-annealing command saves. -/

namespace GoSelect

open Spec

/-- The saved entry `e` names a model of the data set and its score is minus the AICc of the least-squares fit of
exactly its columns. -/
def Spec.NamesModel (P : SaInput) (e : SAItem ℝ) : Prop :=
  ∃ m c, m.length = P.X.nc ∧ 0 < card m ∧ (4 ≤ P.X.nr → card m < P.X.nr / 2) ∧
    e.selection = (features m).map Int.ofNat ∧ IsFit P m c (-e.score)

/-- The saved entry also carries the coefficients of that fit. -/
def Spec.HasOwnCoeff (P : SaInput) (e : SAItem ℝ) : Prop :=
  ∃ m, m.length = P.X.nc ∧ e.selection = (features m).map Int.ofNat ∧ IsFit P m e.coeff (-e.score)

theorem selection_inj {P : SaInput} {m m' : List Bool} {x x' : SAItem ℝ} (h : ItemOf P m x) (h' : ItemOf P m' x')
    (hs : x.selection = x'.selection) : m = m' := by
  obtain ⟨h1, -, -, h2, -⟩ := h
  obtain ⟨h1', -, -, h2', -⟩ := h'
  rw [h2, h2'] at hs
  exact features_inj (h1.trans h1'.symm) ((List.map_injective_iff.2 fun _ _ => Int.ofNat.inj) hs)

/-- For every data set and all random numbers: the file lists between one and ten models, no two the same, each with
the AICc of its own least-squares fit; `BestItem` is such a model too, and no model that the search accepted is
better. -/
theorem C91_file (svd : Mat ℝ → SVD ℝ) (dset : Dataset ℝ) (sweeps : Int) (r : SaRes) (out : SaFile)
    (hd : SaData (saCommandInput svd dset sweeps)) (h : SaCommand svd dset sweeps r out) :
    out.items ≠ [] ∧ out.items.length ≤ 10 ∧ (out.items.map (·.selection)).Nodup ∧
      (∀ e ∈ out.items, NamesModel (saCommandInput svd dset sweeps) e) ∧
      ∃ b, out.best = some b ∧ NamesModel (saCommandInput svd dset sweeps) b ∧
        (∀ e ∈ out.items, e.score ≤ b.score) ∧ ∀ x ∈ r.acc, x.score ≤ b.score := by
  obtain ⟨hr, rfl⟩ := h
  have h29 := C29_best_item_partial _ hd r hr
  obtain ⟨s, hi, ha, rfl⟩ := saReturns_inv hd hr
  obtain ⟨h1, h2, h3⟩ := C23_no_duplicates 10 _ s.acc s.scores hi.run
  have names : ∀ e : SAItem ℝ, (∃ x ∈ s.acc, x.selection = e.selection ∧ x.score = e.score) →
      NamesModel (saCommandInput svd dset sweeps) e := by
    rintro e ⟨x, hx, e1, e2⟩
    obtain ⟨m, m1, m2, m3, m4, m5⟩ := hi.items x hx
    exact ⟨m, x.coeff, m1, m2, m3, e1 ▸ m4, e2 ▸ m5⟩
  refine ⟨h3 ha, ?_, h1, fun e he => names e (C26_selection_score 10 _ s.acc s.scores hi.run e he), ?_⟩
  · have h2' : (s.scores.entries.length : Int) ≤ 10 := h2
    show s.scores.entries.length ≤ 10
    omega
  · obtain ⟨b, hb, hall, hx⟩ := h29
    have hb' : s.scores.best = some b := hb
    refine ⟨s.scores.heap b, ?_, names _ hx, fun e he => ?_, hall⟩
    · show s.scores.best.map s.scores.heap = _
      rw [hb']; rfl
    · obtain ⟨x, hx, -, e2⟩ := C26_selection_score 10 _ s.acc s.scores hi.run e he
      rw [← e2]
      exact hall x hx

/-- If no two different models have the same AICc, the coefficients of `BestItem` are those of its own fit. -/
theorem C91_best_coeff_partial (svd : Mat ℝ → SVD ℝ) (dset : Dataset ℝ) (sweeps : Int) (r : SaRes) (out : SaFile)
    (hd : SaData (saCommandInput svd dset sweeps)) (h : SaCommand svd dset sweeps r out)
    (hties : ∀ m m' c c' σ, m.length = dset.X.nc → m'.length = dset.X.nc → 0 < card m → 0 < card m' →
      IsFit (saCommandInput svd dset sweeps) m c σ → IsFit (saCommandInput svd dset sweeps) m' c' σ → m = m') :
    ∃ b, out.best = some b ∧ HasOwnCoeff (saCommandInput svd dset sweeps) b := by
  obtain ⟨hr, rfl⟩ := h
  have h29 := C29_best_item_partial _ hd r hr
  obtain ⟨s, hi, ha, rfl⟩ := saReturns_inv hd hr
  obtain ⟨b, hb, -⟩ := h29
  have hb' : s.scores.best = some b := hb
  have hmem : s.scores.heap b ∈ s.acc := by
    refine saRun_best_coeff 10 (by norm_num) _ s.acc s.scores hi.run (fun x hx z hz e => ?_) b hb'
    obtain ⟨m, m1, m2, m3, m4, m5⟩ := hi.items x hx
    obtain ⟨m', m1', m2', m3', m4', m5'⟩ := hi.items z hz
    have := hties m m' _ _ _ m1 m1' m2 m2' m5 (e ▸ m5')
    rw [m4, m4', this]
  obtain ⟨m, m1, m2, m3, m4, m5⟩ := hi.items _ hmem
  refine ⟨s.scores.heap b, ?_, m, m1, m4, m5⟩
  show s.scores.best.map s.scores.heap = _
  rw [hb']; rfl

/-- Full claim: every saved entry carries the coefficients of its own fit.  Proved for searches that accept at most
ten different models.  Missing: longer searches, for which it is false (`C91_refuted`). -/
theorem C91_coeff_partial (svd : Mat ℝ → SVD ℝ) (dset : Dataset ℝ) (sweeps : Int) (r : SaRes) (out : SaFile)
    (hd : SaData (saCommandInput svd dset sweeps)) (h : SaCommand svd dset sweeps r out)
    (hfew : ((r.acc.map (·.selection)).dedup).length ≤ 10) :
    ∀ e ∈ out.items, HasOwnCoeff (saCommandInput svd dset sweeps) e := by
  obtain ⟨hr, rfl⟩ := h
  obtain ⟨s, hi, ha, rfl⟩ := saReturns_inv hd hr
  intro e he
  have hmem : e ∈ s.acc := C26_no_overflow_partial 10 _ s.acc s.scores hi.run
    (by have h' : (((s.acc.map (·.selection)).dedup).length : Nat) ≤ 10 := hfew
        exact le_trans (Int.ofNat_le.2 h') (le_max_left _ _)) e he
  obtain ⟨m, m1, m2, m3, m4, m5⟩ := hi.items _ hmem
  exact ⟨m, m1, m4, m5⟩

/-- What happens when a search has accepted exactly ten different models and then accepts an eleventh that is better
than one of them as its last one: for every data set, the entry with the selection of the eleventh is saved with the
coefficients of another model. -/
theorem C91_stale (svd : Mat ℝ → SVD ℝ) (dset : Dataset ℝ) (sweeps : Int) (r : SaRes) (out : SaFile)
    (hd : SaData (saCommandInput svd dset sweeps)) (h : SaCommand svd dset sweeps r out)
    (acc : List (SAItem ℝ)) (x : SAItem ℝ) (hacc : r.acc = acc ++ [x])
    (hten : ((acc.map (·.selection)).dedup).length = 10) (hnew : ∀ z ∈ acc, z.selection ≠ x.selection)
    (hbetter : ∃ z ∈ acc, z.score < x.score) :
    ∃ z ∈ acc, (∀ v ∈ acc, z.score ≤ v.score) ∧ (⟨x.selection, z.coeff, x.score⟩ : SAItem ℝ) ∈ out.items := by
  obtain ⟨hr, rfl⟩ := h
  obtain ⟨s, hi, ha, rfl⟩ := saReturns_inv hd hr
  have hacc' : s.acc = acc ++ [x] := hacc
  have hrun := hi.run
  rw [hacc'] at hrun
  refine saRun_stale 10 (by norm_num) _ acc x s.scores hrun (by rw [hten]; rfl) hnew hbetter fun a ha b hb e => ?_
  obtain ⟨m, hm⟩ := hi.items a (by rw [hacc']; exact List.mem_append_left _ ha)
  obtain ⟨m', hm'⟩ := hi.items b (by rw [hacc']; exact List.mem_append_left _ hb)
  exact itemOf_fun hm hm' e

/-- The claim is false: on the example data (40 rows, 4 columns) the command can save the model with the features 1, 2
and 3, the best one, with a single coefficient, that of feature 0 alone. -/
theorem C91_refuted : ∃ r out, SaData walkP ∧ SaCommand orthSvd walkData 1 r out ∧
    ∃ e ∈ out.items, e.selection = [1, 2, 3] ∧ e.coeff.length = 1 ∧ ¬ HasOwnCoeff walkP e := by
  obtain ⟨r, hr, -, hsel⟩ := walk_returns
  have hc : SaCommand orthSvd walkData 1 r (saFile r.scores) := ⟨hr, rfl⟩
  refine ⟨r, _, walk_data, hc, ?_⟩
  obtain ⟨s, hi, ha, hrs⟩ := saReturns_inv walk_data hr
  have hitems : ∀ x ∈ r.acc, ∃ m, ItemOf walkP m x := by rw [hrs]; exact hi.items
  -- split off the last accepted item
  obtain ⟨acc, x, hacc⟩ : ∃ acc x, r.acc = acc ++ [x] := by
    rcases List.eq_nil_or_concat r.acc with h0 | ⟨a, x, h0⟩
    · rw [hrs] at h0; exact absurd h0 ha
    · exact ⟨a, x, by simpa using h0⟩
  rw [hacc, List.map_append] at hsel
  have hsplit := List.append_inj (s₁ := acc.map (·.selection)) (t₁ := [x].map (·.selection))
    (s₂ := (walkModels.take 11).map (fun m => (features m).map Int.ofNat)) (t₂ := [[1, 2, 3]]) hsel (by
      have := congrArg List.length hsel
      simp only [List.length_append, List.length_map, List.length_singleton] at this ⊢
      have h12 : walkModels.length = 12 := rfl
      have h11 : (walkModels.take 11).length = 11 := rfl
      omega)
  obtain ⟨hs1, hs2⟩ := hsplit
  have hx : x.selection = [1, 2, 3] := by simpa using hs2
  -- the accepted models and their scores
  have hscore : ∀ z ∈ r.acc, ∀ m : List Bool, m.length = 4 → 0 < card m →
      z.selection = (features m).map Int.ofNat → z.score = -aicc (card m) 40 (walkRss m) ∧ z.coeff.length = card m := by
    intro z hz m hm hpos hzs
    obtain ⟨m', m1, m2, m3, m4, m5⟩ := hitems z hz
    have : m' = m := features_inj (m1.trans hm.symm)
      ((List.map_injective_iff.2 fun _ _ => Int.ofNat.inj) (m4.symm.trans hzs))
    subst this
    obtain ⟨w1, w2⟩ := walk_fit hm hpos m5
    exact ⟨by linarith, w1⟩
  obtain ⟨z0, hz0, hz0s⟩ : ∃ z0 ∈ acc, z0.selection = [0] := by
    have : ([0] : List Int) ∈ acc.map (·.selection) := by rw [hs1]; decide
    obtain ⟨z0, h1, h2⟩ := List.mem_map.1 this
    exact ⟨z0, h1, h2⟩
  have hz0r : z0 ∈ r.acc := by rw [hacc]; exact List.mem_append_left _ hz0
  have hxr : x ∈ r.acc := by rw [hacc]; simp
  have s0 := hscore z0 hz0r [true, false, false, false] rfl (by decide) (by rw [hz0s]; decide)
  have sx := hscore x hxr [false, true, true, true] rfl (by decide) (by rw [hx]; decide)
  have hworst := walk_first_worst (m := [false, true, true, true]) rfl (by decide) (by decide)
  have h1card : card [true, false, false, false] = 1 := by decide
  rw [h1card] at s0
  obtain ⟨z, hz, hzmin, hze⟩ := C91_stale orthSvd walkData 1 r _ walk_data hc acc x hacc
    (by rw [hs1]; decide)
    (by
      intro z hz e
      have : z.selection ∈ acc.map (·.selection) := List.mem_map.2 ⟨z, hz, rfl⟩
      rw [hs1, e, hx] at this
      revert this; decide)
    ⟨z0, hz0, by rw [s0.1, sx.1]; linarith⟩
  -- the worst model is the first feature alone
  obtain ⟨m, hm⟩ := hitems z (by rw [hacc]; exact List.mem_append_left _ hz)
  obtain ⟨m1, m2, m3, m4, m5⟩ := hm
  have m1' : m.length = 4 := m1
  have sz := hscore z (by rw [hacc]; exact List.mem_append_left _ hz) m m1' m2 m4
  have hm0 : m = [true, false, false, false] := by
    by_contra hne
    have h2 := walk_first_worst m1' m2 hne
    have h3 := hzmin z0 hz0
    rw [s0.1, sz.1] at h3
    linarith
  have hlen : z.coeff.length = 1 := by rw [sz.2, hm0, h1card]
  refine ⟨_, hze, hx, hlen, ?_⟩
  rintro ⟨m', n1, n2, n3⟩
  have hm' : m' = [false, true, true, true] := by
    refine features_inj n1 ((List.map_injective_iff.2 fun _ _ => Int.ofNat.inj) (n2.symm.trans ?_))
    show x.selection = _
    rw [hx]; decide
  have := (walk_fit n1 (by rw [hm']; decide) n3).1
  rw [hm'] at this
  have h3 : card [false, true, true, true] = 3 := by decide
  rw [h3] at this
  have h4 : z.coeff.length = 3 := this
  omega

/-- The example data set meets the hypotheses of the theorems above, and the command can end on it. -/
example : SaData (saCommandInput orthSvd walkData 1) ∧ ∃ r out, SaCommand orthSvd walkData 1 r out ∧ out.items ≠ [] := by
  obtain ⟨r, hr, -⟩ := walk_returns
  exact ⟨walk_data, r, _, ⟨hr, rfl⟩, (C91_file orthSvd walkData 1 r _ walk_data ⟨hr, rfl⟩).1⟩

/-- A search over two columns that meets the hypotheses of the partial theorems. -/
example : ∃ r out, SaData (saCommandInput orthSvd pairData 1) ∧ SaCommand orthSvd pairData 1 r out ∧
    (∀ m m' c c' σ, m.length = pairData.X.nc → m'.length = pairData.X.nc → 0 < card m → 0 < card m' →
      IsFit (saCommandInput orthSvd pairData 1) m c σ → IsFit (saCommandInput orthSvd pairData 1) m' c' σ → m = m') ∧
    ((r.acc.map (·.selection)).dedup).length ≤ 10 := by
  obtain ⟨r, hr, -, hacc⟩ := pair_returns
  exact ⟨r, _, pair_data, ⟨hr, rfl⟩, pair_no_ties, by rw [hacc]; decide⟩

end GoSelect
