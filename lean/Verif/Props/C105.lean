import Verif.Props.C50_C51
import Verif.Props.C100
import Verif.Props.C104
import Verif.Proofs.SvdExists

/-! # C105: nested lasso with a keep fraction of one or more -/

namespace GoSelect

open Finset Spec
open scoped List

/-- Each of the first `n` features enters the path. -/
def Spec.UsesAll (path : List (LassoLarsNode ℝ)) (n : Nat) : Prop := ∀ f < n, ∃ node ∈ path, f ∈ node.selection

/-- The loop never ends: neither by `break` nor by a panic. -/
def Spec.Endless {σ ρ : Type} (body : σ → Outcome σ ρ) (s : σ) : Prop :=
  ∃ run : Nat → σ, run 0 = s ∧ ∀ k, body (run k) = .next (run (k + 1))

theorem endless_of_inv {σ ρ : Type} {body : σ → Outcome σ ρ} (inv : σ → Prop) {s : σ} (h0 : inv s)
    (h : ∀ s, inv s → ∃ s', body s = .next s' ∧ inv s') : Endless body s := by
  have hstep : ∀ q : { q // inv q }, ∃ q' : { q // inv q }, body q.1 = .next q'.1 := by
    rintro ⟨q, hq⟩
    obtain ⟨q', h1, h2⟩ := h q hq
    exact ⟨⟨q', h2⟩, h1⟩
  let run : Nat → { q // inv q } := fun n => Nat.rec ⟨s, h0⟩ (fun _ q => Classical.choose (hstep q)) n
  exact ⟨fun n => (run n).1, rfl, fun k => Classical.choose_spec (hstep (run k))⟩

theorem endless_not_runs {σ ρ : Type} {body : σ → Outcome σ ρ} {s : σ} (h : Endless body s) (r : ρ) : ¬ Runs body s r := by
  obtain ⟨run, h0, h1⟩ := h
  intro hr
  have key : ∀ s r, Runs body s r → ∀ k, s ≠ run k := by
    intro s r hr
    induction hr with
    | ret hb =>
      intro k e
      rw [e, h1 k] at hb
      cases hb
    | next hb _ ih =>
      intro k e
      rw [e, h1 k] at hb
      cases hb
      exact ih (k + 1) rfl
  exact key s r hr 0 h0.symm

theorem nestedNum_ge {keep : ℝ} (hk : 1 ≤ keep) (n : Nat) : (n : Int) ≤ nestedNum keep n := by
  have hn : (0 : ℝ) ≤ n := Nat.cast_nonneg n
  unfold nestedNum goInt
  rw [if_pos (by positivity)]
  refine Int.le_floor.2 ?_
  push_cast
  nlinarith

/-- A path that uses all features, asked for all of them, keeps all of them. -/
theorem survivors_all {path : List (LassoLarsNode ℝ)} {nc : Nat} {num : Int} (hu : UsesAll path nc)
    (hr : ∀ n ∈ path, ∀ f ∈ n.selection, f < nc) (hn : (nc : Int) ≤ num) :
    ∃ d : List Nat, pickMostRelevantFeatures path num = d.map Int.ofNat ∧ d ~ List.range nc := by
  obtain ⟨k, d, h1, h2, h3, h4, -, h6, -⟩ := C67_features path num
  refine ⟨d, h2, ?_⟩
  have hsub : d ⊆ List.range nc := by
    intro f hf
    have := (h4 f).1 hf
    unfold pathFeatures at this
    obtain ⟨n, hn, hfn⟩ := List.mem_flatMap.1 this
    exact List.mem_range.2 (hr n (List.mem_of_mem_take hn) f hfn)
  have hsp := List.subperm_of_subset h3 hsub
  rcases h6 with h6 | ⟨-, h6⟩
  · refine (List.perm_ext_iff_of_nodup h3 List.nodup_range).2 (fun f => ⟨fun h => hsub h, fun h => ?_⟩)
    rw [h4, h6, List.take_length]
    obtain ⟨n, hn, hf⟩ := hu f (List.mem_range.1 h)
    exact List.mem_flatMap.2 ⟨n, hn, hf⟩
  · refine hsp.perm_of_length_le ?_
    rw [List.length_range]
    omega

/-- **C105 (what happens instead).** If the fraction is at least one, and each of the three or more features enters the path
of `LassoLars` whatever the order of the columns, then the rounds of `NestedLasso` never end: it neither returns nor
panics. -/
theorem C105_endless {lars : Mat ℝ → List ℝ → Option (List (LassoLarsNode ℝ))} {tol lambMin keep : ℝ}
    (hmin : 0 ≤ lambMin) (hk : 1 ≤ keep) (hl : Spec.RunsLars tol lambMin lars) (data : Dataset ℝ)
    (hd : WellFormed data) (ht : data.targetCol = data.X.nc) (hnr : 2 ≤ data.X.nr) (hnc : 3 ≤ data.X.nc)
    (hy : ¬ Constant data.Y) (hcol : ∀ c < data.X.nc, 1 / 10 ^ 10 ≤ goStd (colOf data.X c))
    (hall : ∀ n (w : List ℝ), newNormalizedData data.X data.Y = some n → normalizeArray data.Y = w.map .fin →
      ∀ M cols, cols ~ List.range data.X.nc → Spec.Restricts M n.X cols →
        ∃ path, lars M w = some path ∧ UsesAll path data.X.nc) :
    (∃ n cur, normalizeInPlace data.copy = some (n, cur) ∧ Endless (nestedBody lars keep data) ⟨cur, []⟩) ∧
    ¬ ∃ paths after, NestedReturns lars keep data paths after := by
  obtain ⟨w, hw, hwl, -⟩ := C48_array data.Y (by rw [hd.y]; exact hnr) hy
  obtain ⟨n, hn⟩ : ∃ n, newNormalizedData data.X data.Y = some n := by
    cases hn : newNormalizedData data.X data.Y with
    | some n => exact ⟨n, rfl⟩
    | none =>
      obtain ⟨c, hc, h0, hs⟩ := (C48_panic _ _).1 hn
      exact absurd hs (not_lt.2 (hcol c hc))
  have hcopy : normalizeInPlace data.copy = some (n, ⟨n.X, w, data.names, data.targetCol⟩) := by
    unfold normalizeInPlace
    have e : newNormalizedData data.copy.X data.copy.Y = some n := hn
    rw [e, Option.bind_some, newNormalizedData_y hn, hw, finValues_fin]
    rfl
  obtain ⟨-, -, hinv⟩ := nested_init hd (by omega) ht hcopy
  obtain ⟨hnr', hnc', -⟩ := newNormalizedData_cols hnr hn
  have hD : UnitOrZero n.X data.X.nc := fun c hc => .inl (by
    rw [goStd_eq _ (by simp [colOf, hnr', hnr]), ((C48_dataset data.X data.Y hnr n hn).2.2.1 c hc (hcol c hc)).2,
      Real.sqrt_one])
  have hend : Endless (nestedBody lars keep data) ⟨⟨n.X, w, data.names, data.targetCol⟩, []⟩ := by
    refine endless_of_inv (fun s => ∃ cols, NestedInv data n.X w s.cur cols ∧ cols ~ List.range data.X.nc)
      ⟨_, hinv, List.Perm.refl _⟩ ?_
    rintro s ⟨cols, hi, hp⟩
    have hlen : cols.length = data.X.nc := by rw [hp.length_eq, List.length_range]
    have hsnc : s.cur.X.nc = data.X.nc := by rw [hi.restricts.nc, hlen]
    obtain ⟨path, h1, h2⟩ := hall n w hn hw s.cur.X cols hp hi.restricts
    obtain ⟨est, hpath⟩ := hl _ _ _ h1
    have hrange : ∀ m ∈ path, ∀ f ∈ m.selection, f < data.X.nc := by
      intro m hm f hf
      rw [← hsnc]
      exact ((C63_path _ _ _ _ _ _ hpath).1 m hm).range f hf
    have hnum : 2 < nestedNum keep cols.length := by
      have := nestedNum_ge hk cols.length
      omega
    have hcorr : ∃ f ∈ cols, lambMin < |larsXy n.X (fun r => w.getD r 0) f| := by
      by_contra hno
      push Not at hno
      have hem := C63_empty s.cur.X (fun r => w.getD r 0) tol lambMin (by rw [hi.restricts.nr, hnr']; omega)
        (by omega) est hmin (fun i hi' => by
          have hi' : i < cols.length := by omega
          rw [larsXy_restricts hi.restricts _ i hi']
          exact hno _ (List.getElem_mem hi'))
      obtain ⟨s1, e1, r1⟩ := hem
      obtain ⟨s2, e2, r2⟩ := hpath
      rw [e1, Option.some.injEq] at e2
      subst e2
      have : path = [] := r2.unique r1
      subst this
      obtain ⟨m, hm, -⟩ := h2 0 (by omega)
      cases hm
    have hnp := (nested_no_panic (keep := keep) hmin hl hd hD ⟨path, h1⟩ hi (hp.nodup_iff.2 List.nodup_range)
      hcorr)
    obtain ⟨-, -, -, hnp, -⟩ := hnp
    rcases nested_round (keep := keep) hl hd hi with h | ⟨path', g1, -, ⟨g2, -⟩ | ⟨-, cur, g3, g4⟩⟩
    · exact absurd h hnp
    · omega
    · rw [h1, Option.some.injEq] at g1
      subst g1
      refine ⟨_, g3, _, g4, ?_⟩
      obtain ⟨d, d1, d2⟩ := survivors_all h2 hrange (by rw [hlen]; exact nestedNum_ge hk _ :
        (data.X.nc : Int) ≤ nestedNum keep cols.length)
      rw [d1, List.map_map]
      refine (List.Perm.map _ d2).trans ?_
      have : (List.range data.X.nc).map ((fun v : Int => cols.getD v.toNat 0) ∘ Int.ofNat) = cols := by
        apply List.ext_getElem
        · simp [hlen]
        · intro i h1 h2
          simp [List.getD_eq_getElem?_getD, List.getElem?_eq_getElem h2]
      rw [this]
      exact hp
  refine ⟨⟨n, _, hcopy, hend⟩, ?_⟩
  rintro ⟨paths, after, n0, cur, raw, n', k1, k2, -⟩
  rw [hcopy, Option.some.injEq, Prod.mk.injEq] at k1
  rw [← k1.2] at k2
  exact endless_not_runs hend raw k2

/-- **C105 (partial: some feature stays outside).** `NestedLasso` returns for every fraction if, in addition to the
conditions of C51, each path that is followed by another round leaves out one of its features.  Missing: paths with all
features, see `C105_endless`. -/
theorem C105_returns_partial {lars : Mat ℝ → List ℝ → Option (List (LassoLarsNode ℝ))} {tol lambMin keep : ℝ}
    (hmin : 0 ≤ lambMin) (hl : Spec.RunsLars tol lambMin lars) (data : Dataset ℝ)
    (hd : WellFormed data) (ht : data.targetCol = data.X.nc) (hnr : 2 ≤ data.X.nr) (hy : ¬ Constant data.Y)
    (hcol : ∀ c < data.X.nc, 1 / 10 ^ 10 ≤ goStd (colOf data.X c) ∨ (c = 0 ∧ Constant (colOf data.X c)))
    (hlars : ∀ n w, newNormalizedData data.X data.Y = some n → normalizeArray data.Y = w.map .fin →
      (∃ f < data.X.nc, lambMin < |larsXy n.X (fun r => w.getD r 0) f|) ∧
      ∀ M cols, cols.Nodup → cols ≠ [] → (∀ v ∈ cols, v < data.X.nc) → Spec.Restricts M n.X cols →
        ∃ path, lars M w = some path ∧ (3 ≤ keep * cols.length → ¬ UsesAll path cols.length)) :
    ∃ paths after, NestedReturns lars keep data paths after := by
  refine nested_returns_of hmin hl data hd ht hnr hy hcol ?_ ?_
  · intro n w hn hw
    obtain ⟨h1, h2⟩ := hlars n w hn hw
    exact ⟨h1, fun M cols a b c d => (h2 M cols a b c d).imp fun p hp => hp.1⟩
  · intro n w run hn hw h0 hrun
    obtain ⟨-, hpath⟩ := hlars n w hn hw
    obtain ⟨hnr', hnc', -⟩ := newNormalizedData_cols hnr hn
    have hzero : Constant (colOf data.X 0) → 0 < data.X.nc → ∀ r < data.X.nr, n.X.get r 0 = 0 :=
      fun h1 h2 => ((C48_bias data.X data.Y h2 n hn).2 h1).2
    have hD : UnitOrZero n.X data.X.nc := by
      intro c hc
      rcases hcol c hc with h | ⟨rfl, h⟩
      · left
        rw [goStd_eq _ (by simp [colOf, hnr', hnr]), ((C48_dataset data.X data.Y hnr n hn).2.2.1 c hc h).2,
          Real.sqrt_one]
      · right
        rw [hnr']
        exact hzero h hc
    have hok : ∀ k, NestedOk lambMin data n.X w (run k) := by
      intro k
      induction k with
      | zero => exact h0
      | succ k ih =>
        exact (nested_step_ok hmin hl hd hD (fun M cols a b c d => (hpath M cols a b c d).imp fun p hp => hp.1) ih).2.2 _
          (hrun k)
    have hdec : ∀ k, (run (k + 1)).cur.X.nc < (run k).cur.X.nc := by
      intro k
      obtain ⟨-, cols, hi, hnd, f, hf, -⟩ := hok k
      have hlen : cols.length = (run k).cur.X.nc := hi.restricts.nc.symm
      obtain ⟨path, h1, h2⟩ := hpath (run k).cur.X cols hnd (List.ne_nil_of_mem hf) hi.range hi.restricts
      rcases nested_round (keep := keep) hl hd hi with h | ⟨path', g1, -, ⟨g2, g3⟩ | ⟨g2, cur, g3, g4⟩⟩
      · rw [hrun k] at h; cases h
      · rw [hrun k] at g3; cases g3
      · rw [h1, Option.some.injEq] at g1
        subst g1
        rw [hrun k, Outcome.next.injEq] at g3
        rw [g3]
        have e := g4.restricts.nc
        rw [List.length_map] at e
        show cur.X.nc < _
        rw [e, ← hlen]
        have h3 : (3 : ℝ) ≤ keep * cols.length := by
          have g2' := g2
          unfold nestedNum goInt at g2'
          split at g2'
          · have : (3 : Int) ≤ ⌊keep * (cols.length : ℝ)⌋ := by omega
            have := Int.le_floor.1 this
            push_cast at this
            exact this
          · rename_i hneg
            have : ⌈keep * (cols.length : ℝ)⌉ ≤ 0 := Int.ceil_le.2 (by push_cast; exact le_of_lt (not_le.1 hneg))
            omega
        have hout := h2 h3
        unfold UsesAll at hout
        push Not at hout
        obtain ⟨g, hg, hgn⟩ := hout
        obtain ⟨est, hp⟩ := hl _ _ _ h1
        obtain ⟨m1, m2⟩ := survivors_mem path (nestedNum keep cols.length)
        have hsub : pickMostRelevantFeatures path (nestedNum keep cols.length) ⊆
            ((List.range cols.length).erase g).map Int.ofNat := by
          intro v hv
          obtain ⟨m, hm, f, hf, rfl⟩ := m2 v hv
          refine List.mem_map.2 ⟨f, ?_, rfl⟩
          rw [List.nodup_range.mem_erase_iff]
          refine ⟨fun e => hgn m hm (e ▸ hf), List.mem_range.2 ?_⟩
          rw [hlen]
          exact ((C63_path _ _ _ _ _ _ hp).1 m hm).range f hf
        have := (List.subperm_of_subset m1 hsub).length_le
        rw [List.length_map, List.length_erase_of_mem (List.mem_range.2 hg), List.length_range] at this
        omega
    have hlt : ∀ k, k + (run k).cur.X.nc ≤ (run 0).cur.X.nc := by
      intro k
      induction k with
      | zero => omega
      | succ k ih => have := hdec k; omega
    have := hlt ((run 0).cur.X.nc + 1)
    omega

/-! ### Orthogonal columns -/

/-- `lars` is `LassoLars` with the estimator `est`. -/
def Spec.IsLars (tol lambMin : ℝ) (est : Mat ℝ → List ℝ → Nat → List Nat → List ℝ → Option (List ℝ × List ℝ))
    (lars : Mat ℝ → List ℝ → Option (List (LassoLarsNode ℝ))) : Prop :=
  ∀ M y path, lars M y = some path ↔ LarsReturns M (fun r => y.getD r 0) tol lambMin (est M y) path

theorem colDot_restricts {M D : Mat ℝ} {cols : List Nat} (h : Spec.Restricts M D cols) (y : Nat → ℝ) (k : Nat)
    (hk : k < cols.length) : colDot M y k = colDot D y cols[k] := larsXy_restricts h y k hk

/-- Orthogonal columns, all of them relevant: the path uses each of them. -/
theorem ortho_usesAll {lars : Mat ℝ → List ℝ → Option (List (LassoLarsNode ℝ))} {tol lambMin : ℝ} (htol : 0 < tol)
    (hmin : 0 ≤ lambMin) {est : Mat ℝ → List ℝ → Nat → List Nat → List ℝ → Option (List ℝ × List ℝ)}
    (hl : IsLars tol lambMin est lars)
    (M : Mat ℝ) (w : List ℝ) (hest : SolvesNonzero M (fun r => w.getD r 0) (est M w))
    (hr : 0 < M.nr) (hc : 0 < M.nc) (ho : OrthoColumns M)
    (hbig : ∀ i < M.nc, lambMin < |colDot M (fun r => w.getD r 0) i| ∧ tol < |colDot M (fun r => w.getD r 0) i|) :
    ∃ path, lars M w = some path ∧ UsesAll path M.nc := by
  have hsmall : ∀ i < M.nc, -tol ≤ colDot M (fun r => w.getD r 0) i → colDot M (fun r => w.getD r 0) i < 0 →
      |colDot M (fun r => w.getD r 0) i| ≤ lambMin := by
    intro i hi h1 h2
    have := (hbig i hi).2
    rw [abs_of_neg h2] at this
    linarith
  have hret := (C104_path_partial M _ tol lambMin htol hmin hr hc (est M w) ho hest hsmall _).2 rfl
  refine ⟨_, (hl _ _ _).2 hret, ?_⟩
  obtain ⟨-, hlast⟩ := C104_nodes_partial M _ tol lambMin htol hmin hr hc (est M w) ho hest hsmall _ hret
  intro f hf
  generalize softPath M (fun r => w.getD r 0) lambMin = path at *
  cases hg : path.getLast? with
  | some n => exact ⟨n, List.mem_of_getLast? hg, (hlast n hg f).2 ⟨hf, (hbig f hf).1⟩⟩
  | none =>
    exfalso
    rw [List.getLast?_eq_none_iff] at hg
    obtain ⟨f, n, rest, e, -⟩ := lars_first hret ⟨f, hf, (hbig f hf).1⟩
    rw [hg] at e
    cases e

/-- The squared length of a normalised column. -/
theorem colSq_normalized {M : Mat ℝ} {c : Nat} (hnr : 2 ≤ M.nr) (h0 : mean (colOf M c) = 0) (h1 : variance (colOf M c) = 1) :
    colSq M c = M.nr - 1 := by
  have hl : (colOf M c).length = M.nr := by simp [colOf]
  unfold variance at h1
  rw [h0, hl] at h1
  have hpos : (0 : ℝ) < (M.nr : ℝ) - 1 := by
    have : (2 : ℝ) ≤ M.nr := by exact_mod_cast hnr
    linarith
  rw [div_eq_one_iff_eq hpos.ne'] at h1
  rw [← h1]
  unfold colSq colOf
  rw [List.map_map, ← List.sum_toFinset _ List.nodup_range]
  · simp [Finset.range, List.toFinset_range]

theorem colSq_nonneg_real (M : Mat ℝ) (i : Nat) : 0 ≤ colSq M i := Finset.sum_nonneg (fun _ _ => sq_nonneg _)

/-- **C105 (what happens instead), for orthogonal data.** `NestedLasso` with a fraction of at least one runs for ever on
every data set whose normalised columns are orthogonal, three or more, and correlated with the response by more than
`lambMin` and the tolerance.  The estimator solves the normal equations of orthogonal normalised columns. -/
theorem C105_orthogonal {lars : Mat ℝ → List ℝ → Option (List (LassoLarsNode ℝ))} {tol lambMin keep : ℝ} (htol : 0 < tol)
    (hmin : 0 ≤ lambMin) (hk : 1 ≤ keep)
    {est : Mat ℝ → List ℝ → Nat → List Nat → List ℝ → Option (List ℝ × List ℝ)} (hl : IsLars tol lambMin est lars)
    (hest : ∀ (M : Mat ℝ) (y : List ℝ), OrthoColumns M → (∀ i < M.nc, colSq M i = M.nr - 1) → y.length = M.nr →
      SolvesNonzero M (fun r => y.getD r 0) (est M y)) (data : Dataset ℝ)
    (hd : WellFormed data) (ht : data.targetCol = data.X.nc) (hnr : 2 ≤ data.X.nr) (hnc : 3 ≤ data.X.nc)
    (hy : ¬ Constant data.Y) (hcol : ∀ c < data.X.nc, 1 / 10 ^ 10 ≤ goStd (colOf data.X c))
    (hortho : ∀ n (w : List ℝ), newNormalizedData data.X data.Y = some n → normalizeArray data.Y = w.map .fin →
      OrthoColumns n.X ∧ ∀ i < data.X.nc, lambMin < |colDot n.X (fun r => w.getD r 0) i| ∧
        tol < |colDot n.X (fun r => w.getD r 0) i|) :
    (∃ n cur, normalizeInPlace data.copy = some (n, cur) ∧ Endless (nestedBody lars keep data) ⟨cur, []⟩) ∧
    ¬ ∃ paths after, NestedReturns lars keep data paths after := by
  refine C105_endless hmin hk (fun X y path h => ⟨_, (hl X y path).1 h⟩) data hd ht hnr hnc hy hcol ?_
  intro n w hn hw M cols hp hM
  obtain ⟨h1, h2⟩ := hortho n w hn hw
  obtain ⟨hnr', hnc', -⟩ := newNormalizedData_cols hnr hn
  have hlen : cols.length = data.X.nc := by rw [hp.length_eq, List.length_range]
  have hMnc : M.nc = data.X.nc := by rw [hM.nc, hlen]
  have hmem : ∀ k (hk : k < cols.length), cols[k] < data.X.nc :=
    fun k hk => List.mem_range.1 (hp.mem_iff.1 (List.getElem_mem hk))
  rw [← hMnc]
  have hcols : ∀ k (hk : k < cols.length), colSq M k = colSq n.X cols[k] := by
    intro k hk
    unfold colSq
    rw [hM.nr]
    exact Finset.sum_congr rfl (fun r hr => by rw [hM.get r (Finset.mem_range.1 hr) k hk])
  have hwl : w.length = data.X.nr := by
    have := congrArg List.length hw
    rw [List.length_map] at this
    rw [← this, ← hd.y]
    simp [normalizeArray]
  have ho : OrthoColumns M := by
    intro i hi j hj hij
    have hi' : i < cols.length := by omega
    have hj' : j < cols.length := by omega
    rw [hM.nr, ← h1 cols[i] (by rw [hnc']; exact hmem i hi') cols[j] (by rw [hnc']; exact hmem j hj')
      (fun e => hij ((List.Nodup.getElem_inj_iff (hp.nodup_iff.2 List.nodup_range)).1 e))]
    apply Finset.sum_congr rfl
    intro r hr
    rw [hM.get r (Finset.mem_range.1 hr) i hi', hM.get r (Finset.mem_range.1 hr) j hj']
  refine ortho_usesAll htol hmin hl M w (hest M w ho ?_ (by rw [hwl, hM.nr, hnr'])) (by rw [hM.nr, hnr']; omega) (by omega)
    ho ?_
  · intro i hi
    have hi : i < cols.length := by omega
    obtain ⟨m1, m2⟩ := (C48_dataset data.X data.Y hnr n hn).2.2.1 _ (hmem i hi) (hcol _ (hmem i hi))
    rw [hcols i hi, colSq_normalized (by omega) m1 m2, hM.nr]
  · intro i hi
    rw [colDot_restricts hM _ i (by omega)]
    exact h2 _ (hmem i (by omega))

theorem larsReturns_unique {K : Type} [Field K] [LinearOrder K] {X : Mat K} {y : Nat → K} {tol lambMin : K}
    {est : Nat → List Nat → List K → Option (List K × List K)} {p p' : List (LassoLarsNode K)}
    (h : LarsReturns X y tol lambMin est p) (h' : LarsReturns X y tol lambMin est p') : p = p' := by
  obtain ⟨s, e, r⟩ := h
  obtain ⟨s', e', r'⟩ := h'
  rw [e, Option.some.injEq] at e'
  subst e'
  exact r.unique r'

theorem morseLars_isLars (svd : Mat ℝ → SVD ℝ) (lambMin : ℝ) :
    IsLars lassoTol lambMin (morseEst svd) (morseLars svd lambMin) := by
  intro M y path
  unfold morseLars
  by_cases h : ∃ path, LarsReturns M (fun r => y.getD r 0) lassoTol lambMin (morseEst svd M y) path
  · rw [dif_pos h, Option.some.injEq]
    exact ⟨fun e => e ▸ h.choose_spec, fun e => larsReturns_unique h.choose_spec e⟩
  · rw [dif_neg h]
    exact ⟨fun e => (by cases e), fun e => absurd ⟨_, e⟩ h⟩

/-- **C105 (what happens instead), for the command.** With decompositions as gonum promises them, `goselect-nestedlasso`
with a fraction of at least one never gets to write its file for such data. -/
theorem C105_command {svd : Mat ℝ → SVD ℝ} (hsvd : ∀ A, (svd A).Of A) (sort : List (Fl ℝ × Nat) → List (Fl ℝ × Nat))
    {lambMin keep : ℝ} (hmin : 0 ≤ lambMin) (hk : 1 ≤ keep) (data : Dataset ℝ)
    (hd : WellFormed data) (ht : data.targetCol = data.X.nc) (hnr : 2 ≤ data.X.nr) (hnc : 3 ≤ data.X.nc)
    (hy : ¬ Constant data.Y) (hcol : ∀ c < data.X.nc, 1 / 10 ^ 10 ≤ goStd (colOf data.X c))
    (hortho : ∀ n (w : List ℝ), newNormalizedData data.X data.Y = some n → normalizeArray data.Y = w.map .fin →
      OrthoColumns n.X ∧ ∀ i < data.X.nc, lambMin < |colDot n.X (fun r => w.getD r 0) i| ∧
        lassoTol < |colDot n.X (fun r => w.getD r 0) i|) :
    ¬ ∃ res out, NestedCommand svd sort lambMin keep data res out := by
  rintro ⟨res, out, ⟨n0, cur, raw, crits, n', paths, h1, h2, h3, h4, h5⟩, -⟩
  refine (C105_orthogonal (by norm_num [lassoTol]) hmin hk (morseLars_isLars svd lambMin) ?_ data hd ht hnr hnc hy hcol
    hortho).2 ⟨paths, res.dset, n0, cur, raw, n', h1, critBody_runs h2, h3, h4⟩
  intro M y ho hsq hyl
  by_cases hr : 2 ≤ M.nr
  · refine C104_estimator svd M y hyl ho (fun i hi => .inr ?_) (fun E _ _ => hsvd _)
    rw [hsq i hi]
    have : (2 : ℝ) ≤ M.nr := by exact_mod_cast hr
    norm_num
    linarith
  · refine C104_estimator svd M y hyl ho (fun i hi => .inl ?_) (fun E _ _ => hsvd _)
    have h0 := colSq_nonneg_real M i
    have hle : (M.nr : ℝ) ≤ 1 := by exact_mod_cast (by omega : M.nr ≤ 1)
    rw [hsq i hi] at h0 ⊢
    linarith

/-! ### Examples and the refutation -/

namespace EndlessExample

open OrthoExample

open Classical in
/-- `LassoLars` with the exact solution for orthogonal columns. -/
noncomputable def lars (lambMin : ℝ) (M : Mat ℝ) (y : List ℝ) : Option (List (LassoLarsNode ℝ)) :=
  if h : ∃ path, LarsReturns M (fun r => y.getD r 0) lassoTol lambMin (orthoEst M (fun r => y.getD r 0)) path
  then some h.choose else none

theorem isLars (lambMin : ℝ) :
    IsLars lassoTol lambMin (fun M y => orthoEst M (fun r => y.getD r 0)) (lars lambMin) := by
  intro M y path
  unfold lars
  by_cases h : ∃ path, LarsReturns M (fun r => y.getD r 0) lassoTol lambMin (orthoEst M (fun r => y.getD r 0)) path
  · rw [dif_pos h, Option.some.injEq]
    exact ⟨fun e => e ▸ h.choose_spec, fun e => larsReturns_unique h.choose_spec e⟩
  · rw [dif_neg h]
    exact ⟨fun e => (by cases e), fun e => absurd ⟨_, e⟩ h⟩

/-- Three orthogonal columns with mean 0 and variance 1. -/
def col (c : Nat) : List ℝ :=
  if c = 0 then [1, -1, 1, -1, 0] else if c = 1 then [1, 1, -1, -1, 0] else [1, -1, -1, 1, 0]

/-- The response is `(6 a + 3 b + 2 c) / 7`. -/
noncomputable def ys : List ℝ := [11 / 7, -5 / 7, 1 / 7, -1, 0]

noncomputable def data : Dataset ℝ := ⟨⟨5, 3, fun r c => (col c).getD r 0⟩, ys, ["a", "b", "c", "y"], 3⟩

theorem wf : WellFormed data := ⟨rfl, by decide, by decide, by decide, rfl⟩

theorem col_eq {c : Nat} (hc : c < 3) : colOf data.X c = col c := by
  rcases c with _ | _ | _ | c
  · simp [colOf, data, List.range_succ, col]
  · simp [colOf, data, List.range_succ, col]
  · simp [colOf, data, List.range_succ, col]
  · omega

theorem norm_col {c : Nat} (hc : c < 3) : goStd (col c) = 1 ∧ goMean (col c) = 0 := by
  have h0 : goMean (col c) = 0 := by
    rcases c with _ | _ | _ | c
    · norm_num [goMean, col]
    · norm_num [goMean, col]
    · norm_num [goMean, col]
    · omega
  refine ⟨?_, h0⟩
  unfold goStd
  simp only [h0]
  rcases c with _ | _ | _ | c
  · norm_num [col]
  · norm_num [col]
  · norm_num [col]
  · omega

theorem norm_y : normalizeArray data.Y = ys.map .fin := by
  apply normalizeArray_fix
  · decide
  · norm_num [data, ys, mean]
  · norm_num [data, ys, variance, mean]

theorem normed {n : NormalizedData} (h : newNormalizedData data.X data.Y = some n) :
    n.X.nr = 5 ∧ n.X.nc = 3 ∧ ∀ r < 5, ∀ c < 3, n.X.get r c = (col c).getD r 0 := by
  obtain ⟨h1, h2, h3⟩ := newNormalizedData_fix (X := data.X) (fun c hc => ⟨by rw [col_eq hc]; exact (norm_col hc).2,
    .inl (by rw [col_eq hc]; exact (norm_col hc).1)⟩) h
  exact ⟨h1, h2, h3⟩

theorem w_eq {w : List ℝ} (hw : normalizeArray data.Y = w.map .fin) : w = ys := by
  rw [norm_y] at hw
  exact ((List.map_injective_iff.2 (fun a b hab => by cases hab; rfl)) hw).symm

theorem ortho {n : NormalizedData} (hn : newNormalizedData data.X data.Y = some n) : OrthoColumns n.X := by
  obtain ⟨h1, h2, h3⟩ := normed hn
  intro i hi j hj hij
  rw [h2] at hi hj
  rw [h1]
  simp only [Finset.sum_range_succ, Finset.sum_range_zero]
  rw [h3 0 (by omega) i hi, h3 1 (by omega) i hi, h3 2 (by omega) i hi, h3 3 (by omega) i hi, h3 4 (by omega) i hi,
    h3 0 (by omega) j hj, h3 1 (by omega) j hj, h3 2 (by omega) j hj, h3 3 (by omega) j hj, h3 4 (by omega) j hj]
  rcases i with _ | _ | _ | i <;> rcases j with _ | _ | _ | j <;> first | omega | norm_num [col]

theorem dots {n : NormalizedData} (hn : newNormalizedData data.X data.Y = some n) {i : Nat} (hi : i < 3) :
    colDot n.X (fun r => ys.getD r 0) i = [24 / 7, 12 / 7, 8 / 7].getD i 0 := by
  obtain ⟨h1, h2, h3⟩ := normed hn
  unfold colDot
  rw [h1]
  simp only [Finset.sum_range_succ, Finset.sum_range_zero]
  rw [h3 0 (by omega) i hi, h3 1 (by omega) i hi, h3 2 (by omega) i hi, h3 3 (by omega) i hi, h3 4 (by omega) i hi]
  rcases i with _ | _ | _ | i <;> first | omega | norm_num [col, ys]

theorem dots_gt {n : NormalizedData} (hn : newNormalizedData data.X data.Y = some n) {i : Nat} (hi : i < 3) :
    1 < colDot n.X (fun r => ys.getD r 0) i := by
  rw [dots hn hi]
  rcases i with _ | _ | _ | i <;> first | omega | norm_num

theorem hypotheses (n : NormalizedData) (w : List ℝ) (hn : newNormalizedData data.X data.Y = some n)
    (hw : normalizeArray data.Y = w.map .fin) :
    OrthoColumns n.X ∧ ∀ i < data.X.nc, 1 < |colDot n.X (fun r => w.getD r 0) i| ∧
      lassoTol < |colDot n.X (fun r => w.getD r 0) i| := by
  obtain rfl := w_eq hw
  refine ⟨ortho hn, fun i hi => ?_⟩
  have h' : 1 < |colDot n.X (fun r => ys.getD r 0) i| := lt_of_lt_of_le (dots_gt hn hi) (le_abs_self _)
  exact ⟨h', lt_of_le_of_lt (by norm_num [lassoTol]) h'⟩

theorem not_constant : ¬ Constant data.Y := by
  intro h
  have := h (11 / 7) (by simp [data, ys]) 0 (by simp [data, ys])
  norm_num at this

theorem vary (c : Nat) (hc : c < data.X.nc) : 1 / 10 ^ 10 ≤ goStd (colOf data.X c) := by
  rw [col_eq hc, (norm_col hc).1]
  norm_num

/-- The hypotheses of `C105_returns_partial`: the same data with the fraction 1 and `lambMin = 3/2`, which keeps the third
feature out of the path. -/
example : ∃ paths after, NestedReturns (lars (3 / 2)) 1 data paths after := by
  refine C105_returns_partial (tol := lassoTol) (lambMin := 3 / 2) (by norm_num)
    (fun X y path h => ⟨_, (isLars (3 / 2) X y path).1 h⟩) data wf rfl (by decide) not_constant
    (fun c hc => .inl (vary c hc)) ?_
  intro n w hn hw
  obtain rfl := w_eq hw
  obtain ⟨h1, h2, h3⟩ := normed hn
  refine ⟨⟨0, by decide, ?_⟩, ?_⟩
  · have := dots hn (i := 0) (by decide)
    rw [show larsXy n.X (fun r => ys.getD r 0) 0 = _ from this]
    norm_num
  · intro M cols hnd hne hr hM
    have hr : ∀ v ∈ cols, v < 3 := hr
    have hpos : 0 < cols.length := List.length_pos_iff.2 hne
    have hlt : ∀ k (hk : k < cols.length), cols[k] < 3 := fun k hk => hr _ (List.getElem_mem hk)
    have ho : OrthoColumns M := by
      intro i hi j hj hij
      rw [hM.nc] at hi hj
      rw [hM.nr, ← ortho hn cols[i] (by rw [h2]; exact hlt i hi) cols[j] (by rw [h2]; exact hlt j hj)
        (fun e => hij ((List.Nodup.getElem_inj_iff hnd).1 e))]
      apply Finset.sum_congr rfl
      intro r hr'
      rw [hM.get r (Finset.mem_range.1 hr') i hi, hM.get r (Finset.mem_range.1 hr') j hj]
    have hsmall : ∀ i < M.nc, -lassoTol ≤ colDot M (fun r => ys.getD r 0) i → colDot M (fun r => ys.getD r 0) i < 0 →
        |colDot M (fun r => ys.getD r 0) i| ≤ 3 / 2 := by
      intro i hi _ hneg
      rw [hM.nc] at hi
      rw [colDot_restricts hM _ i hi] at hneg
      have := dots_gt hn (hlt i hi)
      linarith
    have hret := (C104_path_partial M _ lassoTol (3 / 2) (by norm_num [lassoTol]) (by norm_num) (by rw [hM.nr, h1]; decide)
      (by rw [hM.nc]; exact hpos) _ ho (orthoEst_solves (fun r => ys.getD r 0) ho) hsmall _).2 rfl
    refine ⟨_, (isLars (3 / 2) M ys _).2 hret, fun hlen hall => ?_⟩
    have hlen : 3 ≤ cols.length := by
      rw [one_mul] at hlen
      exact_mod_cast hlen
    have hperm : cols.Perm (List.range 3) :=
      (List.subperm_of_subset hnd (fun v hv => List.mem_range.2 (hr v hv))).perm_of_length_le (by simpa using hlen)
    obtain ⟨f, hf, e⟩ := List.mem_iff_getElem.1 (hperm.mem_iff.2 (by decide : 2 ∈ List.range 3))
    obtain ⟨node, hnode, hmem⟩ := hall f hf
    obtain ⟨P, rfl, -, -, -, hP, -⟩ := mem_softPath hnode
    have hin : f ∈ P := by
      have : f ∈ P.insertionSort (· ≤ ·) := hmem
      rwa [List.mem_insertionSort] at this
    have := (hP f hin).2
    rw [colDot_restricts hM _ f hf] at this
    have e2 : colDot n.X (fun r => ys.getD r 0) cols[f] = 8 / 7 := by
      rw [dots hn (hlt f hf)]
      simp only [e]
      rfl
    rw [e2] at this
    norm_num [abs_of_pos] at this

end EndlessExample

/-- **C105 is false in general**: `goselect-nestedlasso` with its default regularisation limit and the fraction 1 does not
return on normalised orthogonal data, whatever the decompositions that meet gonum's contract; and there are such
decompositions. -/
theorem C105_refuted : (∃ svd : Mat ℝ → SVD ℝ, ∀ A, (svd A).Of A) ∧ ∃ data : Dataset ℝ,
    WellFormed data ∧ data.targetCol = data.X.nc ∧ ∀ svd : Mat ℝ → SVD ℝ, (∀ A, (svd A).Of A) → ∀ sort,
      ¬ ∃ res out, NestedCommand svd sort nestedDefaults.1 1 data res out := by
  refine ⟨exists_svd_all, EndlessExample.data, EndlessExample.wf, rfl, fun svd hsvd sort => ?_⟩
  refine C105_command hsvd sort (by norm_num [nestedDefaults]) le_rfl EndlessExample.data EndlessExample.wf rfl (by decide)
    (by decide) EndlessExample.not_constant EndlessExample.vary (fun n w hn hw => ?_)
  obtain ⟨h1, h2⟩ := EndlessExample.hypotheses n w hn hw
  exact ⟨h1, fun i hi => ⟨lt_trans (by norm_num [nestedDefaults]) (h2 i hi).1, (h2 i hi).2⟩⟩

end GoSelect
