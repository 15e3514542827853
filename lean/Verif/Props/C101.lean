import Verif.Props.C98
import Mathlib.Algebra.Order.BigOperators.Ring.Finset
import Mathlib.Analysis.SpecialFunctions.Pow.Real

/-! # C101: the regularisation that is chosen by agreement -/

namespace GoSelect

open Finset Spec
open scoped List

/-! ### A regularisation of at least 1 selects nothing -/

section
variable {S : Type}

/-- The local variables of the descent are zero. -/
structure CDZero (p : CDProblem ℝ S) (st : CDState ℝ S) : Prop where
  beta : st.beta = fun _ => 0
  betaOld : st.betaOld = fun _ => 0
  cov : st.covDotBeta = fun _ => 0
  indices : ∀ j ∈ st.iterIndices, 1 ≤ j ∧ j < p.nFeat

theorem softThreshold_small {x l : ℝ} (h : |x| ≤ l) : softThreshold x l = 0 := by
  obtain ⟨h1, h2⟩ := abs_le.1 h
  unfold softThreshold
  rw [if_neg (not_lt.2 h1), if_neg (not_lt.2 h2)]

theorem CDZero.coord {p : CDProblem ℝ S} (h0 : ∀ s j, p.corr.deriv s (fun _ => 0) j = 0)
    (hb : ∀ j, 1 ≤ j → j < p.nFeat → |p.XTy j / p.nr| ≤ p.lamb) {st : CDState ℝ S} (h : CDZero p st) {j : Nat}
    (hj : 1 ≤ j ∧ j < p.nFeat) : CDZero p (cdCoord p st j) ∧ (cdCoord p st j).iterIndices = st.iterIndices := by
  have hz : softThreshold (p.XTy j / p.nr - (0 - 0 * p.cov.get j j) - 0) p.lamb = 0 := by
    rw [zero_mul, sub_zero, sub_zero, sub_zero]
    exact softThreshold_small (hb j hj.1 hj.2)
  unfold cdCoord
  simp only [h.betaOld, h.cov, h.beta, h0, hz, zero_div]
  refine ⟨⟨?_, rfl, ?_, h.indices⟩, trivial⟩
  · funext i
    simp [Function.update_apply]
  · funext i
    simp [updateCovDotBeta]

theorem CDZero.sweep {p : CDProblem ℝ S} (h0 : ∀ s j, p.corr.deriv s (fun _ => 0) j = 0)
    (hb : ∀ j, 1 ≤ j → j < p.nFeat → |p.XTy j / p.nr| ≤ p.lamb) {st : CDState ℝ S} (h : CDZero p st) :
    CDZero p (cdSweep p st) := by
  have key : ∀ (l : List Nat) (st : CDState ℝ S), CDZero p st → (∀ j ∈ l, 1 ≤ j ∧ j < p.nFeat) →
      CDZero p (l.foldl (cdCoord p) st) := by
    intro l
    induction l with
    | nil => exact fun st h _ => h
    | cons j l ih =>
      intro st h hl
      rw [List.foldl_cons]
      exact ih _ (h.coord h0 hb (hl j (List.mem_cons_self ..))).1 (fun i hi => hl i (List.mem_cons_of_mem _ hi))
  exact key _ st h h.indices

theorem CDZero.iter {p : CDProblem ℝ S} (h0 : ∀ s j, p.corr.deriv s (fun _ => 0) j = 0)
    (hb : ∀ j, 1 ≤ j → j < p.nFeat → |p.XTy j / p.nr| ≤ p.lamb) {st : CDState ℝ S} (h : CDZero p st) :
    CDZero p (cdIter p st).1 := by
  have hs := h.sweep h0 hb
  have hm : runMax (fun j => |(cdSweep p st).beta j|) (cdSweep p st).iterIndices = 0 := by
    rw [hs.beta]
    unfold runMax
    generalize (cdSweep p st).iterIndices = l
    induction l with
    | nil => rfl
    | cons a l ih => simpa using ih
  unfold cdIter
  simp only [hm, ne_eq, not_true_eq_false, decide_false, Bool.false_and, Bool.false_eq_true, if_false]
  exact ⟨hs.beta, hs.beta, hs.cov, fun j hj => hs.indices j (List.mem_of_mem_filter hj)⟩

/-- Without correlation above the regularisation the coefficients stay zero. -/
theorem cdLoop_stays {p : CDProblem ℝ S} (h0 : ∀ s j, p.corr.deriv s (fun _ => 0) j = 0)
    (hb : ∀ j, 1 ≤ j → j < p.nFeat → |p.XTy j / p.nr| ≤ p.lamb) (n : Nat) {st : CDState ℝ S} (h : CDZero p st) :
    (cdLoop p n st).1.beta = fun _ => 0 := by
  induction n generalizing st with
  | zero => exact h.beta
  | succ n ih =>
    have hi := h.iter h0 hb
    unfold cdLoop
    rcases hc : cdIter p st with ⟨st', b⟩
    rw [hc] at hi
    cases b
    · exact ih hi
    · exact hi.beta

theorem cdInit_stays (p : CDProblem ℝ S) (s : S) : CDZero p (cdInit p s) := by
  refine ⟨rfl, rfl, ?_, ?_⟩
  · funext i
    simp [cdInit, mulSlice]
  · intro j hj
    simp only [cdInit, List.mem_map, List.mem_range] at hj
    obtain ⟨k, hk, rfl⟩ := hj
    omega

theorem sum_getD_sq (v : List ℝ) : ∑ r ∈ range v.length, v.getD r 0 ^ 2 = (v.map (fun x => (x - 0) ^ 2)).sum := by
  induction v with
  | nil => rfl
  | cons a v ih =>
    rw [List.length_cons, sum_range_succ', List.map_cons, List.sum_cons, ← ih]
    simp only [List.getD_cons_succ, List.getD_cons_zero]
    ring

/-- Deviations of mean 0 and variance 1 have squares that sum to the number of values less one. -/
theorem sum_sq_of_variance {v : List ℝ} (h2 : 2 ≤ v.length) (hm : mean v = 0) (hv : variance v = 1) :
    ∑ r ∈ range v.length, v.getD r 0 ^ 2 = v.length - 1 := by
  have hl : (0 : ℝ) < v.length - 1 := by
    have : (2 : ℝ) ≤ v.length := by exact_mod_cast h2
    linarith
  unfold variance at hv
  rw [div_eq_one_iff_eq hl.ne', hm] at hv
  rw [← hv, sum_getD_sq]

/-- The columns and the response of a normalised sample correlate by less than the number of rows. -/
theorem xTy_bound {X : Mat ℝ} {Y y : List ℝ} {d : NormalizedData} (hY : Y.length = X.nr)
    (hd : newNormalizedData X Y = some d) (hy : finValues d.y = some y) {j : Nat} (h1 : 1 ≤ j) (hj : j < X.nc) :
    |xTy d.X (fun r => y.getD r 0) j / d.X.nr| ≤ 1 := by
  have hn2 : 2 ≤ X.nr := by
    by_contra hlt
    rcases newNormalizedData_inv X Y with ⟨-, h⟩ | ⟨d', -, h, -⟩
    · rw [hd] at h; cases h
    · have := h.later j hj (by omega)
      have hs : goStd (colOf X j) = 0 := by
        unfold goStd
        rw [if_pos (by simp [colOf]; omega)]
      rw [hs] at this
      norm_num at this
  obtain ⟨e1, e2, -, e3, e4⟩ := C48_dataset X Y hn2 d hd
  have hdy : d.y = normalizeArray Y := by
    rcases newNormalizedData_inv X Y with ⟨-, h⟩ | ⟨d', h, -, h', -⟩
    · rw [hd] at h; cases h
    · rw [hd, Option.some.injEq] at h
      rw [h]; exact h'
  have hne : Y ≠ [] := by
    rintro rfl
    simp at hY
    omega
  have hconst : ¬ Constant Y := by
    intro hc
    rw [hdy, C48_constant_array Y hc hne] at hy
    obtain ⟨a, l, rfl⟩ := List.exists_cons_of_ne_nil hne
    simp [finValues] at hy
  obtain ⟨w, hw, hw0, hw1⟩ := e4 (by omega) hconst
  have hyw : y = w := by
    rw [hw, finValues_fin, Option.some.injEq] at hy
    exact hy.symm
  subst hyw
  have hlen : y.length = X.nr := by
    have := congrArg List.length hw
    rw [hdy] at this
    simp [normalizeArray] at this
    omega
  obtain ⟨c0, c1⟩ := e3 j hj (by omega)
  have hcl : (colOf d.X j).length = X.nr := by simp [colOf, e1]
  have hx := sum_sq_of_variance (by omega) c0 c1
  have hyy := sum_sq_of_variance (by omega) hw0 hw1
  rw [hcl] at hx
  rw [hlen] at hyy
  have hcs : (∑ r ∈ range X.nr, (colOf d.X j).getD r 0 * y.getD r 0) ^ 2 ≤ ((X.nr : ℝ) - 1) ^ 2 := by
    have := sum_mul_sq_le_sq_mul_sq (range X.nr) (fun r => (colOf d.X j).getD r 0) (fun r => y.getD r 0)
    rw [hx, hyy] at this
    rw [sq ((X.nr : ℝ) - 1)]
    exact this
  have hxy : xTy d.X (fun r => y.getD r 0) j = ∑ r ∈ range X.nr, (colOf d.X j).getD r 0 * y.getD r 0 := by
    unfold xTy
    rw [e1]
    refine sum_congr rfl (fun r hr => ?_)
    rw [List.getD_eq_getElem _ _ (by rw [hcl]; exact mem_range.1 hr)]
    simp [colOf]
  have hnr : (2 : ℝ) ≤ X.nr := by exact_mod_cast hn2
  have habs := abs_le_of_sq_le_sq hcs (by linarith)
  rw [hxy, e1, abs_div, abs_of_pos (show (0 : ℝ) < X.nr by linarith), div_le_one (by linarith)]
  linarith

/-- C101: with a regularisation of at least 1 no feature is selected, on any rows. -/
theorem C101_large (t : CohenTarget S) (h0 : ∀ s j, t.corr.deriv s (fun _ => 0) j = 0) (hl : 1 ≤ t.lamb)
    (m m' : CohenMemory S) (rows sel : List Nat) (h : t.getSelection m rows = some (sel, m')) : sel = [] := by
  have h1 := congrArg (Option.map Prod.fst) h
  rw [getSelection_fst] at h1
  split at h1
  · simp at h1
  simp only [Option.map_some] at h1
  obtain ⟨d, hd, h1⟩ := Option.bind_eq_some_iff.1 h1
  obtain ⟨cov, hcov, h1⟩ := Option.bind_eq_some_iff.1 h1
  split at h1
  · exact (Option.some.inj h1).symm
  · rename_i y hy
    obtain ⟨r, hr, h1⟩ := Option.map_eq_some_iff.1 h1
    unfold lassoCrdDesc at hr
    split at hr
    · cases hr
    rw [Option.some.injEq] at hr
    rw [← h1, List.filter_eq_nil_iff]
    intro i _
    have hnc : d.X.nc = t.X.nc := by
      rcases newNormalizedData_inv (subRows t.X rows) (rows.map (fun i => t.y.getD i 0)) with ⟨-, h⟩ | ⟨d', h, h', -⟩
      · rw [hd] at h; cases h
      · rw [hd, Option.some.injEq] at h
        rw [h]; exact h'.nc
    have hz := cdLoop_stays (p := ⟨d.X.nr, d.X.nc, cov, xTy d.X (fun r => y.getD r 0), t.lamb, t.tol, t.corr⟩) h0
      (fun j hj1 hj2 => (xTy_bound (by simp [subRows]) hd hy hj1
        (show j < t.X.nc from lt_of_lt_of_eq hj2 hnc)).trans hl) t.maxIter
      (cdInit_stays _ m.corrState)
    rw [← hr]
    simp only [hz]
    simp [lassoCrdDescZero]

/-- C101: its agreement is perfect. -/
theorem C101_kappa [Inhabited S] (t : CohenTarget S) (h0 : ∀ s j, t.corr.deriv s (fun _ => 0) j = 0) (hl : 1 ≤ t.lamb)
    (hc : Memoryless t.corr) (hcov : t.cov = .empirical) (hy : t.y.length = t.X.nr) (hnc : 0 < t.X.nc)
    (shuffles : List (List Nat)) (n : Nat) (hn : 0 < n) (hs : Shuffles t.X.nr n shuffles) (m : CohenMemory S) (k : Fl ℝ)
    (hk : t.kappa m shuffles = some k) : k = .fin 1 := by
  obtain ⟨x, rfl, -, -, -, hx⟩ := (C98_kappa t hc hcov hy hnc shuffles n hn hs m).2 k hk
  have hz : ∀ rows, selectionOn t rows = [] := by
    intro rows
    unfold selectionOn
    cases h : t.getSelection ⟨[], default⟩ rows with
    | none => rfl
    | some r =>
      have := C101_large t h0 hl _ r.2 rows r.1 h
      simp [this]
  rw [hx.2 (fun i _ v => by rw [hz, hz])]

end

/-! ### The command -/

theorem fl_lt {a b : ℝ} : (Fl.fin a : Fl ℝ) < Fl.fin b ↔ a < b :=
  show decide (a < b) = true ↔ a < b from decide_eq_true_iff

/-- The targets of the command use the plain lasso. -/
theorem pureLasso_deriv (s : Unit) (j : Nat) : (pureLasso : LassoCorrection ℝ Unit).deriv s (fun _ => 0) j = 0 := rfl

/-- C101: if the grid reaches 1, the regularisation that is returned has perfect agreement: in each of its samples the
two halves select the same features. -/
theorem C101_result_partial (f : CohenFlags) (d : Dataset ℝ) (hnr : 0 < d.X.nr) (hy : d.Y.length = d.X.nr)
    (hnc : 0 < d.X.nc) (hn : 0 < f.numSamples) (targets : List (CohenTarget Unit)) (ht : cohenTargets f d = some targets)
    (grid : List ℝ) (hg : logspace f.lambMin f.lambMax f.numLamb = some grid) (h1 : ∃ l ∈ grid, 1 ≤ l)
    (s : Pool (CohenMain ℝ) Nat (Nat × Fl ℝ)) (h : CohenRun targets f.numSamples s) (hd : CohenDone targets.length s) :
    ∃ t ∈ targets, cohenResult targets s = some t.lamb ∧ ∃ shuffles, Shuffles t.X.nr f.numSamples shuffles ∧
      ∀ i ∈ shuffles, ∀ v, v ∈ selectionOn t (i.take (t.X.nr / 2)) ↔ v ∈ selectionOn t (i.drop (t.X.nr / 2)) := by
  obtain ⟨nd, d', lambs, e1, e2, e3, e4⟩ := cohenTargets_spec ht
  rw [hg, Option.some.injEq] at e2
  subst e2
  obtain ⟨-, -, -, -, -, e5, e6, hnormal⟩ := normalizeInPlace_some hnr hy e1
  have hkap := fun (t : CohenTarget Unit) (htm : t ∈ targets) (sh : List (List Nat)) hs =>
    C98_kappa t (by rw [(e4 t htm).2.2.2]; exact pureLasso_memoryless) (e4 t htm).2.2.1
      (by rw [(e4 t htm).1, (e4 t htm).2.1]; exact hnormal.ylen) (by rw [(e4 t htm).1]; omega) sh f.numSamples hn hs ⟨[], ()⟩
  -- the result of a target with large regularisation
  obtain ⟨l, hl, hl1⟩ := h1
  obtain ⟨t₀, ht₀, hlt⟩ : ∃ t ∈ targets, t.lamb = l := by
    have : l ∈ targets.map (fun t => t.lamb) := by rw [e3]; exact List.mem_reverse.2 hl
    exact List.mem_map.1 this
  obtain ⟨w, hw, hw0⟩ := List.mem_iff_getElem.1 ht₀
  obtain ⟨q, hq, hqw⟩ : ∃ q ∈ s.got, q.2.1 = w := by
    have : w ∈ s.got.map (fun p => p.2.1) :=
      (C41_each_once targets.length s h.reach hd).2.mem_iff.2 (List.mem_range.2 hw)
    exact List.mem_map.1 this
  have hq1 : q.2.2 = .fin 1 := by
    obtain ⟨e, t, sh, g1, g2, g3⟩ := (PoolInv.reach h).got q hq
    have : t = t₀ := by
      rw [← e, hqw, List.getElem?_eq_getElem hw, hw0, Option.some.injEq] at g1
      exact g1.symm
    subst this
    exact C101_kappa t (by rw [(e4 t ht₀).2.2.2]; exact pureLasso_deriv) (by rw [hlt]; exact hl1)
      (by rw [(e4 t ht₀).2.2.2]; exact pureLasso_memoryless) (e4 t ht₀).2.2.1
      (by rw [(e4 t ht₀).1, (e4 t ht₀).2.1]; exact hnormal.ylen) (by rw [(e4 t ht₀).1]; omega) sh f.numSamples hn g2 _ _ g3
  obtain ⟨b1, b2⟩ := C41_best targets.length s h.reach
  cases hb : s.main.bestHyper with
  | none =>
    exfalso
    refine b2.1 hb q hq ?_
    rw [hq1]
    exact fl_lt.2 one_pos
  | some w' =>
    obtain ⟨p, hp, hpw, -, hmax⟩ := b1 w' hb
    obtain ⟨e, t, sh, g1, g2, g3⟩ := (PoolInv.reach h).got p hp
    have htm := List.mem_of_getElem? g1
    obtain ⟨x, k1, -, -, k3, k4⟩ := (hkap t htm sh g2).2 _ g3
    have hx : x = 1 := by
      have := hmax q hq
      rw [hq1, k1] at this
      rw [fl_lt] at this
      linarith
    refine ⟨t, htm, ?_, sh, g2, k4.1 hx⟩
    unfold cohenResult
    rw [hb, Option.bind_some, ← hpw, e, g1]
    rfl

/-! ### Schedules -/

/-- A run from a reachable state extends to one from the start. -/
theorem PoolReach.extend {M W R : Type} {act : M → Act M W R} {comp : W → R → Prop} {m : M} {s : Pool M W R}
    (h : PoolReach act comp m s) : ∀ f : Nat → Pool M W R, f 0 = s → (∀ k, PoolStep act comp (f k) (f (k + 1))) →
      ∃ run : Nat → Pool M W R, run 0 = poolInit m ∧ ∀ k, PoolStep act comp (run k) (run (k + 1)) := by
  induction h with
  | init => exact fun f h0 hf => ⟨f, h0, hf⟩
  | @step s s' _ h' ih =>
    intro f h0 hf
    refine ih (fun k => match k with | 0 => s | k + 1 => f k) rfl (fun k => ?_)
    cases k with
    | zero =>
      have : PoolStep act comp s (f 0) := by rw [h0]; exact h'
      exact this
    | succ k => exact hf k

/-- The result of target 0 waits while the other workers are started. -/
structure FirstWaits (r : Nat × Fl ℝ) (i : Nat) (s : Pool (CohenMain ℝ) Nat (Nat × Fl ℝ)) : Prop where
  phase : s.main.phase = .spawning i
  received : s.main.numReceives = 0
  kappa : s.main.bestKappa = .fin 0
  hyper : s.main.bestHyper = none
  waits : s.workers[0]? = some (.sending 0 r)

theorem firstWaits (targets : List (CohenTarget Unit)) (n : Nat) (hne : 0 < targets.length) (r : Nat × Fl ℝ)
    (hr : cohenKappaOf targets n 0 r) (i : Nat) (hi : i < 16) :
    ∃ s, CohenRun targets n s ∧ FirstWaits r (i + 1) s := by
  induction i with
  | zero =>
    have h0 : CohenRun targets n (poolInit cohenInit) := .init
    have h1 := h0.step (.spawn ⟨.sendFirst 0, 0, 0, .fin 0, none⟩ (by
      simp [poolInit, cohenInit, cohenAct, cohenWorkers, hne]))
    have h2 := h1.step (.send 0 ⟨.spawning 1, 1, 0, .fin 0, none⟩ 0 (by simp [cohenAct]) (by simp [poolInit]))
    have h3 := h2.step (.compute 0 0 r (by simp [poolInit]) hr)
    exact ⟨_, h3, rfl, rfl, rfl, rfl, by simp [poolInit]⟩
  | succ i ih =>
    obtain ⟨s, h, f1, f2, f3, f4, f5⟩ := ih (by omega)
    have hlen : 0 < s.workers.length := by
      by_contra hc
      rw [List.getElem?_eq_none (by omega)] at f5
      cases f5
    by_cases hn : s.main.nextTarget < targets.length
    · have h1 := h.step (.spawn { s.main with phase := .sendFirst (i + 1) } (by
        simp [cohenAct, f1, cohenWorkers, hi, hn]))
      have h2 := h1.step (.send s.main.nextTarget
        { s.main with nextTarget := s.main.nextTarget + 1, phase := .spawning (i + 1 + 1) } s.workers.length (by
        simp [cohenAct]) (by simp))
      refine ⟨_, h2, rfl, f2, f3, f4, ?_⟩
      simp only
      rw [List.getElem?_set_ne (by omega), List.getElem?_append_left hlen, f5]
    · have h1 := h.step (.spawn { s.main with phase := .spawning (i + 1 + 1) } (by
        simp [cohenAct, f1, cohenWorkers, hi, hn]))
      refine ⟨_, h1, rfl, f2, f3, f4, ?_⟩
      simp only
      rw [List.getElem?_append_left hlen, f5]

/-- C101: if the largest regularisation of the grid is at least 1 and no shuffle panics, then under some schedule the
command returns it; on no rows of the data does it select a feature. -/
theorem C101_nothing (f : CohenFlags) (d d' : Dataset ℝ) (nd : NormalizedData) (hnr : 0 < d.X.nr)
    (hy : d.Y.length = d.X.nr) (hnc : 0 < d.X.nc) (hn : 0 < f.numSamples) (targets : List (CohenTarget Unit))
    (ht : cohenTargets f d = some targets) (hnd : normalizeInPlace d = some (nd, d'))
    (hgood : ∀ i, i ~ List.range d.X.nr → ¬ BadShuffle d'.X i)
    (grid : List ℝ) (hg : logspace f.lambMin f.lambMax f.numLamb = some grid) (l : ℝ) (hl : grid.getLast? = some l)
    (h1 : 1 ≤ l) :
    ∃ s, CohenRun targets f.numSamples s ∧ CohenDone targets.length s ∧ cohenResult targets s = some l ∧
      ∃ t ∈ targets, t.lamb = l ∧ ∀ rows, selectionOn t rows = [] := by
  have hnp := (C98_ends f d d' nd hnr hy hnc hn targets ht hnd hgood).1
  obtain ⟨nd', d'', lambs, e1, e2, e3, e4⟩ := cohenTargets_spec ht
  rw [hnd, Option.some.injEq, Prod.mk.injEq] at e1
  obtain ⟨rfl, rfl⟩ := e1
  rw [hg, Option.some.injEq] at e2
  subst e2
  obtain ⟨-, -, -, -, -, e5, e6, hnormal⟩ := normalizeInPlace_some hnr hy hnd
  -- target 0
  obtain ⟨t, ht0, htl⟩ : ∃ t, targets[0]? = some t ∧ t.lamb = l := by
    have : (targets.map (fun t => t.lamb))[0]? = some l := by
      rw [e3, ← List.head?_eq_getElem?, List.head?_reverse, hl]
    rw [List.getElem?_map] at this
    obtain ⟨t, q1, q2⟩ := Option.map_eq_some_iff.1 this
    exact ⟨t, q1, q2⟩
  have htm := List.mem_of_getElem? ht0
  have hpos : 0 < targets.length := List.length_pos_of_mem htm
  obtain ⟨hX, hY, hcov, hcorr⟩ := e4 t htm
  have hder : ∀ s j, t.corr.deriv s (fun _ => 0) j = 0 := by rw [hcorr]; exact pureLasso_deriv
  have hmem : Memoryless t.corr := by rw [hcorr]; exact pureLasso_memoryless
  have hylen : t.y.length = t.X.nr := by rw [hX, hY]; exact hnormal.ylen
  have htnc : 0 < t.X.nc := by rw [hX]; omega
  have htnr : t.X.nr = d.X.nr := by rw [hX, e5]
  -- its result
  have hs : Shuffles t.X.nr f.numSamples (List.replicate f.numSamples (List.range t.X.nr)) :=
    ⟨List.length_replicate, fun i hi => by rw [List.eq_of_mem_replicate hi]⟩
  obtain ⟨k, hk⟩ : ∃ k, t.kappa ⟨[], ()⟩ (List.replicate f.numSamples (List.range t.X.nr)) = some k := by
    rw [← Option.ne_none_iff_exists']
    intro hnone
    obtain ⟨i, hi, hb⟩ := (C98_kappa t hmem hcov hylen htnc _ _ hn hs _).1.1 hnone
    rw [List.eq_of_mem_replicate hi, hX, e5] at hb
    exact hgood _ (List.Perm.refl _) hb
  have hk1 := C101_kappa t hder (by rw [htl]; exact h1) hmem hcov hylen htnc _ _ hn hs _ k hk
  subst hk1
  have hr : cohenKappaOf targets f.numSamples 0 (0, .fin 1) := ⟨rfl, t, _, ht0, hs, hk⟩
  -- it is received first
  obtain ⟨s, hrun, f1, f2, f3, f4, f5⟩ := firstWaits targets f.numSamples hpos _ hr 15 (by decide)
  have h2 := hrun.step (.tau { s.main with phase := .receiving } (by simp [cohenAct, f1, cohenWorkers]))
  have h3 := h2.step (.recv (cohenReceive targets.length { s.main with phase := .receiving }) 0 0 (0, .fin 1) (by
    simp [cohenAct, f2, hpos]) f5)
  -- the rest of the run keeps it
  let Kept := fun q : Pool (CohenMain ℝ) Nat (Nat × Fl ℝ) =>
    CohenRun targets f.numSamples q ∧ q.main.bestKappa = .fin 1 ∧ q.main.bestHyper = some 0
  have hkept : ∀ q q', Kept q →
      PoolStep (cohenAct cohenWorkers targets.length) (cohenKappaOf targets f.numSamples) q q' → Kept q' := by
    rintro q q' ⟨g1, g2, g3⟩ hst
    have g4 := g1.step hst
    refine ⟨g4, ?_⟩
    have hgot := CohenRun.got hnr hy hnc hn ht g4
    cases hst with
    | spawn m h =>
      unfold cohenAct at h
      split at h
      · split at h
        · injection h with h; subst h; exact ⟨g2, g3⟩
        · cases h
      · cases h
      · split at h <;> cases h
      · cases h
    | tau m h =>
      unfold cohenAct at h
      split at h
      · split at h
        · cases h
        · injection h with h; subst h; exact ⟨g2, g3⟩
      · cases h
      · split at h <;> cases h
      · cases h
    | send w m i h hi =>
      unfold cohenAct at h
      split at h
      · split at h <;> cases h
      · injection h with h h'; subst h'; exact ⟨g2, g3⟩
      · split at h <;> cases h
      · injection h with h h'; subst h'; exact ⟨g2, g3⟩
    | compute w i r hi hr => exact ⟨g2, g3⟩
    | recv fr w i r h hi =>
      obtain ⟨_, -, _, x, -, hx, -, -, hx1, -⟩ := hgot (w, r) (by simp)
      have hnot : ¬ q.main.bestKappa < r.2 := by
        rw [g2, show r.2 = .fin x from hx, fl_lt]
        linarith
      unfold cohenAct at h
      split at h
      · split at h <;> cases h
      · cases h
      · split at h
        · injection h with h
          subst h
          simp only [cohenReceive]
          rw [if_neg hnot, if_neg hnot]
          exact ⟨g2, g3⟩
        · cases h
      · cases h
  have hstart : Kept _ := ⟨h3, by simp [cohenReceive, f3, fl_lt], by simp [cohenReceive, f3, fl_lt]⟩
  obtain ⟨q, hq, hd⟩ : ∃ q, Kept q ∧ CohenDone targets.length q := by
    by_contra hc
    push Not at hc
    have hnext : ∀ q : {q // Kept q}, ∃ q' : {q // Kept q},
        PoolStep (cohenAct cohenWorkers targets.length) (cohenKappaOf targets f.numSamples) q.1 q'.1 := by
      rintro ⟨q, hq⟩
      obtain ⟨q', hs'⟩ := (C98_progress f targets).1 q hq.1 (hc q hq) (hnp q hq.1)
      exact ⟨⟨q', hkept q q' hq hs'⟩, hs'⟩
    choose next hstep using hnext
    obtain ⟨run, r0, r1⟩ := PoolReach.extend h3
      (fun k => (Nat.rec (motive := fun _ => {q // Kept q}) ⟨_, hstart⟩ (fun _ q => next q) k).1) rfl
      (fun k => hstep _)
    exact (C98_progress f targets).2 run r0 r1
  refine ⟨q, hq.1, hd, ?_, t, htm, htl, fun rows => ?_⟩
  · unfold cohenResult
    rw [hq.2.2, Option.bind_some, ht0, Option.map_some, htl]
  · unfold selectionOn
    cases h : t.getSelection ⟨[], default⟩ rows with
    | none => rfl
    | some r =>
      have := C101_large t hder (by rw [htl]; exact h1) _ r.2 rows r.1 h
      simp [this]

/-- The claim in full: with the default flags, on data that make no shuffle panic, the regularisation that is returned
selects a feature on the whole data. -/
def Spec.ChoiceSelects (f : CohenFlags) : Prop :=
  ∀ (d : Dataset ℝ) (targets : List (CohenTarget Unit)) (s : Pool (CohenMain ℝ) Nat (Nat × Fl ℝ)),
    0 < d.X.nr → d.Y.length = d.X.nr → 0 < d.X.nc → cohenTargets f d = some targets →
    CohenRun targets f.numSamples s → CohenDone targets.length s →
    ∀ t ∈ targets, cohenResult targets s = some t.lamb → selectionOn t (List.range d.X.nr) ≠ []

/-- goselect-cohenlasso/main.go:30-37. -/
noncomputable def Spec.defaultCohenFlags : CohenFlags := ⟨1 / 10 ^ 5, 1, 20, 100, 1 / 10 ^ 4⟩

open CohenExample in
/-- Hypotheses of the theorems above: four rows with perfectly correlated columns and the default flags. -/
theorem default_example : ∃ targets grid l s, cohenTargets defaultCohenFlags (dataOf [0, 1, 2, 3]) = some targets ∧
    logspace defaultCohenFlags.lambMin defaultCohenFlags.lambMax defaultCohenFlags.numLamb = some grid ∧
    (l ∈ grid ∧ 1 ≤ l) ∧ CohenRun targets defaultCohenFlags.numSamples s ∧ CohenDone targets.length s ∧
    ∃ t ∈ targets, cohenResult targets s = some t.lamb ∧ ∀ rows, selectionOn t rows = [] := by
  obtain ⟨n, d', hn, -⟩ := normalizes 0 1 2 3 std_01.1
  obtain ⟨grid, hg, hlen, -, -, hlast, -⟩ :=
    C38_geometric (1 / 10 ^ 5) 1 20 (by norm_num) (by norm_num) (by norm_num)
  obtain ⟨targets, ht⟩ : ∃ targets, cohenTargets defaultCohenFlags (dataOf [0, 1, 2, 3]) = some targets := by
    unfold cohenTargets
    have hg' : logspace defaultCohenFlags.lambMin defaultCohenFlags.lambMax defaultCohenFlags.numLamb = some grid := hg
    rw [hn, Option.bind_some, if_neg (by decide), hg', Option.bind_some]
    refine mapM_isSome (fun i hi => ?_)
    have hi : i < 20 := List.mem_range.1 hi
    rw [List.getElem?_eq_getElem (by omega)]
    exact ⟨_, rfl⟩
  obtain ⟨s, h, hd, hres, t, htm, htl, hnone⟩ := C101_nothing defaultCohenFlags (dataOf [0, 1, 2, 3]) d' n (by decide) rfl
    (by decide) (by decide) targets ht hn (no_bad n d' hn) grid hg 1
    (by rw [List.getLast?_eq_getElem?, hlen, hlast]) le_rfl
  exact ⟨targets, grid, 1, s, ht, hg, ⟨List.mem_of_getElem? hlast, le_rfl⟩, h, hd, t, htm, by rw [htl]; exact hres, hnone⟩

/-- C101: with the default flags and perfectly correlated data, the command may return a regularisation that selects
nothing. -/
theorem C101_refuted : ¬ ChoiceSelects defaultCohenFlags := by
  intro hall
  obtain ⟨targets, -, -, s, ht, -, -, h, hd, t, htm, hres, hnone⟩ := default_example
  exact hall _ targets s (by decide) rfl (by decide) ht h hd t htm hres (hnone _)

end GoSelect
