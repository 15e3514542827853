import Verif.Model.CohenHyper
import Verif.Props.C101

/-! # C102: the hyper parameters of the targets of Cohen's kappa -/

namespace GoSelect

open Finset Spec
open scoped List

section
variable {S : Type}

theorem getSelection_maxIter_zero (t : CohenTarget S) (h0 : t.maxIter = 0) (m m' : CohenMemory S) (rows sel : List Nat)
    (h : t.getSelection m rows = some (sel, m')) : sel = [] := by
  have h1 := congrArg (Option.map Prod.fst) h
  rw [getSelection_fst] at h1
  split at h1
  · simp at h1
  simp only [Option.map_some] at h1
  obtain ⟨normD, hn, h1⟩ := Option.bind_eq_some_iff.1 h1
  obtain ⟨cov, hcov, h1⟩ := Option.bind_eq_some_iff.1 h1
  split at h1
  · exact (Option.some.inj h1).symm
  · obtain ⟨r, hr, h1⟩ := Option.map_eq_some_iff.1 h1
    unfold lassoCrdDesc at hr
    split at hr
    · cases hr
    · rw [h0] at hr
      have hr : r.1 = fun _ => 0 := (congrArg Prod.fst (Option.some.inj hr)).symm
      rw [← h1, hr, List.filter_eq_nil_iff]
      intro i _
      norm_num [lassoCrdDescZero]

/-- C102: a target panics whatever the rows, unless the data and the covariance are set, and the correction is set or no
iterations are allowed. -/
theorem C102_unset (p : PureCohen S) (m : CohenMemory S) (rows : List Nat)
    (h : p.dset = none ∨ p.cov = none ∨ (p.corr = none ∧ 0 < p.maxIter)) : p.getSelection m rows = none := by
  unfold PureCohen.getSelection
  rcases h with h | h | ⟨h, h'⟩
  · rw [h]; rfl
  · cases p.dset <;> simp [h]
  · cases p.dset <;> cases p.cov <;> simp [h, h']

/-- C102: with all of them set, `GetSelection` with the empirical covariance fails only for samples without rows or with
a constant column. -/
theorem C102_set (p : PureCohen S) (X : Mat ℝ) (y : List ℝ) (hd : p.dset = some (X, y)) (hcov : p.cov = some .empirical)
    (hcorr : p.corr ≠ none ∨ p.maxIter ≤ 0) (hy : y.length = X.nr) (hnc : 0 < X.nc) (m : CohenMemory S)
    (rows : List Nat) (hr : ∀ i ∈ rows, i < X.nr) :
    p.getSelection m rows = none ↔ rows = [] ∨ ConstantOn X rows := by
  unfold PureCohen.getSelection
  rw [hd, hcov, Option.bind_some, Option.bind_some]
  cases hc : p.corr with
  | some corr => exact getSelection_none (S := S) ⟨X, y, p.lamb, .empirical, _, p.tol, corr⟩ rfl hy hnc m rows hr
  | none =>
    have : ¬ 0 < p.maxIter := by
      rcases hcorr with h | h
      · exact absurd hc h
      · omega
    simp only [if_neg this]
    exact getSelection_none (S := S) ⟨X, y, p.lamb, .empirical, 0, p.tol, _⟩ rfl hy hnc m rows hr

/-- C102: as long as the number of iterations is not set, no feature is selected. -/
theorem C102_no_iterations (p : PureCohen S) (h0 : p.maxIter ≤ 0) (m m' : CohenMemory S) (rows sel : List Nat)
    (h : p.getSelection m rows = some (sel, m')) : sel = [] := by
  unfold PureCohen.getSelection at h
  obtain ⟨d, -, h⟩ := Option.bind_eq_some_iff.1 h
  obtain ⟨cov, -, h⟩ := Option.bind_eq_some_iff.1 h
  have hz : p.maxIter.toNat = 0 := by omega
  split at h
  · exact getSelection_maxIter_zero _ hz m m' rows sel h
  · rw [if_neg (by omega)] at h
    exact getSelection_maxIter_zero _ rfl m m' rows sel h

/-- C102: what a target reports: its regularisation, and for the covariance lasso the field `Eta`; nothing else. -/
theorem C102_reported (c : CLassoCohen S) (key : String) (v : ℝ) :
    (c.hyperParameters key = some v ↔ (key = "lamb" ∧ v = c.pLasso.lamb) ∨ (key = "eta" ∧ v = c.eta)) ∧
    (c.pLasso.hyperParameters key = some v ↔ key = "lamb" ∧ v = c.pLasso.lamb) := by
  unfold CLassoCohen.hyperParameters PureCohen.hyperParameters
  constructor
  · by_cases h1 : key = "eta"
    · subst h1
      simp [eq_comm]
    · by_cases h2 : key = "lamb"
      · subst h2
        simp [eq_comm]
      · simp [h1, h2]
  · by_cases h2 : key = "lamb"
    · subst h2
      simp [eq_comm]
    · simp [h2]

/-- C102: the reported `Eta` has no influence on the selections. -/
theorem C102_eta_unused (c c' : CLassoCohen S) (h : c.pLasso = c'.pLasso) (m : CohenMemory S) (rows : List Nat) :
    c.getSelection m rows = c'.getSelection m rows ∧ c.getX = c'.getX := by
  unfold CLassoCohen.getSelection CLassoCohen.getX
  rw [h]
  exact ⟨rfl, rfl⟩

/-- C102: a new target has no data, so `GetX` and `GetSelection` panic, and it reports that it does not regularise.  With
data and covariance set, it selects nothing: no iterations are allowed. -/
theorem C102_new (m : CohenMemory S) (rows : List Nat) (X : Mat ℝ) (y : List ℝ) (cov : CovKind) :
    (newCLassoCohen : CLassoCohen S).getX = none ∧
    (newCLassoCohen : CLassoCohen S).getSelection m rows = none ∧
    (newCLassoCohen : CLassoCohen S).hyperParameters "lamb" = some 0 ∧
    (newCLassoCohen : CLassoCohen S).hyperParameters "eta" = some 0 ∧
    (newPureLassoCohen : PureCohen S).hyperParameters "lamb" = some 0 ∧
    ({ (newPureLassoCohen : PureCohen S) with dset := some (X, y) } : PureCohen S).getSelection m rows = none ∧
    ∀ sel m', ({ (newPureLassoCohen : PureCohen S) with dset := some (X, y), cov := some cov } : PureCohen S).getSelection
      m rows = some (sel, m') → sel = [] :=
  ⟨rfl, C102_unset _ m rows (.inl rfl), rfl, rfl, rfl, C102_unset _ m rows (.inr (.inl rfl)),
    fun sel m' h => C102_no_iterations _ le_rfl m m' rows sel h⟩

/-- C102: `GetX` gives the matrix of the data set, and panics without one. -/
theorem C102_getX (c : CLassoCohen S) (X : Mat ℝ) :
    (c.getX = some X ↔ ∃ y, c.pLasso.dset = some (X, y)) ∧ (c.getX = none ↔ c.pLasso.dset = none) ∧
    c.getX = c.pLasso.getX := by
  unfold CLassoCohen.getX PureCohen.getX
  rcases h : c.pLasso.dset with _ | ⟨X', y⟩ <;> simp

theorem split_at_space {l l' t t' : List Char} (h : ' ' ∉ l) (h' : ' ' ∉ l') (e : l ++ ' ' :: t = l' ++ ' ' :: t') :
    l = l' ∧ t = t' := by
  induction l generalizing l' with
  | nil =>
    cases l' with
    | nil => simpa using e
    | cons a l' =>
      simp only [List.nil_append, List.cons_append, List.cons.injEq] at e
      exact absurd (by simp [← e.1]) h'
  | cons a l ih =>
    cases l' with
    | nil =>
      simp only [List.nil_append, List.cons_append, List.cons.injEq] at e
      exact absurd (by simp [e.1]) h
    | cons b l' =>
      simp only [List.cons_append, List.cons.injEq] at e
      simp only [List.mem_cons, not_or] at h h'
      obtain ⟨e1, e2⟩ := ih h.2 h'.2 e.2
      exact ⟨by rw [e.1, e1], e2⟩

/-- C102: targets with the same `StringRep` agree in all reported hyper parameters, up to the digits that are printed. -/
theorem C102_string (format : ℝ → String) (hf : ∀ x, ' ' ∉ (format x).toList) (c c' : CLassoCohen S) :
    (c.stringRep format = c'.stringRep format ↔
      ∀ key, (c.hyperParameters key).map format = (c'.hyperParameters key).map format) ∧
    (c.pLasso.stringRep format = c'.pLasso.stringRep format ↔
      ∀ key, (c.pLasso.hyperParameters key).map format = (c'.pLasso.hyperParameters key).map format) := by
  have k1 : (∀ key, (c.hyperParameters key).map format = (c'.hyperParameters key).map format) ↔
      format c.pLasso.lamb = format c'.pLasso.lamb ∧ format c.eta = format c'.eta := by
    constructor
    · intro h
      have h1 := h "lamb"
      have h2 := h "eta"
      simp only [CLassoCohen.hyperParameters] at h1 h2
      simpa using And.intro h1 h2
    · rintro ⟨h1, h2⟩ key
      unfold CLassoCohen.hyperParameters
      split
      · simpa using h2
      · split
        · simpa using h1
        · rfl
  have k2 : (∀ key, (c.pLasso.hyperParameters key).map format = (c'.pLasso.hyperParameters key).map format) ↔
      format c.pLasso.lamb = format c'.pLasso.lamb := by
    constructor
    · intro h
      have h1 := h "lamb"
      simpa [PureCohen.hyperParameters] using h1
    · intro h1 key
      unfold PureCohen.hyperParameters
      split
      · simpa using h1
      · rfl
  rw [k1, k2]
  unfold CLassoCohen.stringRep PureCohen.stringRep
  constructor
  · constructor
    · intro h
      have h := congrArg String.toList h
      simp only [String.toList_append, List.append_assoc, List.append_cancel_left_eq] at h
      have e : " Eta: ".toList = ' ' :: ['E', 't', 'a', ':', ' '] := by decide
      rw [e] at h
      simp only [List.cons_append] at h
      obtain ⟨h1, h2⟩ := split_at_space (hf _) (hf _) h
      simp only [List.nil_append, List.cons.injEq, true_and] at h2
      exact ⟨String.ext h1, String.ext h2⟩
    · rintro ⟨h1, h2⟩
      rw [h1, h2]
  · constructor
    · intro h
      have h := congrArg String.toList h
      simp only [String.toList_append, List.append_cancel_left_eq] at h
      exact String.ext h
    · intro h
      rw [h]

end

/-- The two targets have the same data, covariance and limits. -/
def Spec.SameSetup {S : Type} (c c' : CLassoCohen S) : Prop :=
  c.pLasso.dset = c'.pLasso.dset ∧ c.pLasso.cov = c'.pLasso.cov ∧ c.pLasso.maxIter = c'.pLasso.maxIter ∧
    c.pLasso.tol = c'.pLasso.tol

/-- The correction is a covariance lasso. -/
def Spec.UsesCLasso (c : CLassoCohen (Nat → ℝ)) (n : Nat) (eta : ℝ) : Prop := c.pLasso.corr = some (cLasso n eta)

/-- C102: if the caller gives the correction the `eta` that is reported, targets that report the same hyper parameters
select the same features. -/
theorem C102_determined_partial (c c' : CLassoCohen (Nat → ℝ)) (n : Nat) (hs : SameSetup c c') (h1 : UsesCLasso c n c.eta)
    (h2 : UsesCLasso c' n c'.eta) (hh : c.hyperParameters = c'.hyperParameters) (m m' : CohenMemory (Nat → ℝ))
    (rows : List Nat) : (c.getSelection m rows).map Prod.fst = (c'.getSelection m' rows).map Prod.fst := by
  have e1 : c.eta = c'.eta := by
    have := congrFun hh "eta"
    simpa [CLassoCohen.hyperParameters] using this
  have e2 : c.pLasso.lamb = c'.pLasso.lamb := by
    have := congrFun hh "lamb"
    simpa [CLassoCohen.hyperParameters] using this
  obtain ⟨s1, s2, s3, s4⟩ := hs
  unfold CLassoCohen.getSelection PureCohen.getSelection
  rw [show c.pLasso.corr = _ from h1, show c'.pLasso.corr = _ from h2, s1, s2, s3, s4, e1, e2]
  cases c'.pLasso.dset with
  | none => rfl
  | some d =>
    cases c'.pLasso.cov with
    | none => rfl
    | some cov => exact C85_no_memory _ (cLasso_memoryless n c'.eta) m m' rows

/-- The claim in full: with covariance-lasso corrections, the reported hyper parameters determine the selections. -/
def Spec.HyperDetermines : Prop :=
  ∀ (c c' : CLassoCohen (Nat → ℝ)) (n : Nat) (eta eta' : ℝ), SameSetup c c' → UsesCLasso c n eta → UsesCLasso c' n eta' →
    c.hyperParameters = c'.hyperParameters → ∀ (m m' : CohenMemory (Nat → ℝ)) (rows : List Nat),
      (c.getSelection m rows).map Prod.fst = (c'.getSelection m' rows).map Prod.fst

namespace HyperExample

open CohenTargetExample

/-- The data of `CohenTargetExample.t`, two iterations, the covariance lasso with `eta`; the field `Eta` is left at 0. -/
noncomputable def c (eta : ℝ) : CLassoCohen (Nat → ℝ) :=
  ⟨⟨some (t.X, t.y), 1 / 10, some .identity, 2, 1 / 10, some (cLasso 2 eta)⟩, 0⟩

/-- The normalised first three rows. -/
theorem problem (eta : ℝ) (m : CohenMemory (Nat → ℝ)) : ∃ p : CDProblem ℝ (Nat → ℝ), p.nr = 3 ∧ p.nFeat = 2 ∧
    p.cov.get 1 1 = 1 ∧ p.XTy 1 = 2 ∧ p.lamb = 1 / 10 ∧ p.tol = 1 / 10 ∧ p.corr = cLasso 2 eta ∧
    ((c eta).getSelection m [0, 1, 2]).map Prod.fst = some ((List.range 2).filter (fun i =>
      decide (|(cdLoop p 2 (cdInit p m.corrState)).1.beta i| > lassoCrdDescZero))) := by
  have e : (c eta).getSelection m [0, 1, 2] = CohenTarget.getSelection
      ⟨t.X, t.y, 1 / 10, .identity, 2, 1 / 10, cLasso 2 eta⟩ m [0, 1, 2] := rfl
  rw [e, getSelection_fst, if_neg (by simp [t])]
  rcases newNormalizedData_inv (subRows t.X [0, 1, 2]) ([0, 1, 2].map (fun i => t.y.getD i 0)) with
    ⟨⟨c, hc, h0, hs⟩, -⟩ | ⟨d, h1, -⟩
  · exfalso
    have hc : c < 2 := hc
    obtain rfl : c = 1 := by omega
    rw [colOf_subRows, sampleCol, std1.2] at hs
    norm_num at hs
  · simp only
    rw [h1, Option.bind_some]
    obtain ⟨g1, g2, g3, g4⟩ := normalized_sample h1
    have hx : ∀ r < 3, d.X.get r 1 = col1 r := by
      intro r hr
      rw [g4 r hr]
      unfold normEntry
      rw [if_pos (by decide), sampleCol, std1.1, std1.2, if_neg (by norm_num)]
      rcases r with _ | _ | _ | r
      · simp [t, col1]
      · simp [t, col1]
      · simp [t, col1]
      · omega
    have hy : finValues d.y = some [1, 0, -1] := by
      rw [g3, sampleY]
      unfold normalizeArray
      rw [std1.1, std1.2]
      have : ([1, 0, -1] : List ℝ).map (fun v => Fl.divFin (v - 0) 1) = [1, 0, -1].map .fin := by
        simp [Fl.divFin]
      rw [this, finValues_fin]
    have hxy : xTy d.X (fun r => ([1, 0, -1] : List ℝ).getD r 0) 1 = 2 := by
      unfold xTy
      rw [g1]
      simp only [List.length_cons, List.length_nil, zero_add, Nat.reduceAdd, Finset.sum_range_succ, Finset.sum_range_zero]
      rw [hx 0 (by decide), hx 1 (by decide), hx 2 (by decide)]
      norm_num [col1]
    have g1' : d.X.nr = 3 := g1
    have g2' : d.X.nc = 2 := g2
    refine ⟨⟨3, 2, identityCov d.X, xTy d.X (fun r => ([1, 0, -1] : List ℝ).getD r 0), 1 / 10, 1 / 10, cLasso 2 eta⟩, rfl, rfl,
      by simp [identityCov, g2'], hxy, rfl, rfl, rfl, ?_⟩
    simp only [CovKind.get, Option.bind_some]
    rw [hy]
    simp only [g1', g2']
    unfold lassoCrdDesc
    rw [if_neg (by simp [identityCov, g2'])]
    rfl

/-- The coefficient of the second feature after two iterations. -/
theorem coefficient (eta : ℝ) (p : CDProblem ℝ (Nat → ℝ)) (h1 : p.nr = 3) (h2 : p.nFeat = 2) (h3 : p.cov.get 1 1 = 1)
    (h4 : p.XTy 1 = 2) (h5 : p.lamb = 1 / 10) (h6 : p.tol = 1 / 10) (h7 : p.corr = cLasso 2 eta) (s : Nat → ℝ) :
    (cdLoop p 2 (cdInit p s)).1.beta 0 = 0 ∧
      (cdLoop p 2 (cdInit p s)).1.beta 1 = softThreshold (2 / 3 - eta * (17 / 30)) (1 / 10) := by
  have hs1 : softThreshold ((2 : ℝ) / 3) (1 / 10) = 17 / 30 := by norm_num [softThreshold]
  have hi : cdIter p (cdInit p s) = (⟨Function.update (fun _ => 0) 1 (17 / 30), Function.update (fun _ => 0) 1 (17 / 30),
      fun i => p.cov.get i 1 * (17 / 30), [1], false, Function.update (fun _ => 0) 1 (17 / 30)⟩, false) := by
    have hcov : ∀ i, mulSlice p.cov (fun _ => 0) i = 0 := fun i => by simp [mulSlice]
    have hder : ∀ b : Nat → ℝ, (cLasso 2 eta).deriv b (fun _ => 0) 1 = 0 := fun b => by simp [cLasso]
    have hsw : cdSweep p (cdInit p s) = ⟨Function.update (fun _ => 0) 1 (17 / 30), fun _ => 0,
        fun i => p.cov.get i 1 * (17 / 30), [1], false, s⟩ := by
      simp only [cdSweep, cdInit, h2, Nat.reduceSub, List.range_succ, List.range_zero, List.nil_append, List.map_cons,
        List.map_nil, List.foldl_cons, List.foldl_nil, cdCoord, h1, h3, h4, h5, h7, hder, zero_add, hcov, updateCovDotBeta]
      norm_num [hs1]
      funext i
      simp [updateCovDotBeta, hcov]
    unfold cdIter
    simp only [hsw, h6, h7]
    norm_num [runMax, lassoCrdDescZero, cLasso, List.filter]
  have hder : (cLasso 2 eta).deriv (Function.update (fun _ => 0) 1 (17 / 30)) (Function.update (fun _ => 0) 1 (17 / 30)) 1 =
      eta * (17 / 30) := by
    simp only [cLasso, Finset.sum_range_succ, Finset.sum_range_zero]
    norm_num
  have hsw : (cdSweep p (cdIter p (cdInit p s)).1).beta =
      Function.update (Function.update (fun _ => 0) 1 (17 / 30)) 1 (softThreshold (2 / 3 - eta * (17 / 30)) (1 / 10)) := by
    rw [hi]
    simp only [cdSweep, List.foldl_cons, List.foldl_nil, cdCoord, h1, h3, h4, h5, h7, hder, Function.update_self]
    norm_num
  have hl : (cdLoop p 2 (cdInit p s)).1.beta = (cdSweep p (cdIter p (cdInit p s)).1).beta := by
    have : cdLoop p 2 (cdInit p s) = cdLoop p 1 (cdIter p (cdInit p s)).1 := by
      rw [cdLoop, hi]
    rw [this, cdLoop_one]
  rw [hl, hsw]
  simp

/-- Hypotheses of C102_determined_partial, for different targets: the first has been used before. -/
example : SameSetup ⟨(c 0).pLasso, 0⟩ ⟨(c 0).pLasso, 0⟩ ∧ UsesCLasso ⟨(c 0).pLasso, 0⟩ 2 0 ∧
    (c 0).hyperParameters = (⟨(c 0).pLasso, 0⟩ : CLassoCohen (Nat → ℝ)).hyperParameters := ⟨⟨rfl, rfl, rfl, rfl⟩, rfl, rfl⟩

/-- Hypotheses of C102_unset and C102_no_iterations: a new target, and one whose number of iterations is not set. -/
example (m : CohenMemory Unit) (rows : List Nat) :
    (newPureLassoCohen : PureCohen Unit).getSelection m rows = none ∧
    (⟨some (t.X, t.y), 1 / 10, none, 1000, 1 / 10, some pureLasso⟩ : PureCohen Unit).getSelection m rows = none ∧
    (⟨some (t.X, t.y), 1 / 10, some .empirical, 1000, 1 / 10, none⟩ : PureCohen Unit).getSelection m rows = none :=
  ⟨C102_unset _ m rows (.inl rfl), C102_unset _ m rows (.inr (.inl rfl)), C102_unset _ m rows (.inr (.inr ⟨rfl, by decide⟩))⟩

/-- Hypothesis of C102_string: a format without spaces. -/
example : ∀ x : ℝ, ' ' ∉ ((fun x : ℝ => if 0 < x then "1.000e+00" else "0.000e+00") x : String).toList := by
  intro x
  by_cases h : 0 < x <;> simp only [h, if_true, if_false] <;> decide

/-- Hypotheses of C102_set and C102_no_iterations: nothing but the data and the covariance is set; the first three rows
give no panic and an empty selection, although the second feature is the response. -/
example (m : CohenMemory Unit) : ∃ m',
    (⟨some (t.X, t.y), 1 / 10, some .empirical, 0, 0, none⟩ : PureCohen Unit).getSelection m [0, 1, 2] = some ([], m') := by
  have h := (C102_set (⟨some (t.X, t.y), 1 / 10, some .empirical, 0, 0, none⟩ : PureCohen Unit) t.X t.y rfl rfl
    (.inr le_rfl) rfl (by simp [t]) m [0, 1, 2] (by simp [t])).not.2 (by
      rintro (h | ⟨k, hk, h0, hs⟩)
      · cases h
      · have hk : k < 2 := hk
        obtain rfl : k = 1 := by omega
        rw [sampleCol, std1.2] at hs
        norm_num at hs)
  obtain ⟨⟨sel, m'⟩, hr⟩ := Option.ne_none_iff_exists'.1 h
  obtain rfl := C102_no_iterations _ le_rfl m m' _ sel hr
  exact ⟨m', hr⟩

end HyperExample

open HyperExample in
/-- C102: two covariance lassos that report the same hyper parameters select different features. -/
theorem C102_refuted : ¬ HyperDetermines := by
  intro hall
  have h := hall (c 0) (c (20 / 17)) 2 0 (20 / 17) ⟨rfl, rfl, rfl, rfl⟩ rfl rfl rfl ⟨[], fun _ => 0⟩ ⟨[], fun _ => 0⟩ [0, 1, 2]
  obtain ⟨p, a1, a2, a3, a4, a5, a6, a7, a8⟩ := problem 0 ⟨[], fun _ => 0⟩
  obtain ⟨q, b1, b2, b3, b4, b5, b6, b7, b8⟩ := problem (20 / 17) ⟨[], fun _ => 0⟩
  obtain ⟨-, a9⟩ := coefficient 0 p a1 a2 a3 a4 a5 a6 a7 (fun _ => 0)
  obtain ⟨-, b9⟩ := coefficient (20 / 17) q b1 b2 b3 b4 b5 b6 b7 (fun _ => 0)
  rw [a8, b8, Option.some.injEq] at h
  have hm : 1 ∈ (List.range 2).filter (fun i =>
      decide (|(cdLoop p 2 (cdInit p (fun _ => 0))).1.beta i| > lassoCrdDescZero)) := by
    rw [List.mem_filter, a9]
    exact ⟨by decide, by norm_num [softThreshold, lassoCrdDescZero]⟩
  have h' : 1 ∈ (List.range 2).filter (fun i =>
      decide (|(cdLoop q 2 (cdInit q (fun _ => 0))).1.beta i| > lassoCrdDescZero)) := h ▸ hm
  rw [List.mem_filter, b9] at h'
  norm_num [softThreshold, lassoCrdDescZero] at h'

end GoSelect
