import Verif.Model.CrdDescFl
import Verif.Model.Covariance
import Verif.Proofs.LassoNonFinite
import Verif.Proofs.CrdDesc
import Verif.Props.C55_C56

/-! Coordinate descent on data with missing values. -/

namespace GoSelect

open Finset Spec

/-! ### Operations on finite numbers -/

theorem Fl.lt_fin {a b : ℝ} : (Fl.fin a < Fl.fin b) ↔ a < b := by
  show decide (a < b) = true ↔ _
  rw [decide_eq_true_eq]

theorem Fl.abs_fin (a : ℝ) : Fl.abs (.fin a) = .fin |a| := by
  show Fl.fin (if a < 0 then -a else a) = _
  congr 1
  split
  · rw [abs_of_neg (by assumption)]
  · rw [abs_of_nonneg (by linarith)]

theorem Fl.sub_fin (a b : ℝ) : Fl.sub (.fin a) (.fin b) = .fin (a - b) := by
  show Fl.fin (a + -b) = _
  rw [sub_eq_add_neg]

theorem Fl.div_fin {a b : ℝ} (h : b ≠ 0) : Fl.div (.fin a) (.fin b) = .fin (a / b) := if_neg h

theorem Fl.nan_sub (x : Fl ℝ) : Fl.sub .nan x = .nan := by cases x <;> rfl

theorem Fl.sub_nan (x : Fl ℝ) : Fl.sub x .nan = .nan := by cases x <;> rfl

theorem Fl.nan_mul (x : Fl ℝ) : Fl.mul .nan x = .nan := by cases x <;> rfl

theorem Fl.div_nan (x : Fl ℝ) : Fl.div x .nan = .nan := by cases x <;> rfl

theorem Fl.nan_div (x : Fl ℝ) : Fl.div .nan x = .nan := by cases x <;> rfl

theorem Fl.nan_not_lt (x : Fl ℝ) : ¬ (Fl.nan < x) := by
  intro h
  have : Fl.ltB (.nan : Fl ℝ) x = true := h
  cases x <;> simp [Fl.ltB] at this

theorem Fl.lt_not_nan (x : Fl ℝ) : ¬ (x < Fl.nan) := by
  intro h
  have : Fl.ltB x (.nan : Fl ℝ) = true := h
  cases x <;> simp [Fl.ltB] at this

theorem soft_nan (t : Fl ℝ) : softThresholdFl .nan t = .fin 0 := by
  unfold softThresholdFl
  rw [if_neg (Fl.nan_not_lt _), if_neg (Fl.lt_not_nan _)]

theorem soft_fin (x t : ℝ) : softThresholdFl (.fin x) (.fin t) = .fin (softThreshold x t) := by
  unfold softThresholdFl softThreshold
  have h1 : Fl.neg (.fin t : Fl ℝ) = .fin (-t) := rfl
  rw [h1]
  by_cases h2 : x < -t
  · rw [if_pos h2, if_pos (Fl.lt_fin.2 h2)]; rfl
  · rw [if_neg h2, if_neg (fun h => h2 (Fl.lt_fin.1 h))]
    by_cases h3 : t < x
    · rw [if_pos h3, if_pos (Fl.lt_fin.2 h3), Fl.sub_fin]
    · rw [if_neg h3, if_neg (fun h => h3 (Fl.lt_fin.1 h))]

theorem nonzeroFl_fin (x : ℝ) : nonzeroFl (.fin x) = decide (|x| > lassoCrdDescZero) := by
  unfold nonzeroFl
  rw [Fl.abs_fin]
  exact decide_eq_decide.2 Fl.lt_fin

theorem nonzeroFl_nan : nonzeroFl .nan = false := decide_eq_false (Fl.lt_not_nan _)

theorem runMaxFl_fin (f : Nat → ℝ) (l : List Nat) : runMaxFl (fun j => .fin (f j)) l = .fin (runMax f l) := by
  unfold runMaxFl runMax
  generalize (0 : ℝ) = a
  induction l generalizing a with
  | nil => rfl
  | cons j l ih =>
    rw [List.foldl_cons, List.foldl_cons]
    by_cases h : a < f j
    · rw [if_pos (Fl.lt_fin.2 h), if_pos h]; exact ih _
    · rw [if_neg (fun h' => h (Fl.lt_fin.1 h')), if_neg h]; exact ih _

/-! ### Finite problems, and features that are NaN everywhere -/

/-- The state with finite numbers. -/
def liftState (st : CDState ℝ Unit) : CDState (Fl ℝ) Unit where
  beta := fun j => .fin (st.beta j)
  betaOld := fun j => .fin (st.betaOld j)
  covDotBeta := fun j => .fin (st.covDotBeta j)
  iterIndices := st.iterIndices
  converged := st.converged
  corrState := ()

/-- `q` is the problem `p`, except that the features in `N` have an inner product NaN with the response.  They are
uncorrelated with the others, and have an inner product 0 in `p`. -/
structure Lifted (N : Nat → Prop) (p : CDProblem ℝ Unit) (q : CDProblem (Fl ℝ) Unit) : Prop where
  nr : q.nr = p.nr
  rows : 0 < p.nr
  nFeat : q.nFeat = p.nFeat
  covnc : q.cov.nc = p.cov.nc
  cov : ∀ i j, q.cov.get i j = .fin (p.cov.get i j)
  diag : ∀ j, 1 ≤ j → j < p.nFeat → p.cov.get j j ≠ 0
  lamb : q.lamb = .fin p.lamb
  nonneg : 0 ≤ p.lamb
  tol : q.tol = .fin p.tol
  corr : p.corr = pureLasso
  corrq : q.corr = pureLassoFl
  known : ∀ j < p.nFeat, ¬ N j → q.XTy j = .fin (p.XTy j)
  missing : ∀ j, N j → q.XTy j = .nan ∧ p.XTy j = 0 ∧ ∀ i, i ≠ j → p.cov.get j i = 0

/-- Features in `N` have coefficient 0. -/
structure Resting (N : Nat → Prop) (st : CDState ℝ Unit) : Prop where
  beta : ∀ j, N j → st.beta j = 0
  old : ∀ j, N j → st.betaOld j = 0
  dot : ∀ j, N j → st.covDotBeta j = 0

theorem lifted_coord {N : Nat → Prop} {p : CDProblem ℝ Unit} {q : CDProblem (Fl ℝ) Unit} (h : Lifted N p q)
    (st : CDState ℝ Unit) (hi : Resting N st) (j : Nat) (h1 : 1 ≤ j) (hj : j < p.nFeat) :
    cdCoordFl q (liftState st) j = liftState (cdCoord p st j) ∧ Resting N (cdCoord p st j) := by
  classical
  have hd := h.diag j h1 hj
  have hnr : (p.nr : ℝ) ≠ 0 := by exact_mod_cast h.rows.ne'
  -- the new coefficient
  have hzero : N j → softThreshold (p.XTy j / p.nr - (st.covDotBeta j - st.betaOld j * p.cov.get j j) - 0) p.lamb = 0 := by
    intro hN
    rw [(h.missing j hN).2.1, hi.dot j hN, hi.old j hN]
    have := h.nonneg
    unfold softThreshold
    simp only [zero_div, zero_mul, sub_zero]
    rw [if_neg (by linarith), if_neg (by linarith)]
  have hnew : Fl.div (softThresholdFl (Fl.sub (Fl.sub (Fl.div (q.XTy j) (.fin q.nr))
      (Fl.sub ((liftState st).covDotBeta j) (Fl.mul ((liftState st).betaOld j) (q.cov.get j j))))
      (q.corr.deriv (liftState st).corrState (liftState st).betaOld j)) q.lamb) (q.cov.get j j) =
      .fin (softThreshold (p.XTy j / p.nr - (st.covDotBeta j - st.betaOld j * p.cov.get j j) - 0) p.lamb /
        p.cov.get j j) := by
    rw [h.cov, h.lamb, h.nr, h.corrq]
    simp only [liftState, pureLassoFl]
    by_cases hN : N j
    · rw [(h.missing j hN).1, Fl.nan_div, Fl.nan_sub, Fl.nan_sub, soft_nan, Fl.div_fin hd, hzero hN]
    · rw [h.known j hj hN, Fl.div_fin hnr]
      have : Fl.mul (Fl.fin (st.betaOld j)) (Fl.fin (p.cov.get j j)) = .fin (st.betaOld j * p.cov.get j j) := rfl
      rw [this, Fl.sub_fin, Fl.sub_fin, Fl.sub_fin, soft_fin, Fl.div_fin hd]
  have hcorr : p.corr.deriv st.corrState st.betaOld j = 0 := by rw [h.corr]; rfl
  constructor
  · unfold cdCoordFl cdCoord
    simp only [hnew, hcorr]
    unfold liftState
    congr 1
    · funext i
      by_cases hij : i = j
      · subst hij; simp
      · simp only
        rw [Function.update_of_ne hij, Function.update_of_ne hij]
    · funext i
      unfold updateCovDotBetaFl updateCovDotBeta
      rw [h.cov, Fl.sub_fin]
      rfl
  · refine ⟨fun i hN => ?_, fun i hN => hi.old i hN, fun i hN => ?_⟩
    · unfold cdCoord
      simp only [hcorr]
      by_cases hij : i = j
      · subst hij; rw [Function.update_self, hzero hN, zero_div]
      · rw [Function.update_of_ne hij]; exact hi.beta i hN
    · unfold cdCoord updateCovDotBeta
      simp only [hcorr]
      rw [hi.dot i hN]
      by_cases hij : i = j
      · subst hij; rw [hzero hN, hi.old i hN, zero_div, sub_zero, mul_zero, add_zero]
      · rw [(h.missing i hN).2.2 j (Ne.symm hij), zero_mul, add_zero]

theorem lifted_sweep {N : Nat → Prop} {p : CDProblem ℝ Unit} {q : CDProblem (Fl ℝ) Unit} (h : Lifted N p q) (l : List Nat)
    (hl : ∀ j ∈ l, 1 ≤ j ∧ j < p.nFeat) (st : CDState ℝ Unit) (hi : Resting N st) :
    l.foldl (cdCoordFl q) (liftState st) = liftState (l.foldl (cdCoord p) st) ∧ Resting N (l.foldl (cdCoord p) st) := by
  induction l generalizing st with
  | nil => exact ⟨rfl, hi⟩
  | cons j l ih =>
    obtain ⟨h1, h2⟩ := lifted_coord h st hi j (hl j (List.mem_cons_self ..)).1 (hl j (List.mem_cons_self ..)).2
    rw [List.foldl_cons, List.foldl_cons, h1]
    exact ih (fun i hm => hl i (List.mem_cons_of_mem _ hm)) _ h2

theorem lifted_iter {N : Nat → Prop} {p : CDProblem ℝ Unit} {q : CDProblem (Fl ℝ) Unit} (h : Lifted N p q)
    (st : CDState ℝ Unit) (hl : ∀ j ∈ st.iterIndices, 1 ≤ j ∧ j < p.nFeat) (hi : Resting N st) :
    cdIterFl q (liftState st) = (liftState (cdIter p st).1, (cdIter p st).2) ∧ Resting N (cdIter p st).1 := by
  obtain ⟨h1, h2⟩ := lifted_sweep h st.iterIndices hl st hi
  have hs : cdSweepFl q (liftState st) = liftState (cdSweep p st) := h1
  have hi2 : Resting N (cdSweep p st) := h2
  set st2 := cdSweep p st with hst2
  -- convergence
  have hc : decide (Fl.div (runMaxFl (fun j => Fl.abs (Fl.sub ((liftState st2).beta j) ((liftState st2).betaOld j)))
      st2.iterIndices) (runMaxFl (fun j => Fl.abs ((liftState st2).beta j)) st2.iterIndices) < q.tol) =
      (decide (runMax (fun j => |st2.beta j|) st2.iterIndices ≠ 0) &&
        decide (runMax (fun j => |st2.beta j - st2.betaOld j|) st2.iterIndices /
          runMax (fun j => |st2.beta j|) st2.iterIndices < p.tol)) := by
    simp only [liftState, Fl.sub_fin, Fl.abs_fin, runMaxFl_fin, h.tol]
    have ha := (le_runMax (fun j => |st2.beta j - st2.betaOld j|) st2.iterIndices).1
    set a := runMax (fun j => |st2.beta j - st2.betaOld j|) st2.iterIndices
    set b := runMax (fun j => |st2.beta j|) st2.iterIndices
    by_cases hb : b = 0
    · rw [hb]
      have : Fl.div (.fin a) (.fin (0 : ℝ)) = .nan ∨ Fl.div (.fin a) (.fin (0 : ℝ)) = .posInf := by
        show Fl.divFin a 0 = _ ∨ Fl.divFin a 0 = _
        unfold Fl.divFin
        rw [if_pos rfl]
        by_cases ha0 : a = 0
        · left; rw [if_pos ha0]
        · right; rw [if_neg ha0, if_pos (lt_of_le_of_ne ha (Ne.symm ha0))]
      have hf : ¬ Fl.div (.fin a) (.fin (0 : ℝ)) < Fl.fin p.tol := by
        rcases this with e | e <;> rw [e]
        · exact Fl.nan_not_lt _
        · intro hc
          exact absurd (show Fl.ltB (.posInf : Fl ℝ) (.fin p.tol) = true from hc) (by simp [Fl.ltB])
      rw [decide_eq_false hf]
      simp
    · rw [Fl.div_fin hb]
      simp only [ne_eq, hb, not_false_eq_true, decide_true, Bool.true_and]
      exact decide_eq_decide.2 Fl.lt_fin
  have hact : st2.iterIndices.filter (fun j => nonzeroFl ((liftState st2).beta j)) =
      st2.iterIndices.filter (fun j => decide (|st2.beta j| > lassoCrdDescZero)) := by
    congr 1
    funext j
    exact nonzeroFl_fin _
  have hkkt : unsatisfiedKKTFl q.nFeat q.XTy (liftState st2).covDotBeta (liftState st2).beta q.lamb q.corr () =
      unsatisfiedKKT p.nFeat p.XTy st2.covDotBeta st2.beta p.lamb p.corr () := by
    unfold unsatisfiedKKTFl unsatisfiedKKT
    rw [h.nFeat]
    refine List.filter_congr fun i hir => ?_
    congr 1
    rw [h.corrq, h.corr, h.lamb]
    simp only [liftState, nonzeroFl_fin, pureLasso, pureLassoFl]
    by_cases hN : N i
    · have : |st2.beta i| > lassoCrdDescZero ↔ False := by
        rw [hi2.beta i hN, abs_zero]
        simp [lassoCrdDescZero]
      simp only [this, decide_false, Bool.and_false]
    · congr 1
      rw [h.known i (List.mem_range.1 hir) hN]
      have : Fl.mul (Fl.fin (st2.covDotBeta i)) (Fl.fin (p.nFeat : ℝ)) = .fin (st2.covDotBeta i * p.nFeat) := rfl
      have e : Fl.abs (Fl.sub (Fl.sub (Fl.fin (p.XTy i)) (Fl.mul (Fl.fin (st2.covDotBeta i)) (Fl.fin (p.nFeat : ℝ))))
          (Fl.fin 0)) = .fin |p.XTy i - st2.covDotBeta i * p.nFeat - 0| := by
        rw [this, Fl.sub_fin, Fl.sub_fin, Fl.abs_fin]
      refine decide_eq_decide.2 (Iff.trans (Eq.to_iff ?_) Fl.lt_fin)
      exact congrArg (· < Fl.fin p.lamb) e
  constructor
  · unfold cdIterFl cdIter
    simp only [hs, ← hst2]
    have hii : (liftState st2).iterIndices = st2.iterIndices := rfl
    rw [hii, hc, hact, hkkt]
    split
    · split <;> rfl
    · rfl
  · obtain ⟨e1, e2, e3, -⟩ := cdIter_shape p st
    exact ⟨fun j hN => by rw [e1]; exact hi2.beta j hN, fun j hN => by rw [e2]; exact hi2.beta j hN,
      fun j hN => by rw [e3]; exact hi2.dot j hN⟩

/-- The indices stay in range. -/
theorem cdIter_range {S : Type} (p : CDProblem ℝ S) (st : CDState ℝ S) (hl : ∀ j ∈ st.iterIndices, 1 ≤ j ∧ j < p.nFeat) :
    ∀ j ∈ (cdIter p st).1.iterIndices, 1 ≤ j ∧ j < p.nFeat := by
  obtain ⟨-, -, -, h4⟩ := cdIter_shape p st
  have hit : (cdSweep p st).iterIndices = st.iterIndices := (foldl_cdCoord_const p st.iterIndices st).2.1
  intro j hj
  rcases h4 with h4 | h4 <;> rw [h4, hit] at hj
  · exact hl j (List.mem_filter.1 hj).1
  · have : ∀ (l2 l1 : List Nat), j ∈ unionNat l1 l2 → j ∈ l1 ∨ j ∈ l2 := by
      intro l2
      unfold unionNat
      induction l2 with
      | nil => intro l1 h; exact Or.inl h
      | cons a l ih =>
        intro l1 h
        rw [List.foldl_cons] at h
        rcases ih _ h with h1 | h1
        · split at h1
          · exact Or.inl h1
          · rcases List.mem_append.1 h1 with h2 | h2
            · exact Or.inl h2
            · exact Or.inr (by rw [List.mem_singleton.1 h2]; exact List.mem_cons_self ..)
        · exact Or.inr (List.mem_cons_of_mem _ h1)
    rcases this _ _ hj with h5 | h5
    · exact hl j (List.mem_filter.1 h5).1
    · unfold unsatisfiedKKT at h5
      rw [List.mem_filter, Bool.and_eq_true, decide_eq_true_eq] at h5
      exact ⟨h5.2.1, List.mem_range.1 h5.1⟩

theorem lifted_loop {N : Nat → Prop} {p : CDProblem ℝ Unit} {q : CDProblem (Fl ℝ) Unit} (h : Lifted N p q) (n : Nat)
    (st : CDState ℝ Unit) (hl : ∀ j ∈ st.iterIndices, 1 ≤ j ∧ j < p.nFeat) (hi : Resting N st) :
    cdLoopFl q n (liftState st) = (liftState (cdLoop p n st).1, (cdLoop p n st).2) := by
  induction n generalizing st with
  | zero => rfl
  | succ n ih =>
    obtain ⟨h1, h2⟩ := lifted_iter h st hl hi
    have h3 := cdIter_range p st hl
    rw [cdLoopFl, cdLoop, h1]
    rcases he : cdIter p st with ⟨st', b⟩
    rw [he] at h2 h3
    cases b
    · exact ih st' h3 h2
    · rfl

/-- The model with IEEE values is the exact model, up to features without correlations. -/
theorem lifted_result {N : Nat → Prop} {p : CDProblem ℝ Unit} {q : CDProblem (Fl ℝ) Unit} (h : Lifted N p q) (n : Nat) :
    cdLoopFl q n (cdInitFl q ()) = (liftState (cdLoop p n (cdInit p ())).1, (cdLoop p n (cdInit p ())).2) := by
  have h0 : cdInitFl q () = liftState (cdInit p ()) := by
    unfold cdInitFl cdInit liftState
    rw [h.nFeat]
    congr 1
    funext i
    unfold mulSliceFl mulSlice
    have h1 : (List.range q.cov.nc).map (fun j => Fl.mul (q.cov.get i j) (.fin (0 : ℝ))) =
        ((List.range q.cov.nc).map (fun _ => (0 : ℝ))).map Fl.fin := by
      rw [List.map_map]
      refine List.map_congr_left fun j _ => ?_
      rw [h.cov]
      show Fl.fin (p.cov.get i j * 0) = .fin 0
      rw [mul_zero]
    rw [h1, Fl.sum_fin]
    simp
  rw [h0]
  refine lifted_loop h n _ ?_ ⟨fun _ _ => rfl, fun _ _ => rfl, fun j _ => ?_⟩
  · intro j hj
    obtain ⟨k, hk, rfl⟩ := List.mem_map.1 hj
    have := List.mem_range.1 hk
    constructor <;> omega
  · simp [cdInit, mulSlice]

/-! ### Features that are NaN and correlated with the others -/

/-- Either zero or NaN. -/
def Fl.Void (x : Fl ℝ) : Prop := x = .fin 0 ∨ x = .nan

/-- No coefficient counts, and for every feature of the sweep the inner product with the response or with the
coefficients is NaN. -/
structure Lost {S : Type} (p : CDProblem (Fl ℝ) S) (st : CDState (Fl ℝ) S) : Prop where
  beta : ∀ j, (st.beta j).Void
  old : ∀ j, (st.betaOld j).Void
  nan : ∀ j ∈ st.iterIndices, p.XTy j = .nan ∨ st.covDotBeta j = .nan

theorem void_div (x : Fl ℝ) : (Fl.div (.fin 0) x).Void := by
  cases x with
  | fin b =>
    by_cases hb : b = 0
    · subst hb
      right
      show Fl.divFin (0 : ℝ) 0 = .nan
      simp [Fl.divFin]
    · left; rw [Fl.div_fin hb, zero_div]
  | posInf => exact Or.inl rfl
  | negInf => exact Or.inl rfl
  | nan => exact Or.inr rfl

theorem void_abs {x : Fl ℝ} (h : x.Void) : (Fl.abs x).Void := by
  rcases h with rfl | rfl
  · left; rw [Fl.abs_fin, abs_zero]
  · right; rfl

theorem void_sub {x z : Fl ℝ} (h : x.Void) (h' : z.Void) : (Fl.sub x z).Void := by
  rcases h with rfl | rfl
  · rcases h' with rfl | rfl
    · left; rw [Fl.sub_fin, sub_zero]
    · right; rfl
  · right; exact Fl.nan_sub _

theorem void_nonzero {x : Fl ℝ} (h : x.Void) : nonzeroFl x = false := by
  rcases h with rfl | rfl
  · rw [nonzeroFl_fin, abs_zero]
    simp [lassoCrdDescZero]
  · exact nonzeroFl_nan

theorem void_runMax (f : Nat → Fl ℝ) (hf : ∀ j, (f j).Void) (l : List Nat) : runMaxFl f l = .fin 0 := by
  unfold runMaxFl
  induction l with
  | nil => rfl
  | cons j l ih =>
    rw [List.foldl_cons, if_neg]
    · exact ih
    · rcases hf j with h | h <;> rw [h]
      · exact fun hc => lt_irrefl _ (Fl.lt_fin.1 hc)
      · exact Fl.lt_not_nan _

theorem lost_coord {S : Type} {p : CDProblem (Fl ℝ) S} {st : CDState (Fl ℝ) S} (h : Lost p st) (j : Nat)
    (hj : j ∈ st.iterIndices) : Lost p (cdCoordFl p st j) ∧ (cdCoordFl p st j).iterIndices = st.iterIndices := by
  have harg : Fl.sub (Fl.sub (Fl.div (p.XTy j) (.fin p.nr)) (Fl.sub (st.covDotBeta j)
      (Fl.mul (st.betaOld j) (p.cov.get j j)))) (p.corr.deriv st.corrState st.betaOld j) = .nan := by
    rcases h.nan j hj with e | e <;> rw [e]
    · rw [Fl.nan_div, Fl.nan_sub, Fl.nan_sub]
    · rw [Fl.nan_sub, Fl.sub_nan, Fl.nan_sub]
  refine ⟨⟨fun i => ?_, h.old, fun i hi => ?_⟩, rfl⟩
  · unfold cdCoordFl
    simp only [harg, soft_nan]
    by_cases hij : i = j
    · subst hij; rw [Function.update_self]; exact void_div _
    · rw [Function.update_of_ne hij]; exact h.beta i
  · rcases h.nan i hi with e | e
    · exact Or.inl e
    · right
      unfold cdCoordFl updateCovDotBetaFl
      simp only [e]
      exact Fl.nan_add _

theorem lost_sweep {S : Type} {p : CDProblem (Fl ℝ) S} (l : List Nat) {st : CDState (Fl ℝ) S} (h : Lost p st)
    (hl : ∀ j ∈ l, j ∈ st.iterIndices) : Lost p (l.foldl (cdCoordFl p) st) := by
  induction l generalizing st with
  | nil => exact h
  | cons j l ih =>
    obtain ⟨h1, h2⟩ := lost_coord h j (hl j (List.mem_cons_self ..))
    exact ih h1 (fun i hi => by rw [h2]; exact hl i (List.mem_cons_of_mem _ hi))

theorem lost_iter {S : Type} {p : CDProblem (Fl ℝ) S} {st : CDState (Fl ℝ) S} (h : Lost p st) :
    Lost p (cdIterFl p st).1 ∧ (cdIterFl p st).2 = false ∧ (cdIterFl p st).1.converged = false := by
  have h1 : Lost p (cdSweepFl p st) := lost_sweep st.iterIndices h (fun _ hj => hj)
  have hc : decide (Fl.div (runMaxFl (fun j => Fl.abs (Fl.sub ((cdSweepFl p st).beta j) ((cdSweepFl p st).betaOld j)))
      (cdSweepFl p st).iterIndices) (runMaxFl (fun j => Fl.abs ((cdSweepFl p st).beta j)) (cdSweepFl p st).iterIndices) <
      p.tol) = false := by
    rw [void_runMax _ (fun j => void_abs (void_sub (h1.beta j) (h1.old j))), void_runMax _ (fun j => void_abs (h1.beta j))]
    have : Fl.div (.fin (0 : ℝ)) (.fin (0 : ℝ)) = .nan := by
      show Fl.divFin (0 : ℝ) 0 = .nan
      simp [Fl.divFin]
    rw [this]
    exact decide_eq_false (Fl.nan_not_lt _)
  unfold cdIterFl
  simp only [hc]
  refine ⟨⟨h1.beta, h1.beta, fun j hj => h1.nan j (List.mem_filter.1 hj).1⟩, rfl, rfl⟩

theorem lost_loop {S : Type} {p : CDProblem (Fl ℝ) S} (n : Nat) {st : CDState (Fl ℝ) S} (h : Lost p st)
    (hc : st.converged = false) :
    (∀ j, ((cdLoopFl p n st).1.beta j).Void) ∧ (cdLoopFl p n st).1.converged = false := by
  induction n generalizing st with
  | zero => exact ⟨h.beta, hc⟩
  | succ n ih =>
    obtain ⟨h1, h2, h3⟩ := lost_iter h
    rw [cdLoopFl]
    rcases he : cdIterFl p st with ⟨st', b⟩
    rw [he] at h1 h2 h3
    simp only at h2
    subst h2
    exact ih h1 h3

/-- Then nothing is selected and the warning is printed. -/
theorem lost_result {S : Type} {p : CDProblem (Fl ℝ) S} (s : S) (n m : Nat)
    (h : ∀ j, 1 ≤ j → j < p.nFeat → p.XTy j = .nan ∨ ∃ k < p.cov.nc, p.cov.get j k = .nan) :
    selectionFl m (lassoCrdDescFl p s n).1 = [] ∧ (lassoCrdDescFl p s n).2 = true := by
  have h0 : Lost p (cdInitFl p s) := by
    refine ⟨fun _ => Or.inl rfl, fun _ => Or.inl rfl, fun j hj => ?_⟩
    obtain ⟨k, hk, rfl⟩ := List.mem_map.1 hj
    have hk' := List.mem_range.1 hk
    rcases h (k + 1) (by omega) (by omega) with e | ⟨c, hc, e⟩
    · exact Or.inl e
    · right
      refine Fl.sum_nan (List.mem_map.2 ⟨c, List.mem_range.2 hc, ?_⟩)
      rw [e]
      exact Fl.nan_mul _
  obtain ⟨h1, h2⟩ := lost_loop n h0 rfl
  constructor
  · unfold selectionFl lassoCrdDescFl
    rw [List.filter_eq_nil_iff]
    intro j _
    rw [void_nonzero (h1 j)]
    decide
  · unfold lassoCrdDescFl
    simp only [h2]
    rfl

end GoSelect
