import Verif.Model.LassoCommandFl
import Verif.Proofs.LogspaceFl
import Verif.Proofs.MapM
import Verif.Props.C57
import Verif.Props.C146
import Mathlib.Data.List.TakeWhile

/-!
# C147: regularisation grids in floating point
-/

namespace GoSelect

open Spec Real

/-- A positive number. -/
def Spec.PosNumber (v : Fl ℝ) : Prop := ∃ x, 0 < x ∧ v = .fin x

/-- Value `i` of a geometric grid of `num` values from `min` to `max`. -/
noncomputable def Spec.gridPoint (min max : ℝ) (num i : Nat) : ℝ :=
  min ^ (1 - (i : ℝ) / ((num : ℝ) - 1)) * max ^ ((i : ℝ) / ((num : ℝ) - 1))

theorem gridPoint_exp {min max : ℝ} (hmin : 0 < min) (hmax : 0 < max) (num i : Nat) :
    gridPoint min max num i = Real.exp (Real.log min + (Real.log max - Real.log min) * (i / ((num : ℝ) - 1))) := by
  unfold gridPoint
  rw [Real.rpow_def_of_pos hmin, Real.rpow_def_of_pos hmax, ← Real.exp_add]
  congr 1
  ring

/-- The grid has `num` numbers, each within the relative error `30 A (u + e + num t)` of the exact value. -/
theorem C147_accurate {rnd logf expf : ℝ → ℝ} {u e t A min max : ℝ} (h : LogspaceAccurate rnd logf expf u e t) (hu : 0 ≤ u)
    (he : 0 ≤ e) (ht : 0 ≤ t) (hA : 1 ≤ A) (hA' : A ≤ 699) (hmin : 0 < min) (hmax : 0 < max) (hlm : |Real.log min| ≤ A)
    (hlM : |Real.log max| ≤ A) (num : Nat) (hn : 2 ≤ num) (hn' : num ≤ 2 ^ 53)
    (hsmall : 13 * (A * (u + e + num * t)) ≤ 1) :
    ∃ v : Nat → ℝ, logspaceFl rnd logf expf (.fin min) (.fin max) num = some ((List.range num).map (fun i => .fin (v i))) ∧
      ∀ i < num, |v i - gridPoint min max num i| ≤ 30 * (A * (u + e + num * t)) * gridPoint min max num i := by
  obtain ⟨v, h1, -, h3⟩ := logspace_fl h hu he ht hA hA' hmin hmax hlm hlM num hn hn' hsmall
  refine ⟨v, h1, fun i hi => ?_⟩
  rw [gridPoint_exp hmin hmax]
  exact h3 i hi

/-- With monotone arithmetic the grid never decreases for `min ≤ max`. -/
theorem C147_ordered {rnd logf expf : ℝ → ℝ} {u e t A min max : ℝ} (h : LogspaceAccurate rnd logf expf u e t) (hu : 0 ≤ u)
    (he : 0 ≤ e) (ht : 0 ≤ t) (hA : 1 ≤ A) (hA' : A ≤ 699) (hmin : 0 < min) (hle : min ≤ max) (hlm : |Real.log min| ≤ A)
    (hlM : |Real.log max| ≤ A) (num : Nat) (hn : 2 ≤ num) (hn' : num ≤ 2 ^ 53)
    (hsmall : 13 * (A * (u + e + num * t)) ≤ 1) (hrnd : Monotone rnd) (hlog : MonotoneOn logf (Set.Ioi 0))
    (hexp : Monotone expf) :
    ∃ v : Nat → ℝ, logspaceFl rnd logf expf (.fin min) (.fin max) num = some ((List.range num).map (fun i => .fin (v i))) ∧
      ∀ i j, i ≤ j → v i ≤ v j := by
  have hmax : 0 < max := hmin.trans_le hle
  obtain ⟨v, h1, h2, -⟩ := logspace_fl h hu he ht hA hA' hmin hmax hlm hlM num hn hn' hsmall
  refine ⟨v, h1, fun i j hij => ?_⟩
  have h0 : rnd 0 = 0 := by simpa using h.exact 0 (by positivity)
  have hn2 : (2 : ℝ) ≤ num := by exact_mod_cast hn
  have hD : 0 ≤ rnd (logf max - logf min) := by
    rw [← h0]; exact hrnd (sub_nonneg.2 (hlog hmin hmax hle))
  have hstep : 0 ≤ rnd (rnd (logf max - logf min) / (num - 1)) := by
    rw [← h0]; exact hrnd (div_nonneg hD (by linarith))
  have hc : (i : ℝ) ≤ j := by exact_mod_cast hij
  rw [h2, h2]
  refine hexp (hrnd ?_)
  have := hrnd (mul_le_mul_of_nonneg_left hc hstep)
  linarith

/-! ### Ends that are not positive numbers -/

theorem exp_nan (expf : ℝ → ℝ) : expFl expf .nan = .nan := rfl

theorem round_nan (rnd : ℝ → ℝ) : roundFl rnd .nan = .nan := rfl

theorem nan_add (x : Fl ℝ) : Fl.add .nan x = .nan := by cases x <;> rfl

theorem log_cases (logf : ℝ → ℝ) (v : Fl ℝ) :
    (PosNumber v ∧ ∃ x, logFl logf v = .fin x) ∨ (¬ PosNumber v ∧ (logFl logf v = .nan ∨ logFl logf v = .negInf ∨ logFl logf v = .posInf)) := by
  cases v with
  | fin x =>
    rcases lt_trichotomy x 0 with h | h | h
    · right
      refine ⟨?_, Or.inl ?_⟩
      · rintro ⟨y, h1, h2⟩
        cases h2
        linarith
      · simp [logFl, h]
    · right
      refine ⟨?_, Or.inr (Or.inl ?_)⟩
      · rintro ⟨y, h1, h2⟩
        cases h2
        linarith
      · simp [logFl, h]
    · left
      exact ⟨⟨x, h, rfl⟩, logf x, by simp only [logFl]; rw [if_neg (by linarith), if_neg (by linarith)]⟩
  | posInf => exact Or.inr ⟨(by rintro ⟨y, -, h⟩; cases h), Or.inr (Or.inr rfl)⟩
  | negInf => exact Or.inr ⟨(by rintro ⟨y, -, h⟩; cases h), Or.inl rfl⟩
  | nan => exact Or.inr ⟨(by rintro ⟨y, -, h⟩; cases h), Or.inl rfl⟩

/-- As soon as an end is not a positive number the first value of the grid is NaN. -/
theorem C147_nan_first {rnd logf expf : ℝ → ℝ} (hexact : ∀ n : Nat, n ≤ 2 ^ 53 → rnd n = n) (min max : Fl ℝ) (num : Nat)
    (hn : 2 ≤ num) (hn' : num ≤ 2 ^ 53) (hbad : ¬ (PosNumber min ∧ PosNumber max)) :
    ∃ l, logspaceFl rnd logf expf min max num = some (.nan :: l) ∧ l.length = num - 1 := by
  have h0 : rnd ((0 : Nat) : ℝ) = 0 := by simpa using hexact 0 (by positivity)
  have hrn : rnd (((num : Int) - 1 : Int) : ℝ) = ((num - 1 : Nat) : ℝ) := by
    rw [← hexact (num - 1) (by omega)]
    congr 1
    rw [Nat.cast_sub (by omega)]
    push_cast
    ring
  have hpos : (0 : ℝ) < ((num - 1 : Nat) : ℝ) := by
    have : 0 < num - 1 := by omega
    exact_mod_cast this
  unfold logspaceFl
  rw [if_neg (by omega), if_neg (by omega), if_neg (by omega)]
  simp only [Int.toNat_natCast]
  obtain ⟨k, rfl⟩ : ∃ k, num = k + 1 := ⟨num - 1, by omega⟩
  rw [List.range_succ_eq_map, List.map_cons, List.map_map, hrn, h0]
  refine ⟨_, congrArg some (congrArg₂ _ ?_ rfl), by simp⟩
  have hinf : ∀ c : ℝ, Fl.infOf (K := ℝ) (c * 0) = .nan := by intro c; simp [Fl.infOf]
  have i1 : Fl.infOf (0 : ℝ) = .nan := by simp [Fl.infOf]
  have i2 : Fl.infOf (-0 : ℝ) = .nan := by simp [Fl.infOf]
  have hneg : ¬ (((k + 1 - 1 : Nat) : ℝ) < 0) := by linarith
  generalize ((k + 1 - 1 : Nat) : ℝ) = c at *
  have key : ∀ D : Fl ℝ, (D = .nan ∨ D = .posInf ∨ D = .negInf) →
      Fl.mul (roundFl rnd (Fl.div (roundFl rnd D) (.fin c))) (.fin 0) = .nan := by
    rintro D (rfl | rfl | rfl)
    · rfl
    · simp [roundFl, Fl.div, hneg, Fl.mul, i1]
    · simp [roundFl, Fl.div, hneg, Fl.mul, i1]
  have hD : (Fl.sub (logFl logf max) (logFl logf min) = .nan ∨ Fl.sub (logFl logf max) (logFl logf min) = .posInf ∨
      Fl.sub (logFl logf max) (logFl logf min) = .negInf) := by
    rcases log_cases logf min with ⟨h1, x, h2⟩ | ⟨h1, h2⟩ <;> rcases log_cases logf max with ⟨h3, y, h4⟩ | ⟨h3, h4⟩
    · exact absurd ⟨h1, h3⟩ hbad
    · rcases h4 with h4 | h4 | h4 <;> rw [h2, h4] <;> simp [Fl.sub, Fl.neg, Fl.add]
    · rcases h2 with h2 | h2 | h2 <;> rw [h2, h4] <;> simp [Fl.sub, Fl.neg, Fl.add]
    · rcases h2 with h2 | h2 | h2 <;> rcases h4 with h4 | h4 | h4 <;> rw [h2, h4] <;> simp [Fl.sub, Fl.neg, Fl.add]
  rw [key _ hD, round_nan, add_nan, round_nan, exp_nan]

/-- With `min` 0 or negative every value is NaN. -/
theorem C147_nan_all {rnd logf expf : ℝ → ℝ} (hexact : ∀ n : Nat, n ≤ 2 ^ 53 → rnd n = n) (min max : ℝ) (num : Nat)
    (hn : 2 ≤ num) (hn' : num ≤ 2 ^ 53) (hmin : min ≤ 0) :
    logspaceFl rnd logf expf (.fin min) (.fin max) num = some (List.replicate num .nan) := by
  have h0 : rnd ((0 : Nat) : ℝ) = 0 := by simpa using hexact 0 (by positivity)
  have hrn : rnd (((num : Int) - 1 : Int) : ℝ) = ((num - 1 : Nat) : ℝ) := by
    rw [← hexact (num - 1) (by omega)]
    congr 1
    rw [Nat.cast_sub (by omega)]
    push_cast
    ring
  have hpos : (0 : ℝ) < ((num - 1 : Nat) : ℝ) := by
    have : 0 < num - 1 := by omega
    exact_mod_cast this
  unfold logspaceFl
  rw [if_neg (by omega), if_neg (by omega), if_neg (by omega)]
  simp only [Int.toNat_natCast, Option.some.injEq]
  rw [List.eq_replicate_iff]
  refine ⟨by simp, fun v hv => ?_⟩
  obtain ⟨i, hi, rfl⟩ := List.mem_map.1 hv
  have hi' := List.mem_range.1 hi
  rw [hexact i (by omega), hrn]
  have hneg : ¬ (((num - 1 : Nat) : ℝ) < 0) := by linarith
  generalize ((num - 1 : Nat) : ℝ) = c at *
  rcases lt_or_eq_of_le hmin with h | rfl
  · have e1 : logFl logf (.fin min) = .nan := by simp [logFl, h]
    rw [e1, nan_add]
    rfl
  · have e1 : logFl logf (.fin 0) = .negInf := by simp [logFl]
    rw [e1]
    have hi0 : (0 : ℝ) ≤ i := Nat.cast_nonneg i
    have hm : ∀ D : Fl ℝ, (D = .nan ∨ D = .posInf) →
        Fl.add .negInf (roundFl rnd (Fl.mul (roundFl rnd (Fl.div (roundFl rnd D) (.fin c))) (.fin i))) = .nan := by
      rintro D (rfl | rfl)
      · rfl
      · simp only [roundFl, Fl.div, if_neg hneg, Fl.mul, Fl.infOf]
        rcases hi0.eq_or_lt with h | h
        · rw [← h]
          simp [Fl.add]
        · rw [if_pos h]
          simp [Fl.add]
    rw [hm]
    · rfl
    · rcases log_cases logf (.fin max) with ⟨-, y, h4⟩ | ⟨-, h4⟩
      · rw [h4]; simp [Fl.sub, Fl.neg, Fl.add]
      · rcases h4 with h4 | h4 | h4 <;> rw [h4] <;> simp [Fl.sub, Fl.neg, Fl.add]

/-! ### The command -/

theorem softThreshold_nan (x : Fl ℝ) : softThresholdFl x .nan = .fin 0 := by
  unfold softThresholdFl
  have h1 : ¬ x < Fl.neg .nan := by cases x <;> simp [Fl.neg, LT.lt, Fl.ltB]
  have h2 : ¬ x > .nan := by cases x <;> simp [GT.gt, LT.lt, Fl.ltB]
  rw [if_neg h1, if_neg h2]

theorem zero_div_small (d : Fl ℝ) : nonzeroFl (Fl.div (.fin 0) d) = false := by
  have hz : (0 : ℝ) ≤ lassoCrdDescZero := by unfold lassoCrdDescZero; positivity
  have h0 : nonzeroFl (.fin 0) = false := by
    simp only [nonzeroFl, Fl.abs, lt_irrefl, if_false]
    exact decide_eq_false (fun h => absurd (fl_lt_fin.1 h) (not_lt.2 hz))
  have hn : nonzeroFl .nan = false := by
    simp only [nonzeroFl, Fl.abs]
    exact decide_eq_false (fun h => by simp [GT.gt, LT.lt, Fl.ltB] at h)
  cases d with
  | fin b =>
    by_cases hb : b = 0
    · subst hb
      simp only [Fl.div, Fl.divFin, if_true, lt_irrefl, if_false]
      exact hn
    · rw [div_fin hb, zero_div]; exact h0
  | posInf => exact h0
  | negInf => exact h0
  | nan => exact hn

/-- Without a number as regularisation the coordinate descent finds no feature, whatever the data. -/
theorem crd_nan {S : Type} (p : CDProblem (Fl ℝ) S) (hp : p.lamb = .nan) (s : S) (maxIter : Nat) (j : Nat) :
    nonzeroFl ((lassoCrdDescFl p s maxIter).1 j) = false := by
  have hz := zero_div_small (.fin 1)
  have h0 : nonzeroFl (.fin 0) = false := by
    rw [div_fin one_ne_zero, zero_div] at hz; exact hz
  have hcoord : ∀ st : CDState (Fl ℝ) S, (∀ j, nonzeroFl (st.beta j) = false) → ∀ c,
      ∀ j, nonzeroFl ((cdCoordFl p st c).beta j) = false := by
    intro st h c j
    unfold cdCoordFl
    simp only [hp, softThreshold_nan]
    by_cases hj : j = c
    · subst hj
      rw [Function.update_self]
      exact zero_div_small _
    · rw [Function.update_of_ne hj]
      exact h j
  have hsweep : ∀ (l : List Nat) (st : CDState (Fl ℝ) S), (∀ j, nonzeroFl (st.beta j) = false) →
      ∀ j, nonzeroFl ((l.foldl (cdCoordFl p) st).beta j) = false := by
    intro l
    induction l with
    | nil => exact fun st h => h
    | cons c l ih => exact fun st h => ih _ (hcoord st h c)
  have hiter : ∀ st : CDState (Fl ℝ) S, (∀ j, nonzeroFl (st.beta j) = false) →
      ∀ j, nonzeroFl ((cdIterFl p st).1.beta j) = false := by
    intro st h j
    have := hsweep st.iterIndices st h j
    unfold cdIterFl
    dsimp only
    split
    · split <;> exact this
    · exact this
  have hloop : ∀ (n : Nat) (st : CDState (Fl ℝ) S), (∀ j, nonzeroFl (st.beta j) = false) →
      ∀ j, nonzeroFl ((cdLoopFl p n st).1.beta j) = false := by
    intro n
    induction n with
    | zero => exact fun st h => h
    | succ n ih =>
      intro st h
      have h1 := hiter st h
      unfold cdLoopFl
      split
      · rename_i st' he
        rw [he] at h1; exact h1
      · rename_i st' he
        rw [he] at h1; exact ih _ h1
  exact hloop maxIter _ (fun _ => h0) j

theorem crdNode_nan (nFeat : Nat) {S : Type} (p : CDProblem (Fl ℝ) S) (hp : p.lamb = .nan) (s : S) (maxIter : Nat) :
    crdNodeFl nFeat (lassoCrdDescFl p s maxIter).1 .nan = ⟨[], .nan, []⟩ := by
  have : selectionFl nFeat (lassoCrdDescFl p s maxIter).1 = [] := by
    unfold selectionFl
    rw [List.filter_eq_nil_iff]
    intro j _
    rw [crd_nan p hp]
    simp
  unfold crdNodeFl
  simp only [this, List.map_nil]

/-- The path contains a node with the regularisation NaN and no features when the first value of the grid is NaN. -/
theorem path_nan {X : Mat (Fl ℝ)} {cov : Mat (Fl ℝ)} {xty : Nat → Fl ℝ} {tol : Fl ℝ} {l : List (Fl ℝ)}
    {maxIter : Nat} {raw : List (LassoLarsNode (Fl ℝ))}
    (h : CrdPathReturnsFl (fun lamb => ⟨X.nr, X.nc, cov, xty, lamb, tol, pureLassoFl⟩) X.nc (.nan :: l) maxIter raw) :
    ⟨[], .nan, []⟩ ∈ raw := by
  obtain ⟨s, h1, h2, h3⟩ := h
  obtain ⟨sol, h4, h5, h6⟩ := C57_result s h1 h2
  rw [h3, Option.some.injEq] at h6
  have h7 := (List.map_injective_iff.2 (fun a b hab => Option.some.inj hab)) h6
  have hlen : sol.length = l.length + 1 := h4
  have hlast : sol[l.length]? = some ⟨[], .nan, []⟩ := by
    rw [List.getElem?_eq_getElem (by omega)]
    obtain ⟨x0, lamb, he, hn⟩ := h5 l.length _ (List.getElem?_eq_getElem (by omega))
    rw [show (Fl.nan :: l).length - 1 - l.length = 0 by simp, List.getElem?_cons_zero, Option.some.injEq] at he
    subst he
    rw [hn, crdNode_nan]
    rfl
  have hmem : (⟨[], .nan, []⟩ : LassoLarsNode (Fl ℝ)) ∈ sol := List.mem_of_getElem? hlast
  rw [h7]
  split
  · exact hmem
  · rename_i hex
    push Not at hex
    obtain ⟨x, hx, hxne⟩ := hex
    obtain ⟨i, hi, hxi⟩ := List.mem_iff_getElem.1 hx
    have hne : i ≠ l.length := by
      rintro rfl
      rw [List.getElem?_eq_getElem hi, hxi, Option.some.injEq] at hlast
      rw [hlast] at hxne
      exact hxne rfl
    have hsplit : sol = sol.take l.length ++ [⟨[], .nan, []⟩] := by
      have h8 := List.take_append_drop l.length sol
      rw [List.drop_eq_getElem_cons (by omega), List.drop_of_length_le (by omega)] at h8
      rw [List.getElem?_eq_getElem (by omega), Option.some.injEq] at hlast
      rw [hlast] at h8
      exact h8.symm
    have hx' : x ∈ sol.take l.length := by
      rw [List.mem_iff_getElem]
      exact ⟨i, by rw [List.length_take]; omega, by rw [List.getElem_take]; exact hxi⟩
    rw [hsplit, List.dropWhile_append]
    split
    · rename_i hemp
      exfalso
      have := List.dropWhile_eq_nil_iff.1 (List.isEmpty_iff.1 hemp) x hx'
      exact hxne (List.isEmpty_iff.1 this)
    · exact List.mem_append_right _ (List.mem_singleton.2 rfl)

/-- With an end of the grid that is not a positive number `goselect lasso --type cd` writes no file, whatever the data. -/
theorem C147_no_file {rnd logf expf : ℝ → ℝ} (hexact : ∀ n : Nat, n ≤ 2 ^ 53 → rnd n = n)
    (dot : Nat → (Nat → Fl ℝ) → (Nat → Fl ℝ) → Fl ℝ) (unnorm : LassoLarsNode (Fl ℝ) → Option (LassoLarsNode (Fl ℝ)))
    (hunnorm : ∀ n n', unnorm n = some n' → n'.lamb = n.lamb) (lambMin lambMax tol : Fl ℝ) (num : Nat) (hn : 2 ≤ num)
    (hn' : num ≤ 2 ^ 53) (hbad : ¬ (PosNumber lambMin ∧ PosNumber lambMax)) (X cov : Mat (Fl ℝ)) (y : Nat → Fl ℝ)
    (nodes : List (LassoLarsNode (Fl ℝ))) (accepted : Bool)
    (h : LassoCdFl rnd logf expf dot unnorm lambMin lambMax num tol X cov y nodes accepted) : accepted = false := by
  obtain ⟨lambs, raw, h1, h2, h3, h4⟩ := h
  obtain ⟨l, h5, -⟩ := C147_nan_first (logf := logf) (expf := expf) hexact lambMin lambMax num hn hn' hbad
  rw [h1, Option.some.injEq] at h5
  subst h5
  have hmem := path_nan h2
  have h6 := List.mem_map_of_mem (f := unnorm) hmem
  rw [mapM_some_iff.1 h3] at h6
  obtain ⟨n', hn1, hn2⟩ := List.mem_map.1 h6
  rw [h4, List.all_eq_false]
  refine ⟨n', hn1, ?_⟩
  unfold nodeJsonFl
  rw [hunnorm _ _ hn2.symm]
  simp [Fl.isFin]

/-- A path is returned. -/
theorem crdPathFl_exists (problem : Fl ℝ → CDProblem (Fl ℝ) Unit) (nFeat : Nat) (hp : ∀ l, (problem l).nFeat = nFeat)
    (lambs : List (Fl ℝ)) (maxIter : Nat) : ∃ path, CrdPathReturnsFl problem nFeat lambs maxIter path := by
  obtain ⟨s, h1, h2⟩ : ∃ s, PathReach lambs.length nFeat (crdSolveFl problem lambs maxIter) s ∧
      PathDone lambs.length nFeat s := by
    by_contra hno
    push Not at hno
    have hsolve : PathSolve nFeat (crdSolveFl problem lambs maxIter) := by
      rintro k x0 node ⟨lamb, -, rfl⟩
      refine ⟨by simp [crdNodeFl], List.Nodup.filter _ List.nodup_range, fun f hf => ?_⟩
      have := (List.mem_filter.1 hf).1
      rw [hp, List.mem_range] at this
      exact this
    have hstep : ∀ s, PathReach lambs.length nFeat (crdSolveFl problem lambs maxIter) s →
        ∃ s', PathStep lambs.length nFeat (crdSolveFl problem lambs maxIter) s s' := fun s hs =>
      C57_no_deadlock hsolve (fun k x0 hk => ⟨_, lambs[k], List.getElem?_eq_getElem hk, rfl⟩) s hs (hno s hs)
    choose g hg using hstep
    let run : Nat → {s // PathReach lambs.length nFeat (crdSolveFl problem lambs maxIter) s} := fun k =>
      Nat.rec ⟨poolInit (pathInit lambs.length), .init⟩ (fun _ s => ⟨g s.1 s.2, .step s.2 (hg s.1 s.2)⟩) k
    exact C57_terminates (fun k => (run k).1) rfl (fun k => hg (run k).1 (run k).2)
  obtain ⟨sol, -, -, h6⟩ := C57_result s h1 h2
  exact ⟨_, s, h1, h2, h6⟩

/-! ### binary64 with correctly rounded functions -/

theorem exp_ge {x : ℝ} (h : |x| ≤ 700) : (2 : ℝ) ^ (-1022 : Int) ≤ Real.exp x := by
  have h1 : Real.exp (-700) ≤ Real.exp x := Real.exp_le_exp.2 (abs_le.1 h).1
  refine le_trans ?_ h1
  rw [Real.exp_neg]
  have h2 := exp700
  have h3 : (2 : ℝ) ^ (-1022 : Int) = (2 ^ (1022 : Nat))⁻¹ := by
    rw [zpow_neg]
    congr 1
  rw [h3]
  refine inv_anti₀ (Real.exp_pos _) (h2.trans ?_)
  exact pow_le_pow_right₀ (by norm_num) (by norm_num)

theorem logspace64 : LogspaceAccurate rnd64 (fun x => rnd64 (Real.log x)) (fun x => rnd64 (Real.exp x)) (1 / 2 ^ 53)
    (1 / 2 ^ 53) (1 / 2 ^ 110) where
  rel := fun x => by
    have h1 := rnd64_rel x
    have h2 : (2 : ℝ) ^ (-1075 : Int) ≤ 2 ^ (-110 : Int) := zpow_le_zpow_right₀ (by norm_num) (by norm_num)
    have h3 : (2 : ℝ) ^ (-110 : Int) = 1 / 2 ^ 110 := by
      rw [zpow_neg, one_div]
      congr 1
    rw [h3] at h2
    clear h3
    generalize (2 : ℝ) ^ (-1075 : Int) = a at *
    have h4 : |x| / 2 ^ 53 = 1 / 2 ^ 53 * |x| := by ring
    rw [h4] at h1
    exact h1.trans (by linarith)
  exact := fun _ h => rnd64_nat h
  log := fun x _ => rnd64_max _
  exp := fun x hx => by
    have h1 := rnd64_std (x := Real.exp x) (by rw [abs_of_pos (Real.exp_pos x)]; exact exp_ge hx)
    rw [abs_of_pos (Real.exp_pos x)] at h1
    rw [one_div, inv_mul_eq_div]
    exact h1

theorem log_bound {x : ℝ} (h1 : 1 / 10 ^ 300 ≤ x) (h2 : x ≤ 10 ^ 300) : |Real.log x| ≤ 694 := by
  have hx : 0 < x := lt_of_lt_of_le (by positivity) h1
  have hlog : Real.log (10 ^ 300) ≤ 694 := by
    have a1 : (10 : ℝ) ^ 300 ≤ 2 ^ 1000 := by
      rw [show (300 : Nat) = 3 * 100 by norm_num, show (1000 : Nat) = 10 * 100 by norm_num, pow_mul, pow_mul]
      gcongr
      norm_num
    have a2 := Real.log_le_log (by positivity) a1
    rw [Real.log_pow 2 1000] at a2
    have a3 := Real.log_two_lt_d9
    refine a2.trans ?_
    push_cast
    linarith
  rw [abs_le]
  constructor
  · have a1 := Real.log_le_log (by positivity) h1
    rw [one_div, Real.log_inv] at a1
    linarith
  · exact (Real.log_le_log hx h2).trans hlog

/-- In binary64 with correctly rounded functions all values between `1e-300` and `1e300` have a relative error below `1e-11`, and they
never decrease for `min ≤ max`. -/
theorem C147_binary64 (min max : ℝ) (hmin : 1 / 10 ^ 300 ≤ min) (hle : min ≤ max) (hmax : max ≤ 10 ^ 300) (num : Nat) (hn : 2 ≤ num)
    (hn' : num ≤ 2 ^ 53) :
    ∃ v : Nat → ℝ, logspaceFl rnd64 (fun x => rnd64 (Real.log x)) (fun x => rnd64 (Real.exp x)) (.fin min) (.fin max) num =
        some ((List.range num).map (fun i => .fin (v i))) ∧
      (∀ i < num, |v i - gridPoint min max num i| ≤ 1 / 10 ^ 11 * gridPoint min max num i) ∧ ∀ i j, i ≤ j → j < num → v i ≤ v j := by
  have h0 : 0 < min := lt_of_lt_of_le (by positivity) hmin
  have hM := log_bound (hmin.trans hle) hmax
  have hm := log_bound hmin (hle.trans hmax)
  have hnum : (num : ℝ) * (1 / 2 ^ 110) ≤ 1 / 2 ^ 57 := by
    have : (num : ℝ) ≤ 2 ^ 53 := by exact_mod_cast hn'
    calc (num : ℝ) * (1 / 2 ^ 110) ≤ 2 ^ 53 * (1 / 2 ^ 110) := by gcongr
      _ = 1 / 2 ^ 57 := by norm_num
  have hsmall : 13 * (694 * (1 / 2 ^ 53 + 1 / 2 ^ 53 + (num : ℝ) * (1 / 2 ^ 110))) ≤ 1 := by
    norm_num at hnum ⊢
    linarith
  obtain ⟨v, h1, h2⟩ := C147_accurate logspace64 (by positivity) (by positivity) (by positivity) (A := 694) (by norm_num) (by norm_num)
    h0 (h0.trans_le hle) hm hM num hn hn' hsmall
  obtain ⟨w, h3, h4⟩ := C147_ordered logspace64 (by positivity) (by positivity) (by positivity) (A := 694) (by norm_num) (by norm_num)
    h0 hle hm hM num hn hn' hsmall rnd64_mono (fun x hx y _ h => rnd64_mono (Real.log_le_log hx h))
    (fun x y h => rnd64_mono (Real.exp_le_exp.2 h))
  have hvw : ∀ i < num, v i = w i := by
    intro i hi
    rw [h1, Option.some.injEq] at h3
    have h5 := congrArg (fun l => l[i]?) h3
    simp only [List.getElem?_map, List.getElem?_range hi, Option.map_some, Option.some.injEq, Fl.fin.injEq] at h5
    exact h5
  refine ⟨v, h1, fun i hi => (h2 i hi).trans ?_, fun i j hij hj => ?_⟩
  · refine mul_le_mul_of_nonneg_right ?_ ?_
    · norm_num at hnum ⊢
      linarith
    · rw [gridPoint_exp h0 (h0.trans_le hle)]
      exact (Real.exp_pos _).le
  · rw [hvw i (by omega), hvw j hj]
    exact h4 i j hij

/-- The default flags of the command: 50 values from `1e-10` to 1. -/
example : (1 : ℝ) / 10 ^ 300 ≤ 1 / 10 ^ 10 ∧ (1 : ℝ) / 10 ^ 10 ≤ 1 ∧ (1 : ℝ) ≤ 10 ^ 300 ∧ 2 ≤ 50 ∧ 50 ≤ 2 ^ 53 := by
  refine ⟨one_div_le_one_div_of_le (by positivity) (pow_le_pow_right₀ (by norm_num) (by norm_num)), by norm_num,
    one_le_pow₀ (by norm_num), by norm_num, by norm_num⟩

/-- `goselect lasso --type cd --lmin 0 --lmax 1 --num 50` on a data set with two columns runs to the end and writes no file. -/
example : ∃ nodes accepted, LassoCdFl rnd64 (fun x => rnd64 (Real.log x)) (fun x => rnd64 (Real.exp x)) (fun _ _ _ => .fin 1) some
    (.fin 0) (.fin 1) (50 : Nat) (.fin (1 / 10 ^ 4)) ⟨3, 2, fun r c => .fin (r * c)⟩ (identityCovFl ⟨3, 2, fun _ _ => .fin 0⟩)
    (fun r => .fin r) nodes accepted ∧ accepted = false := by
  obtain ⟨l, h1, -⟩ := C147_nan_first (rnd := rnd64) (logf := fun x => rnd64 (Real.log x)) (expf := fun x => rnd64 (Real.exp x))
    (fun _ h => rnd64_nat h) (.fin 0) (.fin 1) 50 (by norm_num) (by norm_num) (by
      rintro ⟨⟨x, h1, h2⟩, -⟩
      cases h2
      exact lt_irrefl _ h1)
  obtain ⟨raw, h2⟩ := crdPathFl_exists (fun lamb => ⟨3, 2, identityCovFl ⟨3, 2, fun _ _ => .fin 0⟩,
    xTyFl (fun _ _ _ => .fin 1) ⟨3, 2, fun r c => .fin (r * c)⟩ (fun r => .fin r), lamb, .fin (1 / 10 ^ 4), pureLassoFl⟩) 2
    (fun _ => rfl) (.nan :: l) 100000
  have h : LassoCdFl rnd64 (fun x => rnd64 (Real.log x)) (fun x => rnd64 (Real.exp x)) (fun _ _ _ => .fin 1) some
    (.fin 0) (.fin 1) (50 : Nat) (.fin (1 / 10 ^ 4)) ⟨3, 2, fun r c => .fin (r * c)⟩ (identityCovFl ⟨3, 2, fun _ _ => .fin 0⟩)
    (fun r => .fin r) raw (raw.all nodeJsonFl) := ⟨_, raw, h1, h2, by rw [mapM_some_iff], rfl⟩
  refine ⟨raw, _, h, ?_⟩
  refine C147_no_file (fun _ h => rnd64_nat h) _ some (fun n n' h => by cases h; rfl) _ _ _ 50 (by norm_num) (by norm_num) ?_ _ _ _ _ _ h
  rintro ⟨⟨x, h1, h2⟩, -⟩
  cases h2
  exact lt_irrefl _ h1

end GoSelect
