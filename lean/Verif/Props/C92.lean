import Verif.Model.BnbSearch
import Verif.Proofs.SaWalk
import Verif.Props.C12_regression
import Verif.Props.C17_C19
import Verif.Props.C27_C29
import Verif.Props.C31_C32
import Verif.Props.C93

/-! C92: the branch-and-bound command as a whole. -/

namespace GoSelect

open Spec

/-! ### Theorems for all data sets -/

/-- The root model that the command passes on is the model found by simulated annealing. -/
theorem bnb_root {svd : Mat ℝ → SVD ℝ} {dset : Dataset ℝ} {r : SaRes} (hd : SaData (bnbFirst svd dset))
    (hr : SaReturns (bnbFirst svd dset) r) :
    ∃ root, selected2Model (r.selected.map Int.ofNat) dset.X.nc = some root ∧ root.length = dset.X.nc ∧
      features root = r.selected ∧ 0 < card root := by
  obtain ⟨m, h1, h2, -, h4, -⟩ := C28_matching _ hd r hr
  have h1' : m.length = dset.X.nc := h1
  refine ⟨m, ?_, h1', h2.symm, ?_⟩
  · have := C31_inverse m r.selected (by rw [selectedFeatures_eq, h2])
    rw [h1'] at this
    exact this
  · rw [card, ← h2]; exact List.length_pos_of_ne_nil h4

/-- For all data sets with at least three columns and whatever simulated annealing returns, the search that follows can
end, and without a torn read. -/
theorem C92_can_end (svd : Mat ℝ → SVD ℝ) (dset : Dataset ℝ) (cutoff : ℝ) (maxQueue : Int) (r : SaRes)
    (hd : SaData (bnbFirst svd dset)) (hr : SaReturns (bnbFirst svd dset) r) (hcols : 3 ≤ dset.X.nc) :
    ∃ s, BnbSearches svd dset cutoff maxQueue r s ∧ s.torn = false := by
  obtain ⟨root, h1, h2, -, -⟩ := bnb_root hd hr
  have hinit : ∃ s₀, sinit (regressionSearch svd dset.X dset.Y root maxQueue cutoff) (newHighscore 10) = some s₀ := by
    unfold sinit
    have e1 : ¬ (regressionSearch svd dset.X dset.Y root maxQueue cutoff).ncols < 3 := by
      show ¬ dset.X.nc < 3
      omega
    have e2 : ¬ (regressionSearch svd dset.X dset.Y root maxQueue cutoff).root.length ≠
        (regressionSearch svd dset.X dset.Y root maxQueue cutoff).ncols := not_not.2 h2
    rw [if_neg e1, if_neg e2]
    exact ⟨_, rfl⟩
  obtain ⟨s₀, hs₀⟩ := hinit
  obtain ⟨s, h3, h4, h5⟩ := C93_can_end _ 10 (by norm_num) [] _ s₀ rfl hs₀
  exact ⟨s, ⟨hr, root, h1, h3, h4⟩, h5⟩

/-- For all data sets, random numbers and schedules: the model that simulated annealing found is not in the list that
the command saves. -/
theorem C92_initial_omitted (svd : Mat ℝ → SVD ℝ) (dset : Dataset ℝ) (cutoff : ℝ) (maxQueue : Int) (r : SaRes)
    (s : SState ℝ) (hd : SaData (bnbFirst svd dset)) (h : BnbSearches svd dset cutoff maxQueue r s) :
    ∀ n ∈ s.hs.items, features n.model ≠ r.selected := by
  obtain ⟨hr, root, h1, h2, -⟩ := h
  obtain ⟨root', e1, e2, e3, -⟩ := bnb_root hd hr
  rw [h1, Option.some.injEq] at e1
  subst e1
  intro n hn he
  obtain ⟨hl, hne, -⟩ := (C13_each_model_once _ 10 (by norm_num) s h2).2 n hn
  have hl' : n.model.length = dset.X.nc := hl
  exact hne (features_inj (hl'.trans e2.symm) (he.trans e3.symm))

/-- Full claim: when the command ends, no model with at least one feature and fewer features than rows is better than
the best saved one.  Proved for every model except the one that simulated annealing found, for data that fit without
numerical trouble, when the queue is large enough (the default size is for 24 columns) and no read was torn. -/
theorem C92_optimal_partial (svd : Mat ℝ → SVD ℝ) (dset : Dataset ℝ) (cutoff : ℝ) (maxQueue : Int) (r : SaRes)
    (s : SState ℝ) (hd : SaData (bnbFirst svd dset)) (hdata : GoodData svd dset.X dset.Y) (hsize : dset.X.nc < dset.X.nr)
    (h : BnbSearches svd dset cutoff maxQueue r s) (ht : s.torn = false)
    (hq : (2 : Int) ^ (dset.X.nc - 1) ≤ maxQueue) (m : List Bool)
    (hlen : m.length = dset.X.nc) (hpos : 0 < card m) (hrows : card m < dset.X.nr) (hne : features m ≠ r.selected) :
    ∃ c r', fit (svd (designOf dset.X m)) (designOf dset.X m) dset.Y = some c ∧
      rss (designOf dset.X m) c dset.Y = some r' ∧ IsLeastSquares (designOf dset.X m) (vec c) (vec dset.Y) ∧
      -aicc (card m) dset.X.nr r' ≤ s.hs.bestScore := by
  obtain ⟨hr, root, h1, h2, h3⟩ := h
  obtain ⟨root', e1, e2, e3, -⟩ := bnb_root hd hr
  rw [h1, Option.some.injEq] at e1
  subst e1
  exact C12_regression svd dset.X dset.Y hdata root (Or.inr hsize) maxQueue cutoff 10 (by norm_num) [] s h2 h3 ht
    (C93_no_eviction _ 10 (by norm_num) [] s h2 hq) m hlen
    hpos hrows (fun e => hne (by rw [e, e3]))

/-- If simulated annealing found a model that is better than all others, then everything that the command saves is
worse. -/
theorem C92_best_lost (svd : Mat ℝ → SVD ℝ) (dset : Dataset ℝ) (cutoff : ℝ) (maxQueue : Int) (r : SaRes)
    (s : SState ℝ) (hd : SaData (bnbFirst svd dset)) (h : BnbSearches svd dset cutoff maxQueue r s) (best : ℝ)
    (hb : best < maxFloat64)
    (hbest : ∀ m c r', m.length = dset.X.nc → 0 < card m → card m < dset.X.nr → features m ≠ r.selected →
      fit (svd (designOf dset.X m)) (designOf dset.X m) dset.Y = some c → rss (designOf dset.X m) c dset.Y = some r' →
      best < aicc (card m) dset.X.nr r') :
    ∀ n ∈ s.hs.items, n.score < -best := by
  have homit := C92_initial_omitted svd dset cutoff maxQueue r s hd h
  obtain ⟨hr, root, h1, h2, -⟩ := h
  intro n hn
  have hi := SInv.reach (by norm_num : (10 : Int) ≠ 1) h2
  have hist := hi.hist
  rw [List.nil_append] at hist
  have hn' := mem_ranking.1 ((insertAll_inv hist).2.sub.subset hn)
  obtain ⟨a, b⟩ := hi.logOk n hn'
  obtain ⟨c1, c2, c3, c4⟩ := madeScored_spec a b
  have c1' : n.model.length = dset.X.nc := c1
  rcases Nat.eq_zero_or_pos (card n.model) with hz | hz
  · rw [c4 hz]
    show -maxFloat64 < -best
    linarith
  · rw [(c3 hz).1]
    have hrows : dset.Y.length = dset.X.nr := hd.rows
    obtain ⟨c, f1, f2, f3⟩ := fitModel_eq_some (svd := svd) hrows hz c1'.le
    have := hbest n.model c _ c1' hz c2 (homit n hn) f2 (rss_eq_some f3 hrows)
    have e : (regressionSearch svd dset.X dset.Y root maxQueue cutoff).aicc (card n.model)
        (regressionSearch svd dset.X dset.Y root maxQueue cutoff).nrows
        ((regressionSearch svd dset.X dset.Y root maxQueue cutoff).rss n.model) =
        aicc (card n.model) dset.X.nr (sse (designOf dset.X n.model) (vec c) (vec dset.Y)) := by
      simp [regressionSearch, regressionProblem, f1]
    rw [e]
    linarith

/-! ### A data set on which the best model is lost -/

namespace BnbExample

/-- The response: the first feature and a row that no feature explains. -/
noncomputable def Y : List ℝ := [1, 0, 0, 1 / 100] ++ List.replicate 36 0

/-- The first three unit vectors of length 40. -/
noncomputable def data : Dataset ℝ := ⟨unitX 40 3, Y, [], 3⟩

/-- The first search of the command. -/
noncomputable def P : SaInput := bnbFirst orthSvd data

/-- The RSS of a model. -/
noncomputable def rssOf (m : List Bool) : ℝ := (if HasFeature m 0 then 0 else 1) + 1 / 10000

theorem sum_eq {m : List Bool} (hm : m.length = 3) :
    (∑ i ∈ Finset.range 40, if HasFeature m i then 0 else vec Y i ^ 2) = rssOf m := by
  have h4 : ∀ i, 3 ≤ i → ¬ HasFeature m i := by
    intro i hi h
    have : m[i]? = none := List.getElem?_eq_none (by omega)
    rw [HasFeature, this] at h
    cases h
  have h0 : ∀ i, 4 ≤ i → vec Y i = 0 := by
    intro i hi
    unfold vec Y
    rw [List.getD_eq_getElem?_getD, List.getElem?_append_right (by simpa using hi), List.getElem?_replicate]
    split <;> rfl
  have e : Finset.range 40 = Finset.range 4 ∪ (Finset.range 40 \ Finset.range 4) := by
    rw [Finset.union_sdiff_of_subset]; exact Finset.range_subset_range.2 (by norm_num)
  rw [e, Finset.sum_union Finset.disjoint_sdiff]
  have hz : (∑ i ∈ Finset.range 40 \ Finset.range 4, if HasFeature m i then 0 else vec Y i ^ 2) = 0 := by
    refine Finset.sum_eq_zero fun i hi => ?_
    have : 4 ≤ i := by
      rw [Finset.mem_sdiff, Finset.mem_range, Finset.mem_range] at hi; omega
    rw [h0 i this]; simp
  rw [hz, add_zero]
  have v0 : vec Y 0 = 1 := rfl
  have v1 : vec Y 1 = 0 := rfl
  have v2 : vec Y 2 = 0 := rfl
  have v3 : vec Y 3 = 1 / 100 := rfl
  simp only [Finset.sum_range_succ, Finset.sum_range_zero, v0, v1, v2, v3, h4 3 le_rfl, if_false, rssOf]
  norm_num

theorem rows : data.Y.length = data.X.nr := by
  show Y.length = 40
  simp [Y]

theorem bounds (m : List Bool) : 1 / 10000 ≤ rssOf m ∧ rssOf m ≤ 1 + 1 / 10000 := by
  unfold rssOf
  constructor <;> split_ifs <;> norm_num

/-- The RSS of the fit of a model. -/
theorem rss_fit {m : List Bool} (hm : m.length = 3) (hpos : 0 < card m) {c : List ℝ} {r : ℝ}
    (h1 : fit (orthSvd (designOf data.X m)) (designOf data.X m) data.Y = some c)
    (h2 : rss (designOf data.X m) c data.Y = some r) : r = rssOf m := by
  obtain ⟨c', f1, f2, f3⟩ := unitX_fitModel (K := ℝ) (n := 40) (k := 3) (by norm_num) (y := Y) (by simp [Y]) hm hpos
  obtain ⟨c'', g1, g2, g3⟩ := fitModel_eq_some (svd := orthSvd) (X := data.X) rows hpos (m := m)
    (show m.length ≤ 3 by omega)
  have e1 : c = c'' := Option.some.inj (h1.symm.trans g2)
  rw [e1, rss_eq_some (X := designOf data.X m) g3 rows, Option.some.injEq] at h2
  have f1' : fitModel orthSvd data.X data.Y m = _ := f1
  rw [g1, Option.some.injEq, Prod.mk.injEq] at f1'
  rw [← h2, f1'.2, sum_eq hm]

theorem cost_fit {m : List Bool} (hm : m.length = 3) (hpos : 0 < card m) {c : List ℝ} {σ : ℝ} (h : IsFit P m c σ) :
    σ = aicc (card m) 40 (rssOf m) := by
  obtain ⟨r, h1, h2, h3⟩ := h
  rw [h3, rss_fit hm hpos h1 h2, max_eq_left]
  · rfl
  · refine le_trans ?_ (bounds m).1
    unfold rssTol; norm_num

theorem maxFloat_large : (1000000 : ℝ) ≤ maxFloat64 := by
  have h : (1 : ℝ) * 2 ^ 20 ≤ (2 - 1 / 2 ^ 52) * 2 ^ 1023 :=
    mul_le_mul (by norm_num) (pow_le_pow_right₀ (by norm_num) (by norm_num)) (by positivity) (by norm_num)
  have h' : (1000000 : ℝ) ≤ 1 * 2 ^ 20 := by norm_num
  exact h'.trans h

theorem aicc_le {m : List Bool} (hm : m.length = 3) : aicc (card m) 40 (rssOf m) ≤ 1000 := by
  have hc : card m ≤ 4 := (card_le_length m).trans (by omega)
  have h4 : (card m : ℝ) ≤ 4 := by exact_mod_cast hc
  obtain ⟨b1, b2⟩ := bounds m
  have hl := Real.log_le_sub_one_of_pos (x := rssOf m) (by linarith)
  rw [aicc40 hc]
  have hp := penalty_le hc
  linarith

theorem saData : SaData P := by
  refine ⟨by show 0 < 3; norm_num, rows, fun m c σ hm hpos h => ?_⟩
  rw [cost_fit hm hpos h]
  have := aicc_le (m := m) hm
  linarith [maxFloat_large]

/-- The first feature alone is better than every other model, by at least 2. -/
theorem first_best {m : List Bool} (hm : m.length = 3) (hpos : 0 < card m) (hne : m ≠ [true, false, false]) :
    aicc 1 40 (rssOf [true, false, false]) + 2 ≤ aicc (card m) 40 (rssOf m) := by
  have h1 : rssOf [true, false, false] = 1 / 10000 := by unfold rssOf HasFeature; norm_num
  have hc : card m ≤ 4 := (card_le_length m).trans (by omega)
  rw [h1, aicc40 (by norm_num), aicc40 hc]
  have hp := penalty_nonneg hc
  by_cases h0 : HasFeature m 0
  · have hr : rssOf m = 1 / 10000 := by unfold rssOf; rw [if_pos h0]; norm_num
    have h2 : 2 ≤ card m := by
      match m, hm with
      | [a, b, c], _ =>
        revert hpos hne h0
        unfold HasFeature
        cases a <;> cases b <;> cases c <;> decide
    have h2' : (2 : ℝ) ≤ card m := by exact_mod_cast h2
    have h4 : (card m : ℝ) ≤ 4 := by exact_mod_cast hc
    have hp2 : (2 * ((1 : ℕ) : ℝ) * ((1 : ℕ) : ℝ) + 2 * ((1 : ℕ) : ℝ)) / (39 - ((1 : ℕ) : ℝ)) ≤
        (2 * (card m : ℝ) * card m + 2 * card m) / (39 - card m) := by
      push_cast
      rw [div_le_div_iff₀ (by norm_num) (by linarith)]
      nlinarith
    rw [hr]
    push_cast at *
    linarith
  · have hr : rssOf m = 1 + 1 / 10000 := by unfold rssOf; rw [if_neg h0]
    have h3 : 0 ≤ Real.log (1 + 1 / 10000) := Real.log_nonneg (by norm_num)
    have h4 : Real.log (1 / 10000) ≤ -3 := by
      have : Real.log (1 / 10000) = -(4 * Real.log 10) := by
        have : (1 : ℝ) / 10000 = (10 ^ 4)⁻¹ := by norm_num
        rw [this, Real.log_inv, Real.log_pow]
        norm_num
      have h10 := Real.one_sub_inv_le_log_of_pos (x := (10 : ℝ)) (by norm_num)
      rw [this]
      norm_num at h10
      linarith
    have hcm : (1 : ℝ) ≤ card m := by exact_mod_cast hpos
    rw [hr]
    push_cast
    norm_num
    norm_num at h3 h4 hp
    linarith

/-- `k` steps into the first 300, all accepted. -/
theorem accepts (k : Nat) (hk : k < 300) : ∃ s, SaReach P s ∧ s.current = [true, false, false] ∧ s.numSteps = k ∧
    s.numAccept = k ∧ s.temp = 500 := by
  induction k with
  | zero =>
    obtain ⟨s, h, hi⟩ := SaInv.init saData
    have hs : s = _ := (Option.some.inj h).symm
    exact ⟨s, .init h, by subst hs; rfl, by subst hs; rfl, by subst hs; rfl, by subst hs; rfl⟩
  | succ k ih =>
    obtain ⟨s, hr, e1, e2, e3, e4⟩ := ih (by omega)
    have b1 : saBody P s 0 0 = saEval P s 0 [true, false, false] 1 0 := by
      unfold saBody; rw [e1]; rfl
    obtain ⟨s1, h1, c1, c2, c3, c4, c5, c6⟩ := saEval_zero saData (SaInv.reach saData hr) 0
      (cur := [true, false, false]) rfl (by decide)
    have w1 : ∃ b, saSweep P s1 = .next { s1 with numSteps := k + 1, has50 := b } := by
      unfold saSweep
      have h2 : ¬ (((s.numSteps + 1 : ℕ) : Int) ≥ ((3 : ℕ) : Int) * 100) := by rw [e2]; push_cast; omega
      have h2' : ¬ (((s.numSteps + 1 : ℕ) : Int) ≥ (P.X.nc : Int) * P.nSweeps) := h2
      simp only [c4]
      rw [if_neg h2']
      have hratio : ((s1.numAccept : ℝ) / ((s.numSteps + 1 : ℕ) : ℝ) > 0.5) := by
        rw [c3, e2, e3, div_self (by positivity)]; norm_num
      simp only [hratio, decide_true, Bool.or_true]
      by_cases hb : (s.numSteps + 1) % P.X.nc = 0
      · rw [e2] at hb; exact ⟨true, by simp [hb, e2]⟩
      · rw [e2] at hb; exact ⟨s1.has50, by simp [hb, e2]⟩
    obtain ⟨b, w1⟩ := w1
    exact ⟨_, .step 0 0 hr (by show 0 < 3; norm_num) le_rfl (by norm_num) (b1.trans (h1.trans w1)), c1, rfl,
      by simp [c3, e3], by simp [c2, e4]⟩

/-- After the first 300 steps. -/
theorem halved : ∃ s, SaReach P s ∧ s.current = [true, false, false] ∧ s.numSteps = 0 ∧ s.numAccept = 0 ∧
    s.temp = 250 ∧ s.has50 = true ∧ s.acc ≠ [] := by
  obtain ⟨s, hr, e1, e2, e3, e4⟩ := accepts 299 (by norm_num)
  have b1 : saBody P s 0 0 = saEval P s 0 [true, false, false] 1 0 := by
    unfold saBody; rw [e1]; rfl
  obtain ⟨s1, h1, c1, c2, c3, c4, c5, c6⟩ := saEval_zero saData (SaInv.reach saData hr) 0
    (cur := [true, false, false]) rfl (by decide)
  have w1 : saSweep P s1 = .next { s1 with numAccept := 0, numSteps := 0, has50 := true, temp := 250 } := by
    unfold saSweep
    simp only [c2, c3, c4, e2, e3, e4]
    norm_num [P, bnbFirst, data, unitX]
  refine ⟨_, .step 0 0 hr (by show 0 < 3; norm_num) le_rfl (by norm_num) (b1.trans (h1.trans w1)), c1, rfl, rfl, rfl,
    rfl, ?_⟩
  intro h0
  have h0' : s1.acc = [] := h0
  rw [h0'] at c6
  simp at c6

/-- The second feature is not added when the random number is large. -/
theorem reject {t : SaState} (hr : SaReach P t) (ha : t.acc ≠ []) (e1 : t.current = [true, false, false])
    (ht : t.temp = 250) : saBody P t 1 0.999 = saSweep P t := by
  have hinv := SaInv.reach saData hr
  have hscore : t.currentScore = aicc 1 40 (rssOf [true, false, false]) := by
    rcases hinv.score with ⟨h0, -⟩ | ⟨-, c, hf, -⟩
    · exact absurd h0 ha
    · rw [e1] at hf
      exact cost_fit rfl (by decide) hf
  have hbody : saBody P t 1 0.999 = saEval P t 1 [true, true, false] 2 0.999 := by
    unfold saBody; rw [e1]; rfl
  obtain ⟨c, r, hf, hcl, hfit⟩ := fitModel_isFit (P := P) rows (m := [true, true, false]) (by decide) rfl
  have hcost : P.cost 2 P.y.length (max r rssTol) = aicc 2 40 (rssOf [true, true, false]) := by
    have : P.y.length = P.X.nr := rows
    rw [this]
    exact cost_fit rfl (by decide) hfit
  have hgap : aicc 1 40 (rssOf [true, false, false]) + 2 ≤ aicc 2 40 (rssOf [true, true, false]) :=
    first_best (m := [true, true, false]) rfl (by decide) (by decide)
  rw [hbody]
  unfold saEval
  rw [hf]
  simp only [hcost]
  rw [if_neg, show saFlip [true, true, false] 1 = t.current from e1.symm ▸ rfl]
  rw [hscore, ht, not_or]
  refine ⟨by linarith, ?_⟩
  rw [neg_div, Real.exp_neg, not_lt]
  have h1 : 2 / 250 ≤ (aicc 2 40 (rssOf [true, true, false]) - aicc 1 40 (rssOf [true, false, false])) / 250 := by
    apply div_le_div_of_nonneg_right _ (by norm_num); linarith
  have := Real.add_one_le_exp ((aicc 2 40 (rssOf [true, true, false]) - aicc 1 40 (rssOf [true, false, false])) / 250)
  rw [inv_le_comm₀ (Real.exp_pos _) (by norm_num)]
  norm_num at h1 ⊢
  linarith

/-- Simulated annealing can return the first feature alone. -/
theorem returns : ∃ r, SaReturns P r ∧ r.selected = [0] := by
  have key : ∀ k, k < 300 → ∃ s, SaReach P s ∧ s.current = [true, false, false] ∧ s.numSteps = k ∧ s.numAccept = 0 ∧
      s.temp = 250 ∧ s.has50 = true ∧ s.acc ≠ [] := by
    intro k
    induction k with
    | zero => exact fun _ => halved
    | succ k ih =>
      intro hk
      obtain ⟨s, hr, e1, e2, e3, e4, e5, e6⟩ := ih (by omega)
      have w : saSweep P s = .next { s with numSteps := k + 1 } := by
        unfold saSweep
        have h2 : ¬ (((s.numSteps + 1 : ℕ) : Int) ≥ ((3 : ℕ) : Int) * 100) := by rw [e2]; push_cast; omega
        have h2' : ¬ (((s.numSteps + 1 : ℕ) : Int) ≥ (P.X.nc : Int) * P.nSweeps) := h2
        simp only
        rw [if_neg h2']
        simp [e2, e5]
      exact ⟨_, .step 1 0.999 hr (by show 1 < 3; norm_num) (by norm_num) (by norm_num) ((reject hr e6 e1 e4).trans w),
        e1, rfl, e3, e4, e5, e6⟩
  obtain ⟨s, hr, e1, e2, e3, e4, e5, e6⟩ := key 299 (by norm_num)
  have w : saSweep P s = .ret (saResult { s with numSteps := 300 }) := by
    unfold saSweep
    simp [e2, e3, e5, P, bnbFirst, data, unitX]
  refine ⟨_, ⟨s, 1, 0.999, hr, by show 1 < 3; norm_num, by norm_num, by norm_num, (reject hr e6 e1 e4).trans w⟩, ?_⟩
  show selectedFrom 0 s.current = _
  rw [e1]; rfl

end BnbExample

/-- The claim is false: on this data set simulated annealing can find the best model, the command can end, and whenever
it ends, every model that it saves is worse than the one it started from. -/
theorem C92_refuted : GoodData orthSvd BnbExample.data.X BnbExample.data.Y ∧ ∃ r,
    (∃ s, BnbSearches orthSvd BnbExample.data 0 10000000 r s ∧ s.torn = false) ∧ r.selected = [0] ∧
    ∃ c σ, IsFit BnbExample.P [true, false, false] c σ ∧
      ∀ s, BnbSearches orthSvd BnbExample.data 0 10000000 r s → ∀ n ∈ s.hs.items, n.score < -σ := by
  refine ⟨⟨BnbExample.rows, by show (40 : Nat) ≤ 2 ^ 63; norm_num, fun m hm _ _ => unitX_exact (by norm_num) hm,
    fun m c r hm hp _ hf => ?_, fun h => absurd h (by show ¬ 40 ≤ 3; norm_num)⟩, ?_⟩
  · obtain ⟨c', f1, -⟩ := unitX_fitModel (K := ℝ) (n := 40) (k := 3) (by norm_num) (y := BnbExample.Y)
      (by simp [BnbExample.Y]) hm hp
    have hf' : fitModel orthSvd (unitX 40 3 : Mat ℝ) BnbExample.Y m = some (c, r) := hf
    rw [f1, Option.some.injEq, Prod.mk.injEq] at hf'
    rw [← hf'.2, BnbExample.sum_eq hm]
    refine smallestFloat_le_tol.trans (le_trans ?_ (BnbExample.bounds m).1)
    unfold rssTol; norm_num
  · obtain ⟨r, hr, hsel⟩ := BnbExample.returns
    obtain ⟨c, q, hf, -, hfit⟩ := fitModel_isFit (P := BnbExample.P) BnbExample.rows (m := [true, false, false])
      (by decide) rfl
    refine ⟨r, C92_can_end _ _ _ _ r BnbExample.saData hr (by show 3 ≤ 3; norm_num), hsel, c, _, hfit, fun s hs => ?_⟩
    rw [BnbExample.cost_fit rfl (by decide) hfit]
    refine C92_best_lost _ _ _ _ r s BnbExample.saData hs _ ?_ fun m c r' hm hpos _ hne h1 h2 => ?_
    · have := BnbExample.aicc_le (m := [true, false, false]) rfl
      linarith [BnbExample.maxFloat_large]
    · have hm' : m ≠ [true, false, false] := by
        rintro rfl
        exact hne (by rw [hsel]; decide)
      have := BnbExample.first_best hm hpos hm'
      rw [BnbExample.rss_fit hm hpos h1 h2]
      have h1c : card [true, false, false] = 1 := by decide
      rw [h1c]
      show _ < aicc (card m) 40 _
      linarith

/-- The hypotheses of `C92_optimal_partial` can be met. -/
example : SaData (bnbFirst orthSvd BnbExample.data) ∧ GoodData orthSvd BnbExample.data.X BnbExample.data.Y ∧
    BnbExample.data.X.nc < BnbExample.data.X.nr ∧ (2 : Int) ^ (BnbExample.data.X.nc - 1) ≤ 10000000 ∧
    (∃ r s, BnbSearches orthSvd BnbExample.data 0 10000000 r s ∧ s.torn = false ∧
      features [false, true, true] ≠ r.selected) := by
  obtain ⟨h1, r, ⟨s, h2, h3⟩, h4, -⟩ := C92_refuted
  exact ⟨BnbExample.saData, h1, by show 3 < 40; norm_num, by show (2 : Int) ^ 2 ≤ _; norm_num, r, s, h2, h3,
    by rw [h4]; decide⟩

end GoSelect
