import Verif.Proofs.Annealing
import Verif.Proofs.UnitDesign
import Verif.Model.SaCommand
import Mathlib.Tactic.NormNum
import Mathlib.Analysis.Complex.ExponentialBounds

/-! A run of the simulated-annealing command that visits eleven models, used in refutations. -/

namespace GoSelect

open Finset Spec

/-- The response of the example: three equal features, and a row that no feature explains. -/
noncomputable def walkY : List ℝ := [0, 1, 1, 1, 1 / 100] ++ List.replicate 35 0

/-- The example data set: the first four unit vectors of length 40. -/
noncomputable def walkData : Dataset ℝ := ⟨unitX 40 4, walkY, [], 4⟩

/-- The search of the command on it, with one sweep per temperature. -/
noncomputable def walkP : SaInput := saCommandInput orthSvd walkData 1

/-- The RSS of a model. -/
noncomputable def walkRss (m : List Bool) : ℝ :=
  (if HasFeature m 1 then 0 else 1) + (if HasFeature m 2 then 0 else 1) + (if HasFeature m 3 then 0 else 1) +
    1 / 10000

theorem walk_sum {m : List Bool} (hm : m.length = 4) :
    (∑ i ∈ range 40, if HasFeature m i then 0 else vec walkY i ^ 2) = walkRss m := by
  have h4 : ∀ i, 4 ≤ i → ¬ HasFeature m i := by
    intro i hi h
    have : m[i]? = none := List.getElem?_eq_none (by omega)
    rw [HasFeature, this] at h
    cases h
  have h0 : ∀ i, 5 ≤ i → vec walkY i = 0 := by
    intro i hi
    unfold vec walkY
    rw [List.getD_eq_getElem?_getD, List.getElem?_append_right (by simpa using hi)]
    rw [List.getElem?_replicate]
    split <;> rfl
  have e : range 40 = range 5 ∪ (range 40 \ range 5) := by
    rw [union_sdiff_of_subset]; exact range_subset_range.2 (by norm_num)
  rw [e, sum_union disjoint_sdiff]
  have hz : (∑ i ∈ range 40 \ range 5, if HasFeature m i then 0 else vec walkY i ^ 2) = 0 := by
    refine sum_eq_zero fun i hi => ?_
    have : 5 ≤ i := by
      rw [mem_sdiff, mem_range, mem_range] at hi; omega
    rw [h0 i this]; simp
  rw [hz, add_zero]
  have v0 : vec walkY 0 = 0 := rfl
  have v1 : vec walkY 1 = 1 := rfl
  have v2 : vec walkY 2 = 1 := rfl
  have v3 : vec walkY 3 = 1 := rfl
  have v4 : vec walkY 4 = 1 / 100 := rfl
  simp only [sum_range_succ, sum_range_zero, v0, v1, v2, v3, v4, h4 4 le_rfl, if_false, walkRss]
  norm_num

theorem walk_rows : walkP.y.length = walkP.X.nr := by
  show walkY.length = 40
  simp [walkY]

/-- The cost that the search computes for a model. -/
theorem walk_fit {m : List Bool} (hm : m.length = 4) (hpos : 0 < card m) {c : List ℝ} {σ : ℝ} (h : IsFit walkP m c σ) :
    c.length = card m ∧ σ = aicc (card m) 40 (walkRss m) := by
  obtain ⟨c', h1, h2, h3⟩ := unitX_fitModel (K := ℝ) (n := 40) (k := 4) (by norm_num) (y := walkY) (by simp [walkY]) hm hpos
  obtain ⟨c'', r, hf, -, hfit⟩ := fitModel_isFit walk_rows hpos (m := m) hm
  obtain ⟨e1, e2⟩ := isFit_unique h hfit
  have hf' : fitModel orthSvd (unitX 40 4 : Mat ℝ) walkY m = some (c'', r) := hf
  rw [h1, Option.some.injEq, Prod.mk.injEq] at hf'
  refine ⟨by rw [e1, ← hf'.1, h3], ?_⟩
  rw [e2, ← hf'.2, walk_sum hm]
  have : max (walkRss m) rssTol = walkRss m := by
    apply max_eq_left
    unfold walkRss rssTol
    have : ∀ p : Prop, ∀ [Decidable p], (0 : ℝ) ≤ if p then 0 else 1 := by
      intro p _; split <;> norm_num
    have h1 := this (HasFeature m 1)
    have h2 := this (HasFeature m 2)
    have h3 := this (HasFeature m 3)
    norm_num
    linarith
  rw [this]
  rfl

theorem walkRss_bounds (m : List Bool) : 1 / 10000 ≤ walkRss m ∧ walkRss m ≤ 3 + 1 / 10000 := by
  unfold walkRss
  constructor
  · have : ∀ p : Prop, ∀ [Decidable p], (0 : ℝ) ≤ if p then 0 else 1 := by
      intro p _; split <;> norm_num
    linarith [this (HasFeature m 1), this (HasFeature m 2), this (HasFeature m 3)]
  · have : ∀ p : Prop, ∀ [Decidable p], (if p then (0 : ℝ) else 1) ≤ 1 := by
      intro p _; split <;> norm_num
    linarith [this (HasFeature m 1), this (HasFeature m 2), this (HasFeature m 3)]

/-- `aicc` for 40 rows. -/
theorem aicc40 {k : Nat} (hk : k ≤ 4) (r : ℝ) :
    aicc k 40 r = 2 * k + 40 * Real.log r + (2 * k * k + 2 * k) / (39 - k) := by
  unfold aicc aic
  have h1 : ¬ ((k : Int) ≥ ((40 : Nat) : Int) - 1) := by omega
  simp only [h1, if_false]
  push_cast
  congr 2
  ring

theorem penalty_le {k : Nat} (hk : k ≤ 4) : (2 * (k : ℝ) * k + 2 * k) / (39 - k) ≤ 40 / 35 := by
  have h4 : (k : ℝ) ≤ 4 := by exact_mod_cast hk
  have h0 : (0 : ℝ) ≤ k := Nat.cast_nonneg k
  rw [div_le_div_iff₀ (by linarith) (by norm_num)]
  nlinarith

theorem penalty_nonneg {k : Nat} (hk : k ≤ 4) : 0 ≤ (2 * (k : ℝ) * k + 2 * k) / (39 - k) := by
  have h4 : (k : ℝ) ≤ 4 := by exact_mod_cast hk
  have h0 : (0 : ℝ) ≤ k := Nat.cast_nonneg k
  exact div_nonneg (by positivity) (by linarith)

theorem card_le_four {m : List Bool} (hm : m.length = 4) : card m ≤ 4 := hm ▸ card_le_length m

theorem walk_data : SaData walkP := by
  refine ⟨by show 0 < 4; norm_num, walk_rows, fun m c σ hm hpos h => ?_⟩
  obtain ⟨-, rfl⟩ := walk_fit hm hpos h
  have h4 : (card m : ℝ) ≤ 4 := by exact_mod_cast card_le_four hm
  obtain ⟨b1, b2⟩ := walkRss_bounds m
  have hl := Real.log_le_sub_one_of_pos (x := walkRss m) (by linarith)
  rw [aicc40 (card_le_four hm)]
  have hp := penalty_le (card_le_four hm)
  have hmax : (1000000 : ℝ) ≤ maxFloat64 := by
    have h : (1 : ℝ) * 2 ^ 20 ≤ (2 - 1 / 2 ^ 52) * 2 ^ 1023 :=
      mul_le_mul (by norm_num) (pow_le_pow_right₀ (by norm_num) (by norm_num)) (by positivity)
        (by norm_num)
    have h' : (1000000 : ℝ) ≤ 1 * 2 ^ 20 := by norm_num
    exact h'.trans h
  linarith

/-- Every other model is better than the first feature alone. -/
theorem walk_first_worst {m : List Bool} (hm : m.length = 4) (hpos : 0 < card m) (hne : m ≠ [true, false, false, false]) :
    aicc (card m) 40 (walkRss m) < aicc 1 40 (walkRss [true, false, false, false]) := by
  have hle : walkRss m ≤ 2 + 1 / 10000 := by
    obtain ⟨a, b, c, d, rfl⟩ : ∃ a b c d, m = [a, b, c, d] := by
      match m, hm with
      | [a, b, c, d], _ => exact ⟨a, b, c, d, rfl⟩
    unfold walkRss HasFeature
    revert hpos hne
    cases a <;> cases b <;> cases c <;> cases d <;> simp [show Spec.card [false, false, false, false] = 0 from rfl] <;> norm_num [Spec.card, features]
  obtain ⟨b1, -⟩ := walkRss_bounds m
  have h3 : walkRss [true, false, false, false] = 3 + 1 / 10000 := by
    unfold walkRss HasFeature; norm_num
  rw [h3, aicc40 (card_le_four hm), aicc40 (by norm_num)]
  have h4 : (card m : ℝ) ≤ 4 := by exact_mod_cast card_le_four hm
  have hp := penalty_le (card_le_four hm)
  have hp1 := penalty_nonneg (k := 1) (by norm_num)
  have hr : 0 < walkRss m := by linarith
  have hlog : Real.log (walkRss m) ≤ Real.log (2 + 1 / 10000) := Real.log_le_log hr hle
  have hdiff : 1 / 4 ≤ Real.log (3 + 1 / 10000) - Real.log (2 + 1 / 10000) := by
    rw [← Real.log_div (by norm_num) (by norm_num)]
    have := Real.one_sub_inv_le_log_of_pos (x := (3 + 1 / 10000) / (2 + 1 / 10000)) (by norm_num)
    refine le_trans ?_ this
    norm_num
  push_cast at *
  linarith

/-! ### The walk -/

/-- With the random number 0 every model is accepted. -/
theorem saEval_zero {P : SaInput} (hd : SaData P) {s : SaState} (h : SaInv P s) (index : Nat) {cur : List Bool}
    (hc : cur.length = P.X.nc)
    (hpos : 0 < Spec.card cur) :
    ∃ s' : SaState, saEval P s index cur (Spec.card cur) 0 = saSweep P s' ∧ s'.current = cur ∧
      s'.temp = s.temp ∧ s'.numAccept = s.numAccept + 1 ∧ s'.numSteps = s.numSteps ∧ s'.has50 = s.has50 ∧
      s'.acc.map (·.selection) = s.acc.map (·.selection) ++ [(features cur).map Int.ofNat] := by
  obtain ⟨c, r, hf, hcl, hfit⟩ := fitModel_isFit hd.rows hpos (m := cur) hc
  obtain ⟨sc, hsc⟩ := (saRun_inv 10 ⟨[], [], 0⟩ (s.acc ++
      [{ (newSAItem cur : SAItem ℝ) with
        score := -P.cost (Spec.card cur) P.y.length (max r rssTol)
        coeff := goCopy (newSAItem cur : SAItem ℝ).coeff c }])).imp fun _ h => h.1
  rw [saRun_snoc, h.run, Option.bind_some] at hsc
  unfold saEval
  rw [hf]
  simp only
  rw [if_pos (Or.inr (Real.exp_pos _)), hsc]
  refine ⟨_, rfl, rfl, rfl, rfl, rfl, rfl, ?_⟩
  simp [newSAItem, selectedFrom_zero]

/-- A state of the walk: `k` steps into the sweep, all of them accepted; `sels` are the models accepted so far. -/
def WalkAt (s : SaState) (cur : List Bool) (k : Nat) (temp : ℝ) (sels : List (List Bool)) : Prop :=
  SaReach walkP s ∧ s.current = cur ∧ s.numSteps = k ∧ s.numAccept = k ∧ s.temp = temp ∧
    s.acc.map (·.selection) = sels.map (fun m => (features m).map Int.ofNat)

theorem walk_start : ∃ s, WalkAt s [true, false, false, false] 0 500 [] := by
  obtain ⟨s, h, hi⟩ := SaInv.init walk_data
  have hs : s = _ := (Option.some.inj h).symm
  exact ⟨s, .init h, by subst hs; rfl, by subst hs; rfl, by subst hs; rfl, by subst hs; rfl, by subst hs; rfl⟩

/-- One accepted step. -/
theorem walk_step {s : SaState} {cur : List Bool} {k : Nat} {temp : ℝ} {sels : List (List Bool)}
    (h : WalkAt s cur k temp sels) (index : Nat) (hi : index < 4) (next : List Bool)
    (hnext : next = if Spec.card (saFlip cur index) = 0 then cur else saFlip cur index) :
    (k < 3 → ∃ s', WalkAt s' next (k + 1) temp (sels ++ [next])) ∧
      (k = 3 → temp ≥ 1 → ∃ s', WalkAt s' next 0 (temp * 0.5) (sels ++ [next]) ∧ s'.has50 = true) := by
  obtain ⟨hr, e1, e2, e3, e4, e5⟩ := h
  have hinv := SaInv.reach walk_data hr
  have hlen : s.current.length = 4 := hinv.len
  have hcl : cur.length = 4 := e1 ▸ hlen
  have hcard : 0 < Spec.card next := by
    rw [hnext]
    split
    · rw [← e1]; exact hinv.pos
    · omega
  have hnl : next.length = 4 := by
    rw [hnext]
    split
    · exact hcl
    · rw [saFlip_length, hcl]
  have hfew : ¬ Spec.card (saFlip cur index) ≥ 40 / 2 := by
    have := card_le_four (m := saFlip cur index) (by rw [saFlip_length, hcl])
    omega
  have hbody : saBody walkP s index 0 = saEval walkP s index next (Spec.card next) 0 := by
    unfold saBody
    simp only [e1, numFeatures_eq_card]
    by_cases h0 : Spec.card (saFlip cur index) = 0
    · rw [if_pos h0, saFlip_saFlip (by omega)]
      have hn : next = cur := by rw [hnext, if_pos h0]
      have h1 : Spec.card cur = 1 := by
        have h2 : 0 < Spec.card cur := hn ▸ hcard
        rcases card_saFlip (m := cur) (i := index) (by omega) with h3 | h3 <;> omega
      rw [hn, h1]
    · rw [if_neg h0, if_neg (show ¬ Spec.card (saFlip cur index) ≥ walkP.X.nr / 2 from hfew)]
      have hn : next = saFlip cur index := by rw [hnext, if_neg h0]
      rw [hn]
  obtain ⟨s', h1, c1, c2, c3, c4, c5, c6⟩ := saEval_zero walk_data hinv index hnl hcard
  have hsel : s'.acc.map (·.selection) = (sels ++ [next]).map (fun m => (features m).map Int.ofNat) := by
    rw [c6, e5, List.map_append]; rfl
  constructor
  · intro hk
    have h3 : saSweep walkP s' = .next { s' with numSteps := k + 1 } := by
      unfold saSweep
      have h1 : (k + 1) % 4 ≠ 0 := by omega
      have h2 : ¬ ((4 : Int) ≤ (k : Int) + 1) := by omega
      simp [c4, e2, walkP, saCommandInput, walkData, unitX, h1, h2]
    exact ⟨_, .step index 0 hr hi le_rfl (by norm_num) (hbody.trans (h1.trans h3)), c1, rfl, by simp [c3, e3],
      by simp [c2, e4], hsel⟩
  · intro hk ht
    have h3 : saSweep walkP s' =
        .next { s' with numAccept := 0, numSteps := 0, has50 := true, temp := temp * 0.5 } := by
      unfold saSweep
      have : ¬ temp * 0.5 < 1e-12 := by norm_num at *; linarith
      simp only [c2, c3, c4, e2, e3, e4, hk]
      norm_num [walkP, saCommandInput, walkData, unitX]
      norm_num at this
      exact fun hc => absurd hc (not_lt.2 this)
    exact ⟨_, ⟨.step index 0 hr hi le_rfl (by norm_num) (hbody.trans (h1.trans h3)), c1, rfl, rfl, rfl, hsel⟩, rfl⟩

/-- The models accepted by the walk. -/
def walkModels : List (List Bool) :=
  [[true, false, false, false], [true, false, false, false], [true, true, false, false], [false, true, false, false],
    [false, true, true, false], [true, true, true, false], [true, false, true, false], [false, false, true, false],
    [false, false, true, true], [true, false, true, true], [true, true, true, true], [false, true, true, true]]

theorem walk_accepts : ∃ s, WalkAt s [false, true, true, true] 0 62.5 walkModels ∧ s.has50 = true := by
  obtain ⟨s, h⟩ := walk_start
  obtain ⟨s, h⟩ := (walk_step h 0 (by norm_num) [true, false, false, false] (by decide)).1 (by norm_num)
  obtain ⟨s, h⟩ := (walk_step h 0 (by norm_num) [true, false, false, false] (by decide)).1 (by norm_num)
  obtain ⟨s, h⟩ := (walk_step h 1 (by norm_num) [true, true, false, false] (by decide)).1 (by norm_num)
  obtain ⟨s, h, -⟩ := (walk_step h 0 (by norm_num) [false, true, false, false] (by decide)).2 rfl (by norm_num)
  obtain ⟨s, h⟩ := (walk_step h 2 (by norm_num) [false, true, true, false] (by decide)).1 (by norm_num)
  obtain ⟨s, h⟩ := (walk_step h 0 (by norm_num) [true, true, true, false] (by decide)).1 (by norm_num)
  obtain ⟨s, h⟩ := (walk_step h 1 (by norm_num) [true, false, true, false] (by decide)).1 (by norm_num)
  obtain ⟨s, h, -⟩ := (walk_step h 0 (by norm_num) [false, false, true, false] (by decide)).2 rfl (by norm_num)
  obtain ⟨s, h⟩ := (walk_step h 3 (by norm_num) [false, false, true, true] (by decide)).1 (by norm_num)
  obtain ⟨s, h⟩ := (walk_step h 0 (by norm_num) [true, false, true, true] (by decide)).1 (by norm_num)
  obtain ⟨s, h⟩ := (walk_step h 1 (by norm_num) [true, true, true, true] (by decide)).1 (by norm_num)
  obtain ⟨s, h, h50⟩ := (walk_step h 0 (by norm_num) [false, true, true, true] (by decide)).2 rfl (by norm_num)
  refine ⟨s, ?_, h50⟩
  have e : (500 : ℝ) * 0.5 * 0.5 * 0.5 = 62.5 := by norm_num
  rw [e] at h
  exact h

/-- The last model is much better than the one without feature 1. -/
theorem walk_gap : 100 ≤ aicc 2 40 (walkRss [false, false, true, true]) - aicc 3 40 (walkRss [false, true, true, true]) := by
  have h1 : walkRss [false, false, true, true] = 1 + 1 / 10000 := by
    unfold walkRss HasFeature; norm_num
  have h2 : walkRss [false, true, true, true] = 1 / 10000 := by
    unfold walkRss HasFeature; norm_num
  rw [h1, h2, aicc40 (by norm_num), aicc40 (by norm_num)]
  have h3 : 0 ≤ Real.log (1 + 1 / 10000) := Real.log_nonneg (by norm_num)
  have h4 : Real.log (1 / 10000) ≤ -3 := by
    have : Real.log (1 / 10000) = -(4 * Real.log 10) := by
      have : (1 : ℝ) / 10000 = (10 ^ 4)⁻¹ := by norm_num
      rw [this, Real.log_inv, Real.log_pow]
      norm_num
    have h10 := Real.one_sub_inv_le_log_of_pos (x := (10 : ℝ)) (by norm_num)
    rw [this]
    norm_num at h10
    linarith
  push_cast
  norm_num
  norm_num at h3 h4
  linarith

theorem walk_reject {s : SaState} (hr : SaReach walkP s) (ha : s.acc ≠ []) (e1 : s.current = [false, true, true, true])
    (ht : s.temp = 62.5) : saBody walkP s 1 0.9 = saSweep walkP s := by
  have hinv := SaInv.reach walk_data hr
  have hscore : s.currentScore = aicc 3 40 (walkRss [false, true, true, true]) := by
    rcases hinv.score with ⟨h0, -⟩ | ⟨-, c, hf, -⟩
    · exact absurd h0 ha
    · rw [e1] at hf
      exact (walk_fit rfl (by decide) hf).2
  have hbody : saBody walkP s 1 0.9 = saEval walkP s 1 [false, false, true, true] 2 0.9 := by
    unfold saBody; rw [e1]; rfl
  obtain ⟨c, r, hf, hcl, hfit⟩ := fitModel_isFit walk_rows (m := [false, false, true, true]) (by decide) rfl
  have hcost : walkP.cost 2 walkP.y.length (max r rssTol) = aicc 2 40 (walkRss [false, false, true, true]) := by
    rw [walk_rows]
    exact (walk_fit rfl (by decide) hfit).2
  rw [hbody]
  unfold saEval
  rw [hf]
  simp only [hcost]
  have hgap := walk_gap
  rw [if_neg, show saFlip [false, false, true, true] 1 = s.current from e1.symm ▸ rfl]
  rw [hscore, ht, not_or]
  refine ⟨by linarith, ?_⟩
  rw [neg_div, Real.exp_neg, not_lt]
  have h1 : 1 ≤ (aicc 2 40 (walkRss [false, false, true, true]) - aicc 3 40 (walkRss [false, true, true, true])) / 62.5 := by
    rw [le_div_iff₀ (by norm_num)]; linarith
  have := Real.add_one_le_exp
    ((aicc 2 40 (walkRss [false, false, true, true]) - aicc 3 40 (walkRss [false, true, true, true])) / 62.5)
  rw [inv_le_comm₀ (Real.exp_pos _) (by norm_num)]
  norm_num
  norm_num at h1 this
  linarith

/-- The command can return after accepting exactly these models. -/
theorem walk_returns : ∃ r, SaReturns walkP r ∧ r.selected = [1, 2, 3] ∧
    r.acc.map (·.selection) = walkModels.map (fun m => (features m).map Int.ofNat) := by
  have key : ∀ k, k < 4 → ∃ s, SaReach walkP s ∧ s.current = [false, true, true, true] ∧ s.numSteps = k ∧
      s.numAccept = 0 ∧ s.temp = 62.5 ∧ s.has50 = true ∧
      s.acc.map (·.selection) = walkModels.map (fun m => (features m).map Int.ofNat) := by
    intro k
    induction k with
    | zero =>
      intro _
      obtain ⟨s, ⟨hr, e1, e2, e3, e4, e5⟩, h50⟩ := walk_accepts
      exact ⟨s, hr, e1, e2, e3, e4, h50, e5⟩
    | succ k ih =>
      intro hk
      obtain ⟨s, hr, e1, e2, e3, e4, e5, e6⟩ := ih (by omega)
      have ha : s.acc ≠ [] := by
        intro h0
        rw [h0] at e6
        cases e6
      have h3 : saSweep walkP s = .next { s with numSteps := k + 1 } := by
        unfold saSweep
        have h1 : (k + 1) % 4 ≠ 0 := by omega
        have h2 : ¬ ((4 : Int) ≤ (k : Int) + 1) := by omega
        simp [e2, walkP, saCommandInput, walkData, unitX, h1, h2]
      exact ⟨_, .step 1 0.9 hr (by show 1 < 4; norm_num) (by norm_num) (by norm_num)
        ((walk_reject hr ha e1 e4).trans h3), e1, rfl, e3, e4, e5, e6⟩
  obtain ⟨s, hr, e1, e2, e3, e4, e5, e6⟩ := key 3 (by norm_num)
  have ha : s.acc ≠ [] := by
    intro h0
    rw [h0] at e6
    cases e6
  have h3 : saSweep walkP s = .ret (saResult { s with numSteps := 4 }) := by
    unfold saSweep
    simp [e2, e3, e5, walkP, saCommandInput, walkData, unitX]
  refine ⟨_, ⟨s, 1, 0.9, hr, by show 1 < 4; norm_num, by norm_num, by norm_num,
    (walk_reject hr ha e1 e4).trans h3⟩, ?_, e6⟩
  show selectedFrom 0 s.current = _
  rw [e1]; rfl

/-! ### A search over two columns, whose models have different criteria -/

/-- The response. -/
noncomputable def pairY : List ℝ := [2, 1, 1 / 100] ++ List.replicate 37 0

/-- The data set: the first two unit vectors of length 40. -/
noncomputable def pairData : Dataset ℝ := ⟨unitX 40 2, pairY, [], 2⟩

/-- The search of the command on it, with one sweep per temperature. -/
noncomputable def pairP : SaInput := saCommandInput orthSvd pairData 1

/-- The RSS of a model. -/
noncomputable def pairRss (m : List Bool) : ℝ :=
  (if HasFeature m 0 then 0 else 4) + (if HasFeature m 1 then 0 else 1) + 1 / 10000

theorem pair_sum {m : List Bool} (hm : m.length = 2) :
    (∑ i ∈ range 40, if HasFeature m i then 0 else vec pairY i ^ 2) = pairRss m := by
  have h4 : ∀ i, 2 ≤ i → ¬ HasFeature m i := by
    intro i hi h
    have : m[i]? = none := List.getElem?_eq_none (by omega)
    rw [HasFeature, this] at h
    cases h
  have h0 : ∀ i, 3 ≤ i → vec pairY i = 0 := by
    intro i hi
    unfold vec pairY
    rw [List.getD_eq_getElem?_getD, List.getElem?_append_right (by simpa using hi), List.getElem?_replicate]
    split <;> rfl
  have e : range 40 = range 3 ∪ (range 40 \ range 3) := by
    rw [union_sdiff_of_subset]; exact range_subset_range.2 (by norm_num)
  rw [e, sum_union disjoint_sdiff]
  have hz : (∑ i ∈ range 40 \ range 3, if HasFeature m i then 0 else vec pairY i ^ 2) = 0 := by
    refine sum_eq_zero fun i hi => ?_
    have : 3 ≤ i := by
      rw [mem_sdiff, mem_range, mem_range] at hi; omega
    rw [h0 i this]; simp
  rw [hz, add_zero]
  have v0 : vec pairY 0 = 2 := rfl
  have v1 : vec pairY 1 = 1 := rfl
  have v2 : vec pairY 2 = 1 / 100 := rfl
  simp only [sum_range_succ, sum_range_zero, v0, v1, v2, h4 2 le_rfl, if_false, pairRss]
  norm_num

theorem pair_rows : pairP.y.length = pairP.X.nr := by
  show pairY.length = 40
  simp [pairY]

theorem pairRss_bounds (m : List Bool) : 1 / 10000 ≤ pairRss m ∧ pairRss m ≤ 5 + 1 / 10000 := by
  unfold pairRss
  constructor <;> split_ifs <;> norm_num

theorem pair_fit {m : List Bool} (hm : m.length = 2) (hpos : 0 < Spec.card m) {c : List ℝ} {σ : ℝ}
    (h : IsFit pairP m c σ) : σ = aicc (Spec.card m) 40 (pairRss m) := by
  obtain ⟨c', h1, -, -⟩ := unitX_fitModel (K := ℝ) (n := 40) (k := 2) (by norm_num) (y := pairY) (by simp [pairY]) hm hpos
  obtain ⟨c'', r, hf, -, hfit⟩ := fitModel_isFit pair_rows hpos (m := m) hm
  obtain ⟨-, e2⟩ := isFit_unique h hfit
  have hf' : fitModel orthSvd (unitX 40 2 : Mat ℝ) pairY m = some (c'', r) := hf
  rw [h1, Option.some.injEq, Prod.mk.injEq] at hf'
  rw [e2, ← hf'.2, pair_sum hm, max_eq_left]
  · rfl
  · have := (pairRss_bounds m).1
    refine le_trans ?_ this
    unfold rssTol; norm_num

theorem pair_models {m : List Bool} (hm : m.length = 2) (hpos : 0 < Spec.card m) :
    m = [true, false] ∨ m = [false, true] ∨ m = [true, true] := by
  match m, hm with
  | [a, b], _ =>
    revert hpos
    cases a <;> cases b <;> decide

theorem pair_aicc : aicc 2 40 (pairRss [true, true]) + 300 ≤ aicc 1 40 (pairRss [true, false]) ∧
    aicc 1 40 (pairRss [true, false]) < aicc 1 40 (pairRss [false, true]) := by
  have h1 : pairRss [true, true] = 1 / 10000 := by unfold pairRss HasFeature; norm_num
  have h2 : pairRss [true, false] = 1 + 1 / 10000 := by unfold pairRss HasFeature; norm_num
  have h3 : pairRss [false, true] = 4 + 1 / 10000 := by unfold pairRss HasFeature; norm_num
  rw [h1, h2, h3, aicc40 (by norm_num), aicc40 (by norm_num), aicc40 (by norm_num)]
  have h4 : Real.log (1 / 10000) ≤ -8 := by
    have : Real.log (1 / 10000) = -(4 * Real.log 10) := by
      have : (1 : ℝ) / 10000 = (10 ^ 4)⁻¹ := by norm_num
      rw [this, Real.log_inv, Real.log_pow]
      norm_num
    have h10 : (2 : ℝ) ≤ Real.log 10 := by
      rw [Real.le_log_iff_exp_le (by norm_num)]
      have h1 := Real.exp_one_lt_three
      have h2 : Real.exp 2 = Real.exp 1 * Real.exp 1 := by rw [← Real.exp_add]; norm_num
      have h3 := Real.exp_pos 1
      rw [h2]
      nlinarith
    rw [this]
    linarith
  have h5 : 0 ≤ Real.log (1 + 1 / 10000) := Real.log_nonneg (by norm_num)
  have h6 : Real.log (1 + 1 / 10000) < Real.log (4 + 1 / 10000) := Real.log_lt_log (by norm_num) (by norm_num)
  push_cast
  norm_num
  norm_num at h4 h5 h6
  constructor <;> linarith

theorem pair_data : SaData pairP := by
  refine ⟨by show 0 < 2; norm_num, pair_rows, fun m c σ hm hpos h => ?_⟩
  have hm' : m.length = 2 := hm
  rw [pair_fit hm' hpos h]
  have hc : Spec.card m ≤ 4 := (card_le_length m).trans (by omega)
  have h4 : (Spec.card m : ℝ) ≤ 4 := by exact_mod_cast hc
  obtain ⟨b1, b2⟩ := pairRss_bounds m
  have hl := Real.log_le_sub_one_of_pos (x := pairRss m) (by linarith)
  rw [aicc40 hc]
  have hp := penalty_le hc
  have hmax : (1000000 : ℝ) ≤ maxFloat64 := by
    have h : (1 : ℝ) * 2 ^ 20 ≤ (2 - 1 / 2 ^ 52) * 2 ^ 1023 :=
      mul_le_mul (by norm_num) (pow_le_pow_right₀ (by norm_num) (by norm_num)) (by positivity)
        (by norm_num)
    have h' : (1000000 : ℝ) ≤ 1 * 2 ^ 20 := by norm_num
    exact h'.trans h
  linarith

/-- No two models tie. -/
theorem pair_no_ties (m m' : List Bool) (c c' : List ℝ) (σ : ℝ) (hm : m.length = 2) (hm' : m'.length = 2)
    (hp : 0 < Spec.card m) (hp' : 0 < Spec.card m') (h : IsFit pairP m c σ) (h' : IsFit pairP m' c' σ) : m = m' := by
  have e := (pair_fit hm hp h).symm.trans (pair_fit hm' hp' h')
  obtain ⟨a1, a2⟩ := pair_aicc
  have c1 : Spec.card [true, false] = 1 := by decide
  have c2 : Spec.card [false, true] = 1 := by decide
  have c3 : Spec.card [true, true] = 2 := by decide
  rcases pair_models hm hp with rfl | rfl | rfl <;> rcases pair_models hm' hp' with rfl | rfl | rfl <;>
    first
      | rfl
      | (simp only [c1, c2, c3] at e; exfalso; linarith)

/-- A run that accepts the first column, then both columns, and returns. -/
theorem pair_returns : ∃ r, SaReturns pairP r ∧ r.selected = [0, 1] ∧ r.acc.map (·.selection) = [[0], [0, 1]] := by
  obtain ⟨s, h, hi⟩ := SaInv.init pair_data
  have hs : s = _ := (Option.some.inj h).symm
  -- first step
  have b1 : saBody pairP s 0 0 = saEval pairP s 0 [true, false] 1 0 := by subst hs; rfl
  obtain ⟨s1, h1, c1, c2, c3, c4, c5, c6⟩ := saEval_zero pair_data hi 0 (cur := [true, false]) rfl (by decide)
  have hn : s.numSteps = 0 ∧ s.numAccept = 0 ∧ s.temp = 500 ∧ s.has50 = false ∧ s.acc = [] := by
    subst hs; exact ⟨rfl, rfl, rfl, rfl, rfl⟩
  obtain ⟨n1, n2, n3, n4, n5⟩ := hn
  have w1 : saSweep pairP s1 = .next { s1 with numSteps := 1 } := by
    unfold saSweep
    simp [c4, n1, pairP, saCommandInput, pairData, unitX]
  have r1 : SaReach pairP { s1 with numSteps := 1 } :=
    .step 0 0 (.init h) (by show 0 < 2; norm_num) le_rfl (by norm_num) (b1.trans (h1.trans w1))
  -- second step
  have b2 : saBody pairP { s1 with numSteps := 1 } 1 0 =
      saEval pairP { s1 with numSteps := 1 } 1 [true, true] 2 0 := by
    unfold saBody
    simp only [c1]
    rfl
  obtain ⟨s2, h2, d1, d2, d3, d4, d5, d6⟩ := saEval_zero pair_data (SaInv.reach pair_data r1) 1 (cur := [true, true])
    rfl (by decide)
  have w2 : saSweep pairP s2 = .next { s2 with numAccept := 0, numSteps := 0, has50 := true, temp := 250 } := by
    unfold saSweep
    simp only [d2, d3, d4, c2, c3, n2, n3]
    norm_num [pairP, saCommandInput, pairData, unitX]
  have r2 := SaReach.step 1 0 r1 (by show 1 < 2; norm_num) le_rfl (by norm_num) (b2.trans (h2.trans w2))
  have hacc : s2.acc.map (·.selection) = [[0], [0, 1]] := by
    rw [d6]
    show s1.acc.map (·.selection) ++ _ = _
    rw [c6, n5]
    decide
  -- rejected steps
  have reject : ∀ t : SaState, SaReach pairP t → t.acc ≠ [] → t.current = [true, true] → t.temp = 250 →
      saBody pairP t 1 0.9 = saSweep pairP t := by
    intro t hr ha e1 ht
    have hinv := SaInv.reach pair_data hr
    have hscore : t.currentScore = aicc 2 40 (pairRss [true, true]) := by
      rcases hinv.score with ⟨h0, -⟩ | ⟨-, c, hf, -⟩
      · exact absurd h0 ha
      · rw [e1] at hf
        exact pair_fit rfl (by decide) hf
    have hbody : saBody pairP t 1 0.9 = saEval pairP t 1 [true, false] 1 0.9 := by
      unfold saBody; rw [e1]; rfl
    obtain ⟨c, r, hf, hcl, hfit⟩ := fitModel_isFit pair_rows (m := [true, false]) (by decide) rfl
    have hcost : pairP.cost 1 pairP.y.length (max r rssTol) = aicc 1 40 (pairRss [true, false]) := by
      rw [pair_rows]
      exact pair_fit rfl (by decide) hfit
    rw [hbody]
    unfold saEval
    rw [hf]
    simp only [hcost]
    obtain ⟨hgap, -⟩ := pair_aicc
    rw [if_neg, show saFlip [true, false] 1 = t.current from e1.symm ▸ rfl]
    rw [hscore, ht, not_or]
    refine ⟨by linarith, ?_⟩
    rw [neg_div, Real.exp_neg, not_lt]
    have h1 : 1 ≤ (aicc 1 40 (pairRss [true, false]) - aicc 2 40 (pairRss [true, true])) / 250 := by
      rw [le_div_iff₀ (by norm_num)]; linarith
    have := Real.add_one_le_exp ((aicc 1 40 (pairRss [true, false]) - aicc 2 40 (pairRss [true, true])) / 250)
    rw [inv_le_comm₀ (Real.exp_pos _) (by norm_num)]
    norm_num
    linarith
  have ha : s2.acc ≠ [] := by
    intro h0
    rw [h0] at hacc
    cases hacc
  have w3 : saSweep pairP { s2 with numAccept := 0, numSteps := 0, has50 := true, temp := 250 } =
      .next { s2 with numAccept := 0, numSteps := 1, has50 := true, temp := 250 } := by
    unfold saSweep
    simp [pairP, saCommandInput, pairData, unitX]
  have r3 := SaReach.step 1 0.9 r2 (by show 1 < 2; norm_num) (by norm_num) (by norm_num)
    ((reject _ r2 ha d1 rfl).trans w3)
  have w4 : saSweep pairP { s2 with numAccept := 0, numSteps := 1, has50 := true, temp := 250 } =
      .ret (saResult { s2 with numAccept := 0, numSteps := 2, has50 := true, temp := 250 }) := by
    unfold saSweep
    simp [pairP, saCommandInput, pairData, unitX]
  refine ⟨_, ⟨_, 1, 0.9, r3, by show 1 < 2; norm_num, by norm_num, by norm_num, (reject _ r3 ha d1 rfl).trans w4⟩, ?_,
    hacc⟩
  show selectedFrom 0 s2.current = _
  rw [d1]; rfl

end GoSelect
