import Verif.Proofs.Annealing
import Verif.Proofs.Orthonormal
import Verif.Props.C23_C26
import Mathlib.Tactic.NormNum

/-! C27 - C29: simulated annealing, for every stream of random numbers. -/

namespace GoSelect

open Spec

/-! ## C27 -/

/-- At the head of every iteration the current model has a feature and, with at least four rows,
fewer than `nr/2`. -/
theorem C27_legal (P : SaInput) (hd : SaData P) (s : SaState) (h : SaReach P s) :
    s.current.length = P.X.nc ∧ 0 < card s.current ∧ (4 ≤ P.X.nr → card s.current < P.X.nr / 2) :=
  let hi := SaInv.reach hd h
  ⟨hi.len, hi.pos, hi.few⟩

/-- No iteration panics, so `GetDesignMatrix` never meets an empty model. -/
theorem C27_no_panic (P : SaInput) (hd : SaData P) :
    (∃ s, saInit P = some s) ∧
      ∀ s index u, SaReach P s → index < P.X.nc → 0 ≤ u → u < 1 → saBody P s index u ≠ .panic := by
  refine ⟨(SaInv.init hd).imp fun _ h => h.1, fun s index u h hi _ hu hp => ?_⟩
  have := saBody_ok hd (SaInv.reach hd h) hi hu
  rw [hp] at this
  exact this

/-- Every model that was accepted is legal, was fitted by least squares on exactly its columns and
was recorded with minus its cost. -/
theorem C27_accepted (P : SaInput) (hd : SaData P) (s : SaState) (h : SaReach P s) (x : SAItem ℝ)
    (hx : x ∈ s.acc) :
    ∃ m, m.length = P.X.nc ∧ 0 < card m ∧ (4 ≤ P.X.nr → card m < P.X.nr / 2) ∧
      x.selection = (features m).map Int.ofNat ∧ IsFit P m x.coeff (-x.score) :=
  (SaInv.reach hd h).items x hx

/-! ## C28 -/

/-- The result is a model with the coefficients that `Fit` returns for its columns. -/
theorem C28_matching (P : SaInput) (hd : SaData P) (r : SaRes) (h : SaReturns P r) :
    ∃ m, m.length = P.X.nc ∧ r.selected = features m ∧ r.selected.Pairwise (· < ·) ∧
      r.selected ≠ [] ∧ r.coeff.length = r.selected.length ∧
      fit (P.svd (designOf P.X m)) (designOf P.X m) P.y = some r.coeff := by
  obtain ⟨s, hi, ha, rfl⟩ := saReturns_inv hd h
  rcases hi.score with ⟨h0, -⟩ | ⟨-, c, hf, hc, ht⟩
  · exact absurd h0 ha
  · have hsel : (saResult s).selected = features s.current := selectedFrom_zero s.current
    have hco : (saResult s).coeff = c := by
      rw [← ht, ← numFeatures_eq_card]; rfl
    obtain ⟨r, h1, -⟩ := hf
    refine ⟨s.current, hi.len, hsel, ?_, ?_, ?_, ?_⟩
    · rw [hsel]; exact features_sorted s.current
    · rw [hsel]; exact List.ne_nil_of_length_pos hi.pos
    · rw [hsel, hco, hc]; rfl
    · rw [hco]; exact h1

/-! ## C29 -/

theorem features_inj {a b : List Bool} (hl : a.length = b.length) (h : features a = features b) :
    a = b := by
  apply List.ext_getElem hl
  intro i h1 h2
  have h3 : (a[i]? = some true) ↔ (b[i]? = some true) := by
    have ha : i ∈ features a ↔ HasFeature a i := mem_features a i
    have hb : i ∈ features b ↔ HasFeature b i := mem_features b i
    rw [h] at ha
    exact ha.symm.trans hb
  rw [List.getElem?_eq_getElem h1, List.getElem?_eq_getElem h2] at h3
  simpa using h3

theorem itemOf_fun {P : SaInput} {m m' : List Bool} {x x' : SAItem ℝ} (h : ItemOf P m x)
    (h' : ItemOf P m' x') (hs : x.selection = x'.selection) : x.score = x'.score := by
  obtain ⟨h1, -, -, h2, h3⟩ := h
  obtain ⟨h1', -, -, h2', h3'⟩ := h'
  rw [h2, h2'] at hs
  have := (List.map_injective_iff.2 fun _ _ => Int.ofNat.inj) hs
  have := features_inj (h1.trans h1'.symm) this
  subst this
  exact neg_injective (isFit_unique h3 h3').2

/-- `BestItem` has the smallest cost of all accepted models and describes one of them.  Missing:
`Selected` is that model (see `C29_refuted`). -/
theorem C29_best_item_partial (P : SaInput) (hd : SaData P) (r : SaRes) (h : SaReturns P r) :
    ∃ b, r.scores.best = some b ∧ (∀ x ∈ r.acc, x.score ≤ (r.scores.heap b).score) ∧
      ∃ x ∈ r.acc, x.selection = (r.scores.heap b).selection ∧
        x.score = (r.scores.heap b).score := by
  obtain ⟨s, hi, ha, rfl⟩ := saReturns_inv hd h
  obtain ⟨b, hb, h1, -⟩ := C24_best 10 _ s.acc s.scores hi.run ha
  refine ⟨b, hb, fun x hx => ?_, C24_best_item 10 _ s.acc s.scores hi.run b hb⟩
  have hfun : ∀ x ∈ s.acc, ∀ z ∈ s.acc, x.selection = z.selection → x.score = z.score := by
    intro x hx z hz e
    obtain ⟨m, hm⟩ := hi.items x hx
    obtain ⟨m', hm'⟩ := hi.items z hz
    exact itemOf_fun hm hm' e
  by_cases hin : ∃ e ∈ s.scores.entries, e.selection = x.selection
  · obtain ⟨e, he, hs⟩ := hin
    obtain ⟨z, hz, hz1, hz2⟩ := C26_selection_score 10 _ s.acc s.scores hi.run e he
    rw [hfun x hx z hz (hs.symm.trans hz1.symm), hz2]
    exact h1 e he
  · have hmiss : ∀ e ∈ s.scores.entries, e.selection ≠ x.selection := fun e he hs => hin ⟨e, he, hs⟩
    obtain ⟨-, hle⟩ := C25_keeps_best 10 _ s.acc s.scores hi.run hfun x hx hmiss
    have hne := (C23_no_duplicates 10 _ s.acc s.scores hi.run).2.2 ha
    obtain ⟨e, he⟩ := List.exists_mem_of_ne_nil _ hne
    exact (hle e he).trans (h1 e he)

/-! ## `Selected` need not be the best model -/

/-- Three orthonormal columns with eight rows; a single feature costs 0, two features cost 1, three
cost a million. -/
noncomputable def exSa : SaInput where
  svd := orthSvd
  X := unitX 8 3
  y := [1, 2, 3, 4, 5, 6, 7, 8]
  nSweeps := 1
  cost := fun N _ _ => if N = 1 then 0 else if N = 2 then 1 else 1000000

theorem exSa_data : SaData exSa := by
  refine ⟨by decide, rfl, fun m c σ _ _ h => ?_⟩
  obtain ⟨r, -, -, rfl⟩ := h
  have : (1000000 : ℝ) ≤ maxFloat64 := by
    have h : (1 : ℝ) * 2 ^ 20 ≤ (2 - 1 / 2 ^ 52) * 2 ^ 1023 :=
      mul_le_mul (by norm_num) (pow_le_pow_right₀ (by norm_num) (by norm_num)) (by positivity)
        (by norm_num)
    have h' : (1000000 : ℝ) ≤ 1 * 2 ^ 20 := by norm_num
    exact h'.trans h
  simp only [exSa]
  split_ifs <;> linarith

/-- An accepted step. -/
theorem exSa_accept {s : SaState} (h : SaInv exSa s) {index : Nat} {u : ℝ} {cur : List Bool}
    {N : Nat} (hc : cur.length = 3) (hN : card cur = N) (hpos : 0 < N)
    (hacc : exSa.cost N 8 0 < s.currentScore ∨
      Real.exp (-(exSa.cost N 8 0 - s.currentScore) / s.temp) > u) :
    ∃ s' : SaState, saEval exSa s index cur N u = saSweep exSa s' ∧ s'.current = cur ∧
      s'.currentScore = exSa.cost N 8 0 ∧ s'.temp = s.temp ∧ s'.numAccept = s.numAccept + 1 ∧
      s'.numSteps = s.numSteps ∧ s'.has50 = s.has50 ∧
      ∃ x, s'.acc = s.acc ++ [x] ∧ x.score = -exSa.cost N 8 0 := by
  subst hN
  obtain ⟨c, r, hf, hcl, hfit⟩ := fitModel_isFit exSa_data.rows hpos (m := cur) hc
  obtain ⟨sc, hsc⟩ := (saRun_inv 10 ⟨[], [], 0⟩ (s.acc ++
      [{ (newSAItem cur : SAItem ℝ) with
        score := -exSa.cost (card cur) 8 0
        coeff := goCopy (newSAItem cur : SAItem ℝ).coeff c }])).imp fun _ h => h.1
  rw [saRun_snoc, h.run, Option.bind_some] at hsc
  have hcost : exSa.cost (card cur) exSa.y.length (max r rssTol) = exSa.cost (card cur) 8 0 := rfl
  unfold saEval
  rw [hf]
  simp only [hcost]
  rw [if_pos hacc, hsc]
  exact ⟨_, rfl, rfl, rfl, rfl, rfl, rfl, rfl, _, rfl, rfl⟩

/-- A rejected step. -/
theorem exSa_reject {s : SaState} {index : Nat} {u : ℝ} {cur : List Bool} {N : Nat}
    (hc : cur.length = 3) (hN : card cur = N) (hpos : 0 < N)
    (hrej : ¬ (exSa.cost N 8 0 < s.currentScore ∨
      Real.exp (-(exSa.cost N 8 0 - s.currentScore) / s.temp) > u)) :
    saEval exSa s index cur N u = saSweep exSa { s with current := saFlip cur index } := by
  subst hN
  obtain ⟨c, r, hf, hcl, hfit⟩ := fitModel_isFit exSa_data.rows hpos (m := cur) hc
  have hcost : exSa.cost (card cur) exSa.y.length (max r rssTol) = exSa.cost (card cur) 8 0 := rfl
  unfold saEval
  rw [hf]
  simp only [hcost]
  rw [if_neg hrej]

theorem exp_small {x : ℝ} (h : 1 ≤ x) : ¬ Real.exp (-x) > 0.9 := by
  rw [Real.exp_neg, not_lt]
  have := Real.add_one_le_exp x
  rw [inv_le_comm₀ (by linarith [Real.exp_pos x]) (by norm_num)]
  norm_num
  linarith

/-- A state of the example run. -/
def ExAt (s : SaState) (cur : List Bool) (score temp : ℝ) (na ns : Nat) (h50 : Bool) : Prop :=
  SaReach exSa s ∧ s.current = cur ∧ s.currentScore = score ∧ s.temp = temp ∧ s.numAccept = na ∧
    s.numSteps = ns ∧ s.has50 = h50 ∧ ∃ x ∈ s.acc, x.score = 0

theorem exSa_run1 : ∃ s, ExAt s [true, false, false] 0 500 1 1 false := by
  obtain ⟨s, h, hi⟩ := SaInv.init exSa_data
  have hs : s = _ := (Option.some.inj h).symm
  have h1 : saBody exSa s 0 0 = saEval exSa s 0 [true, false, false] 1 0 := by subst hs; rfl
  obtain ⟨s', h2, c1, c2, c3, c4, c5, c6, x, c7, c8⟩ := exSa_accept hi (index := 0) (u := 0)
    (cur := [true, false, false]) (N := 1) rfl rfl (by omega)
    (Or.inr (Real.exp_pos _))
  have hn : s.numSteps = 0 ∧ s.numAccept = 0 ∧ s.temp = 500 ∧ s.has50 = false := by
    subst hs; exact ⟨rfl, rfl, rfl, rfl⟩
  have h3 : saSweep exSa s' = .next { s' with numSteps := 1 } := by
    unfold saSweep
    simp [c5, hn, exSa, unitX]
  refine ⟨_, .step 0 0 (.init h) (by decide) le_rfl (by norm_num) (h1.trans (h2.trans h3)), c1,
    by simpa [exSa] using c2, by simpa [hn] using c3, by simpa [hn] using c4, rfl,
    by simpa [hn] using c6, x, ?_, by simpa [exSa] using c8⟩
  simp [c7]

theorem exSa_run2 : ∃ s, ExAt s [true, true, false] 1 500 2 2 false := by
  obtain ⟨s, hr, e1, e2, e3, e4, e5, e6, y, hy, hy'⟩ := exSa_run1
  have h1 : saBody exSa s 1 0 = saEval exSa s 1 [true, true, false] 2 0 := by
    unfold saBody; rw [e1]; rfl
  obtain ⟨s', h2, c1, c2, c3, c4, c5, c6, x, c7, c8⟩ := exSa_accept (SaInv.reach exSa_data hr)
    (index := 1) (u := 0) (cur := [true, true, false]) (N := 2) rfl rfl (by omega)
    (Or.inr (Real.exp_pos _))
  have h3 : saSweep exSa s' = .next { s' with numSteps := 2 } := by
    unfold saSweep
    simp [c5, e5, exSa, unitX]
  refine ⟨_, .step 1 0 hr (by decide) le_rfl (by norm_num) (h1.trans (h2.trans h3)), c1,
    by simpa [exSa] using c2, by simpa [e3] using c3, by simpa [e4] using c4, rfl,
    by simpa [e6] using c6, y, ?_, hy'⟩
  simp [c7, hy]

theorem exSa_third {s : SaState} (e1 : s.current = [true, true, false]) (e2 : s.currentScore = 1)
    (h : 0 < s.temp) (h' : s.temp ≤ 500) : saBody exSa s 2 0.9 = saSweep exSa s := by
  have h1 : saBody exSa s 2 0.9 = saEval exSa s 2 [true, true, true] 3 0.9 := by
    unfold saBody; rw [e1]; rfl
  rw [h1, exSa_reject (N := 3) rfl rfl (by omega)]
  · have : saFlip [true, true, true] 2 = s.current := by rw [e1]; rfl
    rw [this]
  · have hc : exSa.cost 3 8 0 = 1000000 := by norm_num [exSa]
    rw [hc, e2, neg_div]
    rintro (h3 | h3)
    · norm_num at h3
    · refine exp_small ?_ h3
      rw [le_div_iff₀ h]
      linarith

theorem exSa_run3 : ∃ s, ExAt s [true, true, false] 1 250 0 0 true := by
  obtain ⟨s, hr, e1, e2, e3, e4, e5, e6, y, hy, hy'⟩ := exSa_run2
  have h3 : saSweep exSa s = .next { s with numAccept := 0, numSteps := 0, has50 := true, temp := 250 } := by
    unfold saSweep
    norm_num [e3, e4, e5, e6, exSa, unitX]
  exact ⟨_, .step 2 0.9 hr (by decide) (by norm_num) (by norm_num)
    ((exSa_third e1 e2 (by rw [e3]; norm_num) (by rw [e3])).trans h3), e1, e2, rfl, rfl, rfl, rfl, y,
    hy, hy'⟩

theorem exSa_run45 (k : Nat) (hk : k < 3) : ∃ s, ExAt s [true, true, false] 1 250 0 k true := by
  induction k with
  | zero => exact exSa_run3
  | succ k ih =>
    obtain ⟨s, hr, e1, e2, e3, e4, e5, e6, y, hy, hy'⟩ := ih (by omega)
    have h3 : saSweep exSa s = .next { s with numSteps := k + 1 } := by
      unfold saSweep
      have h1 : (k + 1) % 3 ≠ 0 := by omega
      have h2 : ¬ ((3 : Int) ≤ (k : Int) + 1) := by omega
      simp [e5, exSa, unitX, h1, h2]
    exact ⟨_, .step 2 0.9 hr (by decide) (by norm_num) (by norm_num)
      ((exSa_third e1 e2 (by rw [e3]; norm_num) (by rw [e3]; norm_num)).trans h3), e1, e2, e3, e4, rfl,
      e6, y, hy, hy'⟩

/-- A run that accepts {0} at cost 0, then {0, 1} at cost 1, and returns the latter. -/
theorem C29_refuted : ∃ r, SaReturns exSa r ∧ r.selected = [0, 1] ∧
    (∀ c σ, IsFit exSa [true, true, false] c σ → σ = 1) ∧
    ∃ b, r.scores.best = some b ∧ (r.scores.heap b).score = 0 := by
  obtain ⟨s, hr, e1, e2, e3, e4, e5, e6, y, hy, hy'⟩ := exSa_run45 2 (by omega)
  have h3 : saSweep exSa s = .ret (saResult { s with numSteps := 3 }) := by
    unfold saSweep
    simp [e4, e5, e6, exSa, unitX]
  have hret : SaReturns exSa (saResult { s with numSteps := 3 }) :=
    ⟨s, 2, 0.9, hr, by decide, by norm_num, by norm_num,
      (exSa_third e1 e2 (by rw [e3]; norm_num) (by rw [e3]; norm_num)).trans h3⟩
  refine ⟨_, hret, ?_, ?_, ?_⟩
  · simp only [saResult, e1]; rfl
  · rintro c σ ⟨r, -, -, rfl⟩
    have : card [true, true, false] = 2 := rfl
    norm_num [this, exSa]
  · obtain ⟨b, hb, h1, x, hx, -, hx'⟩ := C29_best_item_partial exSa exSa_data _ hret
    refine ⟨b, hb, le_antisymm ?_ (hy' ▸ h1 y hy)⟩
    rw [← hx']
    obtain ⟨m, -, -, -, -, r, -, -, hσ⟩ := (SaInv.reach exSa_data hr).items x hx
    have : 0 ≤ -x.score := by
      rw [hσ]
      simp only [exSa]
      split_ifs <;> norm_num
    linarith

/-- The hypotheses of C27 - C29 hold for `exSa`, which has a run that returns. -/
example : SaData exSa ∧ ∃ r, SaReturns exSa r :=
  ⟨exSa_data, C29_refuted.imp fun _ h => h.1⟩

end GoSelect
