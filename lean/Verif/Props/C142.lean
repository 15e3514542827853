import Verif.Proofs.AnnealingGap
import Verif.Props.C115

/-!
# C142: features with values that are not numbers, in simulated annealing
-/

namespace GoSelect

open Spec

/-- What the search may return: a model of columns without gaps, with the coefficients of its fit, and a list of such
models with their scores. -/
structure Spec.PassesGaps (P : SaInputGap) (cost : Nat → Nat → ℝ → ℝ) (r : SaResFl) : Prop where
  selected : ∃ m c σ, m.length = P.X.nc ∧ Complete P.X m ∧ r.selected = features m ∧ r.selected ≠ [] ∧
    IsFit (P.real cost) m c σ ∧ r.coeff = c.map .fin
  listed : ∀ e ∈ r.scores.entries, ∃ m c σ, m.length = P.X.nc ∧ 0 < card m ∧ Complete P.X m ∧
    e.selection = (features m).map Int.ofNat ∧ IsFit (P.real cost) m c σ ∧ e.score = .fin (-σ)

/-- If the search returns, its result and all listed models are made of columns without gaps, with the coefficients and
scores of a search in these columns alone.  Missing for the full claim: that it returns. -/
theorem C142_passes_partial {P : SaInputGap} (hg : GapSpreads P.gapFit P.mulVec) (hp : Propagates P.cost)
    {cost : Nat → Nat → ℝ → ℝ} (hc : ∀ k n r, 0 < r → P.cost k n (.fin r) = .fin (cost k n r))
    (hr : P.y.length = P.X.nr) (hcol : 0 < P.X.nc) {index : Nat → Nat} {u : Nat → ℝ} (hf : FairDraws P.X.nc index u) :
    ∃ s0, saInitGap P = some s0 ∧ ∀ r, Runs (saStreamGap P index u) (0, s0) r → PassesGaps P cost r := by
  obtain ⟨s, h1, h2⟩ := gap_init (P := P) cost hcol
  have hu : ∀ k, u k < 1 := by
    obtain ⟨v, hv, h⟩ := hf.below
    exact fun k => (h k).trans_lt hv
  refine ⟨s.toFl, h1, fun r hrun => ?_⟩
  obtain ⟨t, ht, hne, rfl⟩ := gap_runs hg hp hc hr hf.column hf.nonneg hu hrun s rfl h2
  constructor
  · rcases ht.phase with ⟨h3, -⟩ | ⟨-, h3, h4, c, h5, h6, h7⟩
    · exact absurd h3 hne
    · refine ⟨t.current, c, t.currentScore, ht.len, h4, ?_, ?_, h5, ?_⟩
      · simp [SaRes.toFl, saResult, selectedFrom_zero]
      · simp only [SaRes.toFl, saResult, selectedFrom_zero]
        exact List.ne_nil_of_length_pos h3
      · simp only [SaRes.toFl, saResult, numFeatures_eq_card, h7]
  · intro e he
    have he' : e ∈ (t.scores.map Fl.fin).entries := he
    obtain ⟨v, hv, rfl⟩ := List.mem_map.1 he'
    obtain ⟨x, hx, hx1, hx2⟩ := C26_selection_score 10 _ t.acc t.scores ht.run (t.scores.heap v) (List.mem_map.2 ⟨v, hv, rfl⟩)
    obtain ⟨m, m1, m2, m3, m4, m5⟩ := ht.items x hx
    refine ⟨m, x.coeff, -x.score, m1, m2, m3, ?_, m5, ?_⟩
    · rw [← m4, hx1]; rfl
    · rw [neg_neg, hx2]; rfl

/-- If every column has a gap, the search never returns. -/
theorem C142_no_column {P : SaInputGap} (hg : GapSpreads P.gapFit P.mulVec) (hp : Propagates P.cost)
    {cost : Nat → Nat → ℝ → ℝ} (hc : ∀ k n r, 0 < r → P.cost k n (.fin r) = .fin (cost k n r))
    (hr : P.y.length = P.X.nr) (hcol : 0 < P.X.nc) {index : Nat → Nat} {u : Nat → ℝ} (hf : FairDraws P.X.nc index u)
    (hgap : ∀ c < P.X.nc, ∃ r < P.X.nr, ∀ a, P.X.get r c ≠ .fin a) :
    ¬ ∃ s0 r, saInitGap P = some s0 ∧ Runs (saStreamGap P index u) (0, s0) r := by
  rintro ⟨s0, r, h0, hrun⟩
  obtain ⟨s0', h1, h2⟩ := C142_passes_partial hg hp hc hr hcol hf
  rw [h0, Option.some.injEq] at h1
  subst h1
  obtain ⟨m, -, -, h3, h4, h5, h6, -⟩ := (h2 r hrun).selected
  rw [h5] at h6
  obtain ⟨c, hcm⟩ := List.exists_mem_of_ne_nil _ h6
  have hlt : c < P.X.nc := by
    rw [← h3]
    exact (List.getElem?_eq_some_iff.1 ((mem_features m c).1 hcm)).1
  obtain ⟨i, hi, hbad⟩ := hgap c hlt
  obtain ⟨a, ha⟩ := h4 c hcm i hi
  exact hbad a ha

/-! ## Two columns, the second with a gap -/

/-- Two columns, the first without, the second with gaps. -/
structure Spec.SecondGap (P : SaInputGap) (cost : Nat → Nat → ℝ → ℝ) : Prop where
  spreads : GapSpreads P.gapFit P.mulVec
  fits : ∀ D y, ∃ c, P.gapFit D y = some c
  propagates : Propagates P.cost
  agrees : ∀ k n r, 0 < r → P.cost k n (.fin r) = .fin (cost k n r)
  data : SaData (P.real cost)
  rows : 6 ≤ P.X.nr
  cols : P.X.nc = 2
  first : Complete P.X [true, false]
  second : ∃ r < P.X.nr, ∀ a, P.X.get r 1 ≠ .fin a

theorem saEvalGap_complete {P : SaInputGap} {cur : List Bool} (hm : Complete P.X cur) (s : SaStateFl) (index N : Nat)
    (u : ℝ) : saEvalGap P s index cur N u = saEvalFl P.fl s index cur N u := by
  have hy : P.fl.y.length = P.y.length := by simp [SaInputGap.fl]
  unfold saEvalGap saEvalFl
  rw [fitModelGap_complete hm, hy]
  rfl

section
variable {P : SaInputGap} {cost : Nat → Nat → ℝ → ℝ} (h : SecondGap P cost)
include h

/-- The first column is accepted again and again. -/
theorem turn_first {s : SaState} (hs : SaInv (P.real cost) s) (hcur : s.current = [true, false]) {u : ℝ} (hu : u < 1) :
    ∃ s1 : SaState, saBodyGap P s.toFl 0 u = saOutFl (saSweep (P.real cost) s1) ∧
      SaOk (P.real cost) (saSweep (P.real cost) s1) ∧
      s1.current = [true, false] ∧ s1.numAccept = s.numAccept + 1 ∧ s1.numSteps = s.numSteps ∧ s1.has50 = s.has50 ∧
      s1.temp = s.temp ∧ s1.acc ≠ [] := by
  have hc2 : (P.real cost).X.nc = 2 := h.cols
  have hb : saBodyGap P s.toFl 0 u = saOutFl (saBody (P.real cost) s 0 u) := by
    unfold saBodyGap saBody
    have e : s.toFl.current = [true, false] := hcur
    have hn : numFeatures (saFlip [true, false] 0) = 0 := by decide
    have hff : saFlip (saFlip [true, false] 0) 0 = [true, false] := by decide
    simp only [e, hcur, hn, hff, if_true]
    rw [saEvalGap_complete h.first]
    exact saEval_toFl (gap_agrees P h.agrees) hs.temp _ _ _ _
  have hok := saBody_ok h.data hs (index := 0) (by rw [hc2]; decide) hu
  have hprop : proposal s.current 0 = [true, false] := by rw [hcur]; decide
  rcases saBody_step h.data hs (index := 0) (by rw [hc2]; decide) hu with ⟨h1, -, -⟩ | ⟨-, s1, h1⟩
  · rw [hcur] at h1
    exact absurd (by decide) h1
  · obtain ⟨-, -, c, σ, hfit⟩ := proposal_fit h.data hs 0
    have hacc : σ < s.currentScore ∨ Real.exp (-(σ - s.currentScore) / s.temp) > u := by
      have heq : σ = s.currentScore → Real.exp (-(σ - s.currentScore) / s.temp) > u := by
        rintro rfl
        rw [sub_self, neg_zero, zero_div, Real.exp_zero]
        exact hu
      rcases hs.score with ⟨-, h2⟩ | ⟨-, c', h2, -⟩
      · have := h.data.finite _ c σ (by rw [hprop, hc2]; rfl) (by rw [hprop]; decide) hfit
        rw [← h2] at this
        rcases this.lt_or_eq with h3 | h3
        · exact Or.inl h3
        · exact Or.inr (heq h3)
      · rw [hprop, ← hcur] at hfit
        exact Or.inr (heq (isFit_unique hfit h2).2)
    obtain ⟨h2, h3, -, x, h4, -⟩ := h1.accept c σ hfit hacc
    refine ⟨s1, by rw [hb, h1.out], by rw [← h1.out]; exact hok, by rw [h2, hprop], h3, h1.numSteps, h1.has50, h1.temp, ?_⟩
    rw [h4]
    simp

/-- The second column is never accepted. -/
theorem turn_second {s : SaState} (hs : SaInv (P.real cost) s) (hcur : s.current = [true, false]) {u : ℝ} (hu : 0 ≤ u) :
    saBodyGap P s.toFl 1 u = saOutFl (saSweep (P.real cost) s) := by
  have hrow := h.rows
  have e : s.toFl.current = [true, false] := hcur
  have hff : saFlip [true, false] 1 = [true, true] := by decide
  have hn : numFeatures [true, true] = 2 := by decide
  have hback : saFlip [true, true] 1 = [true, false] := by decide
  have hm : ¬ Complete P.X [true, true] := by
    intro hm
    obtain ⟨r, hr, hbad⟩ := h.second
    obtain ⟨a, ha⟩ := hm 1 (by decide) r hr
    exact hbad a ha
  have hr : P.y.length = P.X.nr := h.data.rows
  obtain ⟨c, r, hf⟩ : ∃ c r, fitModelGap P [true, true] = some (c, r) := by
    obtain ⟨D, hD, hnr⟩ : ∃ D, getDesignMatrix [true, true] P.X = some D ∧ D.nr = P.X.nr := by
      unfold getDesignMatrix
      simp only [hn, h.cols]
      rw [if_neg (by decide), if_neg (by rintro ⟨-, h⟩; revert h; decide)]
      exact ⟨_, rfl, rfl⟩
    have hall : ¬ allNumbers D := fun h' => hm ((complete_iff hD).1 h')
    obtain ⟨c, hc⟩ := h.fits D P.y
    refine ⟨c, ?_⟩
    unfold fitModelGap
    rw [hD]
    simp only
    rw [if_neg hall, if_neg (by rw [hnr, hr]; simp), hc]
    exact ⟨_, rfl⟩
  have hbig := h.propagates 2 P.y.length _ (Fl.big_max (fitModelGap_big h.spreads hm hf) rssTol)
  have hna : ¬ saAcceptFl (P.cost 2 P.y.length (Fl.max r (.fin rssTol))) s.toFl.currentScore s.toFl.temp u :=
    not_accept hbig s.currentScore s.temp u hs.temp hu
  unfold saBodyGap
  simp only [e, hff, hn]
  rw [if_neg (by decide), if_neg (by omega)]
  unfold saEvalGap
  rw [hf]
  simp only
  rw [if_neg hna, hback, saSweepGap_eq, ← saSweep_toFl (gap_agrees P h.agrees)]
  rw [← e]

/-- The state between the sweeps when the columns are drawn in turn. -/
structure Turn (P : SaInputGap) (cost : Nat → Nat → ℝ → ℝ) (odd : Nat) (s : SaState) : Prop where
  inv : SaInv (P.real cost) s
  current : s.current = [true, false]
  has50 : s.has50 = false
  temp : 500 ≤ s.temp
  half : s.numSteps + odd = 2 * s.numAccept
  round : (s.numSteps : Int) + 1 - odd < 2 * P.nSweeps
  acc : odd = 1 → s.acc ≠ []

theorem turn_even {s : SaState} (hs : Turn P cost 0 s) {u : ℝ} (hu : u < 1) :
    ∃ s', saBodyGap P s.toFl 0 u = .next s'.toFl ∧ Turn P cost 1 s' := by
  obtain ⟨s1, h1, h2, h3, h4, h5, h6, h7, h8⟩ := turn_first h hs.inv hs.current hu
  have hhalf := hs.half
  have hround := hs.round
  have hc2 : (P.real cost).X.nc = 2 := h.cols
  have hh : half50 (P.real cost) s1 = false := by
    unfold half50
    rw [hc2, if_neg (by rw [h5]; omega), h6, hs.has50]
  have ht : temp50 (P.real cost) s1 = s.temp := by
    unfold temp50
    rw [hc2, if_neg (by rw [h5]; omega), h7]
  have e : saSweep (P.real cost) s1 = .next { s1 with numSteps := s1.numSteps + 1, has50 := half50 (P.real cost) s1, temp := temp50 (P.real cost) s1 } := by
    rw [saSweep_eq, if_neg]
    rw [hc2, h5, show (P.real cost).nSweeps = P.nSweeps from rfl]
    push_cast at hround ⊢
    omega
  rw [e] at h1 h2
  refine ⟨_, h1, ⟨h2, h3, hh, by simp only [ht]; exact hs.temp, ?_, ?_, fun _ => h8⟩⟩
  · simp only [h4, h5]; omega
  · simp only [h5]; push_cast at hround ⊢; omega

theorem turn_odd {s : SaState} (hs : Turn P cost 1 s) {u : ℝ} (hu : 0 ≤ u) :
    ∃ s', saBodyGap P s.toFl 1 u = .next s'.toFl ∧ Turn P cost 0 s' := by
  have h1 := turn_second h hs.inv hs.current hu
  have h2 := saSweep_ok hs.inv (hs.acc rfl)
  have hhalf := hs.half
  have hround := hs.round
  have htemp := hs.temp
  have hc2 : (P.real cost).X.nc = 2 := h.cols
  have hh : half50 (P.real cost) s = false := by
    unfold half50
    rw [hc2, if_pos (by omega), hs.has50, Bool.false_or, decide_eq_false_iff_not]
    have : ((s.numSteps + 1 : Nat) : ℝ) = 2 * (s.numAccept : ℝ) := by rw [hhalf]; push_cast; ring
    rw [this]
    have hpos : (0 : ℝ) < s.numAccept := by
      have : 0 < s.numAccept := by omega
      exact_mod_cast this
    rw [gt_iff_lt, not_lt, div_le_iff₀ (by positivity)]
    norm_num
    linarith
  have ht : temp50 (P.real cost) s = s.temp * 2 := by
    unfold temp50
    rw [hc2, if_pos ⟨by omega, hh⟩]
  rw [saSweep_eq] at h1 h2
  rw [hh, ht] at h1 h2
  simp only [Bool.false_eq_true, and_false, if_false] at h1 h2
  have hns : (P.real cost).nSweeps = P.nSweeps := rfl
  rw [hc2, hns] at h1 h2
  have h12 : ¬ s.temp * 2 < 1e-12 := by norm_num; linarith
  by_cases hend : ((s.numSteps + 1 : Nat) : Int) ≥ ((2 : Nat) : Int) * P.nSweeps
  · rw [if_pos hend, if_neg h12] at h1 h2
    refine ⟨_, h1, ⟨h2, hs.current, rfl, by simp only; linarith, rfl, ?_, fun h => by simp at h⟩⟩
    push_cast at hround ⊢
    omega
  · rw [if_neg hend] at h1 h2
    refine ⟨_, h1, ⟨h2, hs.current, rfl, by simp only; linarith, ?_, ?_, fun h => by simp at h⟩⟩
    · simp only; omega
    · push_cast at hend hround ⊢
      omega

theorem turn_step {k : Nat} {s : SaState} (hs : Turn P cost (k % 2) s) {u : Nat → ℝ} (hu : ∀ k, 0 ≤ u k ∧ u k < 1) :
    ∃ s' : SaState, saStreamGap P (fun k => k % 2) u (k, s.toFl) = .next (k + 1, s'.toFl) ∧ Turn P cost ((k + 1) % 2) s' := by
  unfold saStreamGap
  simp only
  rcases Nat.mod_two_eq_zero_or_one k with hk | hk
  · rw [hk] at hs ⊢
    obtain ⟨s', h1, h2⟩ := turn_even h hs (hu k).2
    rw [h1, show (k + 1) % 2 = 1 by omega]
    exact ⟨s', rfl, h2⟩
  · rw [hk] at hs ⊢
    obtain ⟨s', h1, h2⟩ := turn_odd h hs (hu k).1
    rw [h1, show (k + 1) % 2 = 0 by omega]
    exact ⟨s', rfl, h2⟩

theorem turn_init (hsw : 0 < P.nSweeps) : ∃ s : SaState, saInitGap P = some s.toFl ∧ Turn P cost 0 s := by
  obtain ⟨s, h1, h2⟩ := SaInv.init h.data
  have h3 : saInitGap P = some s.toFl := by
    have := saInit_toFl (gap_agrees P h.agrees)
    rw [h1] at this
    exact this
  refine ⟨s, h3, ?_⟩
  unfold saInit at h1
  have hc2 : (P.real cost).X.nc = 2 := h.cols
  rw [hc2, goSet, if_pos (by decide), Option.some.injEq] at h1
  subst h1
  refine ⟨h2, rfl, rfl, le_rfl, rfl, ?_, fun h => by simp at h⟩
  push_cast
  omega

/-- The search never ends if the two columns are drawn in turn: exactly half of the proposals is accepted, and the
temperature is doubled after each pair.  It makes any number of steps, and there is no result. -/
theorem C142_endless (hsw : 0 < P.nSweeps) {u : Nat → ℝ} (hu : ∀ k, 0 ≤ u k ∧ u k < 1) :
    ∃ s0, saInitGap P = some s0 ∧ (∀ k, ∃ s, Relation.ReflTransGen
      (fun a b => saStreamGap P (fun k => k % 2) u a = .next b) (0, s0) (k, s)) ∧
      ¬ ∃ r, Runs (saStreamGap P (fun k => k % 2) u) (0, s0) r := by
  obtain ⟨s, h1, h2⟩ := turn_init h hsw
  refine ⟨s.toFl, h1, fun k => ?_, ?_⟩
  · suffices ∃ t : SaState, Turn P cost (k % 2) t ∧ Relation.ReflTransGen
        (fun a b => saStreamGap P (fun k => k % 2) u a = .next b) (0, s.toFl) (k, t.toFl) by
      obtain ⟨t, -, ht⟩ := this
      exact ⟨_, ht⟩
    induction k with
    | zero => exact ⟨s, h2, .refl⟩
    | succ k ih =>
      obtain ⟨t, t1, t2⟩ := ih
      obtain ⟨t', t3, t4⟩ := turn_step h t1 hu
      exact ⟨t', t4, t2.tail t3⟩
  · rintro ⟨r, hr⟩
    suffices ∀ (st : Nat × SaStateFl) r, Runs (saStreamGap P (fun k => k % 2) u) st r →
        ∀ t : SaState, st.2 = t.toFl → ¬ Turn P cost (st.1 % 2) t from this _ _ hr s rfl h2
    intro st r hr
    induction hr with
    | @ret st r h' =>
      intro t ht htu
      obtain ⟨t', t3, -⟩ := turn_step h htu hu
      rw [← ht] at t3
      have := h'.symm.trans t3
      cases this
    | @next st st' r h' _ ih =>
      intro t ht htu
      obtain ⟨t', t3, t4⟩ := turn_step h htu hu
      rw [← ht] at t3
      have e := Outcome.next.inj (h'.symm.trans t3)
      subst e
      exact ih t' rfl t4

/-- With other random numbers it ends: the first column is drawn twice, then the second. -/
theorem C142_ends (hsw : P.nSweeps = 1) {u : Nat → ℝ} (hu : ∀ k, 0 ≤ u k ∧ u k < 1) {index : Nat → Nat}
    (h0 : index 0 = 0) (h1 : index 1 = 0) (h2 : index 2 = 1) (h3 : index 3 = 1) :
    ∃ s0 r, saInitGap P = some s0 ∧ Runs (saStreamGap P index u) (0, s0) r ∧ r.selected = [0] := by
  obtain ⟨s, e0, t0⟩ := turn_init h (by omega)
  have hc2 : (P.real cost).X.nc = 2 := h.cols
  have hns : (P.real cost).nSweeps = 1 := hsw
  have hn0 : s.numSteps = 0 := by have := t0.round; rw [hsw] at this; push_cast at this; omega
  have hn1 : s.numAccept = 0 := by have := t0.half; omega
  -- the first draw
  obtain ⟨s1, a1, t1⟩ := turn_even h t0 (hu 0).2
  have hs1 : s1.numSteps = 1 ∧ s1.numAccept = 1 := by
    have b1 := t1.round
    have b2 := t1.half
    rw [hsw] at b1
    push_cast at b1
    omega
  -- the second draw
  obtain ⟨s2, a2, b2, c2, d2, e2, f2, g2, i2⟩ := turn_first h t1.inv t1.current (hu 1).2
  have hh : half50 (P.real cost) s2 = true := by
    unfold half50
    rw [hc2, if_pos (by rw [e2, hs1.1]), d2, e2, hs1.1, hs1.2, Bool.or_eq_true, decide_eq_true_eq]
    right
    norm_num
  have ht : temp50 (P.real cost) s2 = s1.temp := by
    unfold temp50
    rw [if_neg (by rw [hh]; simp), g2]
  have hhot := t1.temp
  rw [saSweep_eq, if_pos (by rw [hc2, hns, e2, hs1.1]; decide), if_neg (by rw [d2]; simp), hh, ht] at a2 b2
  simp only [if_true] at a2 b2
  rw [if_neg (by norm_num; linarith)] at a2 b2
  obtain ⟨s3, hs3⟩ : ∃ t : SaState, t = { s2 with numAccept := 0, numSteps := 0, has50 := true, temp := s1.temp * 0.5 } := ⟨_, rfl⟩
  rw [← hs3] at a2 b2
  have i3 : SaInv (P.real cost) s3 := b2
  have c3 : s3.current = [true, false] := by rw [hs3]; exact c2
  -- the third draw
  have a3 := turn_second h i3 c3 (hu 2).1
  have hh3 : half50 (P.real cost) s3 = true := by
    unfold half50
    rw [hs3]
    simp
  have ht3 : temp50 (P.real cost) s3 = s3.temp := by
    unfold temp50
    rw [if_neg (by rw [hh3]; simp)]
  have b3 := saSweep_ok i3 (by rw [hs3]; exact i2)
  have hn3 : s3.numSteps = 0 := by rw [hs3]
  rw [saSweep_eq, if_neg (by rw [hc2, hns, hn3]; decide), hh3, ht3] at a3 b3
  obtain ⟨s4, hs4⟩ : ∃ t : SaState, t = { s3 with numSteps := s3.numSteps + 1, has50 := true, temp := s3.temp } := ⟨_, rfl⟩
  rw [← hs4] at a3 b3
  have i4 : SaInv (P.real cost) s4 := b3
  have c4 : s4.current = [true, false] := by rw [hs4]; exact c3
  -- the fourth draw
  have a4 := turn_second h i4 c4 (hu 3).1
  have hh4 : half50 (P.real cost) s4 = true := by
    unfold half50
    rw [hs4]
    simp
  have hn4 : s4.numSteps = 1 := by rw [hs4]; show s3.numSteps + 1 = 1; rw [hn3]
  rw [saSweep_eq, if_pos (by rw [hc2, hns, hn4]; decide), if_pos ⟨by rw [hs4, hs3], hh4⟩] at a4
  refine ⟨s.toFl, ⟨[0], (s4.coeff.take 1).map .fin, s4.scores.map .fin, s4.acc.map (SAItem.map .fin)⟩, e0, ?_, ?_⟩
  · refine .next (s' := (1, s1.toFl)) ?_ (.next (s' := (2, s3.toFl)) ?_ (.next (s' := (3, s4.toFl)) ?_ (.ret ?_)))
    · unfold saStreamGap; simp only [h0]; rw [a1]
    · unfold saStreamGap; simp only [h1]; rw [a2]; rfl
    · unfold saStreamGap; simp only [h2]; rw [a3]; rfl
    · unfold saStreamGap; simp only [h3]; rw [a4]
      simp only [saOutFl, SaRes.toFl, saResult, c4]
      rfl
  · rfl

end

/-! ## A data set -/

/-- The data of `pairP`, with a missing value in the last row of the second column. -/
noncomputable def gapP : SaInputGap where
  svd := orthSvd
  gapFit := fun D _ => some (List.replicate D.nc .nan)
  mulVec := fun D _ => List.replicate D.nr .nan
  X := ⟨40, 2, fun r c => if r = 39 ∧ c = 1 then .nan else .fin ((unitX 40 2 : Mat ℝ).get r c)⟩
  y := pairY
  nSweeps := 1
  cost := aiccFl

theorem gapP_real : gapP.real aicc = pairP := by
  have hX : numbers gapP.X = (unitX 40 2 : Mat ℝ) := by
    unfold numbers gapP unitX
    congr 1
    funext r c
    simp only
    split
    · rename_i h
      rw [h.1, h.2]
      rfl
    · rfl
  unfold SaInputGap.real
  rw [hX]
  rfl

theorem gapP_second : SecondGap gapP aicc where
  spreads := ⟨fun D y c h => by
      have := Option.some.inj h
      rw [← this, List.length_replicate], fun D v _ r hr _ a => by
      show (List.replicate D.nr Fl.nan).getD r .nan ≠ _
      rw [List.getD_eq_getElem?_getD, List.getElem?_replicate, if_pos hr]
      simp⟩
  fits := fun D y => ⟨_, rfl⟩
  propagates := aicc_propagates
  agrees := fun k n r h => aiccFl_fin k n h
  data := by rw [gapP_real]; exact pair_data
  rows := by decide
  cols := rfl
  first := by
    intro c hc r hr
    have : c = 0 := by
      have h2 : features [true, false] = [0] := by decide
      rw [h2] at hc
      exact List.mem_singleton.1 hc
    subst this
    exact ⟨_, if_neg (by rintro ⟨-, h⟩; exact absurd h (by decide))⟩
  second := ⟨39, by decide, fun a h => by
    have : (if (39 = 39 ∧ 1 = 1) then (Fl.nan : Fl ℝ) else .fin ((unitX 40 2 : Mat ℝ).get 39 1)) = .fin a := h
    simp at this⟩

/-- Simulated annealing need not end on data with a missing value, although every column is drawn again and again, and a
search without the missing value ends. -/
theorem C142_refuted : ∃ (P : SaInputGap) (cost : Nat → Nat → ℝ → ℝ) (index : Nat → Nat) (u : Nat → ℝ), SecondGap P cost ∧
    0 < P.nSweeps ∧ FairDraws P.X.nc index u ∧
    (∃ s0 r, saInit (P.real cost) = some s0 ∧ Runs (saStream (P.real cost) index u) (0, s0) r) ∧
    ¬ ∃ s0 r, saInitGap P = some s0 ∧ Runs (saStreamGap P index u) (0, s0) r := by
  have hf : FairDraws 2 (fun k => k % 2) (fun _ => 1 / 2) := inTurn_fair 2 (by decide)
  refine ⟨gapP, aicc, fun k => k % 2, fun _ => 1 / 2, gapP_second, by decide, hf, ?_, ?_⟩
  · obtain ⟨s0, r, h1, h2, -⟩ := C113_returns_partial gapP_second.data (Or.inl (by decide)) hf
    exact ⟨s0, r, h1, h2⟩
  · rintro ⟨s0, r, h1, h2⟩
    obtain ⟨s0', h3, -, h4⟩ := C142_endless gapP_second (by decide) (u := fun _ => 1 / 2) (fun k => by norm_num)
    rw [h1, Option.some.injEq] at h3
    subst h3
    exact h4 ⟨r, h2⟩

/-- The result of a search with a missing value. -/
example : ∃ index u s0 r, FairDraws 2 index u ∧ saInitGap gapP = some s0 ∧ Runs (saStreamGap gapP index u) (0, s0) r ∧
    r.selected = [0] ∧ PassesGaps gapP aicc r := by
  have hf : FairDraws 2 (fun k => k / 2 % 2) (fun _ => 1 / 2) := by
    refine ⟨fun k => Nat.mod_lt _ (by decide), fun _ => by norm_num, ⟨1 / 2, by norm_num, fun _ => le_rfl⟩, fun i hi n => ?_⟩
    exact ⟨2 * (2 * n + i), by omega, by omega⟩
  obtain ⟨s0, r, h1, h2, h3⟩ := C142_ends gapP_second rfl (u := fun _ => 1 / 2) (fun k => by norm_num)
    (index := fun k => k / 2 % 2) rfl rfl rfl rfl
  obtain ⟨s0', h4, h5⟩ := C142_passes_partial gapP_second.spreads gapP_second.propagates gapP_second.agrees
    gapP_second.data.rows (by decide) hf
  rw [h1, Option.some.injEq] at h4
  subst h4
  exact ⟨_, _, s0, r, hf, h1, h2, h3, h5 r h2⟩

/-- A single column with a missing value. -/
example (index : Nat → Nat) (u : Nat → ℝ) (hf : FairDraws 1 index u) :
    ¬ ∃ s0 r, saInitGap { gapP with X := ⟨40, 1, fun r _ => if r = 39 then .nan else .fin 1⟩ } = some s0 ∧
      Runs (saStreamGap { gapP with X := ⟨40, 1, fun r _ => if r = 39 then .nan else .fin 1⟩ } index u) (0, s0) r :=
  C142_no_column (P := { gapP with X := ⟨40, 1, fun r _ => if r = 39 then .nan else .fin 1⟩ }) gapP_second.spreads
    gapP_second.propagates gapP_second.agrees (by show pairY.length = 40; simp [pairY]) (by decide) hf
    (fun c _ => ⟨39, by decide, fun a h => by simp at h⟩)

end GoSelect
