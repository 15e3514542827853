import Verif.Model.AnnealingGap
import Verif.Proofs.NonFinite
import Verif.Proofs.Annealing
import Verif.Proofs.SaWalk

/-! Simulated annealing on features with gaps. -/

namespace GoSelect

open Spec

/-- The products of gonum: a row with a value that is not a number has a product that is not a number. -/
structure Spec.GapSpreads (gapFit : Mat (Fl ℝ) → List ℝ → Option (List (Fl ℝ)))
    (mulVec : Mat (Fl ℝ) → List (Fl ℝ) → List (Fl ℝ)) : Prop where
  length : ∀ D y c, gapFit D y = some c → c.length = D.nc
  spreads : ∀ (D : Mat (Fl ℝ)) (v : List (Fl ℝ)), v.length = D.nc → ∀ r < D.nr, (∃ c < D.nc, ∀ a, D.get r c ≠ .fin a) →
    ∀ a, (mulVec D v).getD r .nan ≠ .fin a

/-- A model of columns without gaps. -/
def Spec.Complete (X : Mat (Fl ℝ)) (m : List Bool) : Prop := ∀ c ∈ features m, ∀ r < X.nr, ∃ a, X.get r c = .fin a

/-- The problem with numbers only. -/
noncomputable def SaInputGap.real (P : SaInputGap) (cost : Nat → Nat → ℝ → ℝ) : SaInput :=
  ⟨P.svd, numbers P.X, P.y, P.nSweeps, cost⟩

/-- The same as data for `Model.NonFinite`. -/
noncomputable def SaInputGap.fl (P : SaInputGap) : SaInputFl :=
  ⟨P.svd, ⟨fun _ _ => [], fun _ _ => []⟩, numbers P.X, P.y.map .fin, P.nSweeps, P.cost⟩

theorem gap_agrees (P : SaInputGap) {cost : Nat → Nat → ℝ → ℝ}
    (hc : ∀ k n r, 0 < r → P.cost k n (.fin r) = .fin (cost k n r)) : P.fl.Agrees (P.real cost) :=
  ⟨rfl, rfl, rfl, rfl, hc⟩

theorem isFin_iff (x : Fl ℝ) : x.isFin = true ↔ ∃ a, x = .fin a := by
  cases x <;> simp [Fl.isFin]

theorem saSweepGap_eq (P : SaInputGap) (s : SaStateFl) : saSweepGap P s = saSweepFl P.fl s := rfl

/-- Design matrices of models without gaps have numbers only. -/
theorem complete_iff {P : SaInputGap} {m : List Bool} {D : Mat (Fl ℝ)} (hD : getDesignMatrix m P.X = some D) :
    allNumbers D ↔ Complete P.X m := by
  unfold getDesignMatrix at hD
  simp only [selectedFrom_zero] at hD
  split at hD
  · cases hD
  split at hD
  · cases hD
  obtain rfl := Option.some.inj hD
  unfold allNumbers Complete
  have hn : numFeatures m = (features m).length := by rw [numFeatures_eq_card]; rfl
  constructor
  · intro h c hc r hr
    obtain ⟨k, hk, rfl⟩ := List.getElem_of_mem hc
    have : (P.X.get r ((features m).getD k 0)).isFin = true := h r hr k (by rw [hn]; exact hk)
    rw [isFin_iff, List.getD_eq_getElem?_getD, List.getElem?_eq_getElem hk, Option.getD_some] at this
    exact this
  · intro h r hr k hk
    simp only at hk
    rw [hn] at hk
    show (P.X.get r ((features m).getD k 0)).isFin = true
    rw [isFin_iff, List.getD_eq_getElem?_getD, List.getElem?_eq_getElem hk, Option.getD_some]
    exact h _ (List.getElem_mem hk) r hr

theorem fitModelGap_complete {P : SaInputGap} {m : List Bool} (hm : Complete P.X m) :
    fitModelGap P m = fitModelFl P.fl.blas P.fl.svd P.fl.X P.fl.y m := by
  have h2 : fitModelFl P.fl.blas P.fl.svd P.fl.X P.fl.y m =
      (fitModel P.svd (numbers P.X) P.y m).map (fun r => (r.1.map .fin, .fin r.2)) := by
    show fitModelFl _ P.svd (numbers P.X) (P.y.map .fin) m = _
    rw [fitModelFl_fin]
  rw [h2]
  unfold fitModelGap
  rcases hD : getDesignMatrix m P.X with _ | D
  · have : getDesignMatrix m (numbers P.X) = none := by
      unfold getDesignMatrix at hD ⊢
      simp only at hD ⊢
      split at hD
      · rename_i h; rw [if_pos h]
      · rename_i h
        rw [if_neg h]
        split at hD
        · rename_i h; exact if_pos h
        · cases hD
    unfold fitModel
    rw [this]
    rfl
  · simp only
    rw [if_pos ((complete_iff hD).2 hm)]

theorem fitModelGap_big {P : SaInputGap} (hg : GapSpreads P.gapFit P.mulVec) {m : List Bool} (hm : ¬ Complete P.X m)
    {c : List (Fl ℝ)} {r : Fl ℝ} (h : fitModelGap P m = some (c, r)) : r.Big := by
  unfold fitModelGap at h
  split at h
  · cases h
  rename_i D hD
  have hnot : ¬ allNumbers D := fun h' => hm ((complete_iff hD).1 h')
  rw [if_neg hnot] at h
  split at h
  · cases h
  rename_i hrow
  rw [not_not] at hrow
  split at h
  · cases h
  rename_i coeff hcoeff
  simp only [Option.some.injEq, Prod.mk.injEq] at h
  rw [← h.2]
  unfold allNumbers at hnot
  push Not at hnot
  obtain ⟨i, hi, k, hk, hne⟩ := hnot
  have hbad : ∀ a, (P.mulVec D coeff).getD i .nan ≠ .fin a :=
    hg.spreads D coeff (hg.length D P.y coeff hcoeff) i hi ⟨k, hk, fun a ha => hne ((isFin_iff _).2 ⟨a, ha⟩)⟩
  have hdiff : ∀ (x : Fl ℝ) (b : ℝ), (∀ a, x ≠ .fin a) → ∀ a, Fl.sub x (.fin b) ≠ .fin a := by
    intro x b hx a
    cases x with
    | fin x => exact absurd rfl (hx x)
    | _ => simp [Fl.sub, Fl.neg, Fl.add]
  refine Fl.sum_big ?_ ?_
  · intro x hx
    obtain ⟨j, -, rfl⟩ := List.mem_map.1 hx
    exact Fl.sq_notNeg _
  · exact ⟨_, List.mem_map.2 ⟨i, List.mem_range.2 (by omega), rfl⟩, Fl.sq_big (hdiff _ _ hbad)⟩

/-- An item for a model without gaps. -/
def GapItem (P : SaInputGap) (cost : Nat → Nat → ℝ → ℝ) (x : SAItem ℝ) : Prop :=
  ∃ m, m.length = P.X.nc ∧ 0 < card m ∧ Complete P.X m ∧ x.selection = (features m).map Int.ofNat ∧
    IsFit (P.real cost) m x.coeff (-x.score)

/-- Invariant at the head of the loop. -/
structure GapInv (P : SaInputGap) (cost : Nat → Nat → ℝ → ℝ) (t : SaState) : Prop where
  len : t.current.length = P.X.nc
  temp : 0 < t.temp
  coeffLen : t.coeff.length = P.X.nc
  run : saRun 10 ⟨[], [], 0⟩ t.acc = some t.scores
  items : ∀ x ∈ t.acc, GapItem P cost x
  phase : (t.acc = [] ∧ t.numAccept = 0 ∧ t.has50 = false ∧ 500 ≤ t.temp) ∨
    (t.acc ≠ [] ∧ 0 < card t.current ∧ Complete P.X t.current ∧ ∃ c, IsFit (P.real cost) t.current c t.currentScore ∧
      c.length = card t.current ∧ t.coeff.take (card t.current) = c)

/-- What an iteration may do. -/
def GapOk (P : SaInputGap) (cost : Nat → Nat → ℝ → ℝ) : Outcome SaState SaRes → Prop
  | .next s => GapInv P cost s
  | .ret r => ∃ s, GapInv P cost s ∧ s.acc ≠ [] ∧ r = saResult s
  | .panic => True

/-- A sweep before anything was accepted. -/
theorem saSweep_fresh (P : SaInput) {s : SaState} (h3 : s.numAccept = 0) (h4 : s.has50 = false) (h5 : 500 ≤ s.temp) :
    ∃ s', saSweep P s = .next s' ∧ s'.current = s.current ∧ s'.coeff = s.coeff ∧ s'.scores = s.scores ∧ s'.acc = s.acc ∧
      s'.numAccept = 0 ∧ s'.has50 = false ∧ 500 ≤ s'.temp := by
  unfold saSweep
  simp only [h3, h4, Nat.cast_zero, zero_div, Bool.false_or]
  have hd : decide ((0 : ℝ) > 0.5) = false := by rw [decide_eq_false_iff_not]; norm_num
  have hh : (if decide ((s.numSteps + 1) % P.X.nc = 0) = true then decide ((0 : ℝ) > 0.5) else false) = false := by
    rw [hd]; split <;> rfl
  simp only [hh, Bool.false_eq_true, and_false, if_false, and_true]
  have ht : (500 : ℝ) ≤ (if decide ((s.numSteps + 1) % P.X.nc = 0) = true then s.temp * 2 else s.temp) := by
    split <;> linarith
  split
  · rw [if_neg (fun h => by norm_num at h ht; linarith)]
    exact ⟨_, rfl, rfl, rfl, rfl, rfl, rfl, rfl, ht⟩
  · exact ⟨_, rfl, rfl, rfl, rfl, rfl, rfl, rfl, ht⟩

theorem gap_sweep {P : SaInputGap} {cost : Nat → Nat → ℝ → ℝ} {s : SaState} (h : GapInv P cost s) :
    GapOk P cost (saSweep (P.real cost) s) := by
  rcases h.phase with ⟨h1, h2, h3, h4⟩ | ⟨h1, h2⟩
  · obtain ⟨s', e, e1, e2, e3, e4, e5, e6, e7⟩ := saSweep_fresh (P.real cost) h2 h3 h4
    rw [e]
    exact ⟨by rw [e1]; exact h.len, by linarith, by rw [e2]; exact h.coeffLen, by rw [e3, e4]; exact h.run,
      by rw [e4]; exact h.items, Or.inl ⟨by rw [e4]; exact h1, e5, e6, e7⟩⟩
  · obtain ⟨s', e1, e2, e3, e4, e5, e6, e7⟩ := saSweep_cases (P.real cost) s h.temp
    have hi : GapInv P cost s' := by
      refine ⟨by rw [e1]; exact h.len, e6, by rw [e3]; exact h.coeffLen, by rw [e4, e5]; exact h.run,
        by rw [e5]; exact h.items, Or.inr ?_⟩
      rw [e1, e2, e3, e5]
      exact ⟨h1, h2⟩
    rcases e7 with e7 | e7
    · rw [e7]; exact hi
    · rw [e7]; exact ⟨s', hi, e5 ▸ h1, rfl⟩

/-- The effect of an evaluated proposal `cur`. -/
structure GapMove (P : SaInputGap) (cost : Nat → Nat → ℝ → ℝ) (s : SaState) (cur back : List Bool) (u : ℝ) (s1 : SaState) :
    Prop where
  inv : GapInv P cost s1
  temp : s1.temp = s.temp
  has50 : s1.has50 = s.has50
  numSteps : s1.numSteps = s.numSteps
  cases : (s1.current = cur ∧ s1.numAccept = s.numAccept + 1 ∧ s1.acc ≠ []) ∨
    (s1.current = back ∧ s1.numAccept = s.numAccept ∧ s1.acc = s.acc ∧ s1.currentScore = s.currentScore ∧
      (s.acc = [] ∨ back = s.current))
  accept : Complete P.X cur → (∀ c σ, IsFit (P.real cost) cur c σ →
    σ < s.currentScore ∨ Real.exp (-(σ - s.currentScore) / s.temp) > u) →
    s1.current = cur ∧ s1.numAccept = s.numAccept + 1 ∧ s1.acc ≠ []

theorem gap_move {P : SaInputGap} (hg : GapSpreads P.gapFit P.mulVec) (hp : Propagates P.cost)
    {cost : Nat → Nat → ℝ → ℝ} (hc : ∀ k n r, 0 < r → P.cost k n (.fin r) = .fin (cost k n r))
    (hr : P.y.length = P.X.nr) {s : SaState} (h : GapInv P cost s) {index : Nat} {cur : List Bool} {u : ℝ}
    (hu0 : 0 ≤ u) (hu : u < 1) (hlen : cur.length = P.X.nc) (hpos : 0 < card cur)
    (hcase : cur = s.current ∨ saFlip cur index = s.current) :
    (¬ Complete P.X cur ∧ fitModelGap P cur = none ∧ saEvalGap P s.toFl index cur (card cur) u = .panic) ∨
    ∃ s1, saEvalGap P s.toFl index cur (card cur) u = saOutFl (saSweep (P.real cost) s1) ∧
      GapMove P cost s cur (saFlip cur index) u s1 := by
  have hag := gap_agrees P hc
  by_cases hm : Complete P.X cur
  · right
    have e : saEvalGap P s.toFl index cur (card cur) u = saEvalFl P.fl s.toFl index cur (card cur) u := by
      have hy : P.fl.y.length = P.y.length := by simp [SaInputGap.fl]
      unfold saEvalGap saEvalFl
      rw [fitModelGap_complete hm, hy]
      rfl
    rw [e.trans (saEval_toFl hag h.temp _ _ _ _)]
    obtain ⟨c, r, hf, hcl, hfit⟩ := fitModel_isFit (P := P.real cost) hr hpos hlen
    have hrow : (P.real cost).y.length = (P.real cost).X.nr := hr
    unfold saEval
    rw [hf]
    simp only [hrow]
    by_cases hacc : (P.real cost).cost (card cur) (P.real cost).X.nr (max r rssTol) < s.currentScore ∨
        Real.exp (-((P.real cost).cost (card cur) (P.real cost).X.nr (max r rssTol) - s.currentScore) / s.temp) > u
    · rw [if_pos hacc]
      obtain ⟨sc, hsc⟩ := (saRun_inv 10 ⟨[], [], 0⟩ (s.acc ++
        [{ (newSAItem cur : SAItem ℝ) with
          score := -(P.real cost).cost (card cur) (P.real cost).X.nr (max r rssTol)
          coeff := goCopy (newSAItem cur : SAItem ℝ).coeff c }])).imp fun _ h => h.1
      have hins := hsc
      rw [saRun_snoc, h.run, Option.bind_some] at hins
      rw [hins]
      have hcopy : goCopy (newSAItem cur : SAItem ℝ).coeff c = c := by
        have : (newSAItem cur : SAItem ℝ).coeff.length = c.length := by
          simp [newSAItem, numFeatures_eq_card, hcl]
        rw [goCopy, this, List.take_length, List.drop_eq_nil_of_le this.le, List.append_nil]
      refine ⟨_, rfl, ⟨⟨hlen, h.temp, ?_, hsc, ?_, Or.inr ⟨by simp, hpos, hm, c, hfit, hcl, ?_⟩⟩, rfl, rfl, rfl,
        Or.inl ⟨rfl, rfl, by simp⟩, fun _ _ => ⟨rfl, rfl, by simp⟩⟩⟩
      · simp only [goCopy_length]; exact h.coeffLen
      · intro x hx
        rcases List.mem_append.1 hx with hx | hx
        · exact h.items x hx
        · rw [List.mem_singleton.1 hx]
          refine ⟨cur, hlen, hpos, hm, ?_, ?_⟩
          · simp [newSAItem, selectedFrom_zero]
          · simp only [neg_neg, hcopy]
            exact hfit
      · have hle : c.length ≤ s.coeff.length := by
          rw [hcl, h.coeffLen, ← hlen]; exact card_le_length cur
        simp only [goCopy]
        rw [List.take_of_length_le hle, ← hcl, List.take_left]
    · rw [if_neg hacc]
      have hno : ¬ ∀ c σ, IsFit (P.real cost) cur c σ →
          σ < s.currentScore ∨ Real.exp (-(σ - s.currentScore) / s.temp) > u := fun h' => hacc (h' c _ hfit)
      rcases h.phase with hA | hB
      · exact ⟨_, rfl, ⟨⟨by simp only [saFlip_length]; exact hlen, h.temp, h.coeffLen, h.run, h.items, Or.inl hA⟩, rfl, rfl,
          rfl, Or.inr ⟨rfl, rfl, rfl, rfl, Or.inl hA.1⟩, fun _ h' => absurd h' hno⟩⟩
      · have hback : saFlip cur index = s.current := by
          rcases hcase with hcur | hcur
          · exfalso
            obtain ⟨-, -, -, c', h2, -⟩ := hB
            rw [not_or, not_lt, not_lt] at hacc
            rw [← hcur] at h2
            have heq := (isFit_unique hfit h2).2
            rw [heq, sub_self, neg_zero, zero_div, Real.exp_zero] at hacc
            linarith [hacc.2]
          · exact hcur
        have e : ({ s with current := saFlip cur index } : SaState) = s := by rw [hback]
        rw [e]
        exact ⟨_, rfl, ⟨h, rfl, rfl, rfl, Or.inr ⟨hback.symm, rfl, rfl, rfl, Or.inr hback⟩, fun _ h' => absurd h' hno⟩⟩
  · rcases hf : fitModelGap P cur with _ | ⟨c, r⟩
    · refine Or.inl ⟨hm, rfl, ?_⟩
      unfold saEvalGap
      rw [hf]
    · right
      have hbig := hp (card cur) P.y.length _ (Fl.big_max (fitModelGap_big hg hm hf) rssTol)
      refine ⟨{ s with current := saFlip cur index }, ?_, ?_⟩
      · unfold saEvalGap
        rw [hf]
        simp only
        have hna : ¬ saAcceptFl (P.cost (card cur) P.y.length (Fl.max r (.fin rssTol))) s.toFl.currentScore s.toFl.temp u :=
          not_accept hbig s.currentScore s.temp u h.temp hu0
        rw [if_neg hna, saSweepGap_eq, ← saSweep_toFl hag]
        rfl
      · rcases h.phase with hA | hB
        · exact ⟨⟨by simp only [saFlip_length]; exact hlen, h.temp, h.coeffLen, h.run, h.items, Or.inl hA⟩, rfl, rfl,
            rfl, Or.inr ⟨rfl, rfl, rfl, rfl, Or.inl hA.1⟩, fun h' => absurd h' hm⟩
        · have hback : saFlip cur index = s.current := by
            rcases hcase with hcur | hcur
            · exact absurd (hcur ▸ hB.2.2.1) hm
            · exact hcur
          have e : ({ s with current := saFlip cur index } : SaState) = s := by rw [hback]
          rw [e]
          exact ⟨h, rfl, rfl, rfl, Or.inr ⟨hback.symm, rfl, rfl, rfl, Or.inr hback⟩, fun h' => absurd h' hm⟩

theorem gap_eval {P : SaInputGap} (hg : GapSpreads P.gapFit P.mulVec) (hp : Propagates P.cost)
    {cost : Nat → Nat → ℝ → ℝ} (hc : ∀ k n r, 0 < r → P.cost k n (.fin r) = .fin (cost k n r))
    (hr : P.y.length = P.X.nr) {s : SaState} (h : GapInv P cost s) {index : Nat} {cur : List Bool} {u : ℝ}
    (hu0 : 0 ≤ u) (hu : u < 1) (hlen : cur.length = P.X.nc) (hpos : 0 < card cur)
    (hcase : cur = s.current ∨ saFlip cur index = s.current) :
    ∃ o, saEvalGap P s.toFl index cur (card cur) u = saOutFl o ∧ GapOk P cost o := by
  rcases gap_move hg hp hc hr h hu0 hu hlen hpos hcase with ⟨-, -, e⟩ | ⟨s1, e, hs1⟩
  · exact ⟨.panic, e, trivial⟩
  · exact ⟨_, e, gap_sweep hs1.inv⟩

theorem gap_body {P : SaInputGap} (hg : GapSpreads P.gapFit P.mulVec) (hp : Propagates P.cost)
    {cost : Nat → Nat → ℝ → ℝ} (hc : ∀ k n r, 0 < r → P.cost k n (.fin r) = .fin (cost k n r))
    (hr : P.y.length = P.X.nr) {s : SaState} (h : GapInv P cost s) {index : Nat} (hi : index < P.X.nc) {u : ℝ}
    (hu0 : 0 ≤ u) (hu : u < 1) : ∃ o, saBodyGap P s.toFl index u = saOutFl o ∧ GapOk P cost o := by
  have hi' : index < s.current.length := by rw [h.len]; exact hi
  unfold saBodyGap
  simp only [show s.toFl.current = s.current from rfl, saFlip_saFlip hi', numFeatures_eq_card]
  have hcard := card_saFlip hi'
  split
  · have h1 : card s.current = 1 := by omega
    have := gap_eval hg hp hc hr h (index := index) hu0 hu h.len (by omega) (Or.inl rfl)
    rwa [h1] at this
  · split
    · refine ⟨.next s, ?_, h⟩
      rfl
    · exact gap_eval hg hp hc hr h hu0 hu ((saFlip_length _ _).trans h.len) (by omega) (Or.inr (saFlip_saFlip hi'))

theorem gap_init {P : SaInputGap} (cost : Nat → Nat → ℝ → ℝ) (hcol : 0 < P.X.nc) :
    ∃ s : SaState, saInitGap P = some s.toFl ∧ GapInv P cost s := by
  obtain ⟨s, h1, h2⟩ : ∃ s, saInit (P.real cost) = some s ∧ GapInv P cost s := by
    unfold saInit
    rw [goSet, if_pos (by rw [List.length_replicate]; exact hcol)]
    exact ⟨_, rfl, ⟨by simp [SaInputGap.real, numbers], by norm_num, by simp [SaInputGap.real, numbers], rfl, by simp,
      Or.inl ⟨rfl, rfl, rfl, le_rfl⟩⟩⟩
  refine ⟨s, ?_, h2⟩
  have : saInitGap P = saInitFl P.fl := rfl
  unfold saInit at h1
  rw [this]
  unfold saInitFl
  split at h1
  · cases h1
  · rename_i cur hcur
    obtain rfl := Option.some.inj h1
    have hcur' : goSet (List.replicate P.fl.X.nc false) 0 true = some cur := hcur
    rw [hcur']
    simp only [SaState.toFl, List.map_replicate, List.map_nil]
    rfl

theorem gap_runs {P : SaInputGap} (hg : GapSpreads P.gapFit P.mulVec) (hp : Propagates P.cost)
    {cost : Nat → Nat → ℝ → ℝ} (hc : ∀ k n r, 0 < r → P.cost k n (.fin r) = .fin (cost k n r))
    (hr : P.y.length = P.X.nr) {index : Nat → Nat} (hi : ∀ k, index k < P.X.nc) {u : Nat → ℝ} (hu0 : ∀ k, 0 ≤ u k)
    (hu : ∀ k, u k < 1) {st : Nat × SaStateFl} {r : SaResFl} (h : Runs (saStreamGap P index u) st r) (s : SaState)
    (hs : st.2 = s.toFl) (hinv : GapInv P cost s) : ∃ t, GapInv P cost t ∧ t.acc ≠ [] ∧ r = (saResult t).toFl := by
  induction h generalizing s with
  | ret h' =>
    rename_i st r
    obtain ⟨o, h1, h2⟩ := gap_body hg hp hc hr hinv (hi st.1) (hu0 st.1) (hu st.1)
    unfold saStreamGap at h'
    rw [hs, h1] at h'
    cases o with
    | next t => cases h'
    | panic => cases h'
    | ret r' =>
      obtain ⟨t, t1, t2, rfl⟩ := h2
      simp only [saOutFl, Outcome.ret.injEq] at h'
      exact ⟨t, t1, t2, h'.symm⟩
  | next h' _ ih =>
    rename_i st st' r hrun
    obtain ⟨o, h1, h2⟩ := gap_body hg hp hc hr hinv (hi st.1) (hu0 st.1) (hu st.1)
    unfold saStreamGap at h'
    rw [hs, h1] at h'
    cases o with
    | ret r' => cases h'
    | panic => cases h'
    | next t =>
      simp only [saOutFl, Outcome.next.injEq] at h'
      exact ih t (by rw [← h']) h2

end GoSelect
