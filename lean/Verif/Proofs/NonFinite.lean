import Verif.Model.NonFinite
import Verif.Proofs.SaSteps
import Verif.Proofs.FloatArith

/-! `SelectModelSA` on responses that are not finite, and on finite ones. -/

namespace GoSelect

open Spec

/-- The lengths of what gonum returns. -/
structure Spec.BlasOk (B : Blas) : Prop where
  fit : ∀ X y, (B.fit X y).length = X.nc
  mulVec : ∀ X v, (B.mulVec X v).length = X.nr

/-- A cost that is plus infinity or NaN if the residual sum of squares is. -/
def Spec.Propagates (cost : Nat → Nat → Fl ℝ → Fl ℝ) : Prop := ∀ k n r, Fl.Big r → Fl.Big (cost k n r)

/-- Scores that are plus infinity or NaN are never accepted after finite ones. -/
theorem not_accept {score : Fl ℝ} (h : score.Big) (M temp u : ℝ) (ht : 0 < temp) (hu : 0 ≤ u) :
    ¬ saAcceptFl score (.fin M) temp u := by
  rintro (h1 | h1)
  · rcases h with rfl | rfl <;> exact absurd (show false = true from h1) (by decide)
  · rcases h with rfl | rfl
    · have h2 : Fl.exp (Fl.div (Fl.neg (Fl.sub (.posInf : Fl ℝ) (.fin M))) (.fin temp)) = .fin 0 := by
        show Fl.exp (if temp < 0 then .posInf else .negInf) = _
        rw [if_neg (by linarith)]
        rfl
      rw [h2] at h1
      have h3 : decide (u < 0) = true := h1
      rw [decide_eq_true_eq] at h3
      linarith
    · exact absurd (show false = true from h1) (by decide)

/-- Nothing was accepted so far. -/
structure Untouched (P : SaInputFl) (s : SaStateFl) : Prop where
  len : s.current.length = P.X.nc
  score : s.currentScore = .fin maxFloat64
  none : s.numAccept = 0
  half : s.has50 = false
  temp : 500 ≤ s.temp
  acc : s.acc = []

theorem fitModelFl_some {B : Blas} (hB : BlasOk B) {svd : Mat ℝ → SVD ℝ} {X : Mat ℝ} {y : List (Fl ℝ)}
    (hr : y.length = X.nr) (hy : NotFinite y) {m : List Bool} (hm : m.length = X.nc) (hpos : 0 < card m) :
    ∃ c r, fitModelFl B svd X y m = some (c, r) := by
  unfold fitModelFl
  obtain ⟨design, hd, hnr⟩ : ∃ design, getDesignMatrix m X = some design ∧ design.nr = X.nr := by
    unfold getDesignMatrix
    simp only
    rw [if_neg (by rw [numFeatures_eq_card]; omega), if_neg]
    · exact ⟨_, rfl, rfl⟩
    · rintro ⟨-, h⟩
      rw [List.any_eq_true] at h
      obtain ⟨i, hi, h⟩ := h
      rw [selectedFrom_zero, mem_features] at hi
      have := (List.getElem?_eq_some_iff.1 hi).1
      rw [decide_eq_true_eq] at h
      omega
  rw [hd]
  simp only
  have hf : fitFl B (svd design) design y = some (B.fit design y) := by
    unfold fitFl
    rw [if_neg (by rw [hnr, hr]; simp), finValues_none.2 hy]
  rw [hf]
  simp only
  obtain ⟨pred, hp, hl⟩ : ∃ pred, predictFl B design (B.fit design y) = some pred ∧ pred.length = design.nr := by
    unfold predictFl
    rw [if_neg (by rw [hB.fit]; simp)]
    rcases h : finValues (B.fit design y) with _ | c
    · exact ⟨_, rfl, hB.mulVec _ _⟩
    · have hc : c.length = design.nc := by
        have := congrArg List.length (finValues_isFin h)
        rw [hB.fit, List.length_map] at this
        exact this.symm
      show ∃ pred, (predict design c).map (List.map Fl.fin) = some pred ∧ _
      unfold predict
      rw [if_neg (by rw [hc]; simp)]
      exact ⟨_, rfl, by simp⟩
  unfold rssFl
  rw [hp]
  simp only
  rw [if_neg (by rw [hl, hnr, hr]; simp)]
  exact ⟨_, _, rfl⟩

theorem saSweepFl_untouched {P : SaInputFl} {s : SaStateFl} (h : Untouched P s) :
    ∃ s', saSweepFl P s = .next s' ∧ Untouched P s' := by
  obtain ⟨h1, h2, h3, h4, h5, h6⟩ := h
  unfold saSweepFl
  simp only [h3, h4, Nat.cast_zero, zero_div, Bool.false_or]
  have hd : decide ((0 : ℝ) > 0.5) = false := by rw [decide_eq_false_iff_not]; norm_num
  have hh : (if decide ((s.numSteps + 1) % P.X.nc = 0) = true then decide ((0 : ℝ) > 0.5) else false) = false := by
    rw [hd]; split <;> rfl
  simp only [hh, Bool.false_eq_true, and_false, if_false, and_true]
  have ht : (500 : ℝ) ≤ (if decide ((s.numSteps + 1) % P.X.nc = 0) = true then s.temp * 2 else s.temp) := by
    split <;> linarith
  split
  · rw [if_neg (fun h => by norm_num at h ht; linarith)]
    exact ⟨_, rfl, ⟨h1, h2, rfl, rfl, ht, h6⟩⟩
  · exact ⟨_, rfl, ⟨h1, h2, rfl, rfl, ht, h6⟩⟩

theorem saEvalFl_untouched {P : SaInputFl} (hB : BlasOk P.blas) (hr : P.y.length = P.X.nr) (hy : NotFinite P.y)
    (hc : Propagates P.cost) {s : SaStateFl} (h : Untouched P s) (index : Nat) {cur : List Bool} {N : Nat} {u : ℝ}
    (hu : 0 ≤ u) (hlen : cur.length = P.X.nc) (hpos : 0 < card cur) :
    ∃ s', saEvalFl P s index cur N u = .next s' ∧ Untouched P s' := by
  obtain ⟨c, r, hf⟩ := fitModelFl_some hB hr hy (svd := P.svd) hlen hpos
  have hbig := hc N P.y.length _ (Fl.big_max (fitModelFl_big hy hf) rssTol)
  unfold saEvalFl
  rw [hf]
  simp only
  rw [if_neg (by rw [h.score]; exact not_accept hbig _ _ _ (by have := h.temp; linarith) hu)]
  exact saSweepFl_untouched ⟨by rw [saFlip_length, hlen], h.score, h.none, h.half, h.temp, h.acc⟩

theorem saBodyFl_untouched {P : SaInputFl} (hB : BlasOk P.blas) (hr : P.y.length = P.X.nr) (hy : NotFinite P.y)
    (hc : Propagates P.cost) {s : SaStateFl} (h : Untouched P s) {index : Nat} (hi : index < P.X.nc) {u : ℝ}
    (hu : 0 ≤ u) : ∃ s', saBodyFl P s index u = .next s' ∧ Untouched P s' := by
  have hi' : index < s.current.length := by rw [h.len]; exact hi
  have hcard := card_saFlip hi'
  unfold saBodyFl
  simp only [saFlip_saFlip hi', numFeatures_eq_card]
  split
  · rename_i h0
    exact saEvalFl_untouched hB hr hy hc h index hu h.len (by omega)
  · split
    · exact ⟨_, rfl, ⟨h.len, h.score, h.none, h.half, h.temp, h.acc⟩⟩
    · exact saEvalFl_untouched hB hr hy hc h index hu (by rw [saFlip_length, h.len]) (by omega)

theorem saInitFl_untouched {P : SaInputFl} (hc : 0 < P.X.nc) : ∃ s, saInitFl P = some s ∧ Untouched P s := by
  unfold saInitFl
  rw [goSet, if_pos (by simpa using hc)]
  exact ⟨_, rfl, ⟨by simp, rfl, rfl, rfl, le_rfl, rfl⟩⟩

/-! ## Finite responses -/

def SAItem.map {α β : Type} (f : α → β) (x : SAItem α) : SAItem β := ⟨x.selection, x.coeff.map f, f x.score⟩

def SAScore.map {α β : Type} (f : α → β) (s : SAScore α) : SAScore β :=
  ⟨s.cap, s.items, s.best, s.worst, fun k => (s.heap k).map f⟩

section
variable {α β : Type} [LT α] [DecidableLT α] [LT β] [DecidableLT β] {f : α → β}

theorem worstLoop_map (hf : ∀ a b, f a < f b ↔ a < b) (heap : Nat → SAItem α) (items : List Nat) (a : α) (w : Nat) :
    worstLoop (fun k => (heap k).map f) items (f a, w) =
      (f (worstLoop heap items (a, w)).1, (worstLoop heap items (a, w)).2) := by
  unfold worstLoop
  induction items generalizing a w with
  | nil => rfl
  | cons v items ih =>
    rw [List.foldl_cons, List.foldl_cons]
    have e : ((heap v).map f).score = f (heap v).score := rfl
    simp only [e]
    by_cases h : (heap v).score < a
    · rw [if_pos h, if_pos ((hf _ _).2 h)]
      exact ih _ _
    · rw [if_neg h, if_neg (fun h' => h ((hf _ _).1 h'))]
      exact ih _ _

theorem insert_map (hf : ∀ a b, f a < f b ↔ a < b) (s : SAScore α) (p : Nat) :
    (s.map f).insert p = (s.insert p).map (SAScore.map f) := by
  obtain ⟨cap, items, best, worst, heap⟩ := s
  have hex : (SAScore.map f ⟨cap, items, best, worst, heap⟩).exists p = SAScore.exists ⟨cap, items, best, worst, heap⟩ p := rfl
  unfold SAScore.insert
  rw [hex]
  by_cases h1 : SAScore.exists ⟨cap, items, best, worst, heap⟩ p = true
  · rw [if_pos h1, if_pos h1]; rfl
  · rw [if_neg h1, if_neg h1]
    by_cases h2 : items.length = 0
    · refine (if_pos h2).trans ?_
      rw [if_pos h2]
      rfl
    · refine (if_neg h2).trans ?_
      rw [if_neg h2]
      rcases best with _ | b
      · rfl
      rcases worst with _ | w
      · rfl
      by_cases h3 : (items.length : Int) < cap
      · refine (if_pos h3).trans ?_
        simp only
        rw [if_pos h3]
        simp only [SAScore.map, SAItem.map, hf, Option.map_some]
      · refine (if_neg h3).trans ?_
        simp only
        rw [if_neg h3]
        by_cases h4 : (heap w).score < (heap p).score
        · refine (if_pos ((hf _ _).2 h4)).trans ?_
          rw [if_pos h4]
          have hu : Function.update (fun k => (heap k).map f) w
              ⟨((heap p).map f).selection, ((heap w).map f).coeff, ((heap p).map f).score⟩ =
              fun k => (Function.update heap w ⟨(heap p).selection, (heap w).coeff, (heap p).score⟩ k).map f := by
            funext k
            by_cases hk : k = w
            · subst hk; simp [SAItem.map]
            · simp [Function.update_of_ne hk]
          simp only [SAScore.map, hu, Option.map_some]
          have := worstLoop_map hf (Function.update heap w ⟨(heap p).selection, (heap w).coeff, (heap p).score⟩) items
            (Function.update heap w ⟨(heap p).selection, (heap w).coeff, (heap p).score⟩ p).score w
          simp only [SAItem.map] at this ⊢
          rw [this]
          simp only [hf]
        · refine (if_neg (fun h => h4 ((hf _ _).1 h))).trans ?_
          rw [if_neg h4]
          rfl

theorem insertNew_map (hf : ∀ a b, f a < f b ↔ a < b) (s : SAScore α) (k : Nat) (x : SAItem α) :
    (s.map f).insertNew k (x.map f) = (s.insertNew k x).map (SAScore.map f) := by
  unfold SAScore.insertNew
  rw [← insert_map hf]
  congr 1
  unfold SAScore.map
  simp only [SAScore.mk.injEq, true_and]
  funext j
  by_cases hj : j = k
  · subst hj; simp
  · simp [Function.update_of_ne hj]

end

theorem fin_lt (a b : ℝ) : (Fl.fin a : Fl ℝ) < .fin b ↔ a < b := by
  show decide (a < b) = true ↔ _
  rw [decide_eq_true_eq]

/-- The state of a finite search. -/
def SaState.toFl (s : SaState) : SaStateFl where
  current := s.current
  currentScore := .fin s.currentScore
  coeff := s.coeff.map .fin
  temp := s.temp
  numAccept := s.numAccept
  numSteps := s.numSteps
  has50 := s.has50
  scores := s.scores.map .fin
  acc := s.acc.map (SAItem.map .fin)

def SaRes.toFl (r : SaRes) : SaResFl where
  selected := r.selected
  coeff := r.coeff.map .fin
  scores := r.scores.map .fin
  acc := r.acc.map (SAItem.map .fin)

def saOutFl : Outcome SaState SaRes → Outcome SaStateFl SaResFl
  | .next s => .next s.toFl
  | .ret r => .ret r.toFl
  | .panic => .panic

/-- The same finite data, as a special case of data with any response. -/
structure SaInputFl.Agrees (Q : SaInputFl) (P : SaInput) : Prop where
  svd : Q.svd = P.svd
  X : Q.X = P.X
  y : Q.y = P.y.map .fin
  sweeps : Q.nSweeps = P.nSweeps
  cost : ∀ k n r, 0 < r → Q.cost k n (.fin r) = .fin (P.cost k n r)

theorem saResult_toFl (s : SaState) : saResultFl s.toFl = (saResult s).toFl := by
  unfold saResultFl saResult SaRes.toFl SaState.toFl
  simp only [List.map_take]

/-- As `half50`. -/
noncomputable def half50Fl (P : SaInputFl) (s : SaStateFl) : Bool :=
  open Classical in
  if (s.numSteps + 1) % P.X.nc = 0 then
    s.has50 || decide ((s.numAccept : ℝ) / ((s.numSteps + 1 : Nat) : ℝ) > 0.5) else s.has50

/-- As `temp50`. -/
noncomputable def temp50Fl (P : SaInputFl) (s : SaStateFl) : ℝ :=
  if (s.numSteps + 1) % P.X.nc = 0 ∧ half50Fl P s = false then s.temp * 2 else s.temp

theorem saSweepFl_eq (P : SaInputFl) (s : SaStateFl) : saSweepFl P s =
    if ((s.numSteps + 1 : Nat) : Int) ≥ (P.X.nc : Int) * P.nSweeps then
      if s.numAccept = 0 ∧ half50Fl P s = true then
        .ret (saResultFl { s with numSteps := s.numSteps + 1, has50 := half50Fl P s, temp := temp50Fl P s })
      else
        let temp' : ℝ := if half50Fl P s = true then temp50Fl P s * 0.5 else temp50Fl P s
        let s' := { s with numAccept := 0, numSteps := 0, has50 := half50Fl P s, temp := temp' }
        if temp' < 1e-12 then .ret (saResultFl s') else .next s'
    else .next { s with numSteps := s.numSteps + 1, has50 := half50Fl P s, temp := temp50Fl P s } := by
  unfold saSweepFl temp50Fl half50Fl
  simp only [decide_eq_true_eq]

theorem saSweep_toFl {Q : SaInputFl} {P : SaInput} (h : Q.Agrees P) (s : SaState) :
    saSweepFl Q s.toFl = saOutFl (saSweep P s) := by
  have h5 : half50Fl Q s.toFl = half50 P s := by
    unfold half50Fl half50
    rw [h.X]
    rfl
  have ht : temp50Fl Q s.toFl = temp50 P s := by
    unfold temp50Fl temp50
    rw [h5, h.X]
    rfl
  rw [saSweepFl_eq, saSweep_eq, h5, ht, h.X, h.sweeps]
  by_cases h1 : ((s.numSteps + 1 : Nat) : Int) ≥ (P.X.nc : Int) * P.nSweeps
  · refine (if_pos h1).trans ?_
    rw [if_pos h1]
    by_cases h2 : s.numAccept = 0 ∧ half50 P s = true
    · refine (if_pos h2).trans ?_
      rw [if_pos h2, saOutFl, ← saResult_toFl]
      rfl
    · refine (if_neg h2).trans ?_
      rw [if_neg h2]
      by_cases h3 : (if half50 P s = true then temp50 P s * 0.5 else temp50 P s) < 1e-12
      · refine (if_pos h3).trans ?_
        simp only
        rw [if_pos h3, saOutFl, ← saResult_toFl]
        rfl
      · refine (if_neg h3).trans ?_
        simp only
        rw [if_neg h3]
        rfl
  · refine (if_neg h1).trans ?_
    rw [if_neg h1]
    rfl

theorem accept_toFl (a b t u : ℝ) (ht : 0 < t) :
    saAcceptFl (.fin a) (.fin b) t u ↔ (a < b ∨ Real.exp (-(a - b) / t) > u) := by
  unfold saAcceptFl
  rw [fin_lt]
  have : Fl.exp (Fl.div (Fl.neg (Fl.sub (.fin a : Fl ℝ) (.fin b))) (.fin t)) = .fin (Real.exp (-(a - b) / t)) := by
    show Fl.exp (Fl.divFin (-(a + -b)) t) = _
    unfold Fl.divFin
    rw [if_neg ht.ne', ← sub_eq_add_neg]
    rfl
  rw [this]
  exact or_congr Iff.rfl (fin_lt u _)

theorem goCopy_map {α β : Type} (f : α → β) (a b : List α) : goCopy (a.map f) (b.map f) = (goCopy a b).map f := by
  unfold goCopy
  simp [List.map_take, List.map_drop]

theorem saEvalFl_accept {Q : SaInputFl} {t : SaStateFl} {index : Nat} {cur : List Bool} {N : Nat} {u : ℝ}
    {C : List (Fl ℝ)} {R S : Fl ℝ} (hf : fitModelFl Q.blas Q.svd Q.X Q.y cur = some (C, R))
    (hs : Q.cost N Q.y.length (Fl.max R (.fin rssTol)) = S) (ha : saAcceptFl S t.currentScore t.temp u) :
    saEvalFl Q t index cur N u =
      ((t.scores.insertNew t.acc.length ⟨(newSAItem cur : SAItem (Fl ℝ)).selection,
        goCopy (newSAItem cur : SAItem (Fl ℝ)).coeff C, Fl.neg S⟩).map (fun scores => saSweepFl Q
          ⟨cur, S, goCopy t.coeff C, t.temp, t.numAccept + 1, t.numSteps, t.has50, scores,
            t.acc ++ [⟨(newSAItem cur : SAItem (Fl ℝ)).selection,
              goCopy (newSAItem cur : SAItem (Fl ℝ)).coeff C, Fl.neg S⟩]⟩)).getD .panic := by
  subst hs
  unfold saEvalFl
  rw [hf]
  simp only
  rw [if_pos ha]
  split
  · rename_i h; rw [h]; rfl
  · rename_i h; rw [h]; rfl

theorem saEvalFl_reject {Q : SaInputFl} {t : SaStateFl} {index : Nat} {cur : List Bool} {N : Nat} {u : ℝ}
    {C : List (Fl ℝ)} {R S : Fl ℝ} (hf : fitModelFl Q.blas Q.svd Q.X Q.y cur = some (C, R))
    (hs : Q.cost N Q.y.length (Fl.max R (.fin rssTol)) = S) (ha : ¬ saAcceptFl S t.currentScore t.temp u) :
    saEvalFl Q t index cur N u = saSweepFl Q
      ⟨saFlip cur index, t.currentScore, t.coeff, t.temp, t.numAccept, t.numSteps, t.has50, t.scores, t.acc⟩ := by
  subst hs
  unfold saEvalFl
  rw [hf]
  simp only
  rw [if_neg ha]

theorem saEval_toFl {Q : SaInputFl} {P : SaInput} (h : Q.Agrees P) {s : SaState} (ht : 0 < s.temp) (index : Nat)
    (cur : List Bool) (N : Nat) (u : ℝ) : saEvalFl Q s.toFl index cur N u = saOutFl (saEval P s index cur N u) := by
  have hfit : fitModelFl Q.blas Q.svd Q.X Q.y cur =
      (fitModel P.svd P.X P.y cur).map (fun p => (p.1.map .fin, .fin p.2)) := by
    rw [h.svd, h.X, h.y, fitModelFl_fin]
  unfold saEval
  rcases hf : fitModel P.svd P.X P.y cur with _ | ⟨c, r⟩
  · rw [hf] at hfit
    unfold saEvalFl
    rw [hfit]
    rfl
  · rw [hf, Option.map_some] at hfit
    simp only
    have hmax : Fl.max (.fin r : Fl ℝ) (.fin rssTol) = .fin (max r rssTol) := by
      show Fl.fin (if r < rssTol then rssTol else r) = _
      rw [max_def]
      congr 1
      split <;> split <;> linarith
    have hpos : 0 < max r rssTol := lt_max_of_lt_right (by unfold rssTol; positivity)
    have hs : Q.cost N Q.y.length (Fl.max (.fin r) (.fin rssTol)) = .fin (P.cost N P.y.length (max r rssTol)) := by
      rw [hmax, h.cost _ _ _ hpos, h.y, List.length_map]
    generalize P.cost N P.y.length (max r rssTol) = S at hs ⊢
    have hacc : saAcceptFl (.fin S) s.toFl.currentScore s.toFl.temp u ↔
        (S < s.currentScore ∨ Real.exp (-(S - s.currentScore) / s.temp) > u) := accept_toFl _ _ _ _ ht
    by_cases ha : S < s.currentScore ∨ Real.exp (-(S - s.currentScore) / s.temp) > u
    · rw [if_pos ha, saEvalFl_accept hfit hs (hacc.2 ha)]
      have hitem : (⟨(newSAItem cur : SAItem (Fl ℝ)).selection,
          goCopy (newSAItem cur : SAItem (Fl ℝ)).coeff (c.map .fin), Fl.neg (.fin S)⟩ : SAItem (Fl ℝ)) =
          SAItem.map .fin ⟨(newSAItem cur : SAItem ℝ).selection, goCopy (newSAItem cur : SAItem ℝ).coeff c, -S⟩ := by
        unfold SAItem.map newSAItem
        simp only [← goCopy_map, List.map_replicate]
        rfl
      rw [hitem, show s.toFl.acc.length = s.acc.length by simp [SaState.toFl],
        show s.toFl.scores = s.scores.map .fin from rfl, insertNew_map fin_lt]
      rcases s.scores.insertNew s.acc.length
        ⟨(newSAItem cur : SAItem ℝ).selection, goCopy (newSAItem cur : SAItem ℝ).coeff c, -S⟩ with _ | scores
      · rfl
      · simp only [Option.map_some, Option.getD_some]
        rw [← saSweep_toFl h]
        congr 1
        simp only [SaState.toFl, List.map_append, List.map_cons, List.map_nil, goCopy_map]
    · rw [if_neg ha, saEvalFl_reject hfit hs (fun h => ha (hacc.1 h)), ← saSweep_toFl h]
      rfl

theorem saBody_toFl {Q : SaInputFl} {P : SaInput} (h : Q.Agrees P) {s : SaState} (ht : 0 < s.temp) (index : Nat) (u : ℝ) :
    saBodyFl Q s.toFl index u = saOutFl (saBody P s index u) := by
  unfold saBodyFl saBody
  rw [h.X]
  simp only [show s.toFl.current = s.current from rfl]
  split
  · exact saEval_toFl h ht _ _ _ _
  · split
    · rfl
    · exact saEval_toFl h ht _ _ _ _

theorem saInit_toFl {Q : SaInputFl} {P : SaInput} (h : Q.Agrees P) : saInitFl Q = (saInit P).map SaState.toFl := by
  unfold saInitFl saInit
  rw [h.X]
  rcases goSet (List.replicate P.X.nc false) 0 true with _ | current
  · rfl
  · simp only [Option.map_some, SaState.toFl, List.map_replicate, List.map_nil]
    rfl

/-- The loops do the same. -/
theorem saStream_toFl {Q : SaInputFl} {P : SaInput} (h : Q.Agrees P) {index : Nat → Nat} {u : Nat → ℝ}
    (hd : SaData P) (hi : ∀ k, index k < P.X.nc) (hu0 : ∀ k, 0 ≤ u k) (hu1 : ∀ k, u k < 1) {s : Nat × SaState} {r : SaRes}
    (hs : SaReach P s.2) (hr : Runs (saStream P index u) s r) :
    Runs (saStreamFl Q index u) (s.1, s.2.toFl) r.toFl := by
  induction hr with
  | @ret s r h1 =>
    refine .ret ?_
    unfold saStream at h1
    unfold saStreamFl
    rw [saBody_toFl h (SaInv.reach hd hs).temp]
    split at h1
    · cases h1
    · rename_i h2
      cases h1
      rw [h2]; rfl
    · cases h1
  | @next s s' r h1 _ ih =>
    unfold saStream at h1
    split at h1
    · rename_i h2
      cases h1
      refine .next ?_ (ih (.step _ _ hs (hi _) (hu0 _) (hu1 _) h2))
      unfold saStreamFl
      rw [saBody_toFl h (SaInv.reach hd hs).temp]
      simp only [h2]
      rfl
    · cases h1
    · cases h1

end GoSelect
