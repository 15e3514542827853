import Verif.Proofs.AnnealingGap
import Verif.Props.C113

/-! Simulated annealing on features with gaps ends if long runs of the same column are drawn together with small numbers. -/

namespace GoSelect

open Spec

/-- Data with gaps: at least four rows, one column without gaps, no cost of a model without gaps above the largest float64.
What gonum makes of gaps is as in `GapSpreads`, and it does not panic. -/
structure Spec.GapData (P : SaInputGap) (cost : Nat → Nat → ℝ → ℝ) : Prop where
  spreads : GapSpreads P.gapFit P.mulVec
  fits : ∀ D y, ∃ c, P.gapFit D y = some c
  propagates : Propagates P.cost
  agrees : ∀ k n r, 0 < r → P.cost k n (.fin r) = .fin (cost k n r)
  response : P.y.length = P.X.nr
  rows : 4 ≤ P.X.nr
  column : ∃ c < P.X.nc, ∀ r < P.X.nr, ∃ a, P.X.get r c = .fin a
  finite : ∀ m c σ, m.length = P.X.nc → 0 < card m → Complete P.X m → IsFit (P.real cost) m c σ → σ ≤ maxFloat64

/-- Every word of columns is drawn again and again, with small other numbers. -/
structure Spec.LuckyDraws (nc : Nat) (index : Nat → Nat) (u : Nat → ℝ) : Prop where
  column : ∀ k, index k < nc
  nonneg : ∀ k, 0 ≤ u k
  below : ∀ k, u k < 1
  words : ∀ W : List Nat, (∀ i ∈ W, i < nc) → ∀ δ : ℝ, 0 < δ → ∀ n, ∃ k, n ≤ k ∧
    ∀ l (h : l < W.length), index (k + l) = W[l] ∧ u (k + l) < δ

/-- The first model of the search, and the one without features. -/
def firstModel (nc : Nat) : List Bool := (List.replicate nc false).set 0 true

def noModel (nc : Nat) : List Bool := List.replicate nc false

/-- Invariant for a search that goes on. -/
structure LuckyInv (P : SaInputGap) (cost : Nat → Nat → ℝ → ℝ) (L : Nat) (s : SaState) : Prop where
  inv : GapInv P cost s
  few : card s.current < P.X.nr / 2
  fresh : s.acc = [] → s.currentScore = maxFloat64 ∧ (s.current = firstModel P.X.nc ∨ s.current = noModel P.X.nc)
  steps : s.numSteps < L
  warm : s.has50 = false → 500 ≤ s.temp

/-- A draw is skipped, or evaluated. -/
theorem lucky_step {P : SaInputGap} {cost : Nat → Nat → ℝ → ℝ} (hd : GapData P cost) {s : SaState} (h : GapInv P cost s)
    {i : Nat} (hi : i < P.X.nc) {u : ℝ} (hu0 : 0 ≤ u) (hu : u < 1) :
    (card (saFlip s.current i) ≠ 0 ∧ P.X.nr / 2 ≤ card (saFlip s.current i) ∧ saBodyGap P s.toFl i u = saOutFl (.next s)) ∨
    ((card (saFlip s.current i) = 0 ∨ card (saFlip s.current i) < P.X.nr / 2) ∧
      ∃ s1, saBodyGap P s.toFl i u = saOutFl (saSweep (P.real cost) s1) ∧
        GapMove P cost s (proposal s.current i) (if card (saFlip s.current i) = 0 then saFlip s.current i else s.current)
          u s1) := by
  have hi' : i < s.current.length := by rw [h.len]; exact hi
  have hfit : ∀ m : List Bool, m.length = P.X.nc → 0 < card m → ¬ Complete P.X m → fitModelGap P m ≠ none := by
    intro m hm hpos hnc hnone
    unfold fitModelGap at hnone
    have hcol : ¬ (0 < P.X.nr ∧ (selectedFrom 0 m).any (fun i => decide (P.X.nc ≤ i)) = true) := by
      rintro ⟨-, h'⟩
      rw [selectedFrom_zero, List.any_eq_true] at h'
      obtain ⟨c, hcm, hle⟩ := h'
      have hlt := (List.getElem?_eq_some_iff.1 ((mem_features m c).1 hcm)).1
      rw [decide_eq_true_eq] at hle
      omega
    obtain ⟨D, hD, hrow⟩ : ∃ D, getDesignMatrix m P.X = some D ∧ D.nr = P.X.nr := by
      unfold getDesignMatrix
      simp only
      rw [if_neg (by rw [numFeatures_eq_card]; omega), if_neg hcol]
      exact ⟨_, rfl, rfl⟩
    rw [hD] at hnone
    simp only at hnone
    rw [if_neg (fun h' => hnc ((complete_iff hD).1 h')), if_neg (not_not.2 (hrow.trans hd.response.symm))] at hnone
    obtain ⟨c, hc⟩ := hd.fits D P.y
    rw [hc] at hnone
    cases hnone
  unfold saBodyGap proposal
  simp only [show s.toFl.current = s.current from rfl, saFlip_saFlip hi', numFeatures_eq_card]
  have hcard := card_saFlip hi'
  by_cases h0 : card (saFlip s.current i) = 0
  · right
    rw [if_pos h0, if_pos h0, if_pos h0]
    have h1 : card s.current = 1 := by omega
    refine ⟨Or.inl h0, ?_⟩
    have := gap_move hd.spreads hd.propagates hd.agrees hd.response h (index := i) hu0 hu h.len (by omega) (Or.inl rfl)
    rw [h1] at this
    rcases this with ⟨h2, h3, -⟩ | h2
    · exact absurd h3 (hfit _ h.len (by omega) h2)
    · exact h2
  · by_cases h2 : card (saFlip s.current i) ≥ P.X.nr / 2
    · left
      rw [if_neg h0, if_pos h2]
      exact ⟨h0, h2, rfl⟩
    · right
      rw [if_neg h0, if_neg h0, if_neg h0, if_neg h2]
      refine ⟨Or.inr (by omega), ?_⟩
      have := gap_move hd.spreads hd.propagates hd.agrees hd.response h (index := i) hu0 hu
        ((saFlip_length _ _).trans h.len) (by omega) (Or.inr (saFlip_saFlip hi'))
      rcases this with ⟨h2, h3, -⟩ | h2
      · exact absurd h3 (hfit _ ((saFlip_length _ _).trans h.len) (by omega) h2)
      · rwa [saFlip_saFlip hi'] at h2

theorem toFl_injective {s t : SaState} (h : s.toFl = t.toFl) : s = t := by
  have hf : Function.Injective (Fl.fin : ℝ → Fl ℝ) := fun a b h => Fl.fin.inj h
  have hm : Function.Injective (SAItem.map (Fl.fin : ℝ → Fl ℝ)) := by
    rintro ⟨a, b, c⟩ ⟨a', b', c'⟩ h
    simp only [SAItem.map, SAItem.mk.injEq, Fl.fin.injEq] at h
    obtain ⟨rfl, h2, rfl⟩ := h
    rw [List.map_injective_iff.2 hf h2]
  obtain ⟨a1, a2, a3, a4, a5, a6, a7, ⟨b1, b2, b3, b4, b5⟩, a9⟩ := s
  obtain ⟨c1, c2, c3, c4, c5, c6, c7, ⟨d1, d2, d3, d4, d5⟩, c9⟩ := t
  simp only [SaState.toFl, SaStateFl.mk.injEq, Fl.fin.injEq, SAScore.map, SAScore.mk.injEq] at h
  obtain ⟨rfl, rfl, h3, rfl, rfl, rfl, rfl, ⟨rfl, rfl, rfl, rfl, h8⟩, h9⟩ := h
  rw [List.map_injective_iff.2 hf h3, List.map_injective_iff.2 hm h9]
  have : b5 = d5 := funext fun k => hm (congrFun h8 k)
  rw [this]

/-- What an iteration does that is not the last one. -/
def LuckyNext (P : SaInputGap) (cost : Nat → Nat → ℝ → ℝ) (s : SaState) (i : Nat) (u : ℝ) (s' : SaState) : Prop :=
  (card (saFlip s.current i) ≠ 0 ∧ P.X.nr / 2 ≤ card (saFlip s.current i) ∧ s' = s) ∨
    ((card (saFlip s.current i) = 0 ∨ card (saFlip s.current i) < P.X.nr / 2) ∧
      ∃ s1, saSweep (P.real cost) s1 = .next s' ∧
        GapMove P cost s (proposal s.current i) (if card (saFlip s.current i) = 0 then saFlip s.current i else s.current)
          u s1)

theorem card_firstModel {nc : Nat} (h : 0 < nc) : card (firstModel nc) = 1 := by
  unfold firstModel
  rw [card_eq_count, List.count_eq_countP]
  have := countP_set (fun b => b == true) (l := List.replicate nc false) (i := 0) (a := false)
    (b := true) (by rw [List.getElem?_replicate, if_pos h])
  simp [List.countP_replicate] at this
  simpa using this

theorem card_noModel (nc : Nat) : card (noModel nc) = 0 := by
  unfold noModel
  rw [card_eq_count]
  simp [List.count_replicate]

theorem saFlip_noModel (nc i : Nat) : saFlip (noModel nc) i = (noModel nc).set i true := by
  unfold saFlip noModel
  simp [List.getD_eq_getElem?_getD, List.getElem?_replicate]
  split <;> rfl

theorem card_single {nc i : Nat} (h : i < nc) : card ((noModel nc).set i true) = 1 := by
  unfold noModel
  rw [card_eq_count, List.count_eq_countP]
  have := countP_set (fun b => b == true) (l := List.replicate nc false) (i := i) (a := false)
    (b := true) (by rw [List.getElem?_replicate, if_pos h])
  simp [List.countP_replicate] at this
  simpa using this

theorem firstModel_flip {nc : Nat} (h : 0 < nc) : saFlip (firstModel nc) 0 = noModel nc := by
  have e : firstModel nc = saFlip (noModel nc) 0 := by rw [saFlip_noModel]; rfl
  rw [e, saFlip_saFlip (by simpa [noModel] using h)]

theorem lucky_next {P : SaInputGap} {cost : Nat → Nat → ℝ → ℝ} (hd : GapData P cost) {L : Nat}
    (hL : Rounds (P.real cost) L) {s : SaState} (h : LuckyInv P cost L s) {i : Nat} (hi : i < P.X.nc) {u : ℝ}
    (hu0 : 0 ≤ u) (hu : u < 1) :
    (∃ r, saBodyGap P s.toFl i u = .ret r) ∨
      ∃ s', saBodyGap P s.toFl i u = .next s'.toFl ∧ LuckyInv P cost L s' ∧ LuckyNext P cost s i u s' := by
  have hpos : 0 < P.X.nc := by omega
  have hhalf : 2 ≤ P.X.nr / 2 := by
    have := hd.rows
    omega
  rcases lucky_step hd h.inv hi hu0 hu with ⟨h1, h2, h3⟩ | ⟨h1, s1, h2, h3⟩
  · exact Or.inr ⟨s, h3, h, Or.inl ⟨h1, h2, rfl⟩⟩
  · have hok := gap_sweep h3.inv
    rcases ho : saSweep (P.real cost) s1 with s' | r
    · right
      rw [ho] at h2 hok
      refine ⟨s', h2, ?_, Or.inr ⟨h1, s1, ho, h3⟩⟩
      obtain ⟨e1, e2, e3, e4, e5⟩ := saSweep_next ho
      have hfew1 : card s1.current < P.X.nr / 2 := by
        have hf := h.few
        rcases h3.cases with ⟨c1, -⟩ | ⟨c1, -, -, -, -⟩
        · rw [c1]
          unfold proposal
          split <;> omega
        · rw [c1]
          split <;> omega
      refine ⟨hok, by rw [e1]; exact hfew1, ?_, ?_, ?_⟩
      · intro hacc
        rw [e3] at hacc
        rw [e1, e2]
        rcases h3.cases with ⟨-, -, c3⟩ | ⟨c1, -, c3, c4, -⟩
        · exact absurd hacc c3
        · rw [c3] at hacc
          obtain ⟨f1, f2⟩ := h.fresh hacc
          refine ⟨c4.trans f1, ?_⟩
          rw [c1]
          split
          · rename_i h0
            right
            have hl : (saFlip s.current i).length = P.X.nc := by rw [saFlip_length]; exact h.inv.len
            rw [card_eq_count, List.count_eq_zero] at h0
            refine List.eq_replicate_iff.2 ⟨hl, fun b hb => ?_⟩
            cases b
            · rfl
            · exact absurd hb h0
          · exact f2
      · rcases e5 with ⟨-, e6, -⟩ | ⟨e6, e7, -⟩
        · rw [e6]; exact hL.pos
        · rw [e7]
          have := (hL.ends s1.numSteps).not.1 (not_le.2 e6)
          omega
      · intro h50
        rw [e4] at h50
        have hs50 : s.has50 = false := by
          rw [← h3.has50]
          unfold half50 at h50
          split at h50
          · exact (Bool.or_eq_false_iff.1 h50).1
          · exact h50
        have ht := h.warm hs50
        have htemp : 500 ≤ temp50 (P.real cost) s1 := by
          unfold temp50
          rw [h3.temp]
          split <;> linarith
        rcases e5 with ⟨-, -, -, e6, -⟩ | ⟨-, -, -, e6⟩
        · rw [e6, h50, if_neg (by simp)]
          exact htemp
        · rw [e6]
          exact htemp
    · left
      rw [ho] at h2
      exact ⟨_, h2⟩
    · obtain ⟨s', -, -, -, -, -, -, h7⟩ := saSweep_cases (P.real cost) s1 h3.inv.temp
      rcases h7 with h7 | h7 <;> rw [h7] at ho <;> cases ho

/-! ### A search that never ends -/

/-- An infinite run. -/
structure LuckyEndless (P : SaInputGap) (cost : Nat → Nat → ℝ → ℝ) (L : Nat) (index : Nat → Nat) (u : Nat → ℝ)
    (run : Nat → SaState) : Prop where
  inv : ∀ k, LuckyInv P cost L (run k)
  step : ∀ k, LuckyNext P cost (run k) (index k) (u k) (run (k + 1))

/-- The draw is evaluated, and accepted if half of the steps were not yet accepted. -/
structure Counted (P : SaInputGap) (cost : Nat → Nat → ℝ → ℝ) (s s' s1 : SaState) : Prop where
  out : saSweep (P.real cost) s1 = .next s'
  temp : s1.temp = s.temp
  has50 : s1.has50 = s.has50
  numSteps : s1.numSteps = s.numSteps
  numAccept : s.has50 = false → s1.numAccept = s.numAccept + 1

theorem set_saFlip (m : List Bool) (c : Nat) : (saFlip m c).set c true = m.set c true := by
  unfold saFlip
  rw [List.set_set]

theorem set_of_mem {m : List Bool} {c : Nat} (h : m[c]? = some true) : m.set c true = m := by
  obtain ⟨h1, h2⟩ := List.getElem?_eq_some_iff.1 h
  rw [← h2, List.set_getElem_self]

theorem flip_of_not_mem {m : List Bool} {c : Nat} (hc : c < m.length) (h : m[c]? ≠ some true) :
    saFlip m c = m.set c true := by
  have e : m.getD c false = false := by
    rw [List.getD_eq_getElem?_getD]
    rw [List.getElem?_eq_getElem hc] at h ⊢
    rw [Option.getD_some]
    cases hb : m[c]
    · rfl
    · rw [hb] at h; exact absurd rfl h
  unfold saFlip
  rw [e]
  rfl

theorem card_flip_le {m : List Bool} {c : Nat} (hc : c < m.length) : card (saFlip m c) ≤ card (m.set c true) := by
  by_cases h : m[c]? = some true
  · rw [set_of_mem h]
    have e : m.getD c false = true := by rw [List.getD_eq_getElem?_getD, h]; rfl
    have := countP_set (fun b => b == true) (l := m) (i := c) (a := true) (b := false) h
    rw [card_eq_count, card_eq_count, saFlip, e, List.count_eq_countP, List.count_eq_countP]
    simp at this ⊢
    omega
  · rw [flip_of_not_mem hc h]

theorem complete_proposal {P : SaInputGap} {m : List Bool} {c : Nat} (hm : Complete P.X m)
    (hcol : ∀ r < P.X.nr, ∃ a, P.X.get r c = .fin a) : Complete P.X (proposal m c) := by
  unfold proposal
  split
  · exact hm
  · intro j hj
    rw [mem_features] at hj
    by_cases hjc : j = c
    · subst hjc; exact hcol
    · refine hm j ?_
      rw [mem_features]
      unfold saFlip HasFeature at hj
      unfold HasFeature
      rwa [List.getElem?_set_ne (fun h => hjc h.symm)] at hj

section
variable {P : SaInputGap} {cost : Nat → Nat → ℝ → ℝ} (hd : GapData P cost) {L : Nat} (hL : Rounds (P.real cost) L)
  {index : Nat → Nat} {u : Nat → ℝ} (hf : LuckyDraws P.X.nc index u) {run : Nat → SaState}
  (hr : LuckyEndless P cost L index u run)

include hr in
theorem acc_next (k : Nat) (h : (run k).acc ≠ []) : (run (k + 1)).acc ≠ [] := by
  rcases hr.step k with ⟨-, -, h1⟩ | ⟨-, s1, h1, h2⟩
  · rw [h1]; exact h
  · rw [(saSweep_next h1).2.2.1]
    rcases h2.cases with ⟨-, -, c⟩ | ⟨-, -, c, -⟩
    · exact c
    · rw [c]; exact h

include hr in
theorem acc_later {k k' : Nat} (hk : k ≤ k') (h : (run k).acc ≠ []) : (run k').acc ≠ [] := by
  induction k', hk using Nat.le_induction with
  | base => exact h
  | succ k' _ ih => exact acc_next hr k' ih

/-- With small numbers every evaluated model without gaps is accepted before half of the steps were. -/
theorem small_enough (P : SaInputGap) (cost : Nat → Nat → ℝ → ℝ) : ∃ δ : ℝ, 0 < δ ∧ ∀ {s : SaState} {cur : List Bool} {u : ℝ},
    GapInv P cost s → s.acc ≠ [] → 500 ≤ s.temp → cur.length = P.X.nc → u < δ →
    ∀ c σ, IsFit (P.real cost) cur c σ → σ < s.currentScore ∨ Real.exp (-(σ - s.currentScore) / s.temp) > u := by
  obtain ⟨C, hC, hbound⟩ := costs_bounded (P.real cost)
  refine ⟨Real.exp (-(2 * C) / 500), Real.exp_pos _, fun {s cur u} h hacc ht hlen hu c σ hfit => ?_⟩
  rcases h.phase with ⟨h1, -⟩ | ⟨-, -, -, c', h2, -⟩
  · exact absurd h1 hacc
  · exact accepts hC (by norm_num) hu (hbound _ _ _ hlen hfit) (hbound _ _ _ h.len h2) ht le_rfl

include hr in
/-- A run of draws of the same column that may be added. -/
theorem block_counted {δ : ℝ} (hδ : ∀ {s : SaState} {cur : List Bool} {u : ℝ}, GapInv P cost s → s.acc ≠ [] →
      500 ≤ s.temp → cur.length = P.X.nc → u < δ →
      ∀ c σ, IsFit (P.real cost) cur c σ → σ < s.currentScore ∨ Real.exp (-(σ - s.currentScore) / s.temp) > u)
    {c : Nat} (hc : c < P.X.nc) (hcol : ∀ r < P.X.nr, ∃ a, P.X.get r c = .fin a) {k n : Nat} (hacc : (run k).acc ≠ [])
    (hleg : card ((run k).current.set c true) < P.X.nr / 2) (hdraw : ∀ l < n, index (k + l) = c ∧ u (k + l) < δ) :
    ∀ l < n, ∃ s1, Counted P cost (run (k + l)) (run (k + l + 1)) s1 := by
  have key : ∀ l < n, card ((run (k + l)).current.set c true) < P.X.nr / 2 →
      card ((run (k + l + 1)).current.set c true) < P.X.nr / 2 ∧
        ∃ s1, Counted P cost (run (k + l)) (run (k + l + 1)) s1 := by
    intro l hl hleg
    obtain ⟨hi, hu⟩ := hdraw l hl
    have hinv := hr.inv (k + l)
    have hac : (run (k + l)).acc ≠ [] := acc_later hr (by omega) hacc
    have hcl : c < (run (k + l)).current.length := by rw [hinv.inv.len]; exact hc
    have hle := card_flip_le hcl
    have hstep := hr.step (k + l)
    rw [hi] at hstep
    rcases hstep with ⟨-, h1, -⟩ | ⟨-, s1, h1, h2⟩
    · omega
    · obtain ⟨e1, -, -, -, -⟩ := saSweep_next h1
      refine ⟨?_, s1, h1, h2.temp, h2.has50, h2.numSteps, fun h50 => ?_⟩
      · rw [e1]
        have hset : s1.current.set c true = (run (k + l)).current.set c true := by
          rcases h2.cases with ⟨e, -⟩ | ⟨e, -⟩
          · rw [e]; unfold proposal; split
            · rfl
            · exact set_saFlip _ _
          · rw [e]; split
            · exact set_saFlip _ _
            · rfl
        rw [hset]; exact hleg
      · have hcomp : Complete P.X (run (k + l)).current := by
          rcases hinv.inv.phase with ⟨h3, -⟩ | ⟨-, -, h3, -⟩
          · exact absurd h3 hac
          · exact h3
        have hlen : (proposal (run (k + l)).current c).length = P.X.nc := by
          unfold proposal; split
          · exact hinv.inv.len
          · rw [saFlip_length]; exact hinv.inv.len
        exact (h2.accept (complete_proposal hcomp hcol) (hδ hinv.inv hac (hinv.warm h50) hlen hu)).2.1
  have hleg' : ∀ l ≤ n, card ((run (k + l)).current.set c true) < P.X.nr / 2 := by
    intro l
    induction l with
    | zero => intro _; exact hleg
    | succ l ih => intro hl; exact (key l (by omega) (ih (by omega))).1
  exact fun l hl => (key l hl (hleg' l (by omega))).2

include hr in
/-- A run of draws of a column that may not be added. -/
theorem block_skipped {c : Nat} (hc : c < P.X.nc) {k n : Nat}
    (hleg : P.X.nr / 2 ≤ card ((run k).current.set c true)) (hdraw : ∀ l < n, index (k + l) = c) :
    (run k).current[c]? ≠ some true ∧ ∀ l ≤ n, run (k + l) = run k := by
  have hcl : c < (run k).current.length := by rw [(hr.inv k).inv.len]; exact hc
  have hnot : (run k).current[c]? ≠ some true := by
    intro h
    rw [set_of_mem h] at hleg
    have := (hr.inv k).few
    omega
  refine ⟨hnot, fun l => ?_⟩
  induction l with
  | zero => intro _; rfl
  | succ l ih =>
    intro hl
    have e := ih (by omega)
    have hstep := hr.step (k + l)
    unfold LuckyNext at hstep
    rw [hdraw l (by omega), e, flip_of_not_mem hcl hnot] at hstep
    have hfew := (hr.inv k).few
    rcases hstep with ⟨-, -, h1⟩ | ⟨h1, -⟩
    · exact h1
    · omega

include hr in
/-- One of the columns in the word has a run of draws that are evaluated. -/
theorem word_counted {δ : ℝ} (hδ : ∀ {s : SaState} {cur : List Bool} {u : ℝ}, GapInv P cost s → s.acc ≠ [] →
      500 ≤ s.temp → cur.length = P.X.nc → u < δ →
      ∀ c σ, IsFit (P.real cost) cur c σ → σ < s.currentScore ∨ Real.exp (-(σ - s.currentScore) / s.temp) > u)
    (n : Nat) (cs : List Nat) (hcs : ∀ c ∈ cs, c < P.X.nc ∧ ∀ r < P.X.nr, ∃ a, P.X.get r c = .fin a) (k : Nat)
    (hacc : (run k).acc ≠ []) (hmem : ∃ c ∈ cs, (run k).current[c]? = some true)
    (hdraw : ∀ j, ∀ c, cs[j]? = some c → ∀ l < n, index (k + j * n + l) = c ∧ u (k + j * n + l) < δ) :
    ∃ k' ≥ k, ∀ l < n, ∃ s1, Counted P cost (run (k' + l)) (run (k' + l + 1)) s1 := by
  induction cs generalizing k with
  | nil => obtain ⟨c, hc, -⟩ := hmem; cases hc
  | cons c cs ih =>
    have hc := hcs c (List.mem_cons_self ..)
    have hd0 : ∀ l < n, index (k + l) = c ∧ u (k + l) < δ := by
      intro l hl
      have := hdraw 0 c rfl l hl
      rwa [zero_mul, add_zero] at this
    by_cases hleg : card ((run k).current.set c true) < P.X.nr / 2
    · exact ⟨k, le_rfl, block_counted hr hδ hc.1 hc.2 hacc hleg hd0⟩
    · obtain ⟨h1, h2⟩ := block_skipped hr hc.1 (not_lt.1 hleg) (n := n) fun l hl => (hd0 l hl).1
      have h3 := h2 n le_rfl
      obtain ⟨k', hk', h4⟩ := ih (fun c hc => hcs c (List.mem_cons_of_mem _ hc)) (k + n) (by rw [h3]; exact hacc) (by
        rw [h3]
        obtain ⟨c', hc', hm⟩ := hmem
        rcases List.mem_cons.1 hc' with rfl | hc'
        · exact absurd hm h1
        · exact ⟨c', hc', hm⟩) (by
        intro j c' hj l hl
        have := hdraw (j + 1) c' (by rw [List.getElem?_cons_succ]; exact hj) l hl
        rw [show k + (j + 1) * n + l = k + n + j * n + l by ring] at this
        exact this)
      exact ⟨k', by omega, h4⟩

include hd hf hr in
/-- Something is accepted. -/
theorem lucky_started : ∃ k, (run k).acc ≠ [] := by
  by_contra hcon
  push Not at hcon
  obtain ⟨c, hc, hcol⟩ := hd.column
  have hpos : 0 < P.X.nc := by omega
  have hhalf : 2 ≤ P.X.nr / 2 := by
    have := hd.rows
    omega
  obtain ⟨k, -, hw⟩ := hf.words [0, c] (by
    intro i hi
    rcases List.mem_cons.1 hi with rfl | hi
    · exact hpos
    · rw [List.mem_singleton.1 hi]; exact hc) 1 one_pos 0
  have h0 : index k = 0 := (hw 0 (by simp)).1
  have h1 : index (k + 1) = c := (hw 1 (by simp)).1
  have hno : ∀ {j : Nat} {s1 : SaState} {cur back : List Bool}, saSweep (P.real cost) s1 = .next (run (j + 1)) →
      GapMove P cost (run j) cur back (u j) s1 → (run (j + 1)).current = back := by
    intro j s1 cur back e h
    obtain ⟨e1, -, e3, -⟩ := saSweep_next e
    rcases h.cases with ⟨-, -, h2⟩ | ⟨h2, -⟩
    · rw [← e3] at h2
      exact absurd (hcon (j + 1)) h2
    · rw [e1, h2]
  have hk1 : (run (k + 1)).current = noModel P.X.nc := by
    have hstep := hr.step k
    unfold LuckyNext at hstep
    rw [h0] at hstep
    rcases ((hr.inv k).fresh (hcon k)).2 with h | h
    · rw [h, firstModel_flip hpos] at hstep
      rcases hstep with ⟨h2, -⟩ | ⟨-, s1, h2, h3⟩
      · exact absurd (card_noModel _) h2
      · rw [if_pos (card_noModel _)] at h3
        exact hno h2 h3
    · rw [h, saFlip_noModel, card_single hpos] at hstep
      rcases hstep with ⟨-, h2, -⟩ | ⟨-, s1, h2, h3⟩
      · omega
      · rw [if_neg one_ne_zero] at h3
        exact hno h2 h3
  have hstep := hr.step (k + 1)
  unfold LuckyNext at hstep
  rw [h1, hk1, saFlip_noModel, card_single hc] at hstep
  rcases hstep with ⟨-, h2, -⟩ | ⟨-, s1, h2, h3⟩
  · omega
  · have hprop : proposal (noModel P.X.nc) c = (noModel P.X.nc).set c true := by
      unfold proposal
      rw [saFlip_noModel, card_single hc, if_neg one_ne_zero]
    rw [hprop] at h3
    have hcomp : Complete P.X ((noModel P.X.nc).set c true) := by
      intro j hj
      rw [mem_features] at hj
      unfold HasFeature at hj
      by_cases hjc : j = c
      · subst hjc; exact hcol
      · exfalso
        rw [List.getElem?_set_ne (fun h => hjc h.symm), noModel, List.getElem?_replicate] at hj
        split at hj <;> simp at hj
    have hlen : ((noModel P.X.nc).set c true).length = P.X.nc := by simp [noModel]
    obtain ⟨-, -, h4⟩ := h3.accept hcomp (by
      intro cc σ hfit
      have hle := hd.finite _ cc σ hlen (by rw [card_single hc]; exact one_pos) hcomp hfit
      rw [((hr.inv (k + 1)).fresh (hcon (k + 1))).1]
      rcases hle.lt_or_eq with h5 | h5
      · exact Or.inl h5
      · right
        rw [h5, sub_self, neg_zero, zero_div, Real.exp_zero]
        exact hf.below _)
    rw [← (saSweep_next h2).2.2.1] at h4
    exact h4 (hcon (k + 1 + 1))

include hf hr in
/-- Again and again there are `n` draws that are evaluated. -/
theorem good_block (n : Nat) {k0 : Nat} (hacc : (run k0).acc ≠ []) :
    ∃ k ≥ k0, ∀ l < n, ∃ s1, Counted P cost (run (k + l)) (run (k + l + 1)) s1 := by
  classical
  rcases Nat.eq_zero_or_pos n with rfl | hn
  · exact ⟨k0, le_rfl, fun l hl => absurd hl (by omega)⟩
  obtain ⟨δ, hδ0, hδ⟩ := small_enough P cost
  let cs := (List.range P.X.nc).filter (fun c => decide (∀ r < P.X.nr, ∃ a, P.X.get r c = .fin a))
  have hcs : ∀ c ∈ cs, c < P.X.nc ∧ ∀ r < P.X.nr, ∃ a, P.X.get r c = .fin a := by
    intro c hc
    obtain ⟨h1, h2⟩ := List.mem_filter.1 hc
    exact ⟨List.mem_range.1 h1, of_decide_eq_true h2⟩
  let W := (List.range (cs.length * n)).map (fun i => cs.getD (i / n) 0)
  have hget : ∀ i, i < cs.length * n → ∃ h : i / n < cs.length, cs.getD (i / n) 0 = cs[i / n] := by
    intro i hi
    have h : i / n < cs.length := (Nat.div_lt_iff_lt_mul hn).2 hi
    exact ⟨h, by rw [List.getD_eq_getElem?_getD, List.getElem?_eq_getElem h, Option.getD_some]⟩
  obtain ⟨k, hk, hw⟩ := hf.words W (by
    intro i hi
    obtain ⟨j, hj, rfl⟩ := List.mem_map.1 hi
    obtain ⟨h1, h2⟩ := hget j (List.mem_range.1 hj)
    rw [h2]
    exact (hcs _ (List.getElem_mem h1)).1) δ hδ0 k0
  have hacc' := acc_later hr hk hacc
  have hmem : ∃ c ∈ cs, (run k).current[c]? = some true := by
    rcases (hr.inv k).inv.phase with ⟨h1, -⟩ | ⟨-, h1, h2, -⟩
    · exact absurd h1 hacc'
    · obtain ⟨c, hc⟩ := List.exists_mem_of_ne_nil _ (List.ne_nil_of_length_pos h1)
      have hc' := (mem_features _ _).1 hc
      unfold HasFeature at hc'
      have hlt := (List.getElem?_eq_some_iff.1 hc').1
      rw [(hr.inv k).inv.len] at hlt
      exact ⟨c, List.mem_filter.2 ⟨List.mem_range.2 hlt, decide_eq_true (h2 c hc)⟩, hc'⟩
  obtain ⟨k', hk', h⟩ := word_counted hr hδ n cs hcs k hacc' hmem (by
    intro j c hj l hl
    obtain ⟨hjl, hjc⟩ := List.getElem?_eq_some_iff.1 hj
    have hlt : j * n + l < cs.length * n := by
      calc j * n + l < (j + 1) * n := by rw [add_mul, one_mul]; omega
        _ ≤ cs.length * n := Nat.mul_le_mul_right _ hjl
    have hlW : j * n + l < W.length := by simpa [W] using hlt
    have := hw (j * n + l) hlW
    rw [← add_assoc] at this
    refine ⟨this.1.trans ?_, this.2⟩
    have hdiv : (j * n + l) / n = j := by
      rw [Nat.add_comm, Nat.add_mul_div_right _ _ hn, Nat.div_eq_of_lt hl, zero_add]
    simp only [W, List.getElem_map, List.getElem_range, hdiv]
    rw [List.getD_eq_getElem?_getD, hj, Option.getD_some])
  exact ⟨k', by omega, h⟩

include hr in
theorem half_next (k : Nat) (h : (run k).has50 = true) :
    (run (k + 1)).has50 = true ∧ (run (k + 1)).temp ≤ (run k).temp := by
  rcases hr.step k with ⟨-, -, h1⟩ | ⟨-, s1, h1, h2⟩
  · rw [h1]; exact ⟨h, le_rfl⟩
  · obtain ⟨-, -, -, e4, e5⟩ := saSweep_next h1
    have hh : half50 (P.real cost) s1 = true := by
      unfold half50; rw [h2.has50, h]; simp
    have ht : temp50 (P.real cost) s1 = (run k).temp := by
      unfold temp50; rw [hh]; simp [h2.temp]
    have hpos := (hr.inv k).inv.temp
    refine ⟨by rw [e4, hh], ?_⟩
    rcases e5 with ⟨-, -, -, e6, -⟩ | ⟨-, -, -, e6⟩
    · rw [e6, hh, if_pos rfl, ht]
      norm_num
      linarith
    · rw [e6, ht]

include hr in
theorem half_later {k k' : Nat} (hk : k ≤ k') (h : (run k).has50 = true) :
    (run k').has50 = true ∧ (run k').temp ≤ (run k).temp := by
  induction k', hk using Nat.le_induction with
  | base => exact ⟨h, le_rfl⟩
  | succ k' _ ih =>
    obtain ⟨h1, h2⟩ := half_next hr k' ih.1
    exact ⟨h1, h2.trans ih.2⟩

include hL hr in
/-- A whole round is evaluated after half of the steps were accepted. -/
theorem lucky_cool (n k : Nat) (hn : L - (run k).numSteps ≤ n) (h50 : (run k).has50 = true)
    (hc : ∀ l < n, ∃ s1, Counted P cost (run (k + l)) (run (k + l + 1)) s1) :
    ∃ k' ≥ k, (run k').has50 = true ∧ (run k').temp = (run k).temp * 0.5 ∧ 1e-12 ≤ (run k').temp := by
  induction n generalizing k with
  | zero =>
    have := (hr.inv k).steps
    omega
  | succ n ih =>
    obtain ⟨s1, h⟩ := hc 0 (by omega)
    rw [add_zero] at h
    obtain ⟨-, -, -, h1, h2⟩ := saSweep_next h.out
    have hh : half50 (P.real cost) s1 = true := by
      unfold half50; rw [h.has50, h50]; simp
    have htemp : temp50 (P.real cost) s1 = (run k).temp := by
      unfold temp50; rw [hh]; simp [h.temp]
    rcases h2 with ⟨-, -, -, h3, h4⟩ | ⟨h3, h4, -, h5⟩
    · exact ⟨k + 1, by omega, by rw [h1, hh], by rw [h3, hh, if_pos rfl, htemp], h4⟩
    · obtain ⟨k2, h0, h6, h7, h8⟩ := ih (k + 1) (by rw [h4, h.numSteps]; omega) (by rw [h1, hh]) (by
        intro l hl
        have := hc (l + 1) (by omega)
        rwa [show k + (l + 1) = k + 1 + l by ring] at this)
      exact ⟨k2, by omega, h6, by rw [h7, h5, htemp], h8⟩

include hd hL hf hr in
theorem lucky_never50 (k : Nat) : (run k).has50 = false := by
  by_contra hcon
  rw [Bool.not_eq_false] at hcon
  obtain ⟨ka, hka⟩ := lucky_started hd hf hr
  have key : ∀ n : Nat, ∃ k' ≥ max k ka, (run k').has50 = true ∧ (run k').temp ≤ (run k).temp * 0.5 ^ n ∧
      (0 < n → 1e-12 ≤ (run k').temp) := by
    intro n
    induction n with
    | zero =>
      obtain ⟨h1, h2⟩ := half_later hr (le_max_left k ka) hcon
      exact ⟨max k ka, le_rfl, h1, by simpa using h2, fun h => absurd h (by omega)⟩
    | succ n ih =>
      obtain ⟨k1, hk1, h1, h2, -⟩ := ih
      obtain ⟨k2, hk2, hb⟩ := good_block hf hr L (acc_later hr ((le_max_right k ka).trans hk1) hka)
      obtain ⟨h3, h4⟩ := half_later hr hk2 h1
      obtain ⟨k3, hk3, h5, h6, h7⟩ := lucky_cool hL hr L k2 (by omega) h3 hb
      refine ⟨k3, by omega, h5, ?_, fun _ => h7⟩
      rw [h6, pow_succ, ← mul_assoc]
      exact mul_le_mul_of_nonneg_right (h4.trans h2) (by norm_num)
  have htp := (hr.inv k).inv.temp
  obtain ⟨n, hn⟩ := exists_pow_lt_of_lt_one (div_pos (by norm_num : (0 : ℝ) < 1e-12) htp) (by norm_num : (0.5 : ℝ) < 1)
  obtain ⟨k', -, -, h2, h3⟩ := key (n + 1)
  have h4 := h3 (by omega)
  have h5 : (0.5 : ℝ) ^ (n + 1) ≤ 0.5 ^ n := pow_le_pow_of_le_one (by norm_num) (by norm_num) (by omega)
  rw [lt_div_iff₀ htp] at hn
  nlinarith

include hd hL hf hr in
/-- A round in which everything is accepted. -/
theorem lucky_all (n k : Nat) (hn : L - (run k).numSteps ≤ n) (he : (run k).numAccept = (run k).numSteps)
    (hc : ∀ l < n, ∃ s1, Counted P cost (run (k + l)) (run (k + l + 1)) s1) : False := by
  induction n generalizing k with
  | zero =>
    have := (hr.inv k).steps
    omega
  | succ n ih =>
    obtain ⟨s1, h⟩ := hc 0 (by omega)
    rw [add_zero] at h
    have h50 := lucky_never50 hd hL hf hr k
    have hna := h.numAccept h50
    obtain ⟨-, -, -, h1, h2⟩ := saSweep_next h.out
    have hh : half50 (P.real cost) s1 = false := by rw [← h1]; exact lucky_never50 hd hL hf hr _
    have hb := (hr.inv k).steps
    have hnb : (s1.numSteps + 1) % (P.real cost).X.nc ≠ 0 := by
      intro hmod
      unfold half50 at hh
      rw [if_pos hmod, Bool.or_eq_false_iff] at hh
      have := hh.2
      rw [hna, he, h.numSteps, div_self (by positivity)] at this
      norm_num at this
    rcases h2 with ⟨h2, -⟩ | ⟨h3, h4, h5, h6⟩
    · apply hnb
      have : s1.numSteps + 1 = L := by
        have := (hL.ends _).1 h2
        rw [h.numSteps] at this ⊢; omega
      rw [this]; exact hL.dvd
    · refine ih (k + 1) (by rw [h4, h.numSteps]; omega) (by rw [h5, h4, hna, he, h.numSteps]) ?_
      intro l hl
      have := hc (l + 1) (by omega)
      rwa [show k + (l + 1) = k + 1 + l by ring] at this

include hd hL hf hr in
/-- The round before. -/
theorem lucky_round (n m k : Nat) (hn : L - (run k).numSteps ≤ n)
    (hc : ∀ l < n + m, ∃ s1, Counted P cost (run (k + l)) (run (k + l + 1)) s1) (hm : L ≤ m) : False := by
  induction n generalizing k with
  | zero =>
    have := (hr.inv k).steps
    omega
  | succ n ih =>
    obtain ⟨s1, h⟩ := hc 0 (by omega)
    rw [add_zero] at h
    obtain ⟨-, -, -, -, h2⟩ := saSweep_next h.out
    have hc' : ∀ l < n + m, ∃ s1, Counted P cost (run (k + 1 + l)) (run (k + 1 + l + 1)) s1 := by
      intro l hl
      have := hc (l + 1) (by omega)
      rwa [show k + (l + 1) = k + 1 + l by ring] at this
    rcases h2 with ⟨-, h3, h4, -⟩ | ⟨h3, h4, -⟩
    · exact lucky_all hd hL hf hr m (k + 1) (by omega) (by rw [h3, h4]) fun l hl => hc' l (by omega)
    · exact ih (k + 1) (by rw [h4, h.numSteps]; omega) hc'

include hd hL hf hr in
theorem lucky_not_endless : False := by
  obtain ⟨ka, hka⟩ := lucky_started hd hf hr
  obtain ⟨k, -, hc⟩ := good_block hf hr (L + L) hka
  exact lucky_round hd hL hf hr L L k (by omega) hc le_rfl

end

theorem lucky_init {P : SaInputGap} {cost : Nat → Nat → ℝ → ℝ} (hd : GapData P cost) {L : Nat} (hL : 0 < L) :
    ∃ s : SaState, saInitGap P = some s.toFl ∧ LuckyInv P cost L s := by
  have hcol : 0 < P.X.nc := by
    obtain ⟨c, hc, -⟩ := hd.column
    omega
  have hhalf : 2 ≤ P.X.nr / 2 := by
    have := hd.rows
    omega
  obtain ⟨s, h1, h2⟩ := gap_init (P := P) cost hcol
  have h3 := h1
  unfold saInitGap at h3
  rw [goSet, if_pos (by rw [List.length_replicate]; exact hcol)] at h3
  simp only [Option.some.injEq] at h3
  have e1 : firstModel P.X.nc = s.current := congrArg SaStateFl.current h3
  have e2 : maxFloat64 = s.currentScore := by
    have : Fl.fin maxFloat64 = .fin s.currentScore := congrArg SaStateFl.currentScore h3
    exact Fl.fin.inj this
  have e3 : 0 = s.numSteps := congrArg SaStateFl.numSteps h3
  have e4 : 500 = s.temp := congrArg SaStateFl.temp h3
  refine ⟨s, h1, h2, ?_, fun _ => ⟨e2.symm, Or.inl e1.symm⟩, by omega, fun _ => e4.le⟩
  rw [← e1, card_firstModel hcol]
  omega

theorem lucky_runs {P : SaInputGap} {cost : Nat → Nat → ℝ → ℝ} (hd : GapData P cost)
    (hs : 0 < P.nSweeps ∨ P.X.nc = 1) {index : Nat → Nat} {u : Nat → ℝ} (hf : LuckyDraws P.X.nc index u) :
    ∃ s0 r, saInitGap P = some s0 ∧ Runs (saStreamGap P index u) (0, s0) r := by
  have hcol : 0 < P.X.nc := by
    obtain ⟨c, hc, -⟩ := hd.column
    omega
  obtain ⟨L, hL⟩ := rounds (P := P.real cost) hcol hs
  obtain ⟨s0, h0, hinv0⟩ := lucky_init hd hL.pos
  have hbody : ∀ (q : Nat × SaStateFl) (s : SaState), q.2 = s.toFl → LuckyInv P cost L s →
      (∃ r, saStreamGap P index u q = .ret r) ∨ ∃ s', saStreamGap P index u q = .next (q.1 + 1, s'.toFl) ∧
        LuckyInv P cost L s' ∧ LuckyNext P cost s (index q.1) (u q.1) s' := by
    intro q s hq hi
    unfold saStreamGap
    rw [hq]
    rcases lucky_next hd hL hi (hf.column q.1) (hf.nonneg q.1) (hf.below q.1) with ⟨r, h⟩ | ⟨s', h, h1, h2⟩
    · rw [h]; exact Or.inl ⟨r, rfl⟩
    · rw [h]; exact Or.inr ⟨s', rfl, h1, h2⟩
  obtain ⟨r, hr⟩ := runs_of_progress (body := saStreamGap P index u) (s := (0, s0.toFl))
    (fun q => ∃ s : SaState, q.2 = s.toFl ∧ LuckyInv P cost L s) ⟨s0, rfl, hinv0⟩ (by
      rintro q ⟨s, h1, h2⟩ hp
      rcases hbody q s h1 h2 with ⟨r, h⟩ | ⟨s', h, -⟩ <;> rw [h] at hp <;> cases hp) (by
      rintro q q' ⟨s, h1, h2⟩ hn
      rcases hbody q s h1 h2 with ⟨r, h⟩ | ⟨s', h, h3, -⟩
      · rw [h] at hn; cases hn
      · rw [h] at hn
        obtain rfl := Outcome.next.inj hn
        exact ⟨s', rfl, h3⟩) (by
      intro run hrun hall
      have hk : ∀ k, (run k).1 = k ∧ ∃ s : SaState, (run k).2 = s.toFl ∧ LuckyInv P cost L s := by
        intro k
        induction k with
        | zero => rw [hrun]; exact ⟨rfl, s0, rfl, hinv0⟩
        | succ k ih =>
          obtain ⟨e, s, h1, h2⟩ := ih
          rcases hbody (run k) s h1 h2 with ⟨r, h⟩ | ⟨s', h, h3, -⟩
          · rw [hall k] at h; cases h
          · rw [hall k] at h
            rw [Outcome.next.inj h]
            exact ⟨by simp only [e], s', rfl, h3⟩
      choose st hst using fun k => (hk k).2
      refine lucky_not_endless hd hL hf (run := st) ⟨fun k => (hst k).2, fun k => ?_⟩
      rcases hbody (run k) (st k) (hst k).1 (hst k).2 with ⟨r, h⟩ | ⟨s', h, -, h3⟩
      · rw [hall k] at h; cases h
      · rw [hall k] at h
        have e := congrArg Prod.snd (Outcome.next.inj h)
        simp only at e
        rw [(hst (k + 1)).1] at e
        rw [toFl_injective e]
        rwa [(hk k).1] at h3)
  exact ⟨_, r, h0, hr⟩

end GoSelect
