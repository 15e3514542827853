import Verif.Proofs.Annealing
import Mathlib.Data.Set.Finite.List
import Mathlib.Tactic.Linarith
import Mathlib.Tactic.Positivity
import Mathlib.Tactic.NormNum

/-! The steps of the simulated-annealing loop: counters, temperature, acceptance. -/

namespace GoSelect

open Spec

/-- Whether half of the steps have been accepted, after an iteration. -/
noncomputable def half50 (P : SaInput) (s : SaState) : Bool :=
  open Classical in
  if (s.numSteps + 1) % P.X.nc = 0 then
    s.has50 || decide ((s.numAccept : ℝ) / ((s.numSteps + 1 : Nat) : ℝ) > 0.5) else s.has50

/-- The temperature before the end of the round is looked at. -/
noncomputable def temp50 (P : SaInput) (s : SaState) : ℝ :=
  if (s.numSteps + 1) % P.X.nc = 0 ∧ half50 P s = false then s.temp * 2 else s.temp

/-- The end of an iteration. -/
theorem saSweep_eq (P : SaInput) (s : SaState) : saSweep P s =
    if ((s.numSteps + 1 : Nat) : Int) ≥ (P.X.nc : Int) * P.nSweeps then
      if s.numAccept = 0 ∧ half50 P s = true then
        .ret (saResult { s with numSteps := s.numSteps + 1, has50 := half50 P s, temp := temp50 P s })
      else
        let temp' : ℝ := if half50 P s = true then temp50 P s * 0.5 else temp50 P s
        let s' := { s with numAccept := 0, numSteps := 0, has50 := half50 P s, temp := temp' }
        if temp' < 1e-12 then .ret (saResult s') else .next s'
    else .next { s with numSteps := s.numSteps + 1, has50 := half50 P s, temp := temp50 P s } := by
  unfold saSweep temp50 half50
  simp only [decide_eq_true_eq]

theorem saSweep_next {P : SaInput} {s s' : SaState} (h : saSweep P s = .next s') :
    s'.current = s.current ∧ s'.currentScore = s.currentScore ∧ s'.acc = s.acc ∧ s'.has50 = half50 P s ∧
      ((((s.numSteps + 1 : Nat) : Int) ≥ (P.X.nc : Int) * P.nSweeps ∧ s'.numSteps = 0 ∧ s'.numAccept = 0 ∧
          s'.temp = (if half50 P s = true then temp50 P s * 0.5 else temp50 P s) ∧ 1e-12 ≤ s'.temp) ∨
        (((s.numSteps + 1 : Nat) : Int) < (P.X.nc : Int) * P.nSweeps ∧ s'.numSteps = s.numSteps + 1 ∧
          s'.numAccept = s.numAccept ∧ s'.temp = temp50 P s)) := by
  rw [saSweep_eq] at h
  split at h
  · rename_i hge
    split at h
    · cases h
    · simp only at h
      by_cases htemp : (if half50 P s = true then temp50 P s * 0.5 else temp50 P s) < 1e-12
      · rw [if_pos htemp] at h
        cases h
      · rw [if_neg htemp] at h
        cases h
        exact ⟨rfl, rfl, rfl, rfl, Or.inl ⟨hge, rfl, rfl, rfl, not_lt.1 htemp⟩⟩
  · rename_i hlt
    cases h
    exact ⟨rfl, rfl, rfl, rfl, Or.inr ⟨not_le.1 hlt, rfl, rfl, rfl⟩⟩

/-- The costs of all models are bounded. -/
theorem costs_bounded (P : SaInput) :
    ∃ C : ℝ, 0 ≤ C ∧ ∀ m c σ, m.length = P.X.nc → IsFit P m c σ → |σ| ≤ C := by
  classical
  have hfin := List.finite_length_eq Bool P.X.nc
  let f : List Bool → ℝ := fun m => if h : ∃ σ c, IsFit P m c σ then |h.choose| else 0
  obtain ⟨C, hC⟩ := (hfin.image f).bddAbove
  refine ⟨max C 0, le_max_right _ _, fun m c σ hm h => ?_⟩
  have h1 : f m ≤ C := hC ⟨m, hm, rfl⟩
  have hex : ∃ σ c, IsFit P m c σ := ⟨σ, c, h⟩
  have h2 : f m = |σ| := by
    have : f m = |hex.choose| := dif_pos hex
    rw [this]
    obtain ⟨c', hc'⟩ := hex.choose_spec
    rw [(isFit_unique hc' h).2]
  rw [← h2]
  exact h1.trans (le_max_left _ _)

/-- Large temperatures accept everything. -/
theorem accepts {C umax T : ℝ} (hC : 0 ≤ C) (hT : 0 < T) (hexp : umax < Real.exp (-(2 * C) / T)) {a b u t : ℝ}
    (ha : |a| ≤ C) (hb : |b| ≤ C) (ht : T ≤ t) (hu : u ≤ umax) : a < b ∨ Real.exp (-(a - b) / t) > u := by
  right
  refine lt_of_le_of_lt hu (hexp.trans_le (Real.exp_le_exp.2 ?_))
  have h1 : a - b ≤ 2 * C := by
    have := abs_le.1 ha
    have := abs_le.1 hb
    linarith
  have ht' : 0 < t := hT.trans_le ht
  rw [neg_div, neg_div, neg_le_neg_iff, div_le_div_iff₀ ht' hT]
  calc (a - b) * T ≤ 2 * C * T := mul_le_mul_of_nonneg_right h1 hT.le
    _ ≤ 2 * C * t := mul_le_mul_of_nonneg_left ht (by linarith)

/-- The effect of an evaluated proposal. -/
structure Evaluated (P : SaInput) (s : SaState) (o : Outcome SaState SaRes) (cur : List Bool) (u : ℝ) (s1 : SaState) :
    Prop where
  out : o = saSweep P s1
  temp : s1.temp = s.temp
  has50 : s1.has50 = s.has50
  numSteps : s1.numSteps = s.numSteps
  accept : ∀ c σ, IsFit P cur c σ → (σ < s.currentScore ∨ Real.exp (-(σ - s.currentScore) / s.temp) > u) →
    s1.current = cur ∧ s1.numAccept = s.numAccept + 1 ∧ s1.currentScore = σ ∧
      ∃ x, s1.acc = s.acc ++ [x] ∧ x.selection = (features cur).map Int.ofNat
  reject : ∀ c σ, IsFit P cur c σ → ¬ (σ < s.currentScore ∨ Real.exp (-(σ - s.currentScore) / s.temp) > u) →
    s1 = s

theorem saEval_evaluated {P : SaInput} (hd : SaData P) {s : SaState} (h : SaInv P s) {index : Nat} {cur : List Bool}
    {u : ℝ} (hu : u < 1) (hlen : cur.length = P.X.nc) (hpos : 0 < card cur)
    (hcase : cur = s.current ∨ saFlip cur index = s.current) :
    ∃ s1, Evaluated P s (saEval P s index cur (card cur) u) cur u s1 := by
  obtain ⟨c, r, hf, hcl, hfit⟩ := fitModel_isFit hd.rows hpos hlen
  have hmax := hd.finite cur c _ hlen hpos hfit
  unfold saEval
  rw [hf]
  simp only [hd.rows]
  by_cases hacc : P.cost (card cur) P.X.nr (max r rssTol) < s.currentScore ∨
      Real.exp (-(P.cost (card cur) P.X.nr (max r rssTol) - s.currentScore) / s.temp) > u
  · rw [if_pos hacc]
    obtain ⟨sc, hsc⟩ := (saRun_inv 10 ⟨[], [], 0⟩ (s.acc ++
      [{ (newSAItem cur : SAItem ℝ) with
        score := -P.cost (card cur) P.X.nr (max r rssTol)
        coeff := goCopy (newSAItem cur : SAItem ℝ).coeff c }])).imp fun _ h => h.1
    rw [saRun_snoc, h.run, Option.bind_some] at hsc
    rw [hsc]
    refine ⟨_, rfl, rfl, rfl, rfl, ?_, ?_⟩
    · intro c' σ' hf' _
      obtain rfl := (isFit_unique hfit hf').2
      exact ⟨rfl, rfl, rfl, _, rfl, by simp [newSAItem, selectedFrom_zero]⟩
    · intro c' σ' hf' hn
      obtain rfl := (isFit_unique hfit hf').2
      exact absurd hacc hn
  · rw [if_neg hacc]
    have hback : saFlip cur index = s.current := by
      rcases hcase with hc | hc
      · exfalso
        rw [not_or, not_lt, not_lt] at hacc
        have heq : P.cost (card cur) P.X.nr (max r rssTol) = s.currentScore := by
          rcases h.score with ⟨-, h2⟩ | ⟨-, c', h2, -⟩
          · rw [h2] at hacc ⊢
            exact le_antisymm hmax hacc.1
          · rw [← hc] at h2
            exact (isFit_unique hfit h2).2
        rw [heq, sub_self, neg_zero, zero_div, Real.exp_zero] at hacc
        linarith [hacc.2]
      · exact hc
    have e : ({ s with current := saFlip cur index } : SaState) = s := by rw [hback]
    rw [e]
    refine ⟨s, rfl, rfl, rfl, rfl, ?_, fun _ _ _ _ => rfl⟩
    intro c' σ' hf' ha
    obtain rfl := (isFit_unique hfit hf').2
    exact absurd ha hacc

/-- The proposal of a draw: the current model with one feature changed, or itself if that would leave none. -/
def proposal (m : List Bool) (i : Nat) : List Bool := if card (saFlip m i) = 0 then m else saFlip m i

/-- An iteration skips the draw, or evaluates its proposal. -/
theorem saBody_step {P : SaInput} (hd : SaData P) {s : SaState} (h : SaInv P s) {index : Nat} (hi : index < P.X.nc)
    {u : ℝ} (hu : u < 1) :
    (card (saFlip s.current index) ≠ 0 ∧ P.X.nr / 2 ≤ card (saFlip s.current index) ∧ saBody P s index u = .next s) ∨
      (card (saFlip s.current index) = 0 ∨ card (saFlip s.current index) < P.X.nr / 2) ∧
        ∃ s1, Evaluated P s (saBody P s index u) (proposal s.current index) u s1 := by
  have hi' : index < s.current.length := by rw [h.len]; exact hi
  have hc := card_saFlip hi'
  have hpos := h.pos
  unfold saBody proposal
  simp only [saFlip_saFlip hi', numFeatures_eq_card]
  by_cases h0 : card (saFlip s.current index) = 0
  · right
    rw [if_pos h0, if_pos h0]
    have h1 : card s.current = 1 := by omega
    obtain ⟨s1, hs1⟩ := saEval_evaluated hd h (index := index) hu h.len h.pos (Or.inl rfl)
    rw [h1] at hs1
    exact ⟨Or.inl h0, s1, hs1⟩
  · by_cases h2 : card (saFlip s.current index) ≥ P.X.nr / 2
    · left
      rw [if_neg h0, if_pos h2]
      exact ⟨h0, h2, rfl⟩
    · right
      rw [if_neg h0, if_neg h0, if_neg h2]
      exact ⟨Or.inr (by omega), saEval_evaluated hd h hu ((saFlip_length _ _).trans h.len) (by omega)
        (Or.inr (saFlip_saFlip hi'))⟩

/-- A proposal has a fit. -/
theorem proposal_fit {P : SaInput} (hd : SaData P) {s : SaState} (h : SaInv P s) (i : Nat) :
    (proposal s.current i).length = P.X.nc ∧ 0 < card (proposal s.current i) ∧
      ∃ c σ, IsFit P (proposal s.current i) c σ := by
  have hpos := h.pos
  have hlen : (proposal s.current i).length = P.X.nc := by
    unfold proposal; split
    · exact h.len
    · rw [saFlip_length]; exact h.len
  have hp : 0 < card (proposal s.current i) := by
    unfold proposal; split
    · exact hpos
    · omega
  obtain ⟨c, r, -, -, hfit⟩ := fitModel_isFit hd.rows hp hlen
  exact ⟨hlen, hp, c, _, hfit⟩

/-- A proposal is accepted or the state stays. -/
theorem Evaluated.cases {P : SaInput} (hd : SaData P) {s s1 : SaState} (hinv : SaInv P s) {i : Nat} {u : ℝ}
    {o : Outcome SaState SaRes} (h : Evaluated P s o (proposal s.current i) u s1) :
    (s1.current = proposal s.current i ∧ s1.numAccept = s.numAccept + 1 ∧ ∃ x, s1.acc = s.acc ++ [x]) ∨ s1 = s := by
  obtain ⟨-, -, c, σ, hfit⟩ := proposal_fit hd hinv i
  by_cases ha : σ < s.currentScore ∨ Real.exp (-(σ - s.currentScore) / s.temp) > u
  · obtain ⟨h1, h2, -, x, h3, -⟩ := h.accept c σ hfit ha
    exact Or.inl ⟨h1, h2, x, h3⟩
  · exact Or.inr (h.reject c σ hfit ha)

/-- The first proposal is accepted. -/
theorem Evaluated.acc_ne {P : SaInput} (hd : SaData P) {s s1 : SaState} (hinv : SaInv P s) {i : Nat} {u : ℝ}
    (hu : u < 1) {o : Outcome SaState SaRes} (h : Evaluated P s o (proposal s.current i) u s1) : s1.acc ≠ [] := by
  obtain ⟨hlen, hp, c, σ, hfit⟩ := proposal_fit hd hinv i
  by_cases ha : σ < s.currentScore ∨ Real.exp (-(σ - s.currentScore) / s.temp) > u
  · obtain ⟨-, -, -, x, h3, -⟩ := h.accept c σ hfit ha
    rw [h3]
    simp
  · rw [h.reject c σ hfit ha]
    rcases hinv.score with ⟨-, h3⟩ | ⟨h3, -⟩
    · have hmax := hd.finite _ c _ hlen hp hfit
      rw [h3, not_or, not_lt, not_lt] at ha
      have := le_antisymm hmax ha.1
      rw [this, sub_self, neg_zero, zero_div, Real.exp_zero] at ha
      linarith [ha.2]
    · exact h3

end GoSelect
