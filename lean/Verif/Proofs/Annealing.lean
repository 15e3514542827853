import Verif.Spec.Annealing
import Verif.Proofs.SaScore
import Verif.Proofs.FitModel
import Verif.Proofs.ListUtil

/-! Invariant of the simulated-annealing loop. -/

namespace GoSelect

open Spec

theorem saFlip_length (m : List Bool) (i : Nat) : (saFlip m i).length = m.length := by
  simp [saFlip]

theorem saFlip_saFlip {m : List Bool} {i : Nat} (h : i < m.length) : saFlip (saFlip m i) i = m := by
  have e : m.getD i false = m[i] := by simp [List.getD_eq_getElem?_getD, h]
  have e' : (m.set i (!m[i])).getD i false = !m[i] := by simp [List.getD_eq_getElem?_getD, h]
  unfold saFlip
  rw [e, e', Bool.not_not, List.set_set, List.set_getElem_self]

theorem card_saFlip {m : List Bool} {i : Nat} (h : i < m.length) :
    card (saFlip m i) = card m + 1 ∨ card (saFlip m i) + 1 = card m := by
  have e : m.getD i false = m[i] := by simp [List.getD_eq_getElem?_getD, h]
  have := countP_set (fun b => b == true) (l := m) (i := i) (a := m[i]) (b := !m[i])
    (List.getElem?_eq_getElem h)
  rw [card_eq_count, card_eq_count, saFlip, e, List.count_eq_countP, List.count_eq_countP]
  cases hb : m[i] <;> simp_all

theorem fitModel_isFit {P : SaInput} (hd : P.y.length = P.X.nr) {m : List Bool} (hpos : 0 < card m)
    (hlen : m.length = P.X.nc) :
    ∃ c r, fitModel P.svd P.X P.y m = some (c, r) ∧ c.length = card m ∧
      IsFit P m c (P.cost (card m) P.X.nr (max r rssTol)) := by
  obtain ⟨c, h1, h2, h3⟩ := fitModel_eq_some (svd := P.svd) hd hpos hlen.le
  exact ⟨c, _, h1, h3, _, h2, rss_eq_some h3 hd, rfl⟩

theorem isFit_unique {P : SaInput} {m : List Bool} {c c' : List ℝ} {σ σ' : ℝ} (h : IsFit P m c σ)
    (h' : IsFit P m c' σ') : c = c' ∧ σ = σ' := by
  obtain ⟨r, h1, h2, h3⟩ := h
  obtain ⟨r', h1', h2', h3'⟩ := h'
  rw [h1, Option.some.injEq] at h1'
  subst h1'
  rw [h2, Option.some.injEq] at h2'
  subst h2'
  exact ⟨rfl, h3.trans h3'.symm⟩

/-- An item that describes model `m`. -/
def ItemOf (P : SaInput) (m : List Bool) (x : SAItem ℝ) : Prop :=
  m.length = P.X.nc ∧ 0 < card m ∧ (4 ≤ P.X.nr → card m < P.X.nr / 2) ∧
    x.selection = (features m).map Int.ofNat ∧ IsFit P m x.coeff (-x.score)

/-- Invariant at the head of the loop. -/
structure SaInv (P : SaInput) (s : SaState) : Prop where
  len : s.current.length = P.X.nc
  pos : 0 < card s.current
  few : 4 ≤ P.X.nr → card s.current < P.X.nr / 2
  temp : 0 < s.temp
  coeffLen : s.coeff.length = P.X.nc
  run : saRun 10 ⟨[], [], 0⟩ s.acc = some s.scores
  items : ∀ x ∈ s.acc, ∃ m, ItemOf P m x
  score : (s.acc = [] ∧ s.currentScore = maxFloat64) ∨
    (s.acc ≠ [] ∧ ∃ c, IsFit P s.current c s.currentScore ∧ c.length = card s.current ∧
      s.coeff.take (card s.current) = c)

theorem card_le_length (m : List Bool) : card m ≤ m.length := by
  rw [card_eq_count]; exact List.count_le_length

/-- The end of an iteration only touches the temperature and the counters. -/
theorem saSweep_cases (P : SaInput) (s : SaState) (ht : 0 < s.temp) :
    ∃ s', s'.current = s.current ∧ s'.currentScore = s.currentScore ∧ s'.coeff = s.coeff ∧
      s'.scores = s.scores ∧ s'.acc = s.acc ∧ 0 < s'.temp ∧
      (saSweep P s = .next s' ∨ saSweep P s = .ret (saResult s')) := by
  unfold saSweep
  simp only
  generalize hh : (if decide ((s.numSteps + 1) % P.X.nc = 0) = true then
      s.has50 || decide ((s.numAccept : ℝ) / ((s.numSteps + 1 : ℕ) : ℝ) > 0.5) else s.has50) = has50
  generalize htmp : (if decide ((s.numSteps + 1) % P.X.nc = 0) = true ∧ has50 = false then s.temp * 2
    else s.temp) = temp
  have htpos : 0 < temp := by
    rw [← htmp]; split <;> linarith
  split
  · split
    · exact ⟨{ s with numSteps := s.numSteps + 1, has50 := has50, temp := temp }, rfl, rfl, rfl, rfl,
        rfl, htpos, Or.inr rfl⟩
    · generalize htmp' : (if has50 = true then temp * 0.5 else temp) = temp'
      have ht' : 0 < temp' := by
        rw [← htmp']
        split
        · positivity
        · exact htpos
      refine ⟨{ s with numAccept := 0, numSteps := 0, has50 := has50, temp := temp' }, rfl, rfl, rfl,
        rfl, rfl, ht', ?_⟩
      by_cases h12 : temp' < 1e-12
      · rw [if_pos h12]; exact Or.inr rfl
      · rw [if_neg h12]; exact Or.inl rfl
  · exact ⟨{ s with numSteps := s.numSteps + 1, has50 := has50, temp := temp }, rfl, rfl, rfl, rfl,
      rfl, htpos, Or.inl rfl⟩

/-- What an iteration may do. -/
def SaOk (P : SaInput) : Outcome SaState SaRes → Prop
  | .next s => SaInv P s
  | .ret r => ∃ s, SaInv P s ∧ s.acc ≠ [] ∧ r = saResult s
  | .panic => False

theorem saSweep_ok {P : SaInput} {s : SaState} (h : SaInv P s) (ha : s.acc ≠ []) :
    SaOk P (saSweep P s) := by
  obtain ⟨s', h1, h2, h3, h4, h5, h6, h7⟩ := saSweep_cases P s h.temp
  have hi : SaInv P s' := by
    refine ⟨by rw [h1]; exact h.len, by rw [h1]; exact h.pos, by rw [h1]; exact h.few, h6,
      by rw [h3]; exact h.coeffLen, by rw [h4, h5]; exact h.run, by rw [h5]; exact h.items, ?_⟩
    rw [h1, h2, h3, h5]
    exact h.score
  rcases h7 with h7 | h7
  · rw [h7]; exact hi
  · rw [h7]; exact ⟨s', hi, h5 ▸ ha, rfl⟩

theorem saEval_ok {P : SaInput} (hd : SaData P) {s : SaState} (h : SaInv P s) {index : Nat}
    {cur : List Bool} {u : ℝ} (hu : u < 1) (hlen : cur.length = P.X.nc) (hpos : 0 < card cur)
    (hfew : 4 ≤ P.X.nr → card cur < P.X.nr / 2)
    (hcase : cur = s.current ∨ saFlip cur index = s.current) :
    SaOk P (saEval P s index cur (card cur) u) := by
  obtain ⟨c, r, hf, hcl, hfit⟩ := fitModel_isFit hd.rows hpos hlen
  have hmax := hd.finite cur c _ hlen hpos hfit
  unfold saEval
  rw [hf]
  simp only [hd.rows]
  by_cases hacc : P.cost (card cur) P.X.nr (max r rssTol) < s.currentScore ∨
      Real.exp (-(P.cost (card cur) P.X.nr (max r rssTol) - s.currentScore) / s.temp) > u
  · rw [if_pos hacc]
    obtain ⟨sc, hsc⟩ := (saRun_inv 10 ⟨[], [], 0⟩ (s.acc ++
      [{ (newSAItem cur : SAItem ℝ) with
        score := -P.cost (card cur) P.X.nr (max r rssTol)
        coeff := goCopy (newSAItem cur : SAItem ℝ).coeff c }])).imp fun _ h => h.1
    have hins := hsc
    rw [saRun_snoc, h.run, Option.bind_some] at hins
    rw [hins]
    have hcopy : goCopy (newSAItem cur : SAItem ℝ).coeff c = c := by
      have : (newSAItem cur : SAItem ℝ).coeff.length = c.length := by
        simp [newSAItem, numFeatures_eq_card, hcl]
      rw [goCopy, this, List.take_length, List.drop_eq_nil_of_le this.le, List.append_nil]
    refine saSweep_ok ⟨hlen, hpos, hfew, h.temp, ?_, hsc, ?_, Or.inr ⟨by simp, c, hfit, hcl, ?_⟩⟩
      (by simp)
    · simp only [goCopy_length]; exact h.coeffLen
    · intro x hx
      rcases List.mem_append.1 hx with hx | hx
      · exact h.items x hx
      · rw [List.mem_singleton.1 hx]
        refine ⟨cur, hlen, hpos, hfew, ?_, ?_⟩
        · simp [newSAItem, selectedFrom_zero]
        · simp only [neg_neg, hcopy]
          exact hfit
    · have hle : c.length ≤ s.coeff.length := by
        rw [hcl, h.coeffLen, ← hlen]; exact card_le_length cur
      simp only [goCopy]
      rw [List.take_of_length_le hle, ← hcl, List.take_left]
  · rw [if_neg hacc]
    have hback : saFlip cur index = s.current := by
      rcases hcase with hc | hc
      · exfalso
        rw [not_or, not_lt, not_lt] at hacc
        have heq : P.cost (card cur) P.X.nr (max r rssTol) = s.currentScore := by
          rcases h.score with ⟨-, h2⟩ | ⟨-, c', h2, -⟩
          · rw [h2] at hacc ⊢
            exact le_antisymm hmax hacc.1
          · rw [← hc] at h2
            exact (isFit_unique hfit h2).2
        rw [heq, sub_self, neg_zero, zero_div, Real.exp_zero] at hacc
        linarith [hacc.2]
      · exact hc
    have hne : s.acc ≠ [] := by
      intro h0
      rcases h.score with ⟨-, h2⟩ | ⟨h1, -⟩
      · rw [h2, not_or, not_lt, not_lt] at hacc
        have := le_antisymm hmax hacc.1
        rw [this, sub_self, neg_zero, zero_div, Real.exp_zero] at hacc
        linarith [hacc.2]
      · exact h1 h0
    have e : ({ s with current := saFlip cur index } : SaState) = s := by rw [hback]
    rw [e]
    exact saSweep_ok h hne

theorem saBody_ok {P : SaInput} (hd : SaData P) {s : SaState} (h : SaInv P s) {index : Nat}
    (hi : index < P.X.nc) {u : ℝ} (hu : u < 1) : SaOk P (saBody P s index u) := by
  have hi' : index < s.current.length := by rw [h.len]; exact hi
  unfold saBody
  simp only [saFlip_saFlip hi', numFeatures_eq_card]
  have hc := card_saFlip hi'
  have hpos := h.pos
  split
  · have : card s.current = 1 := by omega
    have := saEval_ok hd h (index := index) hu h.len h.pos h.few (Or.inl rfl)
    rwa [‹card s.current = 1›] at this
  · split
    · exact h
    · rename_i h1 h2
      exact saEval_ok hd h hu ((saFlip_length _ _).trans h.len) (by omega) (fun _ => by omega)
        (Or.inr (saFlip_saFlip hi'))

theorem SaInv.init {P : SaInput} (hd : SaData P) : ∃ s, saInit P = some s ∧ SaInv P s := by
  unfold saInit
  rw [goSet, if_pos (by simpa using hd.cols)]
  refine ⟨_, rfl, ?_⟩
  have hcard : card ((List.replicate P.X.nc false).set 0 true) = 1 := by
    rw [card_eq_count, List.count_eq_countP]
    have := countP_set (fun b => b == true) (l := List.replicate P.X.nc false) (i := 0) (a := false)
      (b := true) (by rw [List.getElem?_replicate, if_pos hd.cols])
    simp [List.countP_replicate] at this
    simpa using this
  refine ⟨by simp, by rw [hcard]; omega, fun h4 => by rw [hcard]; omega, by norm_num, by simp, rfl,
    by simp, Or.inl ⟨rfl, rfl⟩⟩

theorem SaInv.reach {P : SaInput} (hd : SaData P) {s : SaState} (h : SaReach P s) : SaInv P s := by
  induction h with
  | init h =>
    obtain ⟨s', h1, h2⟩ := SaInv.init hd
    rw [h, Option.some.injEq] at h1
    exact h1 ▸ h2
  | step index u _ hi _ h1 h' ih =>
    have := saBody_ok hd ih hi h1
    rw [h'] at this
    exact this

theorem saReturns_inv {P : SaInput} (hd : SaData P) {r : SaRes} (h : SaReturns P r) :
    ∃ s, SaInv P s ∧ s.acc ≠ [] ∧ r = saResult s := by
  obtain ⟨s, index, u, h1, h2, -, h3, h4⟩ := h
  have := saBody_ok hd (SaInv.reach hd h1) h2 h3
  rw [h4] at this
  exact this

end GoSelect
