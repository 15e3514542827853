import Verif.Proofs.Metropolis
import Verif.Props.C114

/-! C117: at a given temperature simulated annealing is the Metropolis chain. -/

namespace GoSelect

open Spec MeasureTheory

/-- The result lists the features of the current model. -/
theorem modelAfter_result {P : SaInput} {s : SaState} (h : s.current.length = P.X.nc) :
    modelAfter P.X.nc (.ret (saResult s)) = some s.current := by
  unfold modelAfter saResult
  simp only [selectedFrom_zero, Option.some.injEq]
  refine ext_getD (by simp [h]) fun j => ?_
  rw [List.getD_eq_getElem?_getD, List.getElem?_map]
  by_cases hj : j < P.X.nc
  · rw [List.getElem?_range hj]
    simp only [Option.map_some, Option.getD_some]
    rw [Bool.eq_iff_iff, decide_eq_true_eq, mem_features_getD]
  · rw [List.getElem?_eq_none (by simpa using hj), List.getD_eq_getElem?_getD, List.getElem?_eq_none (by omega)]
    rfl

/-- The model after an evaluated proposal. -/
theorem Evaluated.modelAfter {P : SaInput} {s s1 : SaState} (hinv : SaInv P s) {o : Outcome SaState SaRes}
    {cur : List Bool} {u : ℝ} (h : Evaluated P s o cur u s1) (hl : s1.current.length = P.X.nc) :
    Spec.modelAfter P.X.nc o = some s1.current := by
  obtain ⟨s', h1, -, -, -, -, -, h2⟩ := saSweep_cases P s1 (by rw [h.temp]; exact hinv.temp)
  rw [h.out]
  rcases h2 with h2 | h2
  · rw [h2, ← h1]; rfl
  · rw [h2, modelAfter_result (by rw [h1]; exact hl), h1]

/-- The model after an iteration: the flipped one if that is allowed and the random number is below the acceptance
probability. -/
theorem saBody_modelAfter {P : SaInput} (hd : SaData P) {s : SaState} (hs : SaReach P s) (hacc : s.acc ≠ [])
    {E : SaModel P.X.nc P.X.nr → ℝ} (hE : ∀ m, ∃ c, IsFit P m.1 c (E m)) (a : SaModel P.X.nc P.X.nr)
    (ha : a.1 = s.current) {i : Nat} (hi : i < P.X.nc) {u : ℝ} (h0 : 0 ≤ u) (h1 : u < 1) :
    (∀ b : SaModel P.X.nc P.X.nr, b.1 = saFlip a.1 i → modelAfter P.X.nc (saBody P s i u) =
      some (if u < acceptance s.temp (E a) (E b) then b.1 else a.1)) ∧
    ((∀ b : SaModel P.X.nc P.X.nr, b.1 ≠ saFlip a.1 i) → modelAfter P.X.nc (saBody P s i u) = some a.1) := by
  have hinv := SaInv.reach hd hs
  have hi' : i < s.current.length := by rw [hinv.len]; exact hi
  have hscore : s.currentScore = E a := by
    rcases hinv.score with ⟨h, -⟩ | ⟨-, c, h, -⟩
    · exact absurd h hacc
    · obtain ⟨c', h'⟩ := hE a
      rw [ha] at h'
      exact (isFit_unique h h').2
  have hrule : ∀ e, (e < s.currentScore ∨ Real.exp (-(e - s.currentScore) / s.temp) > u) ↔
      u < acceptance s.temp (E a) e := by
    intro e
    rw [hscore]
    unfold acceptance
    rw [lt_min_iff]
    constructor
    · rintro (h | h)
      · refine ⟨h1, h1.trans ?_⟩
        rw [← Real.exp_zero]
        exact Real.exp_lt_exp.2 (div_pos (by linarith) hinv.temp)
      · exact ⟨h1, h⟩
    · rintro ⟨-, h⟩; exact Or.inr h
  constructor
  · intro b hb
    rw [ha] at hb
    have hb1 := b.2.2.1
    have hb2 := b.2.2.2
    rw [hb] at hb1 hb2
    have hp : proposal s.current i = saFlip s.current i := by unfold proposal; rw [if_neg (by omega)]
    rcases saBody_step hd hinv hi h1 with ⟨-, h2, -⟩ | ⟨-, s1, hev⟩
    · omega
    · rw [hp] at hev
      obtain ⟨c, hfit⟩ := hE b
      rw [hb] at hfit
      by_cases hu : u < acceptance s.temp (E a) (E b)
      · obtain ⟨h3, -⟩ := hev.accept c _ hfit ((hrule _).2 hu)
        rw [hev.modelAfter hinv (by rw [h3, saFlip_length]; exact hinv.len), h3, if_pos hu, hb]
      · have h3 := hev.reject c _ hfit (fun h => hu ((hrule _).1 h))
        rw [hev.modelAfter hinv (by rw [h3]; exact hinv.len), h3, if_neg hu, ha]
  · intro hno
    rcases saBody_step hd hinv hi h1 with ⟨-, -, h2⟩ | ⟨h2, s1, hev⟩
    · rw [h2, ha]; rfl
    · by_cases hz : card (saFlip s.current i) = 0
      · have hp : proposal s.current i = s.current := by unfold proposal; rw [if_pos hz]
        have h3 : s1.current = s.current := by
          rcases hev.cases hd hinv with ⟨h, -⟩ | h
          · rw [h, hp]
          · rw [h]
        rw [hev.modelAfter hinv (by rw [h3]; exact hinv.len), h3, ha]
      · exfalso
        refine hno ⟨saFlip s.current i, by rw [saFlip_length]; exact hinv.len, by omega, by omega⟩ ?_
        rw [ha]

/-- Once a model is accepted, an iteration of simulated annealing moves as the Metropolis chain at its temperature: with
every feature drawn with the same probability and a uniform random number, it holds model `b` afterwards with the
probability the chain gives. -/
theorem C117_metropolis {P : SaInput} (hd : SaData P) {s : SaState} (hs : SaReach P s) (hacc : s.acc ≠ [])
    {E : SaModel P.X.nc P.X.nr → ℝ} (hE : ∀ m, ∃ c, IsFit P m.1 c (E m)) (a b : SaModel P.X.nc P.X.nr)
    (ha : a.1 = s.current) :
    (∑ i ∈ Finset.range P.X.nc,
      (volume {u : ℝ | 0 ≤ u ∧ u < 1 ∧ modelAfter P.X.nc (saBody P s i u) = some b.1}).toReal) / P.X.nc =
    metropolis E s.temp a b := by
  classical
  have hn : (0 : ℝ) < P.X.nc := by exact_mod_cast hd.cols
  -- the probability for one feature
  have hone : ∀ i ∈ Finset.range P.X.nc,
      (volume {u : ℝ | 0 ≤ u ∧ u < 1 ∧ modelAfter P.X.nc (saBody P s i u) = some b.1}).toReal =
      (if a = b then 1 - ∑ c : SaModel P.X.nc P.X.nr,
        (if c.1 = saFlip a.1 i then acceptance s.temp (E a) (E c) else 0)
      else if b.1 = saFlip a.1 i then acceptance s.temp (E a) (E b) else 0) := by
    intro i hi
    have hi := Finset.mem_range.1 hi
    have hil : i < a.1.length := by rw [a.2.1]; exact hi
    by_cases hex : ∃ c : SaModel P.X.nc P.X.nr, c.1 = saFlip a.1 i
    · obtain ⟨c, hc⟩ := hex
      have hp0 := acceptance_pos s.temp (E a) (E c)
      have hp1 := acceptance_le s.temp (E a) (E c)
      have hca : c ≠ a := by
        rintro rfl
        exact saFlip_ne hil hc.symm
      have hset : {u : ℝ | 0 ≤ u ∧ u < 1 ∧ modelAfter P.X.nc (saBody P s i u) = some b.1} =
          {u : ℝ | 0 ≤ u ∧ u < 1 ∧ (if u < acceptance s.temp (E a) (E c) then c else a) = b} := by
        ext u
        simp only [Set.mem_setOf_eq]
        refine and_congr_right fun h0 => and_congr_right fun h1 => ?_
        rw [(saBody_modelAfter hd hs hacc hE a ha hi h0 h1).1 c hc, Option.some.injEq]
        split
        · exact Subtype.ext_iff.symm
        · exact Subtype.ext_iff.symm
      rw [hset, Finset.sum_eq_single c (fun d _ hdc => if_neg fun h => hdc (Subtype.ext (h.trans hc.symm)))
        (fun h => absurd (Finset.mem_univ c) h), if_pos hc]
      by_cases hab : a = b
      · rw [if_pos hab]
        have : {u : ℝ | 0 ≤ u ∧ u < 1 ∧ (if u < acceptance s.temp (E a) (E c) then c else a) = b} =
            Set.Ico (acceptance s.temp (E a) (E c)) 1 := by
          ext u
          simp only [Set.mem_setOf_eq, Set.mem_Ico]
          constructor
          · rintro ⟨-, h1, h2⟩
            refine ⟨?_, h1⟩
            by_contra h
            rw [if_pos (not_le.1 h), ← hab] at h2
            exact hca h2
          · rintro ⟨h1, h2⟩
            exact ⟨hp0.le.trans h1, h2, by rw [if_neg (not_lt.2 h1)]; exact hab⟩
        rw [this, Real.volume_Ico, ENNReal.toReal_ofReal (by linarith)]
      · rw [if_neg hab]
        by_cases hbc : b = c
        · subst hbc
          rw [if_pos hc]
          have : {u : ℝ | 0 ≤ u ∧ u < 1 ∧ (if u < acceptance s.temp (E a) (E b) then b else a) = b} =
              Set.Ico 0 (acceptance s.temp (E a) (E b)) := by
            ext u
            simp only [Set.mem_setOf_eq, Set.mem_Ico]
            constructor
            · rintro ⟨h0, -, h2⟩
              refine ⟨h0, ?_⟩
              by_contra h
              rw [if_neg h] at h2
              exact hab h2
            · rintro ⟨h1, h2⟩
              exact ⟨h1, h2.trans_le hp1, by rw [if_pos h2]⟩
          rw [this, Real.volume_Ico, sub_zero, ENNReal.toReal_ofReal hp0.le]
        · rw [if_neg fun h => hbc (Subtype.ext (h.trans hc.symm))]
          have : {u : ℝ | 0 ≤ u ∧ u < 1 ∧ (if u < acceptance s.temp (E a) (E c) then c else a) = b} = ∅ := by
            rw [Set.eq_empty_iff_forall_notMem]
            rintro u ⟨-, -, h⟩
            split at h
            · exact hbc h.symm
            · exact hab h
          rw [this, measure_empty, ENNReal.toReal_zero]
    · have hno : ∀ c : SaModel P.X.nc P.X.nr, c.1 ≠ saFlip a.1 i := fun c hc => hex ⟨c, hc⟩
      rw [Finset.sum_eq_zero fun c _ => if_neg (hno c), if_neg (hno b), sub_zero]
      by_cases hab : a = b
      · have : {u : ℝ | 0 ≤ u ∧ u < 1 ∧ modelAfter P.X.nc (saBody P s i u) = some b.1} = Set.Ico 0 1 := by
          ext u
          simp only [Set.mem_setOf_eq, Set.mem_Ico]
          refine ⟨fun h => ⟨h.1, h.2.1⟩, fun h => ⟨h.1, h.2, ?_⟩⟩
          rw [(saBody_modelAfter hd hs hacc hE a ha hi h.1 h.2).2 hno, hab]
        rw [if_pos hab, this, Real.volume_Ico, sub_zero, ENNReal.toReal_ofReal one_pos.le]
      · have : {u : ℝ | 0 ≤ u ∧ u < 1 ∧ modelAfter P.X.nc (saBody P s i u) = some b.1} = ∅ := by
          rw [Set.eq_empty_iff_forall_notMem]
          rintro u ⟨h0, h1, h⟩
          rw [(saBody_modelAfter hd hs hacc hE a ha hi h0 h1).2 hno, Option.some.injEq] at h
          exact hab (Subtype.ext h)
        rw [if_neg hab, this, measure_empty, ENNReal.toReal_zero]
  rw [Finset.sum_congr rfl hone]
  unfold metropolis
  by_cases hab : a = b
  · simp only [if_pos hab, neighbours_sum]
    rw [Finset.sum_sub_distrib, Finset.sum_const, Finset.card_range, nsmul_eq_mul, mul_one, sub_div, div_self hn.ne',
      Finset.sum_comm, Finset.sum_div]
    congr 1
    refine Finset.sum_congr rfl fun c _ => ?_
    rw [Finset.sum_div]
    refine Finset.sum_congr rfl fun i _ => ?_
    rw [ite_div, zero_div]
  · simp only [if_neg hab, neighbours_sum]
    rw [Finset.sum_div]
    refine Finset.sum_congr rfl fun i _ => ?_
    rw [ite_div, zero_div]

/-- The chain is in balance with the Boltzmann distribution of its temperature, which therefore stays once reached. -/
theorem C117_boltzmann {nc nr : Nat} (hnc : 0 < nc) (E : SaModel nc nr → ℝ) (T : ℝ) (a b : SaModel nc nr) :
    boltzmann E T a * metropolis E T a b = boltzmann E T b * metropolis E T b a ∧
      ∑ c, boltzmann E T c * metropolis E T c b = boltzmann E T b :=
  ⟨boltzmann_balance E T a b, boltzmann_stationary hnc E T b⟩

/-- With at least six data points the chain approaches the Boltzmann distribution from every model. -/
theorem C117_converges {nc nr : Nat} (hnc : 0 < nc) (h6 : 6 ≤ nr) (E : SaModel nc nr → ℝ) (T : ℝ)
    (a b : SaModel nc nr) :
    Filter.Tendsto (fun n => (metropolis E T ^ n) a b) Filter.atTop (nhds (boltzmann E T b)) :=
  metropolis_tendsto hnc h6 E T a b

/-- At low temperature the Boltzmann distribution concentrates on the cheapest model: if every other model costs at least
`δ` more, it has all but `exp (-δ / T)` of the probability for every other model. -/
theorem C117_low_temperature {nc nr : Nat} (E : SaModel nc nr → ℝ) {T δ : ℝ} (hT : 0 < T) {best : SaModel nc nr}
    (h : ∀ b, b ≠ best → E best + δ ≤ E b) :
    1 - ((Fintype.card (SaModel nc nr) - 1 : ℕ) : ℝ) * Real.exp (-δ / T) ≤ boltzmann E T best := by
  have hle : ∀ b, b ≠ best → boltzmann E T b ≤ Real.exp (-δ / T) := by
    intro b hb
    have h1 : boltzmann E T best ≤ 1 := by
      rw [← boltzmann_sum E T best]
      exact Finset.single_le_sum (f := boltzmann E T) (fun c _ => div_nonneg (Real.exp_pos _).le
        (Finset.sum_nonneg fun c _ => (Real.exp_pos _).le)) (Finset.mem_univ best)
    refine le_trans ?_ (mul_le_of_le_one_right (Real.exp_pos _).le h1)
    unfold boltzmann
    rw [← mul_div_assoc, ← Real.exp_add]
    refine div_le_div_of_nonneg_right (Real.exp_le_exp.2 ?_) (Finset.sum_nonneg fun c _ => (Real.exp_pos _).le)
    rw [← add_div]
    have := h b hb
    exact div_le_div_of_nonneg_right (by linarith) hT.le
  have hsum := boltzmann_sum E T best
  rw [← Finset.add_sum_erase _ _ (Finset.mem_univ best)] at hsum
  have hrest : ∑ b ∈ Finset.univ.erase best, boltzmann E T b ≤
      ((Fintype.card (SaModel nc nr) - 1 : ℕ) : ℝ) * Real.exp (-δ / T) := by
    refine (Finset.sum_le_card_nsmul _ _ (Real.exp (-δ / T)) fun b hb => hle b (Finset.ne_of_mem_erase hb)).trans ?_
    rw [Finset.card_erase_of_mem (Finset.mem_univ best), Finset.card_univ, nsmul_eq_mul]
  linarith

/-- The costs of `exSaBoth`. -/
noncomputable def exBothCost (m : SaModel exSaBoth.X.nc exSaBoth.X.nr) : ℝ := if card m.1 = 2 then 0 else 1

theorem exBothCost_fit (m : SaModel exSaBoth.X.nc exSaBoth.X.nr) : ∃ c, IsFit exSaBoth m.1 c (exBothCost m) := by
  obtain ⟨c, r, -, -, hfit⟩ := fitModel_isFit exSaBoth_data.rows m.2.2.1 m.2.1
  exact ⟨c, hfit⟩

/-- The model with both columns, and the one with the first. -/
def exBoth : SaModel exSaBoth.X.nc exSaBoth.X.nr := ⟨[true, true], rfl, by decide, by decide⟩

def exFirst : SaModel exSaBoth.X.nc exSaBoth.X.nr := ⟨[true, false], rfl, by decide, by decide⟩

theorem exBoth_first : Neighbours exBoth exFirst := neighbours_iff.2 ⟨1, by decide, rfl⟩

/-- From the model with both columns, which costs one less, the search moves to the model with the first column with
probability `exp (-1 / T) / 2`. -/
example : ∃ s, SaReach exSaBoth s ∧ s.acc ≠ [] ∧ s.current = [true, true] ∧
    (∑ i ∈ Finset.range 2,
      (volume {u : ℝ | 0 ≤ u ∧ u < 1 ∧ modelAfter 2 (saBody exSaBoth s i u) = some [true, false]}).toReal) / 2 =
    Real.exp (-1 / s.temp) / 2 := by
  obtain ⟨ds, δ, -, -, hδ, h⟩ := C114_reached_partial exSaBoth_data (by decide) (by decide) (m := [true, true]) rfl
    (by decide) (by decide)
  obtain ⟨s0, s, -, -, hr, hcur, x, hx, -⟩ := h (fun k => ds.getD k 0) (fun _ => 0)
    (fun k d hk => by rw [List.getD_eq_getElem?_getD, hk]; rfl) (fun k _ => ⟨le_rfl, hδ⟩)
  have hacc : s.acc ≠ [] := List.ne_nil_of_mem hx
  have hT := (SaInv.reach exSaBoth_data hr).temp
  refine ⟨s, hr, hacc, hcur, ?_⟩
  have := C117_metropolis exSaBoth_data hr hacc exBothCost_fit exBoth exFirst hcur.symm
  refine this.trans ?_
  unfold metropolis
  rw [if_neg (by decide), if_pos exBoth_first]
  have h1 : exBothCost exBoth = 0 := if_pos (by decide)
  have h2 : exBothCost exFirst = 1 := if_neg (by decide)
  rw [h1, h2, acceptance, sub_zero, min_eq_right]
  · rfl
  · rw [← Real.exp_zero]
    exact Real.exp_le_exp.2 (div_nonpos_of_nonpos_of_nonneg (by norm_num) hT.le)

/-- In the long run, at temperature one, the model with both columns is held more often than the one with the first, by
the factor `exp 1`. -/
example : boltzmann exBothCost 1 exBoth = Real.exp 1 * boltzmann exBothCost 1 exFirst ∧
    Filter.Tendsto (fun n => (metropolis exBothCost 1 ^ n) exFirst exBoth) Filter.atTop
      (nhds (boltzmann exBothCost 1 exBoth)) := by
  refine ⟨?_, C117_converges (by decide) (by decide) _ _ _ _⟩
  have h1 : exBothCost exBoth = 0 := if_pos (by decide)
  have h2 : exBothCost exFirst = 1 := if_neg (by decide)
  unfold boltzmann
  rw [h1, h2, ← mul_div_assoc, ← Real.exp_add]
  norm_num

/-- The chain between the two models is in balance at temperature one, and the model with both columns is the cheapest
by one. -/
example : boltzmann exBothCost 1 exBoth * metropolis exBothCost 1 exBoth exFirst =
      boltzmann exBothCost 1 exFirst * metropolis exBothCost 1 exFirst exBoth ∧
    ∀ b, b ≠ exBoth → exBothCost exBoth + 1 ≤ exBothCost b := by
  refine ⟨(C117_boltzmann (by decide) _ _ _ _).1, fun b hb => ?_⟩
  have h1 : exBothCost exBoth = 0 := if_pos (by decide)
  have h2 : exBothCost b = 1 := by
    have key : ∀ m : List Bool, m.length = 2 → card m = 2 → m = [true, true] := by
      intro m hl h
      rcases m with _ | ⟨x, _ | ⟨y, _ | ⟨z, m⟩⟩⟩
      · exact absurd hl (by decide)
      · simp at hl
      · revert h; cases x <;> cases y <;> decide
      · simp at hl
    exact if_neg fun h => hb (Subtype.ext (key _ b.2.1 h))
  rw [h1, h2, zero_add]

end GoSelect
