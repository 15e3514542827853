import Verif.Proofs.SaSteps
import Verif.Proofs.LoopRun
import Verif.Props.C27_C29

/-! C113: simulated annealing ends. -/

namespace GoSelect

open Spec

/-- Random numbers as `math/rand` delivers them: every column is drawn again and again, and the numbers of `Float64` stay
away from 1 (they are multiples of `1 / 2^53`). -/
structure Spec.FairDraws (nc : Nat) (index : Nat → Nat) (u : Nat → ℝ) : Prop where
  column : ∀ k, index k < nc
  nonneg : ∀ k, 0 ≤ u k
  below : ∃ v, v < 1 ∧ ∀ k, u k ≤ v
  again : ∀ i, i < nc → ∀ n, ∃ k, n ≤ k ∧ index k = i

/-- A run of the loop that does not end. -/
structure Endless (P : SaInput) (index : Nat → Nat) (u : Nat → ℝ) (run : Nat → SaState) : Prop where
  reach : ∀ k, SaReach P (run k)
  step : ∀ k, saBody P (run k) (index k) (u k) = .next (run (k + 1))

/-- Few features: one, or fewer than half the number of rows. -/
theorem saReach_few {P : SaInput} (hd : SaData P) {s : SaState} (h : SaReach P s) :
    card s.current = 1 ∨ card s.current < P.X.nr / 2 := by
  induction h with
  | init h =>
    left
    unfold saInit at h
    rw [goSet, if_pos (by simpa using hd.cols)] at h
    cases h
    show card ((List.replicate P.X.nc false).set 0 true) = 1
    rw [card_eq_count, List.count_eq_countP]
    have := countP_set (fun b => b == true) (l := List.replicate P.X.nc false) (i := 0) (a := false)
      (b := true) (by rw [List.getElem?_replicate, if_pos hd.cols])
    simp [List.countP_replicate] at this
    simpa using this
  | @step s s' index u hr hi h0 h1 h' ih =>
    have hinv := SaInv.reach hd hr
    have hlen : index < s.current.length := by rw [hinv.len]; exact hi
    have hc := card_saFlip hlen
    have hpos := hinv.pos
    rcases saBody_step hd hinv hi h1 with ⟨-, -, h2⟩ | ⟨h2, s1, hs1⟩
    · rw [h2] at h'
      cases h'
      exact ih
    · rw [hs1.out] at h'
      have hcur := (saSweep_next h').1
      rw [hcur]
      rcases hs1.cases hd hinv with ⟨h3, -⟩ | h3
      · rw [h3]
        unfold proposal
        rcases h2 with h2 | h2
        · rw [if_pos h2]; exact ih
        · split
          · exact ih
          · exact Or.inr h2
      · rw [h3]
        exact ih

/-- A round has `L` steps. -/
structure Rounds (P : SaInput) (L : Nat) : Prop where
  pos : 0 < L
  dvd : L % P.X.nc = 0
  ends : ∀ n : Nat, ((n + 1 : Nat) : Int) ≥ (P.X.nc : Int) * P.nSweeps ↔ L ≤ n + 1

theorem rounds {P : SaInput} (hc : 0 < P.X.nc) (hs : 0 < P.nSweeps ∨ P.X.nc = 1) : ∃ L, Rounds P L := by
  by_cases h : 0 < P.nSweeps
  · have hz : ((P.X.nc * P.nSweeps.toNat : Nat) : Int) = (P.X.nc : Int) * P.nSweeps := by
      push_cast; rw [Int.toNat_of_nonneg h.le]
    refine ⟨P.X.nc * P.nSweeps.toNat, Nat.mul_pos hc (by omega), Nat.mul_mod_right _ _, fun n => ?_⟩
    rw [← hz]
    omega
  · have h1 : P.X.nc = 1 := hs.resolve_left h
    refine ⟨1, one_pos, by rw [h1], fun n => ?_⟩
    rw [h1, Nat.cast_one, one_mul]
    omega

section
variable {P : SaInput} (hd : SaData P) {index : Nat → Nat} {u : Nat → ℝ} (hf : FairDraws P.X.nc index u)
  {run : Nat → SaState} (hr : Endless P index u run)
include hd hf hr

theorem draw_lt (k : Nat) : u k < 1 := by
  obtain ⟨v, hv, h⟩ := hf.below
  exact (h k).trans_lt hv

/-- The next draw that is evaluated. -/
theorem next_evaluated (k : Nat) : ∃ k', k ≤ k' ∧ run k' = run k ∧
    ∃ s1, Evaluated P (run k) (.next (run (k' + 1))) (proposal (run k).current (index k')) (u k') s1 := by
  by_contra hcon
  push Not at hcon
  -- otherwise all draws are skipped
  have hskip : ∀ j, run (k + j) = run k := by
    intro j
    induction j with
    | zero => rfl
    | succ j ih =>
      rcases saBody_step hd (SaInv.reach hd (hr.reach (k + j))) (hf.column (k + j)) (draw_lt hd hf hr (k + j)) with
        ⟨-, -, h⟩ | ⟨-, s1, h⟩
      · rw [hr.step] at h
        exact (Outcome.next.inj h).trans ih
      · rw [hr.step, ih] at h
        exact absurd h (hcon (k + j) (by omega) ih s1)
  have hinv := SaInv.reach hd (hr.reach k)
  obtain ⟨i, hi⟩ : ∃ i, i ∈ features (run k).current := by
    have := hinv.pos
    exact List.exists_mem_of_ne_nil _ (List.ne_nil_of_length_pos this)
  rw [mem_features] at hi
  have hil : i < (run k).current.length := (List.getElem?_eq_some_iff.1 hi).1
  obtain ⟨k', hk', hik⟩ := hf.again i (by rw [← hinv.len]; exact hil) k
  have hk : run k' = run k := by
    have := hskip (k' - k)
    rwa [Nat.add_sub_cancel' hk'] at this
  have hcard : card (saFlip (run k).current i) + 1 = card (run k).current := by
    have e : (run k).current.getD i false = true := by
      rw [List.getD_eq_getElem?_getD, hi]; rfl
    have := countP_set (fun b => b == true) (l := (run k).current) (i := i) (a := true) (b := false) hi
    rw [card_eq_count, card_eq_count, saFlip, e, List.count_eq_countP, List.count_eq_countP]
    simp at this ⊢
    omega
  have hfew := saReach_few hd (hr.reach k)
  rcases saBody_step hd (SaInv.reach hd (hr.reach k')) (hf.column k') (draw_lt hd hf hr k') with
    ⟨h1, h2, -⟩ | ⟨-, s1, h⟩
  · rw [hik, hk] at h1 h2
    omega
  · rw [hr.step, hk] at h
    exact hcon k' hk' hk s1 h

/-- Above some temperature every evaluated draw is accepted. -/
theorem hot : ∃ T : ℝ, ∀ {k k' : Nat} {s1 : SaState}, T ≤ (run k).temp → (run k).acc ≠ [] →
    Evaluated P (run k) (.next (run (k' + 1))) (proposal (run k).current (index k')) (u k') s1 →
    s1.numAccept = (run k).numAccept + 1 := by
  obtain ⟨C, hC, hbound⟩ := costs_bounded P
  obtain ⟨v, hv, hu⟩ := hf.below
  -- a temperature with `exp (-2C/T) > v`
  obtain ⟨T, hT, hexp⟩ : ∃ T : ℝ, 0 < T ∧ v < Real.exp (-(2 * C) / T) := by
    by_cases hv0 : v ≤ 0
    · exact ⟨1, one_pos, hv0.trans_lt (Real.exp_pos _)⟩
    · rw [not_le] at hv0
      have hlog : Real.log v < 0 := Real.log_neg hv0 hv
      refine ⟨(2 * C + 1) / (-Real.log v), div_pos (by linarith) (by linarith), ?_⟩
      rw [← Real.log_lt_iff_lt_exp hv0, div_div_eq_mul_div, lt_div_iff₀ (by linarith)]
      nlinarith
  refine ⟨T, fun {k k' s1} ht hacc h => ?_⟩
  have hinv := SaInv.reach hd (hr.reach k)
  obtain ⟨hlen', -, c, σ, hfit⟩ := proposal_fit hd hinv (index k')
  rcases hinv.score with ⟨h0, -⟩ | ⟨-, c', h2, -⟩
  · exact absurd h0 hacc
  · exact (h.accept _ _ hfit (accepts hC hT hexp (hbound _ _ _ hlen' hfit) (hbound _ _ _ hinv.len h2) ht (hu k'))).2.1

variable {L : Nat} (hs : Rounds P L)
include hs

theorem steps_below (k : Nat) : (run k).numSteps < L := by
  have key : ∀ s, SaReach P s → s.numSteps < L := by
    intro s h
    induction h with
    | init h =>
      unfold saInit at h
      rw [goSet, if_pos (by simpa using hd.cols)] at h
      cases h
      exact hs.pos
    | @step s s' index u hr hi h0 h1 h' ih =>
      rcases saBody_step hd (SaInv.reach hd hr) hi h1 with ⟨-, -, h2⟩ | ⟨h2, s1, hs1⟩
      · rw [h2] at h'
        cases h'
        exact ih
      · rw [hs1.out] at h'
        rcases (saSweep_next h').2.2.2.2 with ⟨-, h3, -⟩ | ⟨h3, h4, -⟩
        · rw [h3]; exact hs.pos
        · rw [h4]
          have := (hs.ends s1.numSteps).not.1 (not_le.2 h3)
          omega
  exact key _ (hr.reach k)

/-- Once half of the steps were accepted, every round halves the temperature. -/
theorem cool (n k : Nat) (hn : L - (run k).numSteps ≤ n) (h50 : (run k).has50 = true) :
    ∃ k', (run k').has50 = true ∧ (run k').temp = (run k).temp * 0.5 ∧ 1e-12 ≤ (run k').temp := by
  induction n generalizing k with
  | zero =>
    have := steps_below hd hf hr hs k
    omega
  | succ n ih =>
    obtain ⟨k', hk, -, s1, h⟩ := next_evaluated hd hf hr k
    obtain ⟨-, -, -, h1, h2⟩ := saSweep_next h.out.symm
    have hh : half50 P s1 = true := by
      unfold half50; rw [h.has50, h50]; simp
    have htemp : temp50 P s1 = (run k).temp := by
      unfold temp50; rw [hh]; simp [h.temp]
    rcases h2 with ⟨-, -, -, h3, h4⟩ | ⟨h3, h4, -, h5⟩
    · exact ⟨k' + 1, by rw [h1, hh], by rw [h3, hh, if_pos rfl, htemp], h4⟩
    · obtain ⟨k2, h6, h7, h8⟩ := ih (k' + 1) (by rw [h4, h.numSteps]; omega) (by rw [h1, hh])
      exact ⟨k2, h6, by rw [h7, h5, htemp], h8⟩

theorem never50 (k : Nat) : (run k).has50 = false := by
  by_contra hcon
  rw [Bool.not_eq_false] at hcon
  have key : ∀ n : Nat, ∃ k', (run k').has50 = true ∧ (run k').temp = (run k).temp * 0.5 ^ n ∧
      (0 < n → 1e-12 ≤ (run k').temp) := by
    intro n
    induction n with
    | zero => exact ⟨k, hcon, by simp, fun h => absurd h (by omega)⟩
    | succ n ih =>
      obtain ⟨k1, h1, h2, -⟩ := ih
      obtain ⟨k2, h3, h4, h5⟩ := cool hd hf hr hs _ k1 le_rfl h1
      exact ⟨k2, h3, by rw [h4, h2, pow_succ, mul_assoc], fun _ => h5⟩
  have htp := (SaInv.reach hd (hr.reach k)).temp
  obtain ⟨n, hn⟩ := exists_pow_lt_of_lt_one (div_pos (by norm_num : (0 : ℝ) < 1e-12) htp) (by norm_num : (0.5 : ℝ) < 1)
  obtain ⟨k', -, h2, h3⟩ := key (n + 1)
  have h4 := h3 (by omega)
  rw [h2] at h4
  have h5 : (0.5 : ℝ) ^ (n + 1) ≤ 0.5 ^ n := pow_le_pow_of_le_one (by norm_num) (by norm_num) (by omega)
  rw [lt_div_iff₀ htp] at hn
  nlinarith

/-- Without that, every round at least doubles it. -/
theorem heat (n k : Nat) (hn : L - (run k).numSteps ≤ n) :
    ∃ k', k < k' ∧ (run k').numSteps = 0 ∧ (run k').numAccept = 0 ∧ 2 * (run k).temp ≤ (run k').temp ∧
      (run k').acc ≠ [] := by
  induction n generalizing k with
  | zero =>
    have := steps_below hd hf hr hs k
    omega
  | succ n ih =>
    obtain ⟨k', hk, hrk, s1, h⟩ := next_evaluated hd hf hr k
    have hev := h
    obtain ⟨-, -, hac, h1, h2⟩ := saSweep_next h.out.symm
    have hh : half50 P s1 = false := by rw [← h1]; exact never50 hd hf hr hs _
    have htp := (SaInv.reach hd (hr.reach k)).temp
    have hb := steps_below hd hf hr hs k
    have hacc : (run (k' + 1)).acc ≠ [] := by
      rw [hac]
      exact h.acc_ne hd (SaInv.reach hd (hr.reach k)) (draw_lt hd hf hr k')
    rcases h2 with ⟨h2, h3, h4, h5, -⟩ | ⟨h3, h4, -, h5⟩
    · refine ⟨k' + 1, by omega, h3, h4, ?_, hacc⟩
      have hmod : (s1.numSteps + 1) % P.X.nc = 0 := by
        have : s1.numSteps + 1 = L := by
          have := (hs.ends _).1 h2
          rw [h.numSteps] at this ⊢; omega
        rw [this]; exact hs.dvd
      rw [h5, hh, if_neg (by simp), temp50, if_pos ⟨hmod, hh⟩, h.temp]
      linarith
    · obtain ⟨k2, h6, h7, h8, h9, h10⟩ := ih (k' + 1) (by rw [h4, h.numSteps]; omega)
      refine ⟨k2, by omega, h7, h8, le_trans ?_ h9, h10⟩
      rw [h5]
      have : (run k).temp ≤ temp50 P s1 := by
        unfold temp50; rw [h.temp]; split <;> linarith
      linarith

/-- In a round in which everything is accepted, half of the steps are. -/
theorem all_accepted {T : ℝ} (hT : ∀ {k k' : Nat} {s1 : SaState}, T ≤ (run k).temp → (run k).acc ≠ [] →
    Evaluated P (run k) (.next (run (k' + 1))) (proposal (run k).current (index k')) (u k') s1 →
    s1.numAccept = (run k).numAccept + 1) (n k : Nat) (hn : L - (run k).numSteps ≤ n)
    (ht : T ≤ (run k).temp) (ha : (run k).acc ≠ []) (he : (run k).numAccept = (run k).numSteps) : False := by
  induction n generalizing k with
  | zero =>
    have := steps_below hd hf hr hs k
    omega
  | succ n ih =>
    obtain ⟨k', hk, hrk, s1, h⟩ := next_evaluated hd hf hr k
    have hna := hT ht ha h
    obtain ⟨-, -, hac, h1, h2⟩ := saSweep_next h.out.symm
    have hh : half50 P s1 = false := by rw [← h1]; exact never50 hd hf hr hs _
    have htp := (SaInv.reach hd (hr.reach k)).temp
    have hb := steps_below hd hf hr hs k
    have hnb : (s1.numSteps + 1) % P.X.nc ≠ 0 := by
      intro hmod
      unfold half50 at hh
      rw [if_pos hmod, Bool.or_eq_false_iff] at hh
      have := hh.2
      rw [hna, he, h.numSteps, div_self (by positivity)] at this
      norm_num at this
    rcases h2 with ⟨h2, -⟩ | ⟨h3, h4, h5, h6⟩
    · apply hnb
      have : s1.numSteps + 1 = L := by
        have := (hs.ends _).1 h2
        rw [h.numSteps] at this ⊢; omega
      rw [this]; exact hs.dvd
    · refine ih (k' + 1) (by rw [h4, h.numSteps]; omega) ?_ ?_ ?_
      · rw [h6, temp50, if_neg (fun h => hnb h.1), h.temp]; exact ht
      · rw [hac]
        exact h.acc_ne hd (SaInv.reach hd (hr.reach k)) (draw_lt hd hf hr k')
      · rw [h5, h4, hna, he, h.numSteps]

theorem no_endless : False := by
  obtain ⟨T, hT⟩ := hot hd hf hr
  -- a round that starts above `T`
  have h0 := (SaInv.reach hd (hr.reach 0)).temp
  have key : ∀ n : Nat, ∃ k, (run k).numSteps = 0 ∧ (run k).numAccept = 0 ∧
      ((n : ℝ) + 1) * (run 0).temp ≤ (run k).temp ∧ (run k).acc ≠ [] := by
    intro n
    induction n with
    | zero =>
      obtain ⟨k, -, h1, h2, h3, h4⟩ := heat hd hf hr hs _ 0 le_rfl
      exact ⟨k, h1, h2, by push_cast; linarith, h4⟩
    | succ n ih =>
      obtain ⟨k, h1, h2, h3, h4⟩ := ih
      obtain ⟨k', -, h5, h6, h7, h8⟩ := heat hd hf hr hs _ k le_rfl
      refine ⟨k', h5, h6, ?_, h8⟩
      have : (0 : ℝ) ≤ n := Nat.cast_nonneg n
      push_cast
      nlinarith
  obtain ⟨n, hn⟩ := exists_nat_gt (T / (run 0).temp)
  rw [div_lt_iff₀ h0] at hn
  obtain ⟨k, h1, h2, h3, h4⟩ := key n
  exact all_accepted hd hf hr hs hT _ k le_rfl (by nlinarith) h4 (by rw [h1, h2])

end

/-- The run of the loop. -/
theorem stream_reach {P : SaInput} {index : Nat → Nat} {u : Nat → ℝ} (hc : ∀ k, index k < P.X.nc) (h0 : ∀ k, 0 ≤ u k)
    (h1 : ∀ k, u k < 1) {s r} (h : Runs (saStream P index u) s r) (hs : SaReach P s.2) : SaReturns P r := by
  induction h with
  | @ret s r h =>
    refine ⟨s.2, index s.1, u s.1, hs, hc _, h0 _, h1 _, ?_⟩
    unfold saStream at h
    split at h
    · cases h
    · rename_i h2; cases h; exact h2
    · cases h
  | @next s s' r h _ ih =>
    refine ih ?_
    unfold saStream at h
    split at h
    · rename_i h2; cases h; exact .step _ _ hs (hc _) (h0 _) (h1 _) h2
    · cases h
    · cases h

theorem saInit_some {P : SaInput} (hd : SaData P) : ∃ s0, saInit P = some s0 := by
  unfold saInit
  rw [goSet, if_pos (by simpa using hd.cols)]
  exact ⟨_, rfl⟩

theorem stream_runs {P : SaInput} (hd : SaData P) (hs : 0 < P.nSweeps ∨ P.X.nc = 1) {index : Nat → Nat} {u : Nat → ℝ}
    (hf : FairDraws P.X.nc index u) {s0 : SaState} (h0 : saInit P = some s0) :
    ∃ r, Runs (saStream P index u) (0, s0) r := by
  have h1 : ∀ k, u k < 1 := by
    obtain ⟨v, hv, h⟩ := hf.below
    exact fun k => (h k).trans_lt hv
  have hnext : ∀ s s' : Nat × SaState, saStream P index u s = .next s' →
      s'.1 = s.1 + 1 ∧ saBody P s.2 (index s.1) (u s.1) = .next s'.2 := by
    intro s s' h
    unfold saStream at h
    split at h
    · rename_i h2; cases h; exact ⟨rfl, h2⟩
    · cases h
    · cases h
  refine runs_of_progress (fun s => SaReach P s.2) (.init h0) ?_ ?_ ?_
  · intro s hr h
    have hok := saBody_ok hd (SaInv.reach hd hr) (hf.column s.1) (h1 s.1)
    unfold saStream at h
    split at h
    · cases h
    · cases h
    · rename_i h2; rw [h2] at hok; exact hok
  · intro s s' hr h
    exact .step _ _ hr (hf.column _) (hf.nonneg _) (h1 _) (hnext s s' h).2
  · intro run hrun hall
    have hk : ∀ k, (run k).1 = k ∧ SaReach P (run k).2 := by
      intro k
      induction k with
      | zero => rw [hrun]; exact ⟨rfl, .init h0⟩
      | succ k ih =>
        obtain ⟨h2, h3⟩ := hnext _ _ (hall k)
        exact ⟨by rw [h2, ih.1], .step _ _ ih.2 (hf.column _) (hf.nonneg _) (h1 _) h3⟩
    obtain ⟨L, hL⟩ := rounds hd.cols hs
    refine no_endless hd hf (run := fun k => (run k).2) ⟨fun k => (hk k).2, fun k => ?_⟩ hL
    have := (hnext _ _ (hall k)).2
    rwa [(hk k).1] at this

/-- Without sweeps the temperature never changes. -/
theorem never_state {P : SaInput} (hd : SaData P) (hs : P.nSweeps ≤ 0) (hc : 2 ≤ P.X.nc) {s : SaState}
    (h : SaReach P s) : s.numSteps = 0 ∧ s.has50 = false ∧ s.temp = 500 := by
  induction h with
  | init h =>
    unfold saInit at h
    rw [goSet, if_pos (by simpa using hd.cols)] at h
    cases h
    exact ⟨rfl, rfl, rfl⟩
  | @step s s' index u hr hi h0 h1 h' ih =>
    rcases saBody_step hd (SaInv.reach hd hr) hi h1 with ⟨-, -, h2⟩ | ⟨h2, s1, hs1⟩
    · rw [h2] at h'
      cases h'
      exact ih
    · rw [hs1.out] at h'
      have hmod : (s1.numSteps + 1) % P.X.nc ≠ 0 := by
        rw [hs1.numSteps, ih.1, Nat.mod_eq_of_lt (by omega)]; omega
      have hh : half50 P s1 = false := by
        unfold half50; rw [if_neg hmod, hs1.has50, ih.2.1]
      have ht : temp50 P s1 = 500 := by
        unfold temp50; rw [if_neg (fun h => hmod h.1), hs1.temp, ih.2.2]
      obtain ⟨-, -, -, h3, h4⟩ := saSweep_next h'
      rcases h4 with ⟨-, h5, -, h6, -⟩ | ⟨h5, -⟩
      · exact ⟨h5, h3.trans hh, by rw [h6, hh, ht]; simp⟩
      · exfalso
        have : (P.X.nc : Int) * P.nSweeps ≤ 0 := mul_nonpos_of_nonneg_of_nonpos (by omega) hs
        omega

/-- With at least one sweep per temperature (or a single column) simulated annealing returns, for every sequence of
random numbers in which every column is drawn again and again and the numbers deciding about acceptance stay away from
1. -/
theorem C113_returns_partial {P : SaInput} (hd : SaData P) (hs : 0 < P.nSweeps ∨ P.X.nc = 1) {index : Nat → Nat}
    {u : Nat → ℝ} (hf : FairDraws P.X.nc index u) :
    ∃ s0 r, saInit P = some s0 ∧ Runs (saStream P index u) (0, s0) r ∧ SaReturns P r := by
  obtain ⟨s0, h0⟩ := saInit_some hd
  obtain ⟨r, hr⟩ := stream_runs hd hs hf h0
  have h1 : ∀ k, u k < 1 := by
    obtain ⟨v, hv, h⟩ := hf.below
    exact fun k => (h k).trans_lt hv
  exact ⟨s0, r, h0, hr, stream_reach hf.column hf.nonneg h1 hr (.init h0)⟩

/-- With no or a negative number of sweeps and at least two columns it never returns, whatever the random numbers. -/
theorem C113_never {P : SaInput} (hd : SaData P) (hs : P.nSweeps ≤ 0) (hc : 2 ≤ P.X.nc) : ¬ ∃ r, SaReturns P r := by
  rintro ⟨r, s, index, u, hr, hi, -, h1, h⟩
  obtain ⟨ih1, ih2, ih3⟩ := never_state hd hs hc hr
  rcases saBody_step hd (SaInv.reach hd hr) hi h1 with ⟨-, -, h2⟩ | ⟨h2, s1, hs1⟩
  · rw [h2] at h; cases h
  · rw [hs1.out, saSweep_eq] at h
    have hmod : (s1.numSteps + 1) % P.X.nc ≠ 0 := by
      rw [hs1.numSteps, ih1, Nat.mod_eq_of_lt (by omega)]; omega
    have hh : half50 P s1 = false := by
      unfold half50; rw [if_neg hmod, hs1.has50, ih2]
    have ht : temp50 P s1 = 500 := by
      unfold temp50; rw [if_neg (fun h => hmod h.1), hs1.temp, ih3]
    simp only [hh, ht] at h
    split at h
    · norm_num at h
      cases h
    · cases h

/-- Exactly when it returns. -/
theorem C113_iff {P : SaInput} (hd : SaData P) {index : Nat → Nat} {u : Nat → ℝ} (hf : FairDraws P.X.nc index u) :
    (∃ s0 r, saInit P = some s0 ∧ Runs (saStream P index u) (0, s0) r) ↔ 0 < P.nSweeps ∨ P.X.nc = 1 := by
  constructor
  · rintro ⟨s0, r, h0, hr⟩
    by_contra hcon
    rw [not_or, not_lt] at hcon
    have h1 : ∀ k, u k < 1 := by
      obtain ⟨v, hv, h⟩ := hf.below
      exact fun k => (h k).trans_lt hv
    have := hd.cols
    exact C113_never hd hcon.1 (by omega) ⟨r, stream_reach hf.column hf.nonneg h1 hr (.init h0)⟩
  · intro hs
    obtain ⟨s0, r, h0, hr, -⟩ := C113_returns_partial hd hs hf
    exact ⟨s0, r, h0, hr⟩

/-- Columns drawn in turn, and a coin that always shows 1/2. -/
theorem inTurn_fair (nc : Nat) (h : 0 < nc) : FairDraws nc (fun k => k % nc) (fun _ => 1 / 2) := by
  refine ⟨fun k => Nat.mod_lt _ h, fun _ => by norm_num, ⟨1 / 2, by norm_num, fun _ => le_rfl⟩, fun i hi n => ?_⟩
  refine ⟨nc * n + i, ?_, ?_⟩
  · have : n ≤ nc * n := Nat.le_mul_of_pos_left n h
    omega
  · show (nc * n + i) % nc = i
    rw [Nat.mul_add_mod, Nat.mod_eq_of_lt hi]

example : ∃ s0 r, saInit exSa = some s0 ∧
    Runs (saStream exSa (fun k => k % 3) (fun _ => 1 / 2)) (0, s0) r ∧ SaReturns exSa r :=
  C113_returns_partial exSa_data (Or.inl (by decide)) (inTurn_fair 3 (by decide))

/-- The same data without sweeps. -/
noncomputable def exSaZero : SaInput := { exSa with nSweeps := 0 }

theorem exSaZero_data : SaData exSaZero := ⟨exSa_data.cols, exSa_data.rows, exSa_data.finite⟩

example : ¬ ∃ r, SaReturns exSaZero r := C113_never exSaZero_data (by decide) (by decide)

/-- Simulated annealing does not always return: not for any random numbers if the number of sweeps is zero. -/
theorem C113_refuted : ∃ P : SaInput, SaData P ∧ (∃ index u, FairDraws P.X.nc index u) ∧
    ∀ index u, FairDraws P.X.nc index u → ¬ ∃ s0 r, saInit P = some s0 ∧ Runs (saStream P index u) (0, s0) r := by
  refine ⟨exSaZero, exSaZero_data, ⟨_, _, inTurn_fair 3 (by decide)⟩, fun index u hf h => ?_⟩
  have := (C113_iff exSaZero_data hf).1 h
  revert this
  decide

end GoSelect
