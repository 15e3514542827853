import Verif.Proofs.SaPath
import Verif.Props.C113

/-! C114: which models simulated annealing can find. -/

namespace GoSelect

open Spec

/-- The state after some iterations of a round in which everything was accepted. -/
structure Fresh (P : SaInput) (s : SaState) (j : Nat) : Prop where
  reach : SaReach P s
  steps : s.numSteps = j
  accepted : s.numAccept = j
  temp : s.temp = 500

/-- One draw with a small random number. -/
theorem fresh_step {P : SaInput} (hd : SaData P) (hs : 0 < P.nSweeps) {C : ℝ} (hC : 0 ≤ C)
    (hb : ∀ m c σ, m.length = P.X.nc → IsFit P m c σ → |σ| ≤ C) {s : SaState} {j : Nat} (h : Fresh P s j)
    (hj : j < P.X.nc) {i : Nat} (hi : i < P.X.nc)
    (hl : card (saFlip s.current i) = 0 ∨ card (saFlip s.current i) < P.X.nr / 2) {u : ℝ} (h0 : 0 ≤ u)
    (hu : u < Real.exp (-(2 * C) / 500)) :
    ∃ s', saBody P s i u = .next s' ∧ SaReach P s' ∧ s'.current = proposal s.current i ∧
      (∃ x, x ∈ s'.acc ∧ x.selection = (features (proposal s.current i)).map Int.ofNat) ∧
      (j + 1 < P.X.nc → Fresh P s' (j + 1)) := by
  have hinv := SaInv.reach hd h.reach
  have hu1 : u < 1 := by
    refine hu.trans_le ?_
    rw [← Real.exp_zero]
    refine Real.exp_le_exp.2 (div_nonpos_of_nonpos_of_nonneg (by linarith) (by norm_num))
  rcases saBody_step hd hinv hi hu1 with ⟨h1, h2, -⟩ | ⟨-, s1, hev⟩
  · omega
  · obtain ⟨hlen, hp, c, σ, hfit⟩ := proposal_fit hd hinv i
    -- it is accepted
    have hacc : σ < s.currentScore ∨ Real.exp (-(σ - s.currentScore) / s.temp) > u := by
      rcases hinv.score with ⟨-, h3⟩ | ⟨-, c', h3, -⟩
      · have hmax := hd.finite _ c _ hlen hp hfit
        rcases hmax.lt_or_eq with h4 | h4
        · left; rw [h3]; exact h4
        · right
          rw [h3, h4, sub_self, neg_zero, zero_div, Real.exp_zero]
          exact hu1
      · obtain ⟨v, hv1, hv2⟩ := exists_between hu
        exact accepts hC (by norm_num) hv2 (hb _ _ _ hlen hfit) (hb _ _ _ hinv.len h3) h.temp.ge hv1.le
    obtain ⟨h3, h4, -, x, h5, h6⟩ := hev.accept c σ hfit hacc
    have hbody : ∃ s', saBody P s i u = .next s' ∧ s'.current = s1.current ∧ s'.acc = s1.acc ∧
        (j + 1 < P.X.nc → s'.numSteps = j + 1 ∧ s'.numAccept = j + 1 ∧ s'.temp = 500) := by
      rw [hev.out, saSweep_eq]
      have hlast : j + 1 < P.X.nc → ¬ ((s1.numSteps + 1 : Nat) : Int) ≥ (P.X.nc : Int) * P.nSweeps := by
        intro h7
        rw [hev.numSteps, h.steps]
        have : (P.X.nc : Int) * 1 ≤ (P.X.nc : Int) * P.nSweeps := mul_le_mul_of_nonneg_left (by omega) (by omega)
        omega
      have hmod : j + 1 < P.X.nc → (s1.numSteps + 1) % P.X.nc ≠ 0 := by
        intro h7
        rw [hev.numSteps, h.steps, Nat.mod_eq_of_lt h7]
        omega
      have ht : 500 ≤ temp50 P s1 := by
        unfold temp50; rw [hev.temp, h.temp]; split <;> norm_num
      by_cases hend : ((s1.numSteps + 1 : Nat) : Int) ≥ (P.X.nc : Int) * P.nSweeps
      · rw [if_pos hend, if_neg (by rw [h4]; omega)]
        have ht' : ¬ (if half50 P s1 = true then temp50 P s1 * 0.5 else temp50 P s1) < 1e-12 := by
          split <;> norm_num <;> linarith
        simp only [if_neg ht']
        exact ⟨_, rfl, rfl, rfl, fun h7 => absurd hend (hlast h7)⟩
      · rw [if_neg hend]
        refine ⟨_, rfl, rfl, rfl, fun h7 => ⟨by simp only [hev.numSteps, h.steps], by simp only [h4, h.accepted], ?_⟩⟩
        show temp50 P s1 = 500
        unfold temp50
        rw [if_neg (fun h8 => hmod h7 h8.1), hev.temp, h.temp]
    obtain ⟨s', h7, h8, h9, h10⟩ := hbody
    have hr' : SaReach P s' := .step _ _ h.reach hi h0 hu1 h7
    refine ⟨s', h7, hr', h8.trans h3, ⟨x, by rw [h9, h5]; simp, h6⟩, fun h11 => ?_⟩
    obtain ⟨h12, h13, h14⟩ := h10 h11
    exact ⟨hr', h12, h13, h14⟩

/-- A sequence of draws with small random numbers. -/
theorem fresh_walk {P : SaInput} (hd : SaData P) (hs : 0 < P.nSweeps) {C : ℝ} (hC : 0 ≤ C)
    (hb : ∀ m c σ, m.length = P.X.nc → IsFit P m c σ → |σ| ≤ C) {index : Nat → Nat} {u : Nat → ℝ} (ds : List Nat)
    (hds : ds ≠ []) {s : SaState} {j k : Nat} (h : Fresh P s j) (hj : j + ds.length ≤ P.X.nc)
    (hi : ∀ i ∈ ds, i < P.X.nc) (hl : Legal P.X.nr s.current ds)
    (hidx : ∀ l d, ds[l]? = some d → index (k + l) = d)
    (hu : ∀ l, l < ds.length → 0 ≤ u (k + l) ∧ u (k + l) < Real.exp (-(2 * C) / 500)) :
    ∃ s', Relation.ReflTransGen (fun a b => saStream P index u a = .next b) (k, s) (k + ds.length, s') ∧
      SaReach P s' ∧ s'.current = ds.foldl proposal s.current ∧
      ∃ x, x ∈ s'.acc ∧ x.selection = (features (ds.foldl proposal s.current)).map Int.ofNat := by
  induction ds generalizing s j k with
  | nil => exact absurd rfl hds
  | cons d ds ih =>
    have hk : index k = d := hidx 0 d rfl
    obtain ⟨h0, h1⟩ := hu 0 (by simp)
    rw [List.length_cons] at hj
    obtain ⟨s1, h2, h3, h4, h5, h6⟩ := fresh_step hd hs hC hb h (by omega) (hi d List.mem_cons_self) hl.1 h0 h1
    have hst : saStream P index u (k, s) = .next (k + 1, s1) := by
      unfold saStream
      simp only [hk]
      rw [Nat.add_zero] at h2
      rw [h2]
    by_cases hds' : ds = []
    · subst hds'
      exact ⟨s1, .single hst, h3, h4, h5⟩
    · have hlen : 0 < ds.length := List.length_pos_iff.2 hds'
      obtain ⟨s', h7, h8, h9, h10⟩ := ih hds' (h6 (by omega)) (by omega) (fun i h => hi i (List.mem_cons_of_mem _ h))
        (k := k + 1) (by rw [h4]; exact hl.2)
        (fun l e hle => by rw [Nat.add_assoc, Nat.add_comm 1]; exact hidx (l + 1) e hle)
        (fun l hle => by rw [Nat.add_assoc, Nat.add_comm 1]; exact hu (l + 1) (by simpa using hle))
      refine ⟨s', ?_, h8, by rw [h9, h4]; rfl, by rw [h4] at h10; exact h10⟩
      rw [List.length_cons, Nat.add_comm ds.length, ← Nat.add_assoc]
      exact Relation.ReflTransGen.head hst h7

theorem saInit_fresh {P : SaInput} {s0 : SaState} (h : saInit P = some s0) (hd : SaData P) :
    Fresh P s0 0 ∧ s0.current = startModel P.X.nc := by
  have hr : SaReach P s0 := .init h
  unfold saInit at h
  rw [goSet, if_pos (by simpa using hd.cols)] at h
  cases h
  exact ⟨⟨hr, rfl, rfl, rfl⟩, rfl⟩

/-- Later states do not change the result. -/
theorem runs_reach {σ ρ : Type} {body : σ → Outcome σ ρ} {a b : σ}
    (h : Relation.ReflTransGen (fun a b => body a = .next b) a b) {r : ρ} (hr : Runs body a r) : Runs body b r := by
  induction h using Relation.ReflTransGen.head_induction_on with
  | refl => exact hr
  | head h _ ih =>
    cases hr with
    | ret h2 => rw [h] at h2; cases h2
    | next h2 h3 => rw [h] at h2; cases h2; exact ih h3

/-- Accepted models stay in the list of accepted models. -/
theorem acc_kept {P : SaInput} (hd : SaData P) {s : SaState} (hr : SaReach P s) {i : Nat} (hi : i < P.X.nc) {u : ℝ}
    (hu : u < 1) {x : SAItem ℝ} (hx : x ∈ s.acc) :
    (∀ s', saBody P s i u = .next s' → x ∈ s'.acc) ∧ ∀ r, saBody P s i u = .ret r → x ∈ r.acc := by
  have hinv := SaInv.reach hd hr
  rcases saBody_step hd hinv hi hu with ⟨-, -, h⟩ | ⟨-, s1, h⟩
  · rw [h]
    exact ⟨fun s' h' => by cases h'; exact hx, fun r h' => by cases h'⟩
  · have h1 : x ∈ s1.acc := by
      rcases h.cases hd hinv with ⟨-, -, y, hy⟩ | h2
      · rw [hy]; exact List.mem_append_left _ hx
      · rw [h2]; exact hx
    obtain ⟨s', -, -, -, -, hac, -, h2⟩ := saSweep_cases P s1 (by rw [h.temp]; exact hinv.temp)
    rw [h.out]
    constructor
    · intro s2 h3
      rw [(saSweep_next h3).2.2.1]
      exact h1
    · intro r h3
      rcases h2 with h2 | h2
      · rw [h2] at h3; cases h3
      · rw [h2] at h3
        cases h3
        show x ∈ s'.acc
        rw [hac]
        exact h1

theorem runs_acc {P : SaInput} (hd : SaData P) {index : Nat → Nat} {u : Nat → ℝ} (hf : FairDraws P.X.nc index u) {s r}
    (h : Runs (saStream P index u) s r) (hs : SaReach P s.2) {x : SAItem ℝ} (hx : x ∈ s.2.acc) : x ∈ r.acc := by
  have h1 : ∀ k, u k < 1 := by
    obtain ⟨v, hv, h⟩ := hf.below
    exact fun k => (h k).trans_lt hv
  induction h with
  | @ret s r h =>
    have := (acc_kept hd hs (hf.column s.1) (h1 s.1) hx).2
    unfold saStream at h
    split at h
    · cases h
    · rename_i h2; cases h; exact this _ h2
    · cases h
  | @next s s' r h _ ih =>
    have h3 := (acc_kept hd hs (hf.column s.1) (h1 s.1) hx).1
    unfold saStream at h
    split at h
    · rename_i h2
      cases h
      exact ih (.step _ _ hs (hf.column _) (hf.nonneg _) (h1 _) h2) (h3 _ h2)
    · cases h
    · cases h

/-- With at least six rows every model with at least one and fewer than half as many features as rows can be found: at
most as many draws as there are columns lead to it, if the random numbers deciding about acceptance are small. -/
theorem C114_reached_partial {P : SaInput} (hd : SaData P) (hs : 0 < P.nSweeps) (h6 : 6 ≤ P.X.nr) {m : List Bool}
    (hm : m.length = P.X.nc) (h0 : 0 < card m) (h1 : card m < P.X.nr / 2) :
    ∃ (draws : List Nat) (δ : ℝ), draws.length ≤ P.X.nc ∧ (∀ i ∈ draws, i < P.X.nc) ∧ 0 < δ ∧
      ∀ index u, (∀ k d, draws[k]? = some d → index k = d) → (∀ k, k < draws.length → 0 ≤ u k ∧ u k < δ) →
        ∃ s0 s, saInit P = some s0 ∧
          Relation.ReflTransGen (fun a b => saStream P index u a = .next b) (0, s0) (draws.length, s) ∧
          SaReach P s ∧ s.current = m ∧ ∃ x, x ∈ s.acc ∧ x.selection = (features m).map Int.ofNat := by
  obtain ⟨ds, h2, h3, h4, h5, h7⟩ := path_exists h6 hm h0 h1
  obtain ⟨C, hC, hb⟩ := costs_bounded P
  refine ⟨ds, Real.exp (-(2 * C) / 500), h3, h4, Real.exp_pos _, fun index u hidx hu => ?_⟩
  obtain ⟨s0, hs0⟩ := saInit_some hd
  obtain ⟨hfr, hcur⟩ := saInit_fresh hs0 hd
  obtain ⟨s, h8, h9, h10, h11⟩ := fresh_walk hd hs hC hb (index := index) (u := u) ds h2 (k := 0) hfr (by omega) h4
    (by rw [hcur]; exact h5) (fun l d h => by rw [Nat.zero_add]; exact hidx l d h)
    (fun l h => by rw [Nat.zero_add]; exact hu l h)
  rw [Nat.zero_add] at h8
  rw [hcur, h7] at h10 h11
  exact ⟨s0, s, hs0, h8, h9, h10, h11⟩

/-- The best entry of the result is then at least as good as that model; if that model is better than all others with
few features, it is that model. -/
theorem C114_best_partial {P : SaInput} (hd : SaData P) (hs : 0 < P.nSweeps) (h6 : 6 ≤ P.X.nr) {m : List Bool}
    (hm : m.length = P.X.nc) (h0 : 0 < card m) (h1 : card m < P.X.nr / 2) :
    ∃ (draws : List Nat) (δ : ℝ), draws.length ≤ P.X.nc ∧ (∀ i ∈ draws, i < P.X.nc) ∧ 0 < δ ∧
      ∀ index u, FairDraws P.X.nc index u → (∀ k d, draws[k]? = some d → index k = d) →
        (∀ k, k < draws.length → u k < δ) →
        ∃ s0 r b, saInit P = some s0 ∧ Runs (saStream P index u) (0, s0) r ∧ r.scores.best = some b ∧
          (∀ c σ, IsFit P m c σ → -(r.scores.heap b).score ≤ σ) ∧
          ((∀ m' c c' σ σ', m'.length = P.X.nc → 0 < card m' → card m' < P.X.nr / 2 → m' ≠ m →
              IsFit P m c σ → IsFit P m' c' σ' → σ < σ') →
            (r.scores.heap b).selection = (features m).map Int.ofNat) := by
  obtain ⟨ds, δ, h2, h3, h4, h5⟩ := C114_reached_partial hd hs h6 hm h0 h1
  refine ⟨ds, δ, h2, h3, h4, fun index u hf hidx hu => ?_⟩
  obtain ⟨s0, s, hs0, h7, h8, -, x, hx, hsel⟩ := h5 index u hidx fun k hk => ⟨hf.nonneg k, hu k hk⟩
  obtain ⟨s0', r, hs0', hr, hret⟩ := C113_returns_partial hd (Or.inl hs) hf
  rw [hs0] at hs0'
  cases hs0'
  have hxr := runs_acc hd hf (runs_reach h7 hr) h8 hx
  obtain ⟨b, hb, hle, z, hz, hz1, hz2⟩ := C29_best_item_partial P hd r hret
  -- items of the result
  have hitem : ∀ y ∈ r.acc, ∃ m', m'.length = P.X.nc ∧ 0 < card m' ∧ (4 ≤ P.X.nr → card m' < P.X.nr / 2) ∧
      y.selection = (features m').map Int.ofNat ∧ IsFit P m' y.coeff (-y.score) := by
    obtain ⟨s', hi, -, rfl⟩ := saReturns_inv hd hret
    exact hi.items
  have hmodel : ∀ y ∈ r.acc, y.selection = (features m).map Int.ofNat → IsFit P m y.coeff (-y.score) := by
    intro y hy hys
    obtain ⟨m', h9, -, -, h10, h11⟩ := hitem y hy
    rw [hys] at h10
    have := (List.map_injective_iff.2 fun _ _ => Int.ofNat.inj) h10
    rwa [features_inj (hm.trans h9.symm) this]
  have hxfit := hmodel x hxr hsel
  refine ⟨s0, r, b, hs0, hr, hb, fun c σ hfit => ?_, fun hbest => ?_⟩
  · rw [← (isFit_unique hxfit hfit).2, neg_le_neg_iff]
    exact hle x hxr
  · obtain ⟨m', h9, h10, h11, h12, h13⟩ := hitem z hz
    rw [← hz1, h12]
    by_contra hne
    have hmm : m' ≠ m := fun h => hne (by rw [h])
    have := hbest m' _ _ _ _ h9 h10 (h11 (by omega)) hmm hxfit h13
    have := hle x hxr
    rw [← hz2] at this
    linarith

theorem features_startModel {nc : Nat} (h : 0 < nc) : features (startModel nc) = [0] := by
  have hl : (features (startModel nc)).length = 1 := card_startModel h
  obtain ⟨a, ha⟩ := List.length_eq_one_iff.1 hl
  have : 0 ∈ features (startModel nc) := mem_features_getD.2 (by rw [getD_startModel h]; rfl)
  rw [ha, List.mem_singleton] at this
  rw [ha, ← this]

theorem few_rows_body {P : SaInput} (hd : SaData P) (h6 : P.X.nr < 6) {s : SaState} (hr : SaReach P s)
    (hc : s.current = startModel P.X.nc) {i : Nat} (hi : i < P.X.nc) {u : ℝ} (hu : u < 1) :
    saBody P s i u = .next s ∨ ∃ s1, saBody P s i u = saSweep P s1 ∧ s1.temp = s.temp ∧
      s1.current = startModel P.X.nc ∧ (s1 = s ∨ ∃ x, s1.acc = s.acc ++ [x] ∧ x.selection = [0]) := by
  have hinv := SaInv.reach hd hr
  rcases saBody_step hd hinv hi hu with ⟨-, -, h⟩ | ⟨h, s1, hev⟩
  · exact Or.inl h
  · right
    have hflip := card_saFlip (m := s.current) (i := i) (by rw [hinv.len]; exact hi)
    have hone : card s.current = 1 := by rw [hc]; exact card_startModel hd.cols
    have hz : card (saFlip s.current i) = 0 := by omega
    have hp : proposal s.current i = startModel P.X.nc := by rw [proposal, if_pos hz, hc]
    refine ⟨s1, hev.out, hev.temp, ?_⟩
    obtain ⟨-, -, c, σ, hfit⟩ := proposal_fit hd hinv i
    by_cases ha : σ < s.currentScore ∨ Real.exp (-(σ - s.currentScore) / s.temp) > u
    · obtain ⟨h1, -, -, x, h3, h4⟩ := hev.accept c σ hfit ha
      rw [hp, features_startModel hd.cols] at h4
      exact ⟨h1.trans hp, Or.inr ⟨x, h3, h4⟩⟩
    · have := hev.reject c σ hfit ha
      exact ⟨by rw [this, hc], Or.inl this⟩

theorem few_rows_reach {P : SaInput} (hd : SaData P) (h6 : P.X.nr < 6) {s : SaState} (h : SaReach P s) :
    s.current = startModel P.X.nc ∧ ∀ x ∈ s.acc, x.selection = [0] := by
  induction h with
  | init h =>
    refine ⟨(saInit_fresh h hd).2, ?_⟩
    unfold saInit at h
    rw [goSet, if_pos (by simpa using hd.cols)] at h
    cases h
    intro x hx
    cases hx
  | @step s s' index u hr hi h0 h1 h' ih =>
    rcases few_rows_body hd h6 hr ih.1 hi h1 with h | ⟨s1, h, -, hc, ha⟩
    · rw [h] at h'
      cases h'
      exact ih
    · rw [h] at h'
      obtain ⟨h2, -, h3, -⟩ := saSweep_next h'
      refine ⟨h2.trans hc, ?_⟩
      rw [h3]
      rcases ha with rfl | ⟨x, hx, hs⟩
      · exact ih.2
      · rw [hx]
        intro y hy
        rcases List.mem_append.1 hy with hy | hy
        · exact ih.2 y hy
        · rw [List.mem_singleton.1 hy]; exact hs

/-- With fewer than six rows the search never leaves the model with the first column: it is the only one in the result
and in its high score list. -/
theorem C114_few_rows {P : SaInput} (hd : SaData P) (h6 : P.X.nr < 6) (r : SaRes) (h : SaReturns P r) :
    r.selected = [0] ∧ ∀ e ∈ r.scores.entries, e.selection = [0] := by
  have hret := h
  obtain ⟨s, i, u, hr, hi, h0, h1, h2⟩ := h
  obtain ⟨hc, hacc⟩ := few_rows_reach hd h6 hr
  rcases few_rows_body hd h6 hr hc hi h1 with h3 | ⟨s1, h3, ht, hc1, ha⟩
  · rw [h3] at h2; cases h2
  · have hinv := SaInv.reach hd hr
    obtain ⟨s', h4, -, -, -, h5, -, h6⟩ := saSweep_cases P s1 (by rw [ht]; exact hinv.temp)
    rw [h3] at h2
    rcases h6 with h6 | h6
    · rw [h6] at h2; cases h2
    · rw [h6] at h2
      cases h2
      have hall : ∀ x ∈ s'.acc, x.selection = [0] := by
        rw [h5]
        rcases ha with rfl | ⟨x, hx, hs⟩
        · exact hacc
        · rw [hx]
          intro y hy
          rcases List.mem_append.1 hy with hy | hy
          · exact hacc y hy
          · rw [List.mem_singleton.1 hy]; exact hs
      constructor
      · show selectedFrom 0 s'.current = [0]
        rw [selectedFrom_zero, h4, hc1, features_startModel hd.cols]
      · intro e he
        obtain ⟨s2, hi2, -, hs2⟩ := saReturns_inv hd hret
        have hsc : s'.scores = s2.scores := congrArg SaRes.scores hs2
        have hac : s'.acc = s2.acc := congrArg SaRes.acc hs2
        have he' : e ∈ s2.scores.entries := by rw [← hsc]; exact he
        obtain ⟨z, hz, hz1, -⟩ := C26_selection_score 10 _ s2.acc s2.scores hi2.run e he'
        rw [← hz1]
        exact hall z (by rw [hac]; exact hz)

example : ∃ (draws : List Nat) (δ : ℝ), draws.length ≤ 3 ∧ (∀ i ∈ draws, i < 3) ∧ 0 < δ ∧
    ∀ index u, (∀ k d, draws[k]? = some d → index k = d) → (∀ k, k < draws.length → 0 ≤ u k ∧ u k < δ) →
      ∃ s0 s, saInit exSa = some s0 ∧
        Relation.ReflTransGen (fun a b => saStream exSa index u a = .next b) (0, s0) (draws.length, s) ∧
        SaReach exSa s ∧ s.current = [false, true, true] ∧ ∃ x, x ∈ s.acc ∧ x.selection = [1, 2] :=
  C114_reached_partial exSa_data (by decide) (by decide) (m := [false, true, true]) rfl (by decide) (by decide)

/-- Two columns, and only the model with both is cheap. -/
noncomputable def exSaBoth : SaInput := { exSa with
  X := unitX 8 2
  cost := fun N _ _ => if N = 2 then 0 else 1 }

theorem exSaBoth_data : SaData exSaBoth := by
  refine ⟨by decide, rfl, fun m c σ _ _ h => ?_⟩
  obtain ⟨r, -, -, rfl⟩ := h
  have : (1 : ℝ) ≤ maxFloat64 := by
    have h : (1 : ℝ) * 1 ≤ (2 - 1 / 2 ^ 52) * 2 ^ 1023 :=
      mul_le_mul (by norm_num) (one_le_pow₀ (by norm_num)) (by positivity) (by norm_num)
    exact (by norm_num : (1 : ℝ) ≤ 1 * 1).trans h
  show (if card m = 2 then (0 : ℝ) else 1) ≤ maxFloat64
  split_ifs <;> linarith

theorem exSaBoth_best (m' : List Bool) (c c' : List ℝ) (σ σ' : ℝ) (hl : m'.length = 2) (hne : m' ≠ [true, true])
    (h : IsFit exSaBoth [true, true] c σ) (h' : IsFit exSaBoth m' c' σ') : σ < σ' := by
  obtain ⟨r, -, -, rfl⟩ := h
  obtain ⟨r', -, -, rfl⟩ := h'
  have h2 : card m' ≠ 2 := by
    match m', hl with
    | [a, b], _ => cases a <;> cases b <;> first | decide | exact absurd rfl hne
  show (if card [true, true] = 2 then (0 : ℝ) else 1) < (if card m' = 2 then (0 : ℝ) else 1)
  rw [if_pos (by decide), if_neg h2]
  exact one_pos

example : ∃ (draws : List Nat) (δ : ℝ), draws.length ≤ 2 ∧ (∀ i ∈ draws, i < 2) ∧ 0 < δ ∧
    ∀ index u, FairDraws 2 index u → (∀ k d, draws[k]? = some d → index k = d) →
      (∀ k, k < draws.length → u k < δ) →
      ∃ s0 r b, saInit exSaBoth = some s0 ∧ Runs (saStream exSaBoth index u) (0, s0) r ∧ r.scores.best = some b ∧
        (r.scores.heap b).selection = [0, 1] := by
  obtain ⟨ds, δ, h1, h2, h3, h4⟩ := C114_best_partial exSaBoth_data (by decide) (by decide) (m := [true, true]) rfl
    (by decide) (by decide)
  refine ⟨ds, δ, h1, h2, h3, fun index u hf hidx hu => ?_⟩
  obtain ⟨s0, r, b, h5, h6, h7, -, h8⟩ := h4 index u hf hidx hu
  exact ⟨s0, r, b, h5, h6, h7, h8 fun m' c c' σ σ' hl _ _ hne h h' => exSaBoth_best m' c c' σ σ' hl hne h h'⟩

/-- Five rows and three columns. -/
noncomputable def exSaFive : SaInput := { exSa with
  X := unitX 5 3
  y := [1, 2, 3, 4, 5] }

theorem exSaFive_data : SaData exSaFive := by
  refine ⟨by decide, rfl, fun m c σ _ _ h => ?_⟩
  obtain ⟨r, -, -, rfl⟩ := h
  have : (1000000 : ℝ) ≤ maxFloat64 := by
    have h : (1 : ℝ) * 2 ^ 20 ≤ (2 - 1 / 2 ^ 52) * 2 ^ 1023 :=
      mul_le_mul (by norm_num) (pow_le_pow_right₀ (by norm_num) (by norm_num)) (by positivity)
        (by norm_num)
    have h' : (1000000 : ℝ) ≤ 1 * 2 ^ 20 := by norm_num
    exact h'.trans h
  simp only [exSaFive, exSa]
  split_ifs <;> linarith

/-- Some results exist, so the statement about them is not empty. -/
example : ∃ r, SaReturns exSaFive r ∧ r.selected = [0] := by
  obtain ⟨s0, r, -, -, h⟩ := C113_returns_partial exSaFive_data (Or.inl (by decide)) (inTurn_fair 3 (by decide))
  exact ⟨r, h, (C114_few_rows exSaFive_data (by decide) r h).1⟩

/-- With five rows a model with one feature, which has fewer features than half the number of rows, is never found. -/
theorem C114_refuted : ∃ (P : SaInput) (m : List Bool), SaData P ∧ 0 < P.nSweeps ∧ m.length = P.X.nc ∧ 0 < card m ∧
    card m < P.X.nr / 2 ∧ (∃ r, SaReturns P r) ∧
    ∀ r, SaReturns P r → r.selected ≠ features m ∧
      ∀ e ∈ r.scores.entries, e.selection ≠ (features m).map Int.ofNat := by
  refine ⟨exSaFive, [false, true, false], exSaFive_data, by decide, rfl, by decide, by decide, ?_, fun r h => ?_⟩
  · obtain ⟨s0, r, -, -, h⟩ := C113_returns_partial exSaFive_data (Or.inl (by decide)) (inTurn_fair 3 (by decide))
    exact ⟨r, h⟩
  · obtain ⟨h1, h2⟩ := C114_few_rows exSaFive_data (by decide) r h
    refine ⟨by rw [h1]; decide, fun e he => ?_⟩
    rw [h2 e he]
    decide

end GoSelect
