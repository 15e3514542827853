import Verif.Props.C114

/-! Sequences of draws after which simulated annealing has visited every model, whatever the model before. -/

namespace GoSelect

open Spec

/-- The models that simulated annealing searches. -/
def InSpace (nc nr : Nat) (m : List Bool) : Prop := m.length = nc ∧ 0 < card m ∧ card m < nr / 2

/-- The draw is skipped. -/
def Skips (nr : Nat) (m : List Bool) (i : Nat) : Prop := card (saFlip m i) ≠ 0 ∧ nr / 2 ≤ card (saFlip m i)

instance (nr : Nat) (m : List Bool) (i : Nat) : Decidable (Skips nr m i) := by unfold Skips; infer_instance

/-- The model after a draw whose random number is small. -/
def move (nr : Nat) (m : List Bool) (i : Nat) : List Bool := if Skips nr m i then m else proposal m i

/-- The draws lead from `m'` to an evaluation of `m`. -/
def Hits (nr : Nat) : List Bool → List Nat → List Bool → Prop
  | _, [], _ => False
  | m', i :: W, m => (¬ Skips nr m' i ∧ proposal m' i = m) ∨ Hits nr (move nr m' i) W m

variable {nc nr : Nat}

theorem hits_left {m' m : List Bool} {W V : List Nat} (h : Hits nr m' W m) : Hits nr m' (W ++ V) m := by
  induction W generalizing m' with
  | nil => exact absurd h id
  | cons i W ih => exact h.imp id ih

theorem hits_right {m' m : List Bool} {W V : List Nat} (h : Hits nr (W.foldl (move nr) m') V m) :
    Hits nr m' (W ++ V) m := by
  induction W generalizing m' with
  | nil => exact h
  | cons i W ih => exact Or.inr (ih h)

theorem not_skips {m : List Bool} {i : Nat} (h : card (saFlip m i) = 0 ∨ card (saFlip m i) < nr / 2) :
    ¬ Skips nr m i := by
  rintro ⟨h1, h2⟩
  omega

theorem hits_of_legal {m' m : List Bool} {W : List Nat} (hne : W ≠ []) (h : Legal nr m' W)
    (hm : W.foldl proposal m' = m) : Hits nr m' W m := by
  induction W generalizing m' with
  | nil => exact absurd rfl hne
  | cons i W ih =>
    have hs := not_skips h.1
    by_cases hW : W = []
    · subst hW
      exact Or.inl ⟨hs, hm⟩
    · right
      rw [move, if_neg hs]
      exact ih hW h.2 hm

theorem flip_space {m : List Bool} (h : InSpace nc nr m) {i : Nat} (hi : i < nc) (h0 : card (saFlip m i) ≠ 0)
    (h1 : card (saFlip m i) < nr / 2) : InSpace nc nr (saFlip m i) :=
  ⟨by rw [saFlip_length]; exact h.1, Nat.pos_of_ne_zero h0, h1⟩

theorem proposal_space {m : List Bool} (h : InSpace nc nr m) {i : Nat} (hi : i < nc) (hs : ¬ Skips nr m i) :
    InSpace nc nr (proposal m i) := by
  unfold proposal
  split
  · exact h
  · rename_i h0
    refine flip_space h hi h0 ?_
    by_contra h1
    exact hs ⟨h0, by omega⟩

theorem move_space {m : List Bool} (h : InSpace nc nr m) {i : Nat} (hi : i < nc) : InSpace nc nr (move nr m i) := by
  unfold move
  split
  · exact h
  · rename_i hs
    exact proposal_space h hi hs

theorem moves_space {m : List Bool} (h : InSpace nc nr m) {W : List Nat} (hW : ∀ i ∈ W, i < nc) :
    InSpace nc nr (W.foldl (move nr) m) := by
  induction W generalizing m with
  | nil => exact h
  | cons i W ih =>
    exact ih (move_space h (hW i List.mem_cons_self)) fun j hj => hW j (List.mem_cons_of_mem _ hj)

/-! ## Every model can be reached from every model -/

/-- Draws that are not skipped lead from `a` to `b`. -/
def Connected (nc nr : Nat) (a b : List Bool) : Prop :=
  ∃ ds : List Nat, (∀ i ∈ ds, i < nc) ∧ Legal nr a ds ∧ ds.foldl proposal a = b

theorem legal_append {m : List Bool} {W V : List Nat} (h1 : Legal nr m W) (h2 : Legal nr (W.foldl proposal m) V) :
    Legal nr m (W ++ V) := by
  induction W generalizing m with
  | nil => exact h2
  | cons i W ih => exact ⟨h1.1, ih h1.2 h2⟩

theorem Connected.trans {a b c : List Bool} (h1 : Connected nc nr a b) (h2 : Connected nc nr b c) :
    Connected nc nr a c := by
  obtain ⟨W, h3, h4, rfl⟩ := h1
  obtain ⟨V, h5, h6, rfl⟩ := h2
  refine ⟨W ++ V, fun i hi => ?_, legal_append h4 h6, by rw [List.foldl_append]⟩
  rcases List.mem_append.1 hi with h | h
  · exact h3 i h
  · exact h5 i h

theorem legal_back {m : List Bool} (hm : InSpace nc nr m) {ds : List Nat} (hds : ∀ i ∈ ds, i < nc)
    (h : Legal nr m ds) : Connected nc nr (ds.foldl proposal m) m := by
  induction ds generalizing m with
  | nil => exact ⟨[], by simp, trivial, rfl⟩
  | cons i ds ih =>
    have hi := hds i List.mem_cons_self
    have hs := not_skips h.1
    have h1 := ih (proposal_space hm hi hs) (fun j hj => hds j (List.mem_cons_of_mem _ hj)) h.2
    refine h1.trans ?_
    unfold proposal
    split
    · exact ⟨[], by simp, trivial, rfl⟩
    · have hi' : i < m.length := by rw [hm.1]; exact hi
      have hb : saFlip (saFlip m i) i = m := saFlip_saFlip hi'
      refine ⟨[i], by simpa using hi, ⟨by rw [hb]; exact Or.inr hm.2.2, trivial⟩, ?_⟩
      rw [List.foldl_cons, List.foldl_nil, proposal, hb, if_neg (by have := hm.2.1; omega)]

theorem start_space (hnc : 0 < nc) (h4 : 4 ≤ nr) : InSpace nc nr (startModel nc) :=
  ⟨length_startModel nc, by rw [card_startModel hnc]; exact one_pos, by rw [card_startModel hnc]; omega⟩

theorem space_pos {m : List Bool} (h : InSpace nc nr m) : 0 < nc := by
  have := card_le_length m
  have := h.1
  have := h.2.1
  omega

theorem word_exists (h6 : 6 ≤ nr) {a b : List Bool} (ha : InSpace nc nr a) (hb : InSpace nc nr b) :
    ∃ W : List Nat, (∀ i ∈ W, i < nc) ∧ Hits nr a W b := by
  have hnc := space_pos ha
  have hst := start_space (nr := nr) hnc (by omega)
  obtain ⟨ds, -, -, h1, h2, h3⟩ := path_exists h6 ha.1 ha.2.1 ha.2.2
  obtain ⟨W, h4, h5, h7⟩ : Connected nc nr a (startModel nc) := by
    have := legal_back hst h1 h2
    rwa [h3] at this
  obtain ⟨V, h8, -, h9, h10, h11⟩ := path_exists h6 hb.1 hb.2.1 hb.2.2
  refine ⟨W ++ V, fun i hi => (List.mem_append.1 hi).elim (h4 i) (h9 i), ?_⟩
  refine hits_of_legal (by simp [h8]) (legal_append h5 (by rw [h7]; exact h10)) ?_
  rw [List.foldl_append, h7, h11]

/-- One sequence of draws for many pairs of models. -/
theorem word_all (h6 : 6 ≤ nr) (L : List (List Bool × List Bool))
    (hL : ∀ p ∈ L, InSpace nc nr p.1 ∧ InSpace nc nr p.2) :
    ∃ W : List Nat, (∀ i ∈ W, i < nc) ∧ ∀ p ∈ L, Hits nr p.1 W p.2 := by
  induction L with
  | nil => exact ⟨[], by simp, by simp⟩
  | cons p L ih =>
    obtain ⟨W, h1, h2⟩ := ih fun q hq => hL q (List.mem_cons_of_mem _ hq)
    obtain ⟨hp1, hp2⟩ := hL p List.mem_cons_self
    obtain ⟨V, h3, h4⟩ := word_exists h6 (moves_space hp1 h1) hp2
    refine ⟨W ++ V, fun i hi => (List.mem_append.1 hi).elim (h1 i) (h3 i), fun q hq => ?_⟩
    rcases List.mem_cons.1 hq with rfl | hq
    · exact hits_right h4
    · exact hits_left (h2 q hq)

/-- A sequence of draws that visits every model, whatever the model before. -/
theorem universal_word (h6 : 6 ≤ nr) (hnc : 0 < nc) :
    ∃ W : List Nat, W ≠ [] ∧ (∀ i ∈ W, i < nc) ∧ ∀ a b, InSpace nc nr a → InSpace nc nr b → Hits nr a W b := by
  classical
  have hfin : {m : List Bool | InSpace nc nr m}.Finite :=
    (List.finite_length_eq Bool nc).subset fun m h => h.1
  obtain ⟨W, h1, h2⟩ := word_all (nc := nc) h6 (hfin.toFinset ×ˢ hfin.toFinset).toList (by
    intro p hp
    rw [Finset.mem_toList, Finset.mem_product, Set.Finite.mem_toFinset, Set.Finite.mem_toFinset] at hp
    exact hp)
  have h3 : ∀ a b, InSpace nc nr a → InSpace nc nr b → Hits nr a W b := by
    intro a b ha hb
    apply h2 (a, b)
    rw [Finset.mem_toList, Finset.mem_product, Set.Finite.mem_toFinset, Set.Finite.mem_toFinset]
    exact ⟨ha, hb⟩
  refine ⟨W, ?_, h1, h3⟩
  rintro rfl
  have hst := start_space (nr := nr) hnc (by omega)
  exact h3 _ _ hst hst

/-! ## The search -/

/-- The first round, after `k` iterations. -/
structure Early (P : SaInput) (s : SaState) (k : Nat) : Prop where
  reach : SaReach P s
  steps : s.numSteps ≤ k
  temp : 500 ≤ s.temp

/-- One iteration of the first round. -/
theorem early_step {P : SaInput} (hd : SaData P) {C : ℝ} (hC : 0 ≤ C)
    (hb : ∀ m c σ, m.length = P.X.nc → IsFit P m c σ → |σ| ≤ C) {s : SaState} {k : Nat} (h : Early P s k)
    (hk : ((k + 1 : Nat) : Int) < (P.X.nc : Int) * P.nSweeps) {i : Nat} (hi : i < P.X.nc) {u : ℝ} (h0 : 0 ≤ u)
    (hu1 : u < 1) :
    ∃ s', saBody P s i u = .next s' ∧ Early P s' (k + 1) ∧ (∀ x ∈ s.acc, x ∈ s'.acc) ∧
      (u < Real.exp (-(2 * C) / 500) → s'.current = move P.X.nr s.current i ∧
        (¬ Skips P.X.nr s.current i →
          ∃ x, x ∈ s'.acc ∧ x.selection = (features (proposal s.current i)).map Int.ofNat)) := by
  have hinv := SaInv.reach hd h.reach
  rcases saBody_step hd hinv hi hu1 with ⟨h1, h2, h3⟩ | ⟨hleg, s1, hev⟩
  · refine ⟨s, h3, ⟨h.reach, h.steps.trans (by omega), h.temp⟩, fun _ hx => hx, fun _ => ⟨?_, fun h4 => ?_⟩⟩
    · rw [move, if_pos ⟨h1, h2⟩]
    · exact absurd ⟨h1, h2⟩ h4
  · have hns := not_skips hleg
    have hsub : ∀ x ∈ s.acc, x ∈ s1.acc := by
      intro x hx
      rcases hev.cases hd hinv with ⟨-, -, y, hy⟩ | h2
      · rw [hy]; exact List.mem_append_left _ hx
      · rw [h2]; exact hx
    have hbody : ∃ s', saBody P s i u = .next s' ∧ s'.current = s1.current ∧ s'.acc = s1.acc ∧
        s'.numSteps = s1.numSteps + 1 ∧ s'.temp = temp50 P s1 := by
      rw [hev.out, saSweep_eq, if_neg]
      · exact ⟨_, rfl, rfl, rfl, rfl, rfl⟩
      · have := h.steps
        rw [hev.numSteps]
        omega
    obtain ⟨s', h2, h3, h4, h5, h6⟩ := hbody
    refine ⟨s', h2, ⟨.step _ _ h.reach hi h0 hu1 h2, ?_, ?_⟩, fun x hx => by rw [h4]; exact hsub x hx, fun hu => ?_⟩
    · rw [h5, hev.numSteps]
      have := h.steps
      omega
    · rw [h6]
      have := h.temp
      unfold temp50
      rw [hev.temp]
      split <;> linarith
    · obtain ⟨hlen, hp, c, σ, hfit⟩ := proposal_fit hd hinv i
      have hacc : σ < s.currentScore ∨ Real.exp (-(σ - s.currentScore) / s.temp) > u := by
        rcases hinv.score with ⟨-, h7⟩ | ⟨-, c', h7, -⟩
        · have hmax := hd.finite _ c _ hlen hp hfit
          rcases hmax.lt_or_eq with h8 | h8
          · left; rw [h7]; exact h8
          · right
            rw [h7, h8, sub_self, neg_zero, zero_div, Real.exp_zero]
            exact hu1
        · obtain ⟨v, hv1, hv2⟩ := exists_between hu
          exact accepts hC (by norm_num) hv2 (hb _ _ _ hlen hfit) (hb _ _ _ hinv.len h7) h.temp hv1.le
      obtain ⟨h7, -, -, x, h8, h9⟩ := hev.accept c σ hfit hacc
      refine ⟨by rw [h3, h7, move, if_neg hns], fun _ => ⟨x, ?_, h9⟩⟩
      rw [h4, h8]
      simp

/-- A step of the loop on given random numbers. -/
abbrev StreamStep (P : SaInput) (index : Nat → Nat) (u : Nat → ℝ) (a b : Nat × SaState) : Prop :=
  saStream P index u a = .next b

theorem streamStep_of {P : SaInput} {index : Nat → Nat} {u : Nat → ℝ} {k : Nat} {s s' : SaState}
    (h : saBody P s (index k) (u k) = .next s') : StreamStep P index u (k, s) (k + 1, s') := by
  unfold StreamStep saStream
  dsimp only
  rw [h]

/-- The first round takes at least as many iterations as there are steps in it. -/
theorem early_run {P : SaInput} (hd : SaData P) {index : Nat → Nat} {u : Nat → ℝ} (hi : ∀ k, index k < P.X.nc)
    (hu : ∀ k, 0 ≤ u k ∧ u k < 1) {s0 : SaState} (hs0 : saInit P = some s0) (k : Nat)
    (hk : (k : Int) < (P.X.nc : Int) * P.nSweeps) :
    ∃ s, Relation.ReflTransGen (StreamStep P index u) (0, s0) (k, s) ∧ Early P s k := by
  obtain ⟨C, hC, hb⟩ := costs_bounded P
  induction k with
  | zero =>
    obtain ⟨hf, -⟩ := saInit_fresh hs0 hd
    exact ⟨s0, .refl, hf.reach, hf.steps.le, hf.temp.ge⟩
  | succ k ih =>
    obtain ⟨s, h1, h2⟩ := ih (by omega)
    obtain ⟨s', h3, h4, -, -⟩ := early_step hd hC hb h2 hk (hi k) (hu k).1 (hu k).2
    exact ⟨s', h1.tail (streamStep_of h3), h4⟩

/-- A block of draws with small random numbers. -/
theorem early_block {P : SaInput} (hd : SaData P) {C : ℝ} (hC : 0 ≤ C)
    (hb : ∀ m c σ, m.length = P.X.nc → IsFit P m c σ → |σ| ≤ C) {index : Nat → Nat} {u : Nat → ℝ}
    (hi : ∀ k, index k < P.X.nc) (hu : ∀ k, 0 ≤ u k ∧ u k < 1) (W : List Nat) {s : SaState} {k : Nat}
    (h : Early P s k) (hk : ((k + W.length : Nat) : Int) < (P.X.nc : Int) * P.nSweeps)
    (hidx : ∀ l d, W[l]? = some d → index (k + l) = d)
    (hsm : ∀ l, l < W.length → u (k + l) < Real.exp (-(2 * C) / 500)) :
    ∃ s', Relation.ReflTransGen (StreamStep P index u) (k, s) (k + W.length, s') ∧ SaReach P s' ∧
      (∀ x ∈ s.acc, x ∈ s'.acc) ∧
      ∀ m, Hits P.X.nr s.current W m → ∃ x, x ∈ s'.acc ∧ x.selection = (features m).map Int.ofNat := by
  induction W generalizing s k with
  | nil => exact ⟨s, .refl, h.reach, fun _ hx => hx, fun m hm => absurd hm id⟩
  | cons d W ih =>
    have hik : index k = d := hidx 0 d rfl
    have huk : u k < Real.exp (-(2 * C) / 500) := hsm 0 (by simp)
    rw [List.length_cons] at hk
    obtain ⟨s1, h1, h2, h3, h4⟩ := early_step hd hC hb h (by omega) (hi k) (hu k).1 (hu k).2
    obtain ⟨h5, h6⟩ := h4 huk
    rw [hik] at h5 h6
    obtain ⟨s', h7, h8, h9, h10⟩ := ih h2 (by omega)
      (fun l e hle => by rw [Nat.add_assoc, Nat.add_comm 1]; exact hidx (l + 1) e hle)
      (fun l hle => by rw [Nat.add_assoc, Nat.add_comm 1]; exact hsm (l + 1) (by simpa using hle))
    refine ⟨s', ?_, h8, fun x hx => h9 x (h3 x hx), fun m hm => ?_⟩
    · rw [List.length_cons, Nat.add_comm W.length, ← Nat.add_assoc]
      exact Relation.ReflTransGen.head (streamStep_of h1) h7
    · rcases hm with ⟨hs, rfl⟩ | hm
      · obtain ⟨x, hx, hxs⟩ := h6 hs
        exact ⟨x, h9 x hx, hxs⟩
      · exact h10 m (by rw [h5]; exact hm)

end GoSelect
