import Verif.Model.Json
import Verif.Proofs.Selection
import Verif.Proofs.Highscore
import Verif.Proofs.MapM
import Verif.Props.C31_C32
import Verif.Props.C08_C11
import Mathlib.Tactic.Linarith

/-!
C46: JSON form of nodes and highscore lists.

False for full lists: at `MaxItems - 1` nodes `Insert` refuses a node that is worse than the last
one, but a list can reach `MaxItems` nodes through ties that later disappear.  Reloading such a list
drops its last node (`C46_refuted`).
-/

namespace GoSelect

open Spec

variable {α : Type}

/-- The node with the `WasFlipped` of another node. -/
def withFlip (f : Bool) (n : Node α) : Node α := { n with wasFlipped := f }

theorem nodeJson_round (n r : Node α) :
    ∃ j, nodeToJson n = some j ∧ nodeOfJson r j = some (withFlip r.wasFlipped n) := by
  have hsel := selectedFeatures_eq n.model
  have hinv := C31_inverse n.model _ hsel
  unfold selectedFeatures at hsel
  unfold nodeToJson
  cases hc : collectLoop n.model 0 (List.replicate (numFeatures n.model) 0, 0) with
  | none => rw [hc] at hsel; simp at hsel
  | some st =>
    obtain ⟨sel, k⟩ := st
    rw [hc] at hsel
    simp only [Option.map_some, Option.some.injEq] at hsel
    subst hsel
    refine ⟨_, rfl, ?_⟩
    unfold nodeOfJson
    simp only
    unfold selected2Model at hinv
    rw [if_neg (by omega)] at hinv ⊢
    rw [hinv]
    rfl

/-- **C46 (nodes).** Unmarshalling the JSON form of a node into any receiver restores everything
but `WasFlipped`. -/
theorem C46_node {T : Type} (marshal : NodeJson α → Option T) (unmarshal : T → Option (NodeJson α))
    (hj : ∀ j text, marshal j = some text → unmarshal text = some j) (n r : Node α) (text : T)
    (ht : (nodeToJson n).bind marshal = some text) :
    ∃ m, (unmarshal text).bind (nodeOfJson r) = some m ∧ m.model = n.model ∧ m.coeff = n.coeff ∧
      m.level = n.level ∧ m.lower = n.lower ∧ m.upper = n.upper ∧ m.score = n.score ∧
      m.wasFlipped = r.wasFlipped := by
  obtain ⟨j, h1, h2⟩ := nodeJson_round n r
  rw [h1] at ht
  rw [hj j text ht]
  exact ⟨_, h2, rfl, rfl, rfl, rfl, rfl, rfl, rfl⟩

/-- The encoder is never handed an index error. -/
theorem C46_node_no_panic (n : Node α) : ∃ j, nodeToJson n = some j :=
  (nodeJson_round n n).imp fun _ h => h.1

theorem highscoreJson_nodes (z : Node α) (items : List (Node α)) :
    ∃ js, items.mapM nodeToJson = some js ∧
      js.mapM (nodeOfJson z) = some (items.map (withFlip z.wasFlipped)) := by
  induction items with
  | nil => exact ⟨[], rfl, rfl⟩
  | cons n items ih =>
    obtain ⟨js, h1, h2⟩ := ih
    obtain ⟨j, g1, g2⟩ := nodeJson_round n z
    refine ⟨j :: js, ?_, ?_⟩
    · rw [List.mapM_cons, g1, h1]; rfl
    · rw [List.mapM_cons, g2, h2]; rfl

variable [LinearOrder α]

/-- A sorted list with room for one more is rebuilt by inserting it. -/
theorem insertAll_desc (M : Int) (L : List (Node α)) (hd : Desc L) (hl : (L.length : Int) ≤ M - 1) :
    (newHighscore M).insertAll L = some ⟨L, M⟩ := by
  induction L using List.reverseRecOn with
  | nil => rfl
  | append_singleton L x ih =>
    simp only [List.length_append, List.length_cons, List.length_nil] at hl
    push_cast at hl
    have hd' := List.pairwise_append.1 hd
    have := ih hd'.1 (by omega)
    unfold Highscore.insertAll at this ⊢
    rw [List.foldlM_append, this]
    simp only [List.foldlM_cons, List.foldlM_nil, bind_pure, Option.bind_eq_bind, Option.bind_some]
    have hge : ∀ a ∈ L, x.score ≤ a.score := fun a ha => hd'.2.2 a ha x (by simp)
    have hno : insertBefore x L = none := by
      rw [insertBefore_eq, if_neg]
      rintro ⟨a, ha, h⟩
      exact absurd (hge a ha) (not_le.2 h)
    unfold Highscore.insert
    rw [if_neg (by simp only [Highscore.len]; omega)]
    unfold Highscore.insertTail
    simp only [hno]
    rw [if_pos (by simp only [Highscore.len]; omega)]

/-- Inserting a sorted list of exactly `MaxItems` nodes: the last one is kept only if it ties with
the one before it. -/
theorem insertAll_desc_full (M : Int) (L : List (Node α)) (a b : Node α) (hd : Desc (L ++ [a, b]))
    (hl : (L.length : Int) + 2 = M) :
    (newHighscore M).insertAll (L ++ [a, b]) =
      some ⟨if a.score = b.score then L ++ [a, b] else L ++ [a], M⟩ := by
  have happ : L ++ [a, b] = (L ++ [a]) ++ [b] := by simp
  rw [happ] at hd ⊢
  have hd' := List.pairwise_append.1 hd
  have h1 := insertAll_desc M (L ++ [a]) hd'.1 (by simp; omega)
  have hge : ∀ c ∈ L ++ [a], b.score ≤ c.score := fun c hc => hd'.2.2 c hc b (by simp)
  unfold Highscore.insertAll at h1 ⊢
  rw [List.foldlM_append, h1]
  simp only [List.foldlM_cons, List.foldlM_nil, bind_pure, Option.bind_eq_bind, Option.bind_some]
  unfold Highscore.insert
  rw [if_pos (by simp only [Highscore.len, List.length_append, List.length_cons, List.length_nil]; push_cast; omega)]
  simp only [List.getLast?_append, List.getLast?_singleton, Option.some_or]
  by_cases hab : a.score = b.score
  · rw [if_neg (by rw [hab]; exact lt_irrefl _), if_pos hab]
    have hno : insertBefore b (L ++ [a]) = none := by
      rw [insertBefore_eq, if_neg]
      rintro ⟨c, hc, h⟩
      exact absurd (hge c hc) (not_le.2 h)
    unfold Highscore.insertTail
    simp only [hno]
    rw [if_pos (by simp only [Highscore.len, List.length_append, List.length_cons, List.length_nil]; push_cast; omega)]
  · have : b.score < a.score := lt_of_le_of_ne (hge a (by simp)) (fun h => hab h.symm)
    rw [if_pos this, if_neg hab]

/-- What reloading gives, in terms of the list. -/
theorem highscoreJson_reload (M M' : Int) (ns : List (Node α)) (h : Highscore α)
    (hi : (newHighscore M).insertAll ns = some h) (z : Node α) :
    ∃ j, highscoreToJson h = some j ∧ ∃ h', highscoreOfJson z (newHighscore M') j = some h' ∧
      h'.maxItems = M ∧
      (h'.items = h.items.map (withFlip z.wasFlipped) ∧
        ((h.len : Int) < M ∨ h.items = [] ∨
          ∃ pre a b, h.items = pre ++ [a, b] ∧ a.score = b.score) ∨
       h'.items = h.items.dropLast.map (withFlip z.wasFlipped) ∧ (h.len : Int) = M ∧
          ∃ pre a b, h.items = pre ++ [a, b] ∧ b.score < a.score) := by
  obtain ⟨js, h1, h2⟩ := highscoreJson_nodes z h.items
  obtain ⟨hM, hinv⟩ := insertAll_inv hi
  have hcap := hinv.cap
  have hdesc : Desc (h.items.map (withFlip z.wasFlipped)) := List.pairwise_map.2 hinv.desc
  refine ⟨⟨h.maxItems, js⟩, by unfold highscoreToJson; rw [h1], ?_⟩
  unfold highscoreOfJson
  simp only [h2, hM]
  change ∃ h', (newHighscore M).insertAll _ = some h' ∧ _
  by_cases hlt : (h.items.length : Int) < M
  · rw [insertAll_desc M _ hdesc (by simp; omega)]
    exact ⟨_, rfl, rfl, .inl ⟨rfl, .inl hlt⟩⟩
  by_cases h0 : h.items = []
  · rw [h0]
    exact ⟨_, rfl, rfl, .inl ⟨rfl, .inr (.inl rfl)⟩⟩
  -- the list has exactly `M` nodes, and `M` is not 1
  have hlen : (h.items.length : Int) = M := by
    have := List.length_pos_iff.2 h0
    omega
  have hM1 : M ≠ 1 := by
    rintro rfl
    have hne : ns ≠ [] := by
      rintro rfl
      simp only [Highscore.insertAll, List.foldlM_nil, newHighscore, pure, Option.some.injEq] at hi
      subst hi
      exact h0 rfl
    rw [(C10_panics_iff 1 ns).2 ⟨rfl, hne⟩] at hi
    simp at hi
  obtain ⟨L, b, hL⟩ : ∃ L b, h.items = L ++ [b] :=
    ⟨_, _, (List.dropLast_append_getLast h0).symm⟩
  have hLne : L ≠ [] := by
    rintro rfl
    rw [hL] at hlen
    simp at hlen
    omega
  obtain ⟨pre, a, hpre⟩ : ∃ pre a, L = pre ++ [a] := ⟨_, _, (List.dropLast_append_getLast hLne).symm⟩
  have heq : h.items = pre ++ [a, b] := by rw [hL, hpre]; simp
  have hba : b.score ≤ a.score := by
    have := hinv.desc
    rw [hL, hpre] at this
    exact (List.pairwise_append.1 this).2.2 a (by simp) b (by simp)
  rw [heq] at hdesc hlen ⊢
  simp only [List.map_append, List.map_cons, List.map_nil] at hdesc ⊢
  rw [insertAll_desc_full M _ _ _ hdesc (by simp at hlen ⊢; omega)]
  refine ⟨_, rfl, rfl, ?_⟩
  by_cases hab : a.score = b.score
  · left
    refine ⟨by simp [withFlip, hab], .inr (.inr ⟨pre, a, b, rfl, hab⟩)⟩
  · right
    refine ⟨?_, by simp only [Highscore.len, heq]; exact hlen, pre, a, b, rfl, lt_of_le_of_ne hba (fun h => hab h.symm)⟩
    rw [if_neg (by simpa [withFlip] using hab),
      show pre ++ [a, b] = (pre ++ [a]) ++ [b] by simp, List.dropLast_concat]
    simp

/-- **C46 (lists, partial).** Reloading restores the same nodes in the same order as long as the list
holds fewer than `MaxItems` nodes, or its two worst nodes tie.  Missing: full lists whose last node is
strictly worst, where the claim is false. -/
theorem C46_list_partial {T : Type} (marshal : HighscoreJson α → Option T)
    (unmarshal : T → Option (HighscoreJson α))
    (hj : ∀ j text, marshal j = some text → unmarshal text = some j)
    (M M' : Int) (ns : List (Node α)) (h : Highscore α)
    (hi : (newHighscore M).insertAll ns = some h) (z : Node α) (text : T)
    (ht : (highscoreToJson h).bind marshal = some text)
    (hroom : (h.len : Int) < M ∨ ∃ pre a b, h.items = pre ++ [a, b] ∧ a.score = b.score) :
    (unmarshal text).bind (highscoreOfJson z (newHighscore M')) =
      some ⟨h.items.map (withFlip z.wasFlipped), M⟩ := by
  obtain ⟨j, h1, h', h2, h3, h4⟩ := highscoreJson_reload M M' ns h hi z
  rw [h1] at ht
  rw [hj j text ht]
  change highscoreOfJson z (newHighscore M') j = _
  rw [h2]
  obtain ⟨items, m⟩ := h'
  simp only at h3 h4
  rcases h4 with ⟨h4, -⟩ | ⟨-, h4, pre, a, b, h5, h6⟩
  · rw [h3, h4]
  · rcases hroom with hroom | ⟨pre', a', b', g1, g2⟩
    · omega
    · rw [h5] at g1
      have e : pre ++ [a] ++ [b] = pre' ++ [a'] ++ [b'] := by simpa using g1
      obtain ⟨e1, rfl⟩ := List.append_inj' e rfl |>.imp id (fun h => List.singleton_inj.1 h)
      obtain ⟨-, rfl⟩ := List.append_inj' e1 rfl |>.imp id (fun h => List.singleton_inj.1 h)
      exact absurd g2 (ne_of_gt h6)

/-- **C46 (full lists).** A list of `MaxItems` nodes whose last one is strictly worst loses exactly that node. -/
theorem C46_full_list {T : Type} (marshal : HighscoreJson α → Option T)
    (unmarshal : T → Option (HighscoreJson α))
    (hj : ∀ j text, marshal j = some text → unmarshal text = some j)
    (M M' : Int) (ns : List (Node α)) (h : Highscore α)
    (hi : (newHighscore M).insertAll ns = some h) (z : Node α) (text : T)
    (ht : (highscoreToJson h).bind marshal = some text) (hfull : (h.len : Int) = M)
    (pre : List (Node α)) (a b : Node α) (hitems : h.items = pre ++ [a, b]) (hab : b.score < a.score) :
    (unmarshal text).bind (highscoreOfJson z (newHighscore M')) =
      some ⟨(pre ++ [a]).map (withFlip z.wasFlipped), M⟩ := by
  obtain ⟨j, h1, h', h2, h3, h4⟩ := highscoreJson_reload M M' ns h hi z
  rw [h1] at ht
  rw [hj j text ht]
  change highscoreOfJson z (newHighscore M') j = _
  rw [h2]
  obtain ⟨items, m⟩ := h'
  simp only at h3 h4
  rcases h4 with ⟨-, h4 | h4 | ⟨pre', a', b', g1, g2⟩⟩ | ⟨h4, -⟩
  · omega
  · rw [h4] at hitems
    simp at hitems
  · rw [hitems] at g1
    have e : pre ++ [a] ++ [b] = pre' ++ [a'] ++ [b'] := by simpa using g1
    obtain ⟨e1, rfl⟩ := List.append_inj' e rfl |>.imp id (fun h => List.singleton_inj.1 h)
    obtain ⟨-, rfl⟩ := List.append_inj' e1 rfl |>.imp id (fun h => List.singleton_inj.1 h)
    exact absurd g2 (ne_of_gt hab)
  · rw [h3, h4, hitems, show pre ++ [a, b] = (pre ++ [a]) ++ [b] by simp, List.dropLast_concat]

/-- Histories without ties are always restored. -/
theorem C46_distinct (M M' : Int) (hM : 1 < M) (ns : List (Node α)) (hd : (ns.map (·.score)).Nodup)
    (h : Highscore α) (hi : (newHighscore M).insertAll ns = some h) (z : Node α) :
    ∃ j, highscoreToJson h = some j ∧ highscoreOfJson z (newHighscore M') j =
      some ⟨h.items.map (withFlip z.wasFlipped), M⟩ := by
  obtain ⟨j, h1, h', h2, h3, h4⟩ := highscoreJson_reload M M' ns h hi z
  have := C10_effective_capacity M hM ns h hd hi
  refine ⟨j, h1, ?_⟩
  rw [h2]
  obtain ⟨items, m⟩ := h'
  simp only at h3 h4
  rcases h4 with ⟨h4, -⟩ | ⟨-, h4, -⟩
  · rw [h3, h4]
  · omega

/-- **C46 is false for full lists**: after inserting scores 5, 3, 3, 4 with `MaxItems = 3` the list
holds 5, 4, 3; reloading gives 5, 4. -/
theorem C46_refuted : ∃ (h : Highscore Int) (j : HighscoreJson Int) (h' : Highscore Int),
    (newHighscore 3).insertAll [exNode 5, exNode 3, exNode 3, exNode 4] = some h ∧
    highscoreToJson h = some j ∧ highscoreOfJson (exNode 0) (newHighscore 3) j = some h' ∧
    h.scores = [5, 4, 3] ∧ h'.scores = [5, 4] :=
  ⟨_, _, _, rfl, rfl, rfl, by decide, by decide⟩

/-- A node in JSON form. -/
example : nodeToJson (⟨[false, true, true], [4, 5], 2, -1, 7, 3, true⟩ : Node Int) =
    some ⟨[1, 2], 3, -1, 7, 3, 2, [4, 5]⟩ := by decide

end GoSelect
