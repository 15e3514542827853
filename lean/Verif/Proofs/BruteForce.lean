import Verif.Model.BruteForce
import Verif.Proofs.Tree
import Verif.Proofs.Highscore

/-! The brute-force loop terminates and inserts every non-empty model once. -/

namespace GoSelect

open Spec
open scoped List

variable {α : Type} [LinearOrder α] [Zero α] [Neg α]

/-- The node is fitted and scored as its own model. -/
def Scored (P : Problem α) (n : Node α) : Prop :=
  n.coeff = P.fit n.model ∧ n.score = -P.aicc (card n.model) P.nrows (P.rss n.model)

/-- Models that are still going to be inserted because of a queued node. -/
def pend (P : Problem α) (q : Node α) : List (List Bool) :=
  (if 0 < numFeatures q.model ∧ isNewNode q = true then [q.model] else []) ++
    (descend q.model q.level (P.ncols - q.level)).filter (fun m => 0 < numFeatures m)

/-- Invariant of the loop. -/
structure BInv (P : Problem α) (target : List (List Bool)) (s : List (Node α) × Highscore α) :
    Prop where
  wf : ∀ q ∈ s.1, q.model.length = P.ncols ∧ q.level ≤ P.ncols
  hist : ∃ hist : List (Node α), (newHighscore (2 ^ P.ncols)).insertAll hist = some s.2 ∧
    (hist.map (·.model) ++ s.1.flatMap (pend P)).Perm target ∧ ∀ n ∈ hist, Scored P n

/-- Work left. -/
def bMeasure (P : Problem α) (queue : List (Node α)) : Nat :=
  (queue.map (fun q => 2 ^ (P.ncols - q.level + 1) - 1)).sum

theorem pend_children (P : Problem α) (q c1 c2 : Node α) (hl : q.level < P.ncols)
    (hm : q.model.length = P.ncols)
    (h1 : getChildNode q false = some c1) (h2 : getChildNode q true = some c2) :
    pend P c1 ++ pend P c2 =
      (descend q.model q.level (P.ncols - q.level)).filter (fun m => 0 < numFeatures m) := by
  rw [getChildNode_false] at h1
  rw [getChildNode_true _ (by omega)] at h2
  cases h1; cases h2
  obtain ⟨k, hk⟩ : ∃ k, P.ncols - q.level = k + 1 := ⟨P.ncols - q.level - 1, by omega⟩
  have hk' : P.ncols - (q.level + 1) = k := by omega
  rw [hk, descend, List.filter_append, List.filter_cons]
  simp only [pend, isNewNode, hk']
  by_cases hz : 0 < numFeatures (flipAt q.model q.level) <;> simp [hz]

theorem bruteBody_step (P : Problem α) (target : List (List Bool)) (q : Node α)
    (rest : List (Node α)) (h : Highscore α) (hi : BInv P target (q :: rest, h)) :
    ∃ queue' h', bruteBody P (q :: rest, h) = .next (queue', h') ∧ BInv P target (queue', h') ∧
      bMeasure P queue' < bMeasure P (q :: rest) := by
  obtain ⟨hist, hh, hp, hs⟩ := hi.hist
  obtain ⟨hm, hl⟩ := hi.wf q (by simp)
  -- the insertion
  obtain ⟨h', hist', e1, e2, e3, e4⟩ : ∃ h' hist',
      (if 0 < numFeatures q.model ∧ isNewNode q = true then h.insert (scoreNode P q) else some h)
        = some h' ∧ (newHighscore (2 ^ P.ncols)).insertAll hist' = some h' ∧
      (hist'.map (·.model)).Perm (hist.map (·.model) ++
        (if 0 < numFeatures q.model ∧ isNewNode q = true then [q.model] else [])) ∧
      ∀ n ∈ hist', Scored P n := by
    by_cases hc : 0 < numFeatures q.model ∧ isNewNode q = true
    · simp only [hc, and_self, if_true]
      have hn : 0 < P.ncols := by
        rw [← hm, List.length_pos_iff]
        rintro he
        rw [he] at hc
        simp [numFeatures] at hc
      have h2 : (2 : Int) ≤ 2 ^ P.ncols := by
        have := Nat.pow_le_pow_right (n := 2) (by omega) hn
        have h3 : (2 : Nat) ≤ 2 ^ P.ncols := by simpa using this
        exact_mod_cast h3
      obtain ⟨h', hh'⟩ := insert_isSome (h := h) (x := scoreNode P q) (by
        rintro ⟨a, b⟩
        rw [(insertAll_inv hh).1, b] at a
        simp at a
        omega)
      refine ⟨h', hist ++ [scoreNode P q], hh', ?_, ?_, ?_⟩
      · rw [insertAll_snoc, hh, Option.bind_some, hh']
      · simp [scoreNode]
      · intro n hn
        rcases List.mem_append.1 hn with hn | hn
        · exact hs n hn
        · rw [List.mem_singleton.1 hn]
          simp [Scored, scoreNode, numFeatures_eq_card]
    · simp only [hc, if_false]
      exact ⟨h, hist, rfl, hh, by simp, hs⟩
  by_cases hlt : q.level < P.ncols
  · obtain ⟨c1, hc1⟩ : ∃ c, getChildNode q false = some c := ⟨_, getChildNode_false q⟩
    obtain ⟨c2, hc2⟩ : ∃ c, getChildNode q true = some c := ⟨_, getChildNode_true q (by omega)⟩
    have hpc := pend_children P q c1 c2 hlt hm hc1 hc2
    refine ⟨rest ++ [c1, c2], h', ?_, ⟨?_, hist', e2, ?_, e4⟩, ?_⟩
    · simp only [bruteBody, e1, hlt, hc1, hc2, if_true]
    · intro c hc
      simp only [List.mem_append, List.mem_cons, List.not_mem_nil, or_false] at hc
      rcases hc with hc | rfl | rfl
      · exact hi.wf c (by simp [hc])
      · rw [getChildNode_false] at hc1; cases hc1; exact ⟨hm, hlt⟩
      · rw [getChildNode_true _ (by omega)] at hc2; cases hc2
        exact ⟨by simpa [flipAt_length] using hm, hlt⟩
    · refine List.Perm.trans ?_ hp
      rw [List.flatMap_append, List.flatMap_cons]
      simp only [List.flatMap_cons, List.flatMap_nil, List.append_nil, hpc]
      rw [pend]
      refine (e3.append_right _).trans ?_
      simp only [List.append_assoc]
      refine List.Perm.append_left _ (List.Perm.append_left _ ?_)
      exact List.perm_append_comm
    · rw [getChildNode_false] at hc1
      rw [getChildNode_true _ (by omega)] at hc2
      cases hc1; cases hc2
      simp only [bMeasure, List.map_append, List.map_cons, List.map_nil, List.sum_append,
        List.sum_cons, List.sum_nil]
      have : P.ncols - q.level + 1 = (P.ncols - (q.level + 1) + 1) + 1 := by omega
      rw [this, Nat.pow_succ 2 (P.ncols - (q.level + 1) + 1)]
      have := Nat.one_le_two_pow (n := P.ncols - (q.level + 1) + 1)
      omega
  · refine ⟨rest, h', ?_, ⟨?_, hist', e2, ?_, e4⟩, ?_⟩
    · simp only [bruteBody, e1, hlt, if_false]
    · intro c hc; exact hi.wf c (by simp [hc])
    · refine List.Perm.trans ?_ hp
      have : P.ncols - q.level = 0 := by omega
      rw [List.flatMap_cons, pend, this]
      simp only [descend, List.filter_nil, List.append_nil]
      refine (e3.append_right _).trans ?_
      simp
    · simp only [bMeasure, List.map_cons, List.sum_cons]
      have : 2 ≤ 2 ^ (P.ncols - q.level + 1) := by
        rw [Nat.pow_succ]
        have := Nat.one_le_two_pow (n := P.ncols - q.level)
        omega
      omega

theorem brute_runs (P : Problem α) (target : List (List Bool)) (queue : List (Node α))
    (h : Highscore α) (hi : BInv P target (queue, h)) :
    ∃ r, Runs (bruteBody P) (queue, h) r ∧ BInv P target ([], r) := by
  induction hn : bMeasure P queue using Nat.strong_induction_on generalizing queue h with
  | _ n ih =>
    cases queue with
    | nil => exact ⟨h, .ret rfl, hi⟩
    | cons q rest =>
      obtain ⟨queue', h', e1, e2, e3⟩ := bruteBody_step P target q rest h hi
      obtain ⟨r, hr, hr'⟩ := ih _ (hn ▸ e3) queue' h' e2 rfl
      exact ⟨r, .next e1 hr, hr'⟩

theorem card_replicate_false (n : Nat) : card (List.replicate n false) = 0 := by
  rw [card_eq_count]; simp [List.count_replicate]

theorem card_eq_zero {m : List Bool} (h : card m = 0) : m = List.replicate m.length false := by
  rw [card_eq_count, List.count_eq_zero] at h
  rw [List.eq_replicate_iff]
  refine ⟨rfl, fun b hb => ?_⟩
  cases b
  · rfl
  · exact absurd hb h

theorem brute_init_inv (P : Problem α) :
    BInv P ((descend (List.replicate P.ncols false) 0 P.ncols).filter (fun m => 0 < numFeatures m))
      (bruteInit P) where
  wf := by simp [bruteInit, newNode, goCopy_length]
  hist := by
    refine ⟨[], rfl, ?_, by simp⟩
    have h1 : (newNode (α := α) 0 (List.replicate P.ncols false)).model = List.replicate P.ncols false := by
      simp only [newNode]
      exact goCopy_replicate _ _
    have h2 : numFeatures (List.replicate P.ncols false) = 0 := by
      rw [numFeatures_eq_card, card_replicate_false]
    simp only [bruteInit, List.map_nil, List.nil_append, List.flatMap_cons, List.flatMap_nil, pend,
      h1, h2, List.append_nil]
    simp [newNode]

/-- Complete description of what brute force returns. -/
theorem brute_spec (P : Problem α) : ∃ h hist, BruteForceReturns P h ∧
    (newHighscore (2 ^ P.ncols)).insertAll hist = some h ∧ h.items = ranking hist ∧
    (hist.map (·.model)).Nodup ∧
    (∀ m, m ∈ hist.map (·.model) ↔ m.length = P.ncols ∧ 0 < card m) ∧
    (hist.length + 1 = 2 ^ P.ncols) ∧ ∀ n ∈ hist, Scored P n := by
  obtain ⟨r, hr, hinv⟩ := brute_runs P _ _ _ (brute_init_inv P)
  obtain ⟨hist, hh, hp, hs⟩ := hinv.hist
  simp only [List.flatMap_nil, List.append_nil] at hp
  have hkey : 0 + P.ncols = (List.replicate P.ncols false).length := by simp
  have hmem : ∀ m, m ∈ hist.map (·.model) ↔ m.length = P.ncols ∧ 0 < card m := by
    intro m
    rw [hp.mem_iff, List.mem_filter, mem_descend hkey, numFeatures_eq_card]
    simp only [SamePrefix, decide_eq_true_eq]
    constructor
    · rintro ⟨⟨⟨h1, -⟩, -⟩, h2⟩
      exact ⟨by simpa using h1.symm, h2⟩
    · rintro ⟨h1, h2⟩
      refine ⟨⟨⟨by simp [h1], by simp⟩, ?_⟩, h2⟩
      rintro rfl
      rw [card_replicate_false] at h2
      omega
  have hnd : (hist.map (·.model)).Nodup :=
    hp.nodup_iff.2 ((descend_nodup hkey).filter _)
  have hfil : (descend (List.replicate P.ncols false) 0 P.ncols).filter (fun m => 0 < numFeatures m)
      = descend (List.replicate P.ncols false) 0 P.ncols := by
    rw [List.filter_eq_self]
    intro m hm
    rw [mem_descend hkey] at hm
    rw [numFeatures_eq_card, decide_eq_true_eq]
    by_contra hc
    have := card_eq_zero (m := m) (by omega)
    rw [← hm.1.1] at this
    simp at this
    exact hm.2 this
  have hlen : hist.length + 1 = 2 ^ P.ncols := by
    have := hp.length_eq
    rw [hfil, List.length_map] at this
    rw [this, descend_length]
  refine ⟨r, hist, hr, hh, ?_, hnd, hmem, hlen, hs⟩
  have hv := (insertAll_inv hh).2
  refine hv.sub.eq_of_length_le ?_
  rw [ranking_length]
  by_contra hc
  have := hv.keep (by omega)
  have h2 : (2 : Int) ^ P.ncols = (hist.length : Int) + 1 := by exact_mod_cast hlen.symm
  simp only at *
  omega

end GoSelect
