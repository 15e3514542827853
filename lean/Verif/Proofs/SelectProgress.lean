import Verif.Proofs.SelectTerm

/-! What `SelectModel` reports through `SearchProgress`, and how much it prunes. -/

namespace GoSelect

open Spec
open scoped List

variable {α : Type} [LinearOrder α] [Zero α] [Neg α]

/-- How one step changes the reported values. -/
theorem progress_step {S : Search α} {M : Int} {pre : List (Node α)} {s s' : SState α} {a : Action}
    (hi : SInv S M pre s) (h : SStep S s a s') :
    (s'.progress = s.progress ∧ s'.log = s.log ∧ (∀ i, a ≠ .score i) ∧
      (s'.pruned = s.pruned ∨ ∃ l, s'.pruned = l :: s.pruned)) ∨
    (s'.progress = (s.hs.bestScore, s.log.length, s.pruned) :: s.progress ∧ s'.pruned = s.pruned ∧
      (∃ i, a = .score i) ∧ (s'.log = s.log ∨ ∃ n, s'.log = s.log ++ [n])) := by
  have hck := hi.checked
  cases h with
  | prune p f hm hb =>
    obtain ⟨mm, e1, -⟩ := loopOrExit_spec { s with
        busy := [afterChild p f], pruned := p.level :: s.pruned, inProgress := s.inProgress - 1 }
    rw [e1]
    exact Or.inl ⟨rfl, rfl, by simp, Or.inr ⟨_, rfl⟩⟩
  | scoreOld i n hm hidx hn =>
    obtain ⟨mm, q, k, f1, -⟩ := afterScore_spec S { s with
        scoring := s.scoring.eraseIdx i
        inProgress := s.inProgress - 1
        progress := (s.hs.bestScore, s.numChecked, s.pruned) :: s.progress } (scoreWorker S n)
    rw [f1]
    exact Or.inr ⟨by rw [← hck], rfl, ⟨i, rfl⟩, Or.inl rfl⟩
  | scoreNew i n hs' hm hidx hn hins =>
    obtain ⟨q, b, e1, -⟩ := afterInsert_spec { s with
        scoring := s.scoring.eraseIdx i
        inProgress := s.inProgress - 1
        progress := (s.hs.bestScore, s.numChecked, s.pruned) :: s.progress } (scoreWorker S n) hs'
    rw [e1]
    obtain ⟨mm, q', k, f1, -⟩ := afterScore_spec S { s with
        scoring := s.scoring.eraseIdx i
        inProgress := s.inProgress - 1
        progress := (s.hs.bestScore, s.numChecked, s.pruned) :: s.progress
        hs := hs'
        log := s.log ++ [scoreWorker S n]
        numChecked := s.numChecked + 1
        queue := q
        best := b } (scoreWorker S n)
    rw [f1]
    exact Or.inr ⟨by rw [← hck], rfl, ⟨i, rfl⟩, Or.inr ⟨_, rfl⟩⟩
  | _ => exact Or.inl ⟨rfl, rfl, by simp, Or.inl rfl⟩

/-- Earlier reports have at most as many explored nodes and a tail of the prunes. -/
def Earlier (p p' : α × Nat × List Nat) : Prop := p.2.1 ≤ p'.2.1 ∧ p.2.2 <:+ p'.2.2

theorem progress_reach {S : Search α} {M : Int} (hM : M ≠ 1) {pre : List (Node α)} {s : SState α}
    (h : SelectReaches S M pre s) :
    s.progress.Pairwise (fun p' p => Earlier p p') ∧
      ∀ p ∈ s.progress, p.2.1 ≤ s.log.length ∧ p.2.2 <:+ s.pruned := by
  refine h.induct hM (fun s => s.progress.Pairwise (fun p' p => Earlier p p') ∧
      ∀ p ∈ s.progress, p.2.1 ≤ s.log.length ∧ p.2.2 <:+ s.pruned) ?_ ?_
  · intro hs s₀ _ h2
    unfold sinit at h2
    split at h2
    · cases h2
    · split at h2
      · cases h2
      · cases h2
        simp
  · intro s s' a hi ⟨hp, hb⟩ hst
    rcases progress_step hi hst with ⟨e1, e2, -, e3⟩ | ⟨e1, e2, -, e3⟩
    · rw [e1, e2]
      refine ⟨hp, fun p hpm => ⟨(hb p hpm).1, ?_⟩⟩
      rcases e3 with e3 | ⟨l, e3⟩
      · rw [e3]; exact (hb p hpm).2
      · rw [e3]; exact (hb p hpm).2.trans (List.suffix_cons _ _)
    · rw [e1, e2]
      have hlen : s.log.length ≤ s'.log.length := by
        rcases e3 with e3 | ⟨n, e3⟩ <;> simp [e3]
      refine ⟨List.pairwise_cons.2 ⟨fun p hpm => hb p hpm, hp⟩, ?_⟩
      intro p hpm
      rcases List.mem_cons.1 hpm with rfl | hpm
      · exact ⟨hlen, List.suffix_refl _⟩
      · exact ⟨(hb p hpm).1.trans hlen, (hb p hpm).2⟩

/-! ### The number of pruned models -/

/-- Number of models in the subtree of a node on level `l`. -/
def subtree (S : Search α) (l : Nat) : Nat := 2 ^ (S.ncols - l)

/-- Models below the children a worker still has to deliver. -/
def pcSub (S : Search α) : ChildPc α → Nat
  | .make p f | .readLen p f _ _ | .sendNode p f _ | .sendPrune p f =>
    subtree S (p.level + 1) + if f then 0 else subtree S (p.level + 1)
  | .ready => 0

/-- Models not yet given up. -/
def liveSub (S : Search α) (s : SState α) : Nat :=
  (match s.main with | .sendWant (some n) => subtree S n.level | _ => 0) +
    (s.busy.map (pcSub S)).sum + (s.scoring.map (fun n => subtree S n.level)).sum +
    (s.queue.map (fun n => subtree S n.level)).sum

/-- Models in the pruned subtrees. -/
def prunedSub (S : Search α) (s : SState α) : Nat :=
  (s.pruned.map (fun l => subtree S (l + 1))).sum

theorem subtree_split (S : Search α) {l : Nat} (h : l < S.ncols) :
    subtree S l = subtree S (l + 1) + subtree S (l + 1) := by
  unfold subtree
  rw [show S.ncols - l = (S.ncols - (l + 1)) + 1 by omega, Nat.pow_succ]
  omega

theorem prunedSub_step {S : Search α} {M : Int} {pre : List (Node α)} {s s' : SState α} {a : Action}
    (hi : SInv S M pre s) (h : SStep S s a s') :
    prunedSub S s' + liveSub S s' ≤ prunedSub S s + liveSub S s := by
  have scoreCase : ∀ (i : Nat) (n : Node α) (s1 : SState α), s.main = .select →
      s.scoring[i]? = some n → s1.scoring = s.scoring.eraseIdx i → s1.busy = s.busy →
      s1.queue <+ s.queue → s1.pruned = s.pruned →
      prunedSub S (afterScore S s1 (scoreWorker S n)) + liveSub S (afterScore S s1 (scoreWorker S n))
        ≤ prunedSub S s + liveSub S s := by
    intro i n s1 hm hidx e2 e3 e4 e5
    obtain ⟨mm, q, k, f1, f2, -, f3⟩ := afterScore_spec S s1 (scoreWorker S n)
    have hp := sum_perm (fun n => subtree S n.level) (eraseIdx_perm hidx)
    have hq := sum_sublist (fun n => subtree S n.level) f2
    have hq2 := sum_sublist (fun n => subtree S n.level) e4
    rw [f1]
    simp only [List.map_cons, List.sum_cons] at hp
    have hq' : (q.map (fun n => subtree S n.level)).sum ≤
        (s1.queue.map (fun n => subtree S n.level)).sum + subtree S n.level := by
      split at hq
      · simp only [List.map_append, List.map_cons, List.map_nil, List.sum_append, List.sum_cons,
          List.sum_nil, scoreWorker_level] at hq
        omega
      · omega
    rcases f3 with ⟨rfl, -⟩ | ⟨rfl, -⟩ <;>
    · simp only [prunedSub, liveSub, hm, e2, e3, e5, hp]
      omega
  cases h with
  | want node hm hb =>
    cases node with
    | none => simp [prunedSub, liveSub, hm, hb, pcOf, pcSub]
    | some p =>
      have hl := (hi.wantOk p hm).lvl
      simp [prunedSub, liveSub, hm, hb, pcOf, pcSub, subtree_split S hl]
  | rbPrune p f hm hb hc => simp [prunedSub, liveSub, hb, pcSub]
  | rbBound p f c hm hb hc hlt => simp [prunedSub, liveSub, hb, pcSub]
  | rbSend p f c hm hb hc hlt => simp [prunedSub, liveSub, hb, pcSub]
  | rlPrune p f c e hm hb hlen => simp [prunedSub, liveSub, hb, pcSub]
  | rlSend p f c e hm hb hlen => simp [prunedSub, liveSub, hb, pcSub]
  | send p f c hm hb hs =>
    have hok := hi.busyOk (.sendNode p f c) (by simp [hb])
    have hl := (boundedChild_some hok.1 hok.2).2.1
    have h0 : pcSub S (afterChild p f) = if f then 0 else subtree S (p.level + 1) := by
      cases f <;> simp [afterChild, pcSub]
    have h1 : pcSub S (.sendNode p f c) =
      subtree S (p.level + 1) + if f then 0 else subtree S (p.level + 1) := rfl
    simp only [prunedSub, liveSub, hb, h0, h1, hl, List.map_append, List.map_cons, List.map_nil,
      List.sum_append, List.sum_cons, List.sum_nil]
    omega
  | prune p f hm hb =>
    obtain ⟨mm, e1, e2⟩ := loopOrExit_spec { s with
        busy := [afterChild p f], pruned := p.level :: s.pruned, inProgress := s.inProgress - 1 }
    rw [e1]
    have h0 : pcSub S (afterChild p f) = if f then 0 else subtree S (p.level + 1) := by
      cases f <;> simp [afterChild, pcSub]
    have h1 : pcSub S (.sendPrune p f) =
      subtree S (p.level + 1) + if f then 0 else subtree S (p.level + 1) := rfl
    rcases e2 with ⟨rfl, -⟩ | ⟨rfl, -⟩ <;>
    · simp only [prunedSub, liveSub, hm, hb, h0, h1, List.map_cons, List.map_nil, List.sum_cons,
        List.sum_nil]
      omega
  | readyNil hm hb hq => simp [prunedSub, liveSub, hm, hb, hq, pcSub]
  | readyNode n rest hm hb hq => simp [prunedSub, liveSub, hm, hb, hq, pcSub]; omega
  | scoreOld i n hm hidx hn => exact scoreCase i n _ hm hidx rfl rfl (List.Sublist.refl _) rfl
  | scoreNew i n hs' hm hidx hn hins =>
    obtain ⟨q, b, e1, e2, -⟩ := afterInsert_spec { s with
        scoring := s.scoring.eraseIdx i
        inProgress := s.inProgress - 1
        progress := (s.hs.bestScore, s.numChecked, s.pruned) :: s.progress } (scoreWorker S n) hs'
    rw [e1]
    exact scoreCase i n _ hm hidx rfl rfl e2 rfl

theorem liveSub_reach {S : Search α} {M : Int} (hM : M ≠ 1) {pre : List (Node α)} {s : SState α}
    (h : SelectReaches S M pre s) : prunedSub S s + liveSub S s ≤ 2 ^ S.ncols ∧
      ∀ p ∈ s.progress, (p.2.2.map (fun l => subtree S (l + 1))).sum + 1 ≤ 2 ^ S.ncols := by
  refine h.induct hM (fun s => prunedSub S s + liveSub S s ≤ 2 ^ S.ncols ∧
      ∀ p ∈ s.progress, (p.2.2.map (fun l => subtree S (l + 1))).sum + 1 ≤ 2 ^ S.ncols) ?_ ?_
  · intro hs s₀ _ h2
    unfold sinit at h2
    split at h2
    · cases h2
    · split at h2
      · cases h2
      · cases h2
        simp [prunedSub, liveSub, subtree, newNode]
  · intro s s' a hi ⟨ih, ihp⟩ hst
    refine ⟨(prunedSub_step hi hst).trans ih, ?_⟩
    have scored : ∀ (i : Nat) (n : Node α), s.scoring[i]? = some n →
        (s.pruned.map (fun l => subtree S (l + 1))).sum + 1 ≤ 2 ^ S.ncols := by
      intro i n hn
      have hp := sum_perm (fun n => subtree S n.level) (eraseIdx_perm hn)
      simp only [List.map_cons, List.sum_cons] at hp
      have h1 : 1 ≤ subtree S n.level := Nat.one_le_two_pow
      unfold prunedSub liveSub at ih
      omega
    rcases progress_step hi hst with ⟨e1, -, -, -⟩ | ⟨e1, -, ⟨i, rfl⟩, -⟩
    · rw [e1]; exact ihp
    · rw [e1]
      intro p hp
      rcases List.mem_cons.1 hp with rfl | hp
      · cases hst with
        | scoreOld _ n hm hidx hn => exact scored i n hidx
        | scoreNew _ n hs' hm hidx hn hins => exact scored i n hidx
      · exact ihp p hp

theorem prunedSub_reach {S : Search α} {M : Int} (hM : M ≠ 1) {pre : List (Node α)} {s : SState α}
    (h : SelectReaches S M pre s) : prunedSub S s ≤ 2 ^ S.ncols :=
  (Nat.le_add_right _ _).trans (liveSub_reach hM h).1

/-- When a report is made, the model whose score was received is not pruned. -/
theorem reported_sub {S : Search α} {M : Int} (hM : M ≠ 1) {pre : List (Node α)} {s : SState α}
    (h : SelectReaches S M pre s) (p : α × Nat × List Nat) (hp : p ∈ s.progress) :
    (p.2.2.map (fun l => subtree S (l + 1))).sum + 1 ≤ 2 ^ S.ncols :=
  (liveSub_reach hM h).2 p hp

/-- Every pruned level is a level of a parent. -/
theorem pruned_lt {S : Search α} {M : Int} (hM : M ≠ 1) {pre : List (Node α)} {s : SState α}
    (h : SelectReaches S M pre s) : ∀ l ∈ s.pruned, l < S.ncols := by
  refine h.induct hM (fun s => ∀ l ∈ s.pruned, l < S.ncols) ?_ ?_
  · intro hs s₀ _ h2
    unfold sinit at h2
    split at h2
    · cases h2
    · split at h2
      · cases h2
      · cases h2
        simp
  · intro s s' a hi ih hst
    cases hst with
    | prune p f hm hb =>
      obtain ⟨mm, e1, -⟩ := loopOrExit_spec { s with
        busy := [afterChild p f], pruned := p.level :: s.pruned, inProgress := s.inProgress - 1 }
      rw [e1]
      intro l hl
      rcases List.mem_cons.1 hl with rfl | hl
      · exact (hi.busyOk (.sendPrune p f) (by rw [hb]; simp)).lvl
      · exact ih l hl
    | scoreOld i n hm hidx hn =>
      obtain ⟨mm, q, k, f1, -⟩ := afterScore_spec S { s with
        scoring := s.scoring.eraseIdx i
        inProgress := s.inProgress - 1
        progress := (s.hs.bestScore, s.numChecked, s.pruned) :: s.progress } (scoreWorker S n)
      rw [f1]
      exact ih
    | scoreNew i n hs' hm hidx hn hins =>
      obtain ⟨q, b, e1, -⟩ := afterInsert_spec { s with
        scoring := s.scoring.eraseIdx i
        inProgress := s.inProgress - 1
        progress := (s.hs.bestScore, s.numChecked, s.pruned) :: s.progress } (scoreWorker S n) hs'
      rw [e1]
      obtain ⟨mm, q', k, f1, -⟩ := afterScore_spec S { s with
        scoring := s.scoring.eraseIdx i
        inProgress := s.inProgress - 1
        progress := (s.hs.bestScore, s.numChecked, s.pruned) :: s.progress
        hs := hs'
        log := s.log ++ [scoreWorker S n]
        numChecked := s.numChecked + 1
        queue := q
        best := b } (scoreWorker S n)
      rw [f1]
      exact ih
    | _ => exact ih

end GoSelect
