import Verif.Proofs.SelectCover
import Verif.Proofs.HighscoreNan

/-! Coverage of `SelectModel` runs for every comparison of criterion values, also one with NaN. -/

namespace GoSelect

open Spec
open scoped List

variable {α : Type} [LT α] [DecidableLT α] [DecidableEq α] [Zero α] [Neg α]

theorem insertAll_mem {M : Int} {ns : List (Node α)} {h : Highscore α} (hi : (newHighscore M).insertAll ns = some h) :
    ∀ a ∈ h.items, a ∈ ns := by
  induction ns using List.reverseRec generalizing h with
  | nil =>
    simp only [Highscore.insertAll, List.foldlM_nil, newHighscore, pure, Option.some.injEq] at hi
    subst hi
    simp
  | append_singleton ns x ih =>
    rw [insertAll_snoc] at hi
    cases hm : (newHighscore M).insertAll ns with
    | none => simp [hm] at hi
    | some h0 =>
      rw [hm, Option.bind_some] at hi
      have he := insert_any hi
      have ih' := ih hm
      generalize h.items = items' at he
      intro a ha
      cases he with
      | reject last h1 h2 h3 => simp [ih' a ha]
      | place p z q h1 h2 h3 h4 =>
        simp only [List.mem_append, List.mem_cons] at ha
        rcases ha with ha | rfl | ha
        · simp [ih' a (by rw [h1]; simp [ha])]
        · simp
        · simp [ih' a (by rw [h1]; simp [ha])]
      | replace p z q h1 h2 h3 h4 =>
        simp only [List.mem_append, List.mem_cons] at ha
        rcases ha with ha | rfl | ha
        · simp [ih' a (by rw [h1]; simp [ha])]
        · simp
        · have := (List.dropLast_sublist _).subset ha
          simp [ih' a (by rw [h1]; simp only [List.mem_append]; exact Or.inr this)]
      | push h1 h2 =>
        rcases List.mem_append.1 ha with ha | ha
        · simp [ih' a ha]
        · simp [List.mem_singleton.1 ha]
      | full h1 h2 => simp [ih' a ha]

theorem insert_ne_nil {h h' : Highscore α} (hM : 2 ≤ h.maxItems) {x : Node α} (hi : h.insert x = some h') :
    h'.items ≠ [] := by
  have he := insert_any hi
  generalize h'.items = items' at he
  cases he with
  | reject last h1 h2 h3 => exact List.ne_nil_of_mem (List.mem_of_getLast? h2)
  | place p z q h1 h2 h3 h4 => simp
  | replace p z q h1 h2 h3 h4 => simp
  | push h1 h2 => simp
  | full h1 h2 =>
    intro h0
    rw [h0] at h2
    simp at h2
    omega

theorem insertAll_ne_nil {M : Int} (hM : 2 ≤ M) {ns : List (Node α)} (hne : ns ≠ []) {h : Highscore α}
    (hi : (newHighscore M).insertAll ns = some h) : h.items ≠ [] := by
  induction ns using List.reverseRec with
  | nil => exact absurd rfl hne
  | append_singleton ns x ih =>
    rw [insertAll_snoc] at hi
    cases hm : (newHighscore M).insertAll ns with
    | none => simp [hm] at hi
    | some h0 =>
      rw [hm, Option.bind_some] at hi
      exact insert_ne_nil (by rw [insertAll_maxItems hm]; exact hM) hi

/-- `BestScore()` of a list that is not empty is the score of an inserted node. -/
theorem bestScore_mem {M : Int} {ns : List (Node α)} {h : Highscore α} (hi : (newHighscore M).insertAll ns = some h)
    (hne : h.items ≠ []) : ∃ n ∈ ns, n.score = h.bestScore := by
  cases hit : h.items with
  | nil => exact absurd hit hne
  | cons a l => exact ⟨a, insertAll_mem hi a (by rw [hit]; simp), by simp [Highscore.bestScore, hit]⟩

/-- The lower bound `lo` exceeded the best criterion value at some time: after the insertion of the nodes `l`, which is
a first part of all insertions. -/
def Exceeded (M : Int) (all : List (Node α)) (lo : α) : Prop :=
  ∃ l hs, l ≠ [] ∧ l <+: all ∧ (newHighscore M).insertAll l = some hs ∧ -hs.bestScore < lo

theorem Exceeded.mono {M : Int} {all all' : List (Node α)} (hp : all <+: all') {lo : α} (h : Exceeded M all lo) :
    Exceeded M all' lo := by
  obtain ⟨l, hs, h1, h2, h3, h4⟩ := h
  exact ⟨l, hs, h1, h2.trans hp, h3, h4⟩

/-- The model was inserted, or the lower bound of a node above it exceeded the best criterion value. -/
def Seen (S : Search α) (M : Int) (pre : List (Node α)) (s : SState α) (m : List Bool) : Prop :=
  (∃ n ∈ s.log, n.model = m) ∨ ∃ c, Made S c ∧ m ∈ covSelf S c ∧ Exceeded M (pre ++ s.log) c.lower

/-- Coverage invariant. -/
structure AInv (S : Search α) (M : Int) (pre : List (Node α)) (s : SState α) : Prop where
  ghost : ∀ p f c, ChildPc.readLen p f c false ∈ s.busy → Exceeded M (pre ++ s.log) c.lower
  cover : s.torn = false → s.overflows = 0 → ∀ m, m ∈ descend S.root 0 S.ncols → Candidate S m →
    Covered S s m ∨ Seen S M pre s m

theorem SInv.exceeded {S : Search α} {M : Int} {pre : List (Node α)} {s : SState α} (hi : SInv S M pre s)
    (hne : s.hs.items ≠ []) {lo : α} (h : -s.hs.bestScore < lo) : Exceeded M (pre ++ s.log) lo := by
  refine ⟨pre ++ s.log, s.hs, ?_, List.prefix_refl _, hi.hist, h⟩
  obtain ⟨n, hn, -⟩ := bestScore_mem hi.hist hne
  exact List.ne_nil_of_mem hn

theorem AInv.preserved {S : Search α} {M : Int} (hM : 2 ≤ M) {pre : List (Node α)}
    (hr : RowSafe S) {s s' : SState α} {a : Action}
    (hi : SInv S M pre s) (hc : AInv S M pre s) (h : SStep S s a s') : AInv S M pre s' := by
  have hi' := hi.preserved h
  -- steps that touch neither list nor scoring: only the single worker changes
  have workerStep : ∀ (pc pc' : ChildPc α) (t : SState α), s.busy = [pc] → t.busy = [pc'] →
      t.main = s.main → t.hs = s.hs → t.scoring = s.scoring → t.queue = s.queue →
      (t.torn = false → s.torn = false) → t.overflows = s.overflows → t.log = s.log →
      (∀ p f c, ChildPc.readLen p f c false = pc' → Exceeded M (pre ++ s.log) c.lower) →
      (t.torn = false → ∀ m, Candidate S m → m ∈ covPc S pc → m ∈ covPc S pc' ∨ Seen S M pre t m) →
      AInv S M pre t := by
    intro pc pc' t hb hb' e1 e2 e3 e4 e5 e6 e7 hg hcov
    refine ⟨?_, ?_⟩
    · intro p f c hmem
      rw [hb'] at hmem
      rw [e7]
      exact hg p f c (List.mem_singleton.1 hmem)
    · intro ht ho m hm hcand
      rcases hc.cover (e5 ht) (by omega) m hm hcand with hcv | hbt
      · rcases hcv with h | ⟨x, hx, h⟩ | ⟨x, hx, h⟩ | ⟨x, hx, h⟩
        · exact Or.inl (Or.inl (by rw [e1]; exact h))
        · rw [hb, List.mem_singleton] at hx
          subst hx
          rcases hcov ht m hcand h with h | h
          · exact Or.inl (Or.inr (Or.inl ⟨pc', by simp [hb'], h⟩))
          · exact Or.inr h
        · exact Or.inl (Or.inr (Or.inr (Or.inl ⟨x, by rw [e3]; exact hx, h⟩)))
        · exact Or.inl (Or.inr (Or.inr (Or.inr ⟨x, by rw [e4]; exact hx, h⟩)))
      · exact Or.inr (by unfold Seen at *; rw [e7]; exact hbt)
  -- the two `score` cases
  have scoreCase : ∀ (i : Nat) (n : Node α) (s1 : SState α), s.main = .select →
      s.scoring[i]? = some n → s1.scoring = s.scoring.eraseIdx i → s1.busy = s.busy →
      s1.torn = s.torn → s1.overflows = s.overflows →
      (∀ x ∈ s.queue, x ∉ s1.queue → Exceeded M (pre ++ s1.log) x.lower) →
      (isNewNode n = true → scoreWorker S n ∈ s1.log) → s.log <+: s1.log →
      AInv S M pre (afterScore S s1 (scoreWorker S n)) := by
    intro i n s1 hm hidx e2 e3 e4 e5 hq hnew hlog
    have hall : pre ++ s.log <+: pre ++ s1.log := List.prefix_append_right_inj _ |>.2 hlog
    obtain ⟨mm, q, k, f1, f2, f2', f3⟩ := afterScore_spec S s1 (scoreWorker S n)
    have hmade : Made S n := hi.scoringOk n (List.mem_of_getElem? hidx)
    rw [f1]
    refine ⟨?_, ?_⟩
    · intro p f c hmem
      simp only [e3] at hmem
      exact (hc.ghost p f c hmem).mono hall
    · intro ht ho m hmem hcand
      simp only at ht ho
      have hk : k = 0 := by omega
      have hqeq := f2' hk
      rcases hc.cover (by rw [← e4]; exact ht) (by omega) m hmem hcand with hcv | hbt
      · rcases hcv with h | ⟨x, hx, h⟩ | ⟨x, hx, h⟩ | ⟨x, hx, h⟩
        · rw [hm] at h; simp [covMain] at h
        · exact Or.inl (Or.inr (Or.inl ⟨x, by simpa [e3] using hx, h⟩))
        · have hx' := (eraseIdx_perm hidx).mem_iff.1 hx
          rcases List.mem_cons.1 hx' with rfl | hx'
          · -- the node that was just scored
            rcases List.mem_append.1 h with h | h
            · split at h
              · rename_i hn
                rw [List.mem_singleton] at h
                subst h
                exact Or.inr (Or.inl ⟨_, hnew hn, scoreWorker_model S x⟩)
              · simp at h
            · by_cases hl : (scoreWorker S x).level < S.ncols
              · refine Or.inl (Or.inr (Or.inr (Or.inr ⟨scoreWorker S x, ?_, ?_⟩)))
                · simp only [hqeq, if_pos hl]; simp
                · rw [below_scoreWorker]; exact h
              · rw [scoreWorker_level] at hl
                rw [below_of_level hl] at h
                simp at h
          · exact Or.inl (Or.inr (Or.inr (Or.inl ⟨x, by simpa [e2] using hx', h⟩)))
        · by_cases hx' : x ∈ s1.queue
          · refine Or.inl (Or.inr (Or.inr (Or.inr ⟨x, ?_, h⟩)))
            simp only [hqeq]
            split
            · simp [hx']
            · exact hx'
          · have h2 := hq x hx hx'
            obtain ⟨⟨n₀, hn₀, rfl⟩, hlv⟩ := hi.queueOk x hx
            rw [scoreWorker_lower] at h2
            rw [below_scoreWorker] at h
            exact Or.inr (Or.inr ⟨n₀, hn₀, List.mem_append_right _ h, h2⟩)
      · rcases hbt with ⟨x, hx, h⟩ | ⟨c, h2, h3, h4⟩
        · exact Or.inr (Or.inl ⟨x, hlog.subset hx, h⟩)
        · exact Or.inr (Or.inr ⟨c, h2, h3, h4.mono hall⟩)
  cases h with
  | want node hm hb =>
    refine ⟨?_, ?_⟩
    · intro p f c hmem
      simp only [List.mem_singleton] at hmem
      cases node <;> simp [pcOf] at hmem
    · intro ht ho m hmem hcand
      rcases hc.cover ht ho m hmem hcand with hcv | hbt
      · rcases hcv with h | ⟨x, hx, h⟩ | ⟨x, hx, h⟩ | ⟨x, hx, h⟩
        · cases node with
          | none => rw [hm] at h; simp [covMain] at h
          | some p =>
            have hl := (hi.wantOk p hm).lvl
            rw [hm] at h
            simp only [covMain, covFlip_below S p hl] at h
            refine Or.inl (Or.inr (Or.inl ⟨_, List.mem_singleton.2 rfl, ?_⟩))
            simpa [pcOf, covPc, covRest] using h
        · rw [hb] at hx; simp at hx
        · exact Or.inl (Or.inr (Or.inr (Or.inl ⟨x, hx, h⟩)))
        · exact Or.inl (Or.inr (Or.inr (Or.inr ⟨x, hx, h⟩)))
      · exact Or.inr hbt
  | rbPrune p f hm hb hcc =>
    refine workerStep _ _ _ hb rfl rfl rfl rfl rfl (fun h => h) rfl rfl (by simp) ?_
    intro _ m hcand hmem
    have hp : ParentOk S p := hi.busyOk (.make p f) (by rw [hb]; simp)
    rcases List.mem_append.1 hmem with h | h
    · exact (rowPrune_safe hr hp hcc h hcand).elim
    · exact Or.inl h
  | rbBound p f c hm hb hcc hlt =>
    refine workerStep _ _ _ hb rfl rfl rfl rfl rfl (fun h => h) rfl rfl ?_ ?_
    · intro p' f' c' he
      simp only [ChildPc.readLen.injEq] at he
      obtain ⟨-, -, rfl, h4⟩ := he
      refine hi.exceeded ?_ hlt
      intro h0
      simp [Highscore.len, h0] at h4
    · exact fun _ m _ h => Or.inl h
  | rbSend p f c hm hb hcc hlt =>
    exact workerStep _ _ _ hb rfl rfl rfl rfl rfl (fun h => h) rfl rfl (by simp)
      (fun _ m _ h => Or.inl h)
  | rlPrune p f c e hm hb hlen =>
    refine workerStep _ _ _ hb rfl rfl rfl rfl rfl (fun h => by simp at h; exact h.1) rfl rfl (by simp) ?_
    intro ht m hcand hmem
    simp only [Bool.or_eq_false_iff] at ht
    obtain ⟨-, rfl⟩ := ht
    have h2 := hc.ghost p f c (by rw [hb]; simp)
    have hok := hi.busyOk (.readLen p f c false) (by rw [hb]; simp)
    rcases List.mem_append.1 hmem with h | h
    · rw [← covSelf_child hok.1 hok.2.1] at h
      have hmade : Made S c := ⟨p, f, hok.1, hok.2.1⟩
      exact Or.inr (Or.inr ⟨c, hmade, h, h2⟩)
    · exact Or.inl h
  | rlSend p f c e hm hb hlen =>
    exact workerStep _ _ _ hb rfl rfl rfl rfl rfl (fun h => h) rfl rfl (by simp)
      (fun _ m _ h => Or.inl h)
  | send p f c hm hb hs =>
    have hok := hi.busyOk (.sendNode p f c) (by simp [hb])
    have h0 := covSelf_child hok.1 hok.2
    refine ⟨?_, ?_⟩
    · intro p' f' c' hmem
      simp only [List.mem_singleton] at hmem
      cases f <;> simp [afterChild] at hmem
    · intro ht ho m hmem hcand
      rcases hc.cover ht ho m hmem hcand with hcv | hbt
      · rcases hcv with h | ⟨x, hx, h⟩ | ⟨x, hx, h⟩ | ⟨x, hx, h⟩
        · exact Or.inl (Or.inl h)
        · rw [hb, List.mem_singleton] at hx
          subst hx
          rcases List.mem_append.1 h with h | h
          · exact Or.inl (Or.inr (Or.inr (Or.inl ⟨c, by simp, by rw [h0]; exact h⟩)))
          · exact Or.inl (Or.inr (Or.inl ⟨_, List.mem_singleton.2 rfl, by
              rw [covPc_afterChild]; exact h⟩))
        · exact Or.inl (Or.inr (Or.inr (Or.inl ⟨x, by simp [hx], h⟩)))
        · exact Or.inl (Or.inr (Or.inr (Or.inr ⟨x, hx, h⟩)))
      · exact Or.inr hbt
  | prune p f hm hb =>
    obtain ⟨mm, e1, e2⟩ := loopOrExit_spec { s with
        busy := [afterChild p f], pruned := p.level :: s.pruned, inProgress := s.inProgress - 1 }
    rw [e1]
    refine ⟨?_, ?_⟩
    · intro p' f' c' hmem
      simp only [List.mem_singleton] at hmem
      cases f <;> simp [afterChild] at hmem
    · intro ht ho m hmem hcand
      rcases hc.cover ht ho m hmem hcand with hcv | hbt
      · rcases hcv with h | ⟨x, hx, h⟩ | ⟨x, hx, h⟩ | ⟨x, hx, h⟩
        · rw [hm] at h; simp [covMain] at h
        · rw [hb, List.mem_singleton] at hx
          subst hx
          exact Or.inl (Or.inr (Or.inl ⟨_, List.mem_singleton.2 rfl, by
            rw [covPc_afterChild]; exact h⟩))
        · exact Or.inl (Or.inr (Or.inr (Or.inl ⟨x, hx, h⟩)))
        · exact Or.inl (Or.inr (Or.inr (Or.inr ⟨x, hx, h⟩)))
      · exact Or.inr hbt
  | readyNil hm hb hq =>
    refine ⟨by simp, ?_⟩
    intro ht ho m hmem hcand
    rcases hc.cover ht ho m hmem hcand with hcv | hbt
    · rcases hcv with h | ⟨x, hx, h⟩ | ⟨x, hx, h⟩ | ⟨x, hx, h⟩
      · rw [hm] at h; simp [covMain] at h
      · rw [hb, List.mem_singleton] at hx
        subst hx
        simp [covPc] at h
      · exact Or.inl (Or.inr (Or.inr (Or.inl ⟨x, hx, h⟩)))
      · exact Or.inl (Or.inr (Or.inr (Or.inr ⟨x, hx, h⟩)))
    · exact Or.inr hbt
  | readyNode n rest hm hb hq =>
    refine ⟨by simp, ?_⟩
    intro ht ho m hmem hcand
    rcases hc.cover ht ho m hmem hcand with hcv | hbt
    · rcases hcv with h | ⟨x, hx, h⟩ | ⟨x, hx, h⟩ | ⟨x, hx, h⟩
      · rw [hm] at h; simp [covMain] at h
      · rw [hb, List.mem_singleton] at hx
        subst hx
        simp [covPc] at h
      · exact Or.inl (Or.inr (Or.inr (Or.inl ⟨x, hx, h⟩)))
      · rw [hq] at hx
        rcases List.mem_cons.1 hx with rfl | hx
        · exact Or.inl (Or.inl h)
        · exact Or.inl (Or.inr (Or.inr (Or.inr ⟨x, hx, h⟩)))
    · exact Or.inr hbt
  | scoreOld i n hm hidx hn =>
    refine scoreCase i n _ hm hidx rfl rfl rfl rfl ?_ ?_ (List.prefix_refl _)
    · intro x hx hx'; exact absurd hx hx'
    · intro h; rw [hn] at h; cases h
  | scoreNew i n hs' hm hidx hn hins =>
    obtain ⟨q, b, e1, e2, e3⟩ := afterInsert_spec { s with
        scoring := s.scoring.eraseIdx i
        inProgress := s.inProgress - 1
        progress := (s.hs.bestScore, s.numChecked, s.pruned) :: s.progress } (scoreWorker S n) hs'
    rw [e1] at hi' ⊢
    have h1 : hs'.items ≠ [] := insert_ne_nil (by rw [insertAll_maxItems hi.hist]; exact hM) hins
    refine scoreCase i n _ hm hidx rfl rfl rfl rfl ?_ ?_ ?_
    · intro x hx hx'
      refine ⟨pre ++ (s.log ++ [scoreWorker S n]), hs', by simp, List.prefix_refl _, ?_, e3 x hx hx'⟩
      rw [← List.append_assoc, insertAll_snoc, hi.hist, Option.bind_some, hins]
    · intro _; simp
    · exact List.prefix_append _ _

theorem AInv.reach {S : Search α} {M : Int} (hM : 2 ≤ M) {pre : List (Node α)} (hr : RowSafe S)
    {s : SState α} (h : SelectReaches S M pre s) : AInv S M pre s := by
  refine h.induct (by omega) (AInv S M pre) ?_ (fun s s' a hi hc hst => hc.preserved hM hr hi hst)
  intro hs s₀ h1 h2
  have hi := SInv.init h1 h2
  unfold sinit at h2
  split at h2
  · cases h2
  · split at h2
    · cases h2
    · cases h2
      refine ⟨by simp, ?_⟩
      intro _ _ m hm _
      left; left
      simpa [covMain, below, newNode, goCopy_replicate] using hm

/-- When the search has finished, every competing model other than the root was inserted, or the lower bound of a node
above it exceeded the best criterion value. -/
theorem all_seen {S : Search α} {M : Int} (hM : 2 ≤ M) {pre : List (Node α)} (hr : RowSafe S)
    {s : SState α} (h : SelectReaches S M pre s) (hd : s.main = .done)
    (ht : s.torn = false) (ho : s.overflows = 0) (m : List Bool) (hm : Candidate S m)
    (hroot : m ≠ S.root) : Seen S M pre s m := by
  have hi := SInv.reach (by omega : M ≠ 1) h
  have hc := AInv.reach hM hr h
  have hmem : m ∈ descend S.root 0 S.ncols := by
    rw [mem_descend (by simp [hi.rootLen])]
    exact ⟨⟨by rw [hi.rootLen, hm.1], by simp⟩, hroot⟩
  rcases hc.cover ht ho m hmem hm with hcv | hb
  · obtain ⟨d1, d2, d3, -⟩ := hi.doneBusy hd
    rcases hcv with h | ⟨x, hx, h⟩ | ⟨x, hx, h⟩ | ⟨x, hx, h⟩
    · rw [hd] at h; simp [covMain] at h
    · rw [d1, List.mem_singleton] at hx
      subst hx
      simp [covPc] at h
    · rw [d2] at hx; simp at hx
    · rw [d3] at hx; simp at hx
  · exact hb

end GoSelect
