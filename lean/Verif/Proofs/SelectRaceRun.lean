import Verif.Proofs.SelectRace
import Verif.Proofs.SelectRun

/-!
# Runs of `SelectModel` with their accesses

The invariant of `Verif/Proofs/SelectRace.lean` holds in all runs; the accesses of the child workers are ordered by the
token that they pass on; who writes where.
-/

namespace GoSelect

open Spec
open scoped List

variable {α : Type} [LT α] [DecidableLT α] [DecidableEq α] [Zero α] [Neg α]

/-- A step with its accesses is a step of the transition system. -/
theorem rstep_sstep {S : Search α} {r r' : RState α} {a : Action} {c : Choice} (h : rstep S r a c = some r') :
    sstep S r.s a = some r'.s := by
  unfold rstep at h
  split at h
  · cases h
  · rename_i s' hs
    split at h
    · cases h
    · rw [hs]
      repeat' split at h
      all_goals first | cases h; rfl | cases h

omit [LT α] [DecidableLT α] [DecidableEq α] [Zero α] [Neg α] in
theorem rinit_inv {s₀ : SState α} {n : Node α} (hm : s₀.main = .sendWant (some n)) (hq : s₀.queue = []) (hb : s₀.busy = [])
    (hs : s₀.scoring = []) : RInv (rinit s₀) := by
  have etr : (rinit s₀).trace = [Ev.access 0 .data true 71, .access 0 .list true 71, .access 0 (.node 0) true 92] ++
      (scoreIds ++ childIds).map (fun w => Ev.sync 0 w) := rfl
  have parts : ∀ e ∈ (rinit s₀).trace, 0 ∈ e.parts := by
    intro e he
    simp only [etr, List.mem_append, List.mem_cons, List.mem_map, List.not_mem_nil, or_false] at he
    rcases he with (rfl | rfl | rfl) | ⟨w, -, rfl⟩ <;> simp [Ev.parts]
  have known : ∀ i, i < (rinit s₀).trace.length → Known (rinit s₀).trace 0 i := fun i hi =>
    Known.self (List.getElem?_eq_getElem hi) (parts _ (List.getElem_mem _))
  have knownOf : ∀ {i : Nat} {e : Ev}, (rinit s₀).trace[i]? = some e → Known (rinit s₀).trace 0 i := fun h =>
    known _ (List.getElem?_eq_some_iff.1 h).1
  have by0 : ∀ {i : Nat} {g l w line}, (rinit s₀).trace[i]? = some (.access g l w line) → g = 0 := by
    intro i g l w line h
    have := parts _ (List.mem_of_getElem? h)
    simp only [Ev.parts, List.mem_singleton] at this
    exact this.symm
  have inTrace : ∀ {i : Nat} {g l w line}, (rinit s₀).trace[i]? = some (.access g l w line) →
      i < 3 ∧ (l = .data ∨ l = .list ∨ l = .node 0) := by
    intro i g l w line h
    rw [etr] at h
    rcases old_or_new h with h1 | ⟨h1, -⟩
    · have h2 := List.mem_of_getElem? h1
      refine ⟨(List.getElem?_eq_some_iff.1 h1).1, ?_⟩
      simp only [List.mem_cons, List.not_mem_nil, or_false, Ev.access.injEq] at h2
      rcases h2 with h2 | h2 | h2
      · exact Or.inl h2.2.1
      · exact Or.inr (Or.inl h2.2.1)
      · exact Or.inr (Or.inr h2.2.1)
    · obtain ⟨w, -, h2⟩ := List.mem_map.1 h1
      cases h2
  constructor
  · simp [rinit, hq]
  · simp [rinit, hb]
  · simp [rinit, hs]
  · intro i pc b h; simp [rinit, hb] at h
  · intro _ _; rfl
  · intro h; simp only [rinit, hm] at h; cases h
  · simp [rinit]
  · simp [rinit]
  · simp [rinit]
  · simp [rinit]
  · intro i g x w line h
    rcases (inTrace h).2 with h1 | h1 | h1
    · cases h1
    · cases h1
    · cases h1; simp [rinit]
  · intro x hx
    refine ⟨?_, fun i g' line h => knownOf h⟩
    simp only [rinit, List.not_mem_nil, or_false] at hx
    simp [rinit, hx]
  · intro x hx
    simp only [rinit, Option.mem_some_iff] at hx
    exact Or.inl hx.symm
  · simp [rinit]
  · simp [rinit]
  · simp [rinit]
  · simp [rinit]
  · intro i g line h
    refine ⟨by0 h, fun k hk => ?_⟩
    rw [etr] at h ⊢
    have hlt : i < 3 := (inTrace h).1
    have : Known [Ev.access 0 .data true 71, .access 0 .list true 71, .access 0 (.node 0) true 92] 0 i := by
      have h3 : i = 0 ∨ i = 1 ∨ i = 2 := by omega
      rcases h3 with rfl | rfl | rfl <;> exact Known.self rfl (by simp [Ev.parts])
    exact this.meet (e := .sync 0 k) (List.mem_map.2 ⟨k, hk, rfl⟩) (by simp [Ev.parts]) (by simp [Ev.parts])
  · intro i g w line h _; exact by0 h
  · intro i g l w line h hl
    subst hl
    have := List.mem_of_getElem? h
    simp [etr] at this
  · intro i hi; exact Or.inl (known i hi)
  · intro i j g h l w w' line line' hi hj _ hne
    exact absurd ((by0 hi).trans (by0 hj).symm) hne
  · intro h; simp only [rinit, hm] at h; cases h

theorem zip_kept {β : Type} {q q' : List β} {ids kept : List Nat} {n : β} {x : Nat} (hlen : kept.length = q'.length)
    (h : (q'.zip kept).Sublist (q.zip ids ++ [(n, x)])) : ∀ y ∈ kept, y = x ∨ y ∈ ids := by
  intro y hy
  have h1 : (q'.zip kept).map Prod.snd = kept := List.map_snd_zip (by omega)
  rw [← h1] at hy
  obtain ⟨z, hz, rfl⟩ := List.mem_map.1 hy
  rcases List.mem_append.1 (h.subset hz) with h2 | h2
  · exact Or.inr (List.of_mem_zip (a := z.1) (b := z.2) h2).2
  · exact Or.inl (by rw [List.mem_singleton.1 h2])

theorem rinv_step {S : Search α} {M : Int} (hM : M ≠ 1) {pre : List (Node α)} {r r' : RState α} {a : Action} {c : Choice}
    (hi : SInv S M pre r.s) (hr : RInv r) (h : rstep S r a c = some r') : RInv r' := by
  have hss := rstep_sstep h
  have hst := hi.classify hM hss
  unfold rstep at h
  rw [hss] at h
  simp only at h
  split at h
  · cases h
  generalize hs' : r'.s = s' at hst h
  cases hst with
  | want node hm hb =>
    simp only at h
    split at h
    · rename_i hw
      cases h
      exact hr.want hm hb hw.1
    · cases h
  | rbPrune p f hm hb hc =>
    obtain ⟨⟨g, pi, ch⟩, hbusy, hann⟩ := hr.single hb
    simp only [hbusy, List.getElem?_cons_zero] at h
    split at h
    · rename_i g' p' he
      cases he
      split at h
      · rename_i hf
        cases h
        exact hr.make hm hb hbusy hf (pc := .sendPrune p f) ⟨rfl, rfl⟩
      · cases h
    · cases h
  | rbBound p f ch hm hb hc hlt =>
    obtain ⟨⟨g, pi, ch'⟩, hbusy, hann⟩ := hr.single hb
    simp only [hbusy, List.getElem?_cons_zero] at h
    split at h
    · rename_i g' p' he
      cases he
      split at h
      · rename_i hf
        cases h
        exact hr.make hm hb hbusy hf (pc := .readLen p f ch (r.s.hs.len == 0)) ⟨rfl, rfl⟩
      · cases h
    · cases h
  | rbSend p f ch hm hb hc hlt =>
    obtain ⟨⟨g, pi, ch'⟩, hbusy, hann⟩ := hr.single hb
    simp only [hbusy, List.getElem?_cons_zero] at h
    split at h
    · rename_i g' p' he
      cases he
      split at h
      · rename_i hf
        cases h
        exact hr.make hm hb hbusy hf (pc := .sendNode p f ch) ⟨rfl, rfl⟩
      · cases h
    · cases h
  | rlPrune p f ch e hm hb hlen =>
    obtain ⟨⟨g, pi, ch'⟩, hbusy, hann⟩ := hr.single hb
    simp only [hbusy, List.getElem?_cons_zero] at h
    split at h
    · rename_i g' p' x he
      cases he
      cases h
      exact hr.len hm hb hbusy (pc := .sendPrune p f) ⟨rfl, rfl⟩
    · cases h
  | rlSend p f ch e hm hb hlen =>
    obtain ⟨⟨g, pi, ch'⟩, hbusy, hann⟩ := hr.single hb
    simp only [hbusy, List.getElem?_cons_zero] at h
    split at h
    · rename_i g' p' x he
      cases he
      cases h
      exact hr.len hm hb hbusy (pc := .sendNode p f ch) ⟨rfl, rfl⟩
    · cases h
  | send p f ch hm hb hs =>
    obtain ⟨⟨g, pi, ch'⟩, hbusy, hann⟩ := hr.single hb
    simp only [hbusy, List.getElem?_cons_zero] at h
    split at h
    · rename_i g' p' x he
      cases he
      split at h
      · rename_i hw
        cases h
        refine hr.send hm hb hbusy hw.1 hw.2 (pc := afterChild p f) ?_
        cases f <;> exact ⟨rfl, rfl⟩
      · cases h
    · cases h
  | prune p f hm hb =>
    obtain ⟨⟨g, pi, ch'⟩, hbusy, hann⟩ := hr.single hb
    obtain ⟨m, e1, e2⟩ := loopOrExit_spec { r.s with
        busy := [afterChild p f], pruned := p.level :: r.s.pruned, inProgress := r.s.inProgress - 1 }
    simp only [e1] at h hs'
    simp only [hbusy, List.getElem?_cons_zero] at h
    split at h
    · rename_i g' p' he
      cases he
      cases h
      refine hr.prune hb hbusy (pc := afterChild p f) ?_ ?_ rfl rfl rfl
      · cases f <;> exact ⟨rfl, rfl⟩
      · rcases e2 with ⟨rfl, -⟩ | ⟨rfl, -⟩ <;> simp
    · cases h
  | readyNil hm hb hq =>
    obtain ⟨⟨g, pi, ch'⟩, hbusy, hann⟩ := hr.single hb
    simp only [hbusy, List.getElem?_cons_zero] at h
    split at h
    · rename_i g' he
      cases he
      cases h
      exact hr.ready hb hbusy rfl rfl (by simp [hq]) (by simp [hq])
    · cases h
  | readyNode n rest hm hb hq =>
    obtain ⟨⟨g, pi, ch'⟩, hbusy, hann⟩ := hr.single hb
    simp only [hbusy, List.getElem?_cons_zero] at h
    split at h
    · rename_i g' he
      cases he
      cases h
      exact hr.ready hb hbusy rfl rfl (by simp [hq]) (by simp [hq])
    · cases h
  | scoreOld i n hm hin hn =>
    obtain ⟨m, q, k, e1, -, -, e2⟩ := afterScore_spec S { r.s with
        scoring := r.s.scoring.eraseIdx i
        inProgress := r.s.inProgress - 1
        progress := (r.s.hs.bestScore, r.s.numChecked, r.s.pruned) :: r.s.progress } (scoreWorker S n)
    simp only [e1] at h hs'
    split at h
    · rename_i k x n' hk hn'
      split at h
      · rename_i hkept
        cases h
        refine hr.scored hk ?_ ?_ ?_ hkept.1 (zip_kept hkept.1 hkept.2)
        · rcases e2 with ⟨rfl, -⟩ | ⟨rfl, -⟩ <;> simp
        · rfl
        · rfl
      · cases h
    · cases h
  | scoreNew i n hs'' hm hin hn hins =>
    obtain ⟨q0, b0, e0, -, -⟩ := afterInsert_spec { r.s with
        scoring := r.s.scoring.eraseIdx i
        inProgress := r.s.inProgress - 1
        progress := (r.s.hs.bestScore, r.s.numChecked, r.s.pruned) :: r.s.progress } (scoreWorker S n) hs''
    simp only [e0] at h hs'
    obtain ⟨m, q, k, e1, -, -, e2⟩ := afterScore_spec S { r.s with
        scoring := r.s.scoring.eraseIdx i
        inProgress := r.s.inProgress - 1
        progress := (r.s.hs.bestScore, r.s.numChecked, r.s.pruned) :: r.s.progress
        hs := hs''
        log := r.s.log ++ [scoreWorker S n]
        numChecked := r.s.numChecked + 1
        queue := q0
        best := b0 } (scoreWorker S n)
    simp only [e1] at h hs'
    split at h
    · rename_i k x n' hk hn'
      split at h
      · rename_i hkept
        cases h
        refine hr.scored hk ?_ ?_ ?_ hkept.1 (zip_kept hkept.1 hkept.2)
        · rcases e2 with ⟨rfl, -⟩ | ⟨rfl, -⟩ <;> simp
        · rfl
        · rfl
      · cases h
    · cases h

theorem executes_inv {S : Search α} {M : Int} (hM : M ≠ 1) {pre : List (Node α)} {r : RState α} (h : Executes S M pre r) :
    SelectReaches S M pre r.s ∧ RInv r := by
  induction h with
  | @init hs s₀ h1 h2 =>
    refine ⟨⟨hs, s₀, h1, h2, .init⟩, ?_⟩
    have h3 := h2
    unfold sinit at h3
    split at h3
    · cases h3
    · split at h3
      · cases h3
      · cases h3
        exact rinit_inv rfl rfl rfl rfl
  | step a c _ hst ih =>
    obtain ⟨⟨hs, s₀, h1, h2, h3⟩, hr⟩ := ih
    exact ⟨⟨hs, s₀, h1, h2, .step a h3 (rstep_sstep hst)⟩,
      rinv_step hM (SInv.reach hM ⟨hs, s₀, h1, h2, h3⟩) hr hst⟩

/-! ### The token of the child workers -/

/-- What a step adds. -/
inductive RShape {α : Type} (r r' : RState α) : Prop
  | want (g : Nat) (p : Option Nat) (hb : r.busy = []) (hb' : r'.busy = [⟨g, p, none⟩]) (ht : r'.trace = r.trace ++ [.sync 0 g])
  | work (b b' : Held) (es : List Ev) (hb : r.busy = [b]) (hb' : r'.busy = [b']) (hw : b'.worker = b.worker)
      (ht : r'.trace = r.trace ++ es)
      (hes : ∀ g l w line, Ev.access g l w line ∈ es → g = b.worker ∧ (w = true → line = 238))
  | ready (b : Held) (hb : r.busy = [b]) (hb' : r'.busy = []) (ht : r'.trace = r.trace ++ [.sync b.worker 0])
  | score (es : List Ev) (hb' : r'.busy = r.busy) (ht : r'.trace = r.trace ++ es)
      (hes : ∀ g l w line, Ev.access g l w line ∈ es → (g ∈ scoreIds ∧ (w = true → (∃ x, l = .node x) ∧ line = 225)) ∨
        (g = 0 ∧ (w = true → l = .list ∧ line = 125)))

theorem rstep_shape {S : Search α} {M : Int} (hM : M ≠ 1) {pre : List (Node α)} {r r' : RState α} {a : Action} {c : Choice}
    (hi : SInv S M pre r.s) (hr : RInv r) (h : rstep S r a c = some r') : RShape r r' := by
  have hss := rstep_sstep h
  have hst := hi.classify hM hss
  unfold rstep at h
  rw [hss] at h
  simp only at h
  split at h
  · cases h
  have one : ∀ (i : Nat) (b : Held), r.busy[i]? = some b → ∃ pc, r.s.busy[i]? = some pc := by
    intro i b hb
    have := (List.getElem?_eq_some_iff.1 hb).1
    rw [hr.lenB] at this
    exact ⟨_, List.getElem?_eq_getElem this⟩
  have single : ∀ pc, r.s.busy = [pc] → ∀ b, r.busy[0]? = some b → r.busy = [b] := by
    intro pc hpc b hb
    obtain ⟨b', h1, -⟩ := hr.single hpc
    rw [h1] at hb
    cases hb
    exact h1
  have scoreCase : ∀ (i : Nat) (n : Node α) (s'' : SState α) k x (q : List Nat),
      r.scoring[i]? = some (k, x) → r' = { r with
              s := s''
              queue := q
              scoring := r.scoring.eraseIdx i
              received := r.received ++ [x]
              trace := r.trace ++ (scoreAccesses k x ++ .sync k 0 ::
                (mainAccesses (isNewNode n) r.received x ++ retOf s'')) } → RShape r r' := by
    rintro i n s'' k x q hk rfl
    refine .score _ rfl rfl ?_
    intro g l w line he
    have hk' := hr.swork _ (List.mem_of_getElem? hk)
    simp only [List.mem_append, List.mem_cons] at he
    rcases he with he | he | he | he
    · rcases scoreAccesses_parts _ he with h | h | h <;> cases h
      · exact Or.inl ⟨hk', by simp⟩
      · exact Or.inl ⟨hk', by simp⟩
      · exact Or.inl ⟨hk', fun _ => ⟨⟨_, rfl⟩, rfl⟩⟩
    · cases he
    · rcases mainAccesses_parts _ he with h | h | ⟨z, hz, h⟩ | h <;> cases h
      · exact Or.inr ⟨rfl, by simp⟩
      · exact Or.inr ⟨rfl, by simp⟩
      · exact Or.inr ⟨rfl, by simp⟩
      · exact Or.inr ⟨rfl, fun _ => ⟨rfl, rfl⟩⟩
    · exact absurd rfl ((retOf_parts _ he).2 _ _ _ _)
  have makeCase : ∀ (pc : ChildPc α) (s'' : SState α) (g p : Nat) (o : Option Nat) (pc' : Option (ChildPc α)),
      r.s.busy = [pc] → r.busy[0]? = some ⟨g, some p, none⟩ → r' = { r with
            s := s''
            busy := r.busy.set 0 ⟨g, some p, heldChild s''.busy[0]? r.next⟩
            next := r.next + 1
            trace := r.trace ++ (.access g (.node p) false 238 :: .access g (.node r.next) true 238 ::
              .access g .data false 243 :: peeks pc' g o) } → RShape r r' := by
    rintro pc s'' g p o pc' hb hb0 rfl
    have hbusy := single _ hb _ hb0
    refine .work ⟨g, some p, none⟩ ⟨g, some p, heldChild s''.busy[0]? r.next⟩ _ hbusy (by rw [hbusy]; rfl) rfl rfl ?_
    intro g' l w line he
    simp only [List.mem_cons] at he
    rcases he with he | he | he | he
    · cases he; exact ⟨rfl, by simp⟩
    · cases he; exact ⟨rfl, by simp⟩
    · cases he; exact ⟨rfl, by simp⟩
    · unfold peeks at he
      split at he
      · cases he
      · simp only [List.mem_cons, List.mem_map] at he
        rcases he with he | ⟨y, -, he⟩ <;> cases he <;> exact ⟨rfl, by simp⟩
  have workCase : ∀ (pc : ChildPc α) (b b' : Held) (es : List Ev), r.s.busy = [pc] → r.busy[0]? = some b →
      r'.busy = r.busy.set 0 b' → b'.worker = b.worker → r'.trace = r.trace ++ es →
      (∀ g l w line, Ev.access g l w line ∈ es → g = b.worker ∧ w = false) → RShape r r' := by
    intro pc b b' es hb hb0 hb' hw ht hes
    have hbusy := single _ hb _ hb0
    refine .work b b' es hbusy (by rw [hb', hbusy]; rfl) hw ht fun g l w line he => ?_
    obtain ⟨h1, h2⟩ := hes g l w line he
    exact ⟨h1, by simp [h2]⟩
  have readyCase : ∀ (b : Held), r.s.busy = [.ready] → r.busy[0]? = some b → r'.busy = r.busy.eraseIdx 0 →
      r'.trace = r.trace ++ [.sync b.worker 0] → RShape r r' := by
    intro b hb hb0 hb' ht
    have hbusy := single _ hb _ hb0
    exact .ready b hbusy (by rw [hb', hbusy]; rfl) ht
  generalize hs' : r'.s = s' at hst h
  cases hst with
  | want node hm hb =>
    simp only at h
    have hb0 : r.busy = [] := List.length_eq_zero_iff.1 (by rw [hr.lenB, hb]; rfl)
    split at h
    · cases h
      exact .want c.worker r.want hb0 (by simp [hb0]) rfl
    · cases h
  | rbPrune p f hm hb hc =>
    simp only at h
    split at h
    · rename_i g p hb0
      split at h
      · cases h; exact makeCase _ _ _ _ _ _ hb hb0 rfl
      · cases h
    · cases h
  | rbBound p f ch hm hb hc hlt =>
    simp only at h
    split at h
    · rename_i g p hb0
      split at h
      · cases h; exact makeCase _ _ _ _ _ _ hb hb0 rfl
      · cases h
    · cases h
  | rbSend p f ch hm hb hc hlt =>
    simp only at h
    split at h
    · rename_i g p hb0
      split at h
      · cases h; exact makeCase _ _ _ _ _ _ hb hb0 rfl
      · cases h
    · cases h
  | rlPrune p f ch e hm hb hlen =>
    simp only at h
    split at h
    · rename_i g p x hb0
      cases h
      refine workCase _ _ _ _ hb hb0 rfl rfl rfl fun g l w line he => ?_
      cases List.mem_singleton.1 he
      exact ⟨rfl, rfl⟩
    · cases h
  | rlSend p f ch e hm hb hlen =>
    simp only at h
    split at h
    · rename_i g p x hb0
      cases h
      refine workCase _ _ _ _ hb hb0 rfl rfl rfl fun g l w line he => ?_
      cases List.mem_singleton.1 he
      exact ⟨rfl, rfl⟩
    · cases h
  | send p f ch hm hb hs =>
    simp only at h
    split at h
    · rename_i g p x hb0
      split at h
      · cases h
        exact workCase _ _ _ _ hb hb0 rfl rfl rfl (by simp)
      · cases h
    · cases h
  | prune p f hm hb =>
    simp only at h
    split at h
    · rename_i g p hb0
      cases h
      refine workCase _ _ _ _ hb hb0 rfl rfl rfl ?_
      intro g l w line he
      simp only [List.mem_cons] at he
      rcases he with he | he | he
      · cases he; exact ⟨rfl, rfl⟩
      · cases he
      · exact absurd rfl ((retOf_parts _ he).2 _ _ _ _)
    · cases h
  | readyNil hm hb hq =>
    simp only at h
    split at h
    · rename_i g hb0
      cases h
      exact readyCase _ hb hb0 rfl rfl
    · cases h
  | readyNode n rest hm hb hq =>
    simp only at h
    split at h
    · rename_i g hb0
      cases h
      exact readyCase _ hb hb0 rfl rfl
    · cases h
  | scoreOld i n hm hin hn =>
    simp only at h
    split at h
    · rename_i k x n' hk hn'
      split at h
      · cases h
        exact scoreCase i n' _ k x _ hk rfl
      · cases h
    · cases h
  | scoreNew i n hs'' hm hin hn hins =>
    simp only at h
    split at h
    · rename_i k x n' hk hn'
      split at h
      · cases h
        exact scoreCase i n' _ k x _ hk rfl
      · cases h
    · cases h

/-- The events before the main loop. -/
def initTrace : List Ev := .access 0 .data true 71 :: .access 0 .list true 71 :: .access 0 (.node 0) true 92 ::
  (scoreIds ++ childIds).map (fun w => .sync 0 w)

/-- The accesses of child workers are known to the worker that holds the token, or to the main loop. -/
structure TInv {α : Type} (r : RState α) : Prop where
  start : initTrace <+: r.trace
  known : ∀ (i : Nat) g l w line, r.trace[i]? = some (.access g l w line) → g ∈ childIds →
    (r.busy = [] → Known r.trace 0 i) ∧ ∀ b ∈ r.busy, Known r.trace b.worker i
  ord : ∀ (i j : Nat) g k l l' w w' line line', r.trace[i]? = some (.access g l w line) →
    r.trace[j]? = some (.access k l' w' line') → g ∈ childIds → k ∈ childIds → g ≠ k → i < j → HappensBefore r.trace i j
  writes : ∀ (i : Nat) g l line, r.trace[i]? = some (.access g l true line) → i < 3 ∨ (g ∈ childIds ∧ line = 238) ∨
    (g ∈ scoreIds ∧ (∃ x, l = .node x) ∧ line = 225) ∨ (g = 0 ∧ l = .list ∧ line = 125)

theorem score_not_child {g : Nat} (h : g ∈ scoreIds) : g ∉ childIds := by
  revert g
  decide

omit [LT α] [DecidableLT α] [DecidableEq α] [Zero α] [Neg α] in
theorem TInv.step {r r' : RState α} (hr : RInv r) (ht : TInv r) (hs : RShape r r') : TInv r' := by
  have olds : ∀ {es : List Ev}, (∀ g l w line, Ev.access g l w line ∈ es → g ∉ childIds) → r'.trace = r.trace ++ es →
      (∀ (i j : Nat) g k l l' w w' line line', r'.trace[i]? = some (.access g l w line) →
        r'.trace[j]? = some (.access k l' w' line') → g ∈ childIds → k ∈ childIds → g ≠ k → i < j →
        HappensBefore r'.trace i j) := by
    intro es hes e i j g k l l' w w' line line' hi hj hg hk hne hij
    rw [e] at hi hj ⊢
    rcases old_or_new hi with hi | ⟨hi, -⟩
    · rcases old_or_new hj with hj | ⟨hj, -⟩
      · exact hb_append (ht.ord i j g k l l' w w' line line' hi hj hg hk hne hij)
      · exact absurd hk (hes _ _ _ _ hj)
    · exact absurd hg (hes _ _ _ _ hi)
  cases hs with
  | want g p hb hb' e =>
    refine ⟨?_, ?_, olds (es := [.sync 0 g]) (by simp) e, ?_⟩
    · rw [e]; exact ht.start.trans (List.prefix_append _ _)
    · intro i g' l w line hi hg'
      rw [e] at hi ⊢
      rcases old_or_new hi with hi | ⟨hi, -⟩
      · refine ⟨fun h => (by rw [hb'] at h; cases h), fun b hb1 => ?_⟩
        rw [hb', List.mem_singleton] at hb1
        subst hb1
        exact ((ht.known i g' l w line hi hg').1 hb).meet (e := .sync 0 g) (by simp) (by simp [Ev.parts]) (by simp [Ev.parts])
      · simp at hi
    · intro i g' l line hi
      rw [e] at hi
      rcases old_or_new hi with hi | ⟨hi, -⟩
      · exact ht.writes i g' l line hi
      · simp at hi
  | work b b' es hb hb' hw e hes =>
    have hgw : b.worker ∈ childIds := hr.worker b (by simp [hb])
    refine ⟨?_, ?_, ?_, ?_⟩
    · rw [e]; exact ht.start.trans (List.prefix_append _ _)
    · intro i g' l w line hi hg'
      rw [e] at hi ⊢
      refine ⟨fun h => (by rw [hb'] at h; cases h), fun b1 hb1 => ?_⟩
      rw [hb', List.mem_singleton] at hb1
      subst hb1
      rw [hw]
      rcases old_or_new hi with hi1 | ⟨hi1, -⟩
      · exact ((ht.known i g' l w line hi1 hg').2 b (by simp [hb])).append
      · exact Known.self hi (by simp [Ev.parts, (hes _ _ _ _ hi1).1])
    · intro i j g k l l' w w' line line' hi hj hg hk hne hij
      rw [e] at hi hj ⊢
      rcases old_or_new hi with hi1 | ⟨hi1, hi2⟩
      · rcases old_or_new hj with hj1 | ⟨hj1, hj2⟩
        · exact hb_append (ht.ord i j g k l l' w w' line line' hi1 hj1 hg hk hne hij)
        · have hk' := (hes _ _ _ _ hj1).1
          subst hk'
          exact ((ht.known i g l w line hi1 hg).2 b (by simp [hb])).hb hj2 hj (by simp [Ev.parts])
      · rcases old_or_new hj with hj1 | ⟨hj1, -⟩
        · have := (List.getElem?_eq_some_iff.1 hj1).1
          omega
        · exact absurd ((hes _ _ _ _ hi1).1.trans (hes _ _ _ _ hj1).1.symm) hne
    · intro i g' l line hi
      rw [e] at hi
      rcases old_or_new hi with hi | ⟨hi, -⟩
      · exact ht.writes i g' l line hi
      · obtain ⟨h1, h2⟩ := hes _ _ _ _ hi
        exact Or.inr (Or.inl ⟨h1 ▸ hgw, h2 rfl⟩)
  | ready b hb hb' e =>
    refine ⟨?_, ?_, olds (es := [.sync b.worker 0]) (by simp) e, ?_⟩
    · rw [e]; exact ht.start.trans (List.prefix_append _ _)
    · intro i g' l w line hi hg'
      rw [e] at hi ⊢
      rcases old_or_new hi with hi | ⟨hi, -⟩
      · refine ⟨fun _ => ?_, fun b hb1 => (by rw [hb'] at hb1; cases hb1)⟩
        exact ((ht.known i g' l w line hi hg').2 b (by simp [hb])).meet (e := .sync b.worker 0) (by simp) (by simp [Ev.parts])
          (by simp [Ev.parts])
      · simp at hi
    · intro i g' l line hi
      rw [e] at hi
      rcases old_or_new hi with hi | ⟨hi, -⟩
      · exact ht.writes i g' l line hi
      · simp at hi
  | score es hb' e hes =>
    have hnot : ∀ g l w line, Ev.access g l w line ∈ es → g ∉ childIds := by
      intro g l w line he hg
      rcases hes g l w line he with ⟨h1, -⟩ | ⟨h1, -⟩
      · exact score_not_child h1 hg
      · exact child_ne_main hg h1
    refine ⟨?_, ?_, olds hnot e, ?_⟩
    · rw [e]; exact ht.start.trans (List.prefix_append _ _)
    · intro i g' l w line hi hg'
      rw [e] at hi ⊢
      rw [hb']
      rcases old_or_new hi with hi | ⟨hi, -⟩
      · obtain ⟨h1, h2⟩ := ht.known i g' l w line hi hg'
        exact ⟨fun h => (h1 h).append, fun b hb1 => (h2 b hb1).append⟩
      · exact absurd hg' (hnot _ _ _ _ hi)
    · intro i g' l line hi
      rw [e] at hi
      rcases old_or_new hi with hi | ⟨hi, -⟩
      · exact ht.writes i g' l line hi
      · rcases hes _ _ _ _ hi with ⟨h1, h2⟩ | ⟨h1, h2⟩
        · exact Or.inr (Or.inr (Or.inl ⟨h1, h2 rfl⟩))
        · exact Or.inr (Or.inr (Or.inr ⟨h1, h2 rfl⟩))

omit [LT α] [DecidableLT α] [DecidableEq α] [Zero α] [Neg α] in
theorem rinit_token (s₀ : SState α) : TInv (rinit s₀) := by
  have hacc : ∀ (i : Nat) g l w line, (rinit s₀).trace[i]? = some (.access g l w line) → g = 0 ∧ i < 3 := by
    intro i g l w line h
    have e : (rinit s₀).trace = [Ev.access 0 .data true 71, .access 0 .list true 71, .access 0 (.node 0) true 92] ++
      (scoreIds ++ childIds).map (fun w => Ev.sync 0 w) := rfl
    rw [e] at h
    rcases old_or_new h with h1 | ⟨h1, -⟩
    · refine ⟨?_, (List.getElem?_eq_some_iff.1 h1).1⟩
      have h2 := List.mem_of_getElem? h1
      simp only [List.mem_cons, List.not_mem_nil, or_false, Ev.access.injEq] at h2
      rcases h2 with h2 | h2 | h2 <;> exact h2.1
    · obtain ⟨w, -, h2⟩ := List.mem_map.1 h1
      cases h2
  refine ⟨List.prefix_refl _, ?_, ?_, ?_⟩
  · intro i g l w line h hg
    exact absurd (hacc i g l w line h).1 (child_ne_main hg)
  · intro i j g k l l' w w' line line' h _ hg
    exact absurd (hacc i g l w line h).1 (child_ne_main hg)
  · intro i g l line h
    exact Or.inl (hacc i g l true line h).2

theorem executes_token {S : Search α} {M : Int} (hM : M ≠ 1) {pre : List (Node α)} {r : RState α} (h : Executes S M pre r) :
    TInv r := by
  induction h with
  | init h1 h2 => exact rinit_token _
  | step a c h0 hst ih =>
    obtain ⟨h1, hr⟩ := executes_inv hM h0
    exact ih.step hr (rstep_shape hM (SInv.reach hM h1) hr hst)

omit [LT α] [DecidableLT α] [DecidableEq α] [Zero α] [Neg α] in
/-- What the caller does before happens before the accesses of child workers. -/
theorem TInv.start_hb {r : RState α} (ht : TInv r) {i j g : Nat} {l : Loc} {w : Bool} {line : Nat} (hi : i < 3)
    (hj : r.trace[j]? = some (.access g l w line)) (hg : g ∈ childIds) : HappensBefore r.trace i j := by
  obtain ⟨rest, e⟩ := ht.start
  have h1 : ∃ k, 3 ≤ k ∧ k < 19 ∧ initTrace[k]? = some (.sync 0 g) := by
    revert hg
    revert g
    intro g _ hg
    simp only [childIds, List.mem_cons, List.not_mem_nil, or_false] at hg
    rcases hg with rfl | rfl | rfl | rfl | rfl | rfl | rfl | rfl
    · exact ⟨11, by decide, by decide, rfl⟩
    · exact ⟨12, by decide, by decide, rfl⟩
    · exact ⟨13, by decide, by decide, rfl⟩
    · exact ⟨14, by decide, by decide, rfl⟩
    · exact ⟨15, by decide, by decide, rfl⟩
    · exact ⟨16, by decide, by decide, rfl⟩
    · exact ⟨17, by decide, by decide, rfl⟩
    · exact ⟨18, by decide, by decide, rfl⟩
  obtain ⟨k, hk1, hk2, hk3⟩ := h1
  have h2 : ∃ e, initTrace[i]? = some e ∧ 0 ∈ e.parts := by
    have h3 : i = 0 ∨ i = 1 ∨ i = 2 := by omega
    rcases h3 with rfl | rfl | rfl
    · exact ⟨_, rfl, by simp [Ev.parts]⟩
    · exact ⟨_, rfl, by simp [Ev.parts]⟩
    · exact ⟨_, rfl, by simp [Ev.parts]⟩
  obtain ⟨f, hf1, hf2⟩ := h2
  have hj' : 19 ≤ j := by
    by_contra hlt
    rw [← e, List.getElem?_append_left (by simp [initTrace, scoreIds, childIds]; omega)] at hj
    have h3 : j < 3 ∨ 3 ≤ j := by omega
    have h4 : initTrace = [Ev.access 0 .data true 71, .access 0 .list true 71, .access 0 (.node 0) true 92] ++
      (scoreIds ++ childIds).map (fun w => Ev.sync 0 w) := rfl
    rw [h4] at hj
    rcases old_or_new hj with h5 | ⟨h5, -⟩
    · have h6 := List.mem_of_getElem? h5
      simp only [List.mem_cons, List.not_mem_nil, or_false, Ev.access.injEq] at h6
      rcases h6 with h6 | h6 | h6 <;> exact child_ne_main hg h6.1
    · obtain ⟨w, -, h6⟩ := List.mem_map.1 h5
      cases h6
  have a1 : r.trace[i]? = some f := by rw [← e]; exact getElem?_append_some hf1
  have a2 : r.trace[k]? = some (.sync 0 g) := by rw [← e]; exact getElem?_append_some hk3
  refine Relation.TransGen.tail (.single ⟨by omega, f, _, 0, a1, a2, hf2, by simp [Ev.parts]⟩)
    ⟨by omega, _, _, g, a2, hj, by simp [Ev.parts], by simp [Ev.parts]⟩

end GoSelect
