import Verif.Model.SearchProgress
import Verif.Proofs.ListUtil

/-! C21: `SearchProgress.Get` returns a consistent snapshot. -/

namespace GoSelect

variable {α : Type}

namespace Spec

/-- The triple of the last completed `Set`, or the initial one. -/
def lastSet (v : Triple α) : List (SpEvent α) → Triple α
  | [] => v
  | .set w :: l => lastSet w l
  | .get _ :: l => lastSet v l

end Spec

open Spec

theorem lastSet_append (v : Triple α) (l : List (SpEvent α)) (e : SpEvent α) :
    lastSet v (l ++ [e]) = match e with | .set w => w | .get _ => lastSet v l := by
  induction l generalizing v with
  | nil => cases e <;> rfl
  | cons a l ih => cases a <;> simp only [List.cons_append, lastSet, ih]

/-- Holds the write lock. -/
def SpPc.writing : SpPc α → Bool
  | .w1 _ => true | .w2 _ => true | .w3 _ => true | .unlock _ => true
  | _ => false

/-- Holds a read lock. -/
def SpPc.reading : SpPc α → Bool
  | .r1 => true | .r2 _ => true | .r3 _ _ => true | .runlock _ => true
  | _ => false

/-- What a goroutine knows, `t` being the last triple set and `m` the fields. -/
def SpPc.ok (t m : Triple α) : SpPc α → Prop
  | .idle => True
  | .lock _ => True
  | .rlock => True
  | .w1 _ => m = t
  | .w2 v => m = ⟨v.bestScore, t.numExplored, t.log2Pruned⟩
  | .w3 v => m = ⟨v.bestScore, v.numExplored, t.log2Pruned⟩
  | .unlock v => m = v
  | .r1 => True
  | .r2 a => a = t.bestScore
  | .r3 a b => a = t.bestScore ∧ b = t.numExplored
  | .runlock v => v = t

/-- Invariant. -/
structure SpInv (n : Nat) (v : Triple α) (s : SpState α) : Prop where
  len : s.pcs.length = n
  writers : s.pcs.countP SpPc.writing = if s.writer then 1 else 0
  readers : s.pcs.countP SpPc.reading = s.readers
  excl : s.writer = true → s.readers = 0
  mem : s.writer = false → s.mem = lastSet v s.log
  ok : ∀ pc ∈ s.pcs, pc.ok (lastSet v s.log) s.mem
  log : ∀ l1 w l2, s.log = l1 ++ .get w :: l2 → w = lastSet v l1

/-- Without the write lock a goroutine's knowledge does not depend on the fields. -/
theorem SpPc.ok_of_not_writing {t m m' : Triple α} {pc : SpPc α} (h : pc.writing = false)
    (hok : pc.ok t m) : pc.ok t m' := by
  cases pc <;> simp_all [SpPc.ok, SpPc.writing]

/-- Without any lock a goroutine knows nothing. -/
theorem SpPc.ok_of_free {t m : Triple α} {pc : SpPc α} (h : pc.writing = false)
    (h' : pc.reading = false) : pc.ok t m := by
  cases pc <;> simp_all [SpPc.ok, SpPc.writing, SpPc.reading]

theorem SpInv.step {n : Nat} {v : Triple α} {s s' : SpState α} {i : Nat} (hi : SpInv n v s)
    (h : SpStep s i s') : SpInv n v s' := by
  have hl := hi.len
  have hwr := hi.writers
  have hrd := hi.readers
  -- a step that does not touch log and fields
  have keep : ∀ {pc pc' : SpPc α}, s.pcs[i]? = some pc → pc'.ok (lastSet v s.log) s.mem →
      ∀ x ∈ s.pcs.set i pc', x.ok (lastSet v s.log) s.mem := by
    intro pc pc' _ hok x hx
    rcases mem_set_cases hx with rfl | ⟨j, -, hj⟩
    · exact hok
    · exact hi.ok x (List.mem_of_getElem? hj)
  -- a step of the writer
  have wkeep : ∀ {pc pc' : SpPc α} {m : Triple α}, s.pcs[i]? = some pc → pc.writing = true →
      pc'.ok (lastSet v s.log) m → ∀ x ∈ s.pcs.set i pc', x.ok (lastSet v s.log) m := by
    intro pc pc' m hpc hw hok x hx
    rcases mem_set_cases hx with rfl | ⟨j, hji, hj⟩
    · exact hok
    · refine SpPc.ok_of_not_writing ?_ (hi.ok x (List.mem_of_getElem? hj))
      by_contra hx'
      have := countP_two hpc hj hji hw (by simpa using hx')
      rw [hwr] at this
      split at this <;> omega
  have wtrue : ∀ {pc : SpPc α}, s.pcs[i]? = some pc → pc.writing = true → s.writer = true := by
    intro pc hpc hw
    have := countP_pos_of hpc hw
    rw [hwr] at this
    by_contra hc
    simp [hc] at this
  have rfalse : ∀ {pc : SpPc α}, s.pcs[i]? = some pc → pc.reading = true →
      s.writer = false ∧ 0 < s.readers := by
    intro pc hpc hr
    have := countP_pos_of hpc hr
    rw [hrd] at this
    refine ⟨?_, this⟩
    by_contra hc
    have := hi.excl (by simpa using hc)
    omega
  cases h with
  | callSet w h =>
    have c1 := countP_set SpPc.writing (b := .lock w) h
    have c2 := countP_set SpPc.reading (b := .lock w) h
    simp only [SpPc.writing, SpPc.reading, if_false, Nat.add_zero, Bool.false_eq_true] at c1 c2
    exact ⟨by simpa using hl, c1.trans hwr, c2.trans hrd, hi.excl, hi.mem, keep h trivial, hi.log⟩
  | callGet h =>
    have c1 := countP_set SpPc.writing (b := .rlock) h
    have c2 := countP_set SpPc.reading (b := .rlock) h
    simp only [SpPc.writing, SpPc.reading, if_false, Nat.add_zero, Bool.false_eq_true] at c1 c2
    exact ⟨by simpa using hl, c1.trans hwr, c2.trans hrd, hi.excl, hi.mem, keep h trivial, hi.log⟩
  | lock w h hw hr =>
    have c1 := countP_set SpPc.writing (b := .w1 w) h
    have c2 := countP_set SpPc.reading (b := .w1 w) h
    simp only [SpPc.writing, SpPc.reading, if_false, if_true, Nat.add_zero, Bool.false_eq_true]
      at c1 c2
    rw [hw] at hwr
    exact ⟨by simpa using hl, c1.trans (by rw [hwr]; simp), c2.trans hrd, fun _ => hr, by simp,
      keep h (hi.mem hw), hi.log⟩
  | w1 w h =>
    have c1 := countP_set SpPc.writing (b := .w2 w) h
    have c2 := countP_set SpPc.reading (b := .w2 w) h
    simp only [SpPc.writing, SpPc.reading, if_false, if_true, Nat.add_zero, Bool.false_eq_true,
      Nat.add_right_cancel_iff] at c1 c2
    have hwt := wtrue h rfl
    have hok : s.mem = _ := hi.ok _ (List.mem_of_getElem? h)
    refine ⟨by simpa using hl, c1.trans hwr, c2.trans hrd, hi.excl, by simp [hwt],
      wkeep h rfl ?_, hi.log⟩
    simp [SpPc.ok, hok]
  | w2 w h =>
    have c1 := countP_set SpPc.writing (b := .w3 w) h
    have c2 := countP_set SpPc.reading (b := .w3 w) h
    simp only [SpPc.writing, SpPc.reading, if_false, if_true, Nat.add_zero, Bool.false_eq_true,
      Nat.add_right_cancel_iff] at c1 c2
    have hwt := wtrue h rfl
    have hok : s.mem = _ := hi.ok _ (List.mem_of_getElem? h)
    refine ⟨by simpa using hl, c1.trans hwr, c2.trans hrd, hi.excl, by simp [hwt],
      wkeep h rfl ?_, hi.log⟩
    simp [SpPc.ok, hok]
  | w3 w h =>
    have c1 := countP_set SpPc.writing (b := .unlock w) h
    have c2 := countP_set SpPc.reading (b := .unlock w) h
    simp only [SpPc.writing, SpPc.reading, if_false, if_true, Nat.add_zero, Bool.false_eq_true,
      Nat.add_right_cancel_iff] at c1 c2
    have hwt := wtrue h rfl
    have hok : s.mem = _ := hi.ok _ (List.mem_of_getElem? h)
    refine ⟨by simpa using hl, c1.trans hwr, c2.trans hrd, hi.excl, by simp [hwt],
      wkeep h rfl ?_, hi.log⟩
    simp [SpPc.ok, hok]
  | unlock w h =>
    have c1 := countP_set SpPc.writing (b := .idle) h
    have c2 := countP_set SpPc.reading (b := .idle) h
    simp only [SpPc.writing, SpPc.reading, if_false, if_true, Nat.add_zero, Bool.false_eq_true]
      at c1 c2
    have hwt := wtrue h rfl
    have hok : s.mem = w := hi.ok _ (List.mem_of_getElem? h)
    rw [hwt] at hwr
    have hr0 : s.readers = 0 := hi.excl hwt
    have c1' : (s.pcs.set i .idle).countP SpPc.writing = 0 := by simp at hwr; omega
    have c2' : (s.pcs.set i .idle).countP SpPc.reading = 0 := by omega
    refine ⟨by simpa using hl, by simpa using c1', c2.trans hrd, by simp, ?_, ?_, ?_⟩
    · intro _
      simp only [lastSet_append]
      exact hok
    · intro x hx
      exact SpPc.ok_of_free (not_of_countP_zero c1' hx) (not_of_countP_zero c2' hx)
    · intro l1 x l2 he
      rcases List.eq_nil_or_concat l2 with rfl | ⟨l2', y, rfl⟩
      · have := (List.append_inj' he rfl).2
        simp at this
      · rw [List.concat_eq_append, ← List.cons_append, ← List.append_assoc] at he
        exact hi.log l1 x l2' (List.append_inj' he rfl).1
  | rlock h hw =>
    have c1 := countP_set SpPc.writing (b := .r1) h
    have c2 := countP_set SpPc.reading (b := .r1) h
    simp only [SpPc.writing, SpPc.reading, if_false, if_true, Nat.add_zero, Bool.false_eq_true]
      at c1 c2
    refine ⟨by simpa using hl, c1.trans hwr, by rw [← hrd]; exact c2, ?_, hi.mem, keep h trivial,
      hi.log⟩
    intro hc
    rw [hw] at hc
    cases hc
  | r1 h =>
    have c1 := countP_set SpPc.writing (b := .r2 s.mem.bestScore) h
    have c2 := countP_set SpPc.reading (b := .r2 s.mem.bestScore) h
    simp only [SpPc.writing, SpPc.reading, if_false, if_true, Nat.add_zero, Bool.false_eq_true,
      Nat.add_right_cancel_iff] at c1 c2
    have hm := hi.mem (rfalse h rfl).1
    refine ⟨by simpa using hl, c1.trans hwr, c2.trans hrd, hi.excl, hi.mem, keep h ?_, hi.log⟩
    simp [SpPc.ok, ← hm]
  | r2 a h =>
    have c1 := countP_set SpPc.writing (b := .r3 a s.mem.numExplored) h
    have c2 := countP_set SpPc.reading (b := .r3 a s.mem.numExplored) h
    simp only [SpPc.writing, SpPc.reading, if_false, if_true, Nat.add_zero, Bool.false_eq_true,
      Nat.add_right_cancel_iff] at c1 c2
    have hm := hi.mem (rfalse h rfl).1
    have hok : a = _ := hi.ok _ (List.mem_of_getElem? h)
    refine ⟨by simpa using hl, c1.trans hwr, c2.trans hrd, hi.excl, hi.mem, keep h ⟨hok, ?_⟩, hi.log⟩
    rw [hm]
  | r3 a b h =>
    have c1 := countP_set SpPc.writing (b := .runlock ⟨a, b, s.mem.log2Pruned⟩) h
    have c2 := countP_set SpPc.reading (b := .runlock ⟨a, b, s.mem.log2Pruned⟩) h
    simp only [SpPc.writing, SpPc.reading, if_false, if_true, Nat.add_zero, Bool.false_eq_true,
      Nat.add_right_cancel_iff] at c1 c2
    have hm := hi.mem (rfalse h rfl).1
    have hok : a = _ ∧ b = _ := hi.ok _ (List.mem_of_getElem? h)
    refine ⟨by simpa using hl, c1.trans hwr, c2.trans hrd, hi.excl, hi.mem, keep h ?_, hi.log⟩
    show _ = _
    rw [hm, hok.1, hok.2]
  | runlock w h =>
    have c1 := countP_set SpPc.writing (b := .idle) h
    have c2 := countP_set SpPc.reading (b := .idle) h
    simp only [SpPc.writing, SpPc.reading, if_false, if_true, Nat.add_zero, Bool.false_eq_true]
      at c1 c2
    have hw := (rfalse h rfl).1
    have hok : w = _ := hi.ok _ (List.mem_of_getElem? h)
    refine ⟨by simpa using hl, c1.trans hwr, by simp only; omega, ?_, ?_, ?_, ?_⟩
    · intro hc
      simp only at hc
      rw [hw] at hc
      cases hc
    · intro _
      simp only [lastSet_append]
      exact hi.mem hw
    · simp only [lastSet_append]
      exact keep h trivial
    · intro l1 x l2 he
      rcases List.eq_nil_or_concat l2 with rfl | ⟨l2', y, rfl⟩
      · obtain ⟨h1, h2⟩ := List.append_inj' he rfl
        simp only [List.cons.injEq, SpEvent.get.injEq, and_true] at h2
        rw [← h2, ← h1, hok]
      · rw [List.concat_eq_append, ← List.cons_append, ← List.append_assoc] at he
        exact hi.log l1 x l2' (List.append_inj' he rfl).1

theorem SpInv.reach {n : Nat} {v : Triple α} {s : SpState α} (h : SpReach n v s) : SpInv n v s := by
  induction h with
  | init =>
    refine ⟨by simp [spInit], ?_, ?_, by simp [spInit], fun _ => rfl, ?_, by simp [spInit]⟩
    · simp [spInit, List.countP_replicate, SpPc.writing]
    · simp [spInit, List.countP_replicate, SpPc.reading]
    · intro pc hpc
      rw [List.eq_of_mem_replicate hpc]
      trivial
  | step i _ h ih => exact ih.step h

/-- Whatever the interleaving: a `Get` returns the triple of the last `Set` that left its critical
section before, or the initial triple if there was none. -/
theorem C21_snapshot (n : Nat) (v : Triple α) (s : SpState α) (h : SpReach n v s)
    (before after : List (SpEvent α)) (w : Triple α) (hlog : s.log = before ++ .get w :: after) :
    w = lastSet v before := (SpInv.reach h).log before w after hlog

/-- In particular it is the initial triple or one single `Set` argument. -/
theorem C21_no_mix (n : Nat) (v : Triple α) (s : SpState α) (h : SpReach n v s)
    (before after : List (SpEvent α)) (w : Triple α) (hlog : s.log = before ++ .get w :: after) :
    w = v ∨ SpEvent.set w ∈ before := by
  rw [C21_snapshot n v s h before after w hlog]
  clear hlog
  induction before generalizing v with
  | nil => exact Or.inl rfl
  | cons e l ih =>
    have gen : ∀ u : Triple α, lastSet u l = u ∨ SpEvent.set (lastSet u l) ∈ l := by
      clear ih
      induction l with
      | nil => exact fun u => Or.inl rfl
      | cons e l ih =>
        intro u
        cases e with
        | set x => rcases ih x with h | h
                   · right; simp only [lastSet, h]; exact List.mem_cons_self
                   · right; exact List.mem_cons_of_mem _ h
        | get x => rcases ih u with h | h
                   · left; exact h
                   · right; exact List.mem_cons_of_mem _ h
    cases e with
    | set x => rcases gen x with h | h
               · right; simp only [lastSet, h]; exact List.mem_cons_self
               · right; exact List.mem_cons_of_mem _ h
    | get x => rcases gen v with h | h
               · left; exact h
               · right; exact List.mem_cons_of_mem _ h

/-- As long as a call is pending, some goroutine can take a step that is not a new call. -/
theorem C21_no_deadlock (n : Nat) (v : Triple α) (s : SpState α) (h : SpReach n v s)
    (hp : ∃ pc ∈ s.pcs, pc ≠ .idle) :
    ∃ i s', s.pcs[i]? ≠ some .idle ∧ SpStep s i s' := by
  have hi := SpInv.reach h
  by_cases hw : s.writer = true
  · have : 0 < s.pcs.countP SpPc.writing := by rw [hi.writers, hw]; simp
    obtain ⟨pc, hpc, hpw⟩ := List.countP_pos_iff.1 this
    obtain ⟨i, hi'⟩ := List.mem_iff_getElem?.1 hpc
    refine ⟨i, ?_⟩
    rw [hi']
    cases pc <;> simp only [SpPc.writing, Bool.false_eq_true] at hpw
    · exact ⟨_, by simp, .w1 _ hi'⟩
    · exact ⟨_, by simp, .w2 _ hi'⟩
    · exact ⟨_, by simp, .w3 _ hi'⟩
    · exact ⟨_, by simp, .unlock _ hi'⟩
  · have hw' : s.writer = false := by simpa using hw
    by_cases hr : s.readers = 0
    · obtain ⟨pc, hpc, hne⟩ := hp
      obtain ⟨i, hi'⟩ := List.mem_iff_getElem?.1 hpc
      have hnw : pc.writing = false := not_of_countP_zero (by rw [hi.writers, hw']; rfl) hpc
      have hnr : pc.reading = false := not_of_countP_zero (hi.readers.trans hr) hpc
      refine ⟨i, ?_⟩
      rw [hi']
      cases pc <;> simp only [SpPc.writing, SpPc.reading, Bool.true_eq_false] at hnw hnr
      · exact absurd rfl hne
      · exact ⟨_, by simp, .lock _ hi' hw' hr⟩
      · exact ⟨_, by simp, .rlock hi' hw'⟩
    · have : 0 < s.pcs.countP SpPc.reading := by rw [hi.readers]; omega
      obtain ⟨pc, hpc, hpw⟩ := List.countP_pos_iff.1 this
      obtain ⟨i, hi'⟩ := List.mem_iff_getElem?.1 hpc
      refine ⟨i, ?_⟩
      rw [hi']
      cases pc <;> simp only [SpPc.reading, Bool.false_eq_true] at hpw
      · exact ⟨_, by simp, .r1 hi'⟩
      · exact ⟨_, by simp, .r2 _ hi'⟩
      · exact ⟨_, by simp, .r3 _ _ hi'⟩
      · exact ⟨_, by simp, .runlock _ hi'⟩

/-- An interleaving: one goroutine asks for the lock between another one's `Set` steps, then
reads. -/
example : ∃ s : SpState Int, SpReach 2 ⟨0, 0, 0⟩ s ∧
    s.log = [.set ⟨3, 1, 2⟩, .get ⟨3, 1, 2⟩] := by
  have h0 := SpReach.init (n := 2) (v := (⟨0, 0, 0⟩ : Triple Int))
  have h1 := h0.step 0 (.callSet ⟨3, 1, 2⟩ rfl)
  have h2 := h1.step 0 (.lock ⟨3, 1, 2⟩ rfl rfl rfl)
  have h3 := h2.step 1 (.callGet rfl)
  have h4 := h3.step 0 (.w1 ⟨3, 1, 2⟩ rfl)
  have h5 := h4.step 0 (.w2 ⟨3, 1, 2⟩ rfl)
  have h6 := h5.step 0 (.w3 ⟨3, 1, 2⟩ rfl)
  have h7 := h6.step 0 (.unlock ⟨3, 1, 2⟩ rfl)
  have h8 := h7.step 1 (.rlock rfl rfl)
  have h9 := h8.step 1 (.r1 rfl)
  have h10 := h9.step 1 (.r2 3 rfl)
  have h11 := h10.step 1 (.r3 3 1 rfl)
  have h12 := h11.step 1 (.runlock ⟨3, 1, 2⟩ rfl)
  exact ⟨_, h12, rfl⟩

end GoSelect
