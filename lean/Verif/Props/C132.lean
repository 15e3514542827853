import Verif.Proofs.SelectRaceRun

/-!
# C132: Data races in `SelectModel`

The accesses of all goroutines to nodes, highscore list, design matrix and response, for all data and all schedules.
-/

namespace GoSelect

open Spec
open scoped List

variable {α : Type} [LT α] [DecidableLT α] [DecidableEq α] [Zero α] [Neg α]

/-- **C132 (races).** There are two kinds of data races, both with a read that a child worker makes in line 252 of
optimize.go to compare its bound with the best score: the read of the highscore list races with the insertion of a node by
the main loop, or the read of the score of the first node of the list with the write of that score by a score worker.  All
other accesses of the goroutines to the nodes, the list, the design matrix and the response are ordered by the channels. -/
theorem C132_only_line_252_partial (S : Search α) (M : Int) (hM : M ≠ 1) (pre : List (Node α)) (r : RState α)
    (h : Executes S M pre r) (i j : Nat) (hrace : Race r.trace i j) :
    ∃ a b g, (a = i ∧ b = j ∨ a = j ∧ b = i) ∧ g ∈ childIds ∧
      (r.trace[a]? = some (.access g .list false 252) ∧ r.trace[b]? = some (.access 0 .list true 125) ∨
        ∃ k x, k ∈ scoreIds ∧ r.trace[a]? = some (.access g (.node x) false 252) ∧
          r.trace[b]? = some (.access k (.node x) true 225)) := by
  have hr := (executes_inv hM h).2
  have ht := executes_token hM h
  have key : ∀ (a b g k : Nat) l line, r.trace[a]? = some (.access g l false 252) → r.trace[b]? = some (.access k l true line) →
      g ∈ childIds → g ≠ k → ¬ HappensBefore r.trace a b → ¬ HappensBefore r.trace b a →
      (r.trace[a]? = some (.access g .list false 252) ∧ r.trace[b]? = some (.access 0 .list true 125) ∨
        ∃ k x, k ∈ scoreIds ∧ r.trace[a]? = some (.access g (.node x) false 252) ∧
          r.trace[b]? = some (.access k (.node x) true 225)) := by
    intro a b g k l line h1 h2 hg hne h3 h4
    rcases ht.writes b k l line h2 with h5 | ⟨h5, -⟩ | ⟨h5, ⟨x, rfl⟩, rfl⟩ | ⟨rfl, rfl, rfl⟩
    · exact absurd (ht.start_hb h5 h1 hg) h4
    · rcases lt_trichotomy a b with hab | rfl | hab
      · exact absurd (ht.ord a b g k l l false true 252 line h1 h2 hg h5 hne hab) h3
      · rw [h1] at h2
        cases h2
      · exact absurd (ht.ord b a k g l l true false line 252 h2 h1 h5 hg hne.symm hab) h4
    · exact Or.inr ⟨k, x, h5, h1, h2⟩
    · exact Or.inl ⟨h1, h2⟩
  obtain ⟨g, k, l, w, w', line, line', h1, h2, hne, hw, h3, h4⟩ := hrace
  by_cases hl : line = 252
  · subst hl
    obtain ⟨hg, rfl⟩ := hr.peekBy i g l w 252 h1 rfl
    obtain rfl : w' = true := by simpa using hw
    exact ⟨i, j, g, Or.inl ⟨rfl, rfl⟩, hg, key i j g k l line' h1 h2 hg hne h3 h4⟩
  by_cases hl' : line' = 252
  · subst hl'
    obtain ⟨hg, rfl⟩ := hr.peekBy j k l w' 252 h2 rfl
    obtain rfl : w = true := by simpa using hw
    exact ⟨j, i, k, Or.inr ⟨rfl, rfl⟩, hg, key j i k g l line h2 h1 hg hne.symm h4 h3⟩
  rcases lt_trichotomy i j with hij | rfl | hij
  · exact absurd (hr.ordered i j g k l w w' line line' h1 h2 hij hne hw hl hl') h3
  · rw [h1] at h2
    cases h2
    exact absurd rfl hne
  · exact absurd (hr.ordered j i k g l w' w line' line h2 h1 hij hne.symm hw.symm hl' hl) h4

/-- **C132 (return).** When `SelectModel` returns, everything that any goroutine has accessed happens before the return, and
no goroutine accesses anything afterwards: the caller may read and change the list, its nodes and the data. -/
theorem C132_return (S : Search α) (M : Int) (hM : M ≠ 1) (pre : List (Node α)) (r : RState α)
    (h : Executes S M pre r) (hd : r.s.main = .done) :
    (∃ j, r.trace[j]? = some .ret ∧ ∀ i g l w line, r.trace[i]? = some (.access g l w line) → HappensBefore r.trace i j) ∧
      ∀ a c, rstep S r a c = none := by
  obtain ⟨h1, hr⟩ := executes_inv hM h
  have hi := SInv.reach hM h1
  obtain ⟨d1, d2, d3, -⟩ := hi.doneBusy hd
  refine ⟨?_, fun a c => ?_⟩
  · have hlast := hr.returned hd
    refine ⟨_, hlast, fun i g l w line hi' => ?_⟩
    have hlt := (List.getElem?_eq_some_iff.1 hi').1
    have hlen : r.trace.length - 1 < r.trace.length := (List.getElem?_eq_some_iff.1 hlast).1
    have hne : i ≠ r.trace.length - 1 := by
      rintro rfl
      rw [hlast] at hi'
      cases hi'
    -- all events are known to the main goroutine
    have hk : Known r.trace 0 i := by
      rcases hr.cover i hlt with h2 | ⟨k, pc, b, h2, h3, -⟩ | ⟨q, hq, -⟩
      · exact h2
      · have := List.mem_of_getElem? h2
        simp only [d1, List.mem_singleton] at this
        exact absurd this h3
      · have := hr.lenS
        rw [d2] at this
        rw [List.length_eq_zero_iff.1 this] at hq
        simp at hq
    obtain ⟨j, e, g1, g2, g3⟩ := hk
    have hj := (List.getElem?_eq_some_iff.1 g1).1
    by_cases hjl : j = r.trace.length - 1
    · subst hjl
      rcases g3 with g3 | g3
      · exact absurd g3 hne
      · exact g3
    · have edge : HappensBefore r.trace j (r.trace.length - 1) :=
        .single ⟨by omega, e, .ret, 0, g1, hlast, g2, by simp [Ev.parts]⟩
      rcases g3 with rfl | g3
      · exact edge
      · exact Relation.TransGen.trans g3 edge
  · have : sstep S r.s a = none := by
      cases a with
      | want => simp [sstep, hd]
      | readBest i => cases i <;> simp [sstep, hd, d1]
      | readLen i => cases i <;> simp [sstep, hd, d1]
      | sendNode i => cases i <;> simp [sstep, hd, d1]
      | prune i => cases i <;> simp [sstep, hd, d1]
      | ready i => simp [sstep, hd]
      | score i => simp [sstep, hd, d2]
    unfold rstep
    rw [this]

/-! ### Every run has its accesses -/

theorem kept_exists {β : Type} {q q' : List β} {ids : List Nat} (h : q'.Sublist q) (hlen : ids.length = q.length) :
    ∃ kept : List Nat, kept.length = q'.length ∧ (q'.zip kept).Sublist (q.zip ids) := by
  induction h generalizing ids with
  | slnil => exact ⟨[], rfl, by simp⟩
  | cons a h ih =>
    obtain ⟨x, ids, rfl⟩ := List.exists_cons_of_length_eq_add_one (hlen.trans (List.length_cons ..))
    obtain ⟨kept, h1, h2⟩ := ih (ids := ids) (by simpa using hlen)
    exact ⟨kept, h1, h2.cons _⟩
  | cons_cons a h ih =>
    obtain ⟨x, ids, rfl⟩ := List.exists_cons_of_length_eq_add_one (hlen.trans (List.length_cons ..))
    obtain ⟨kept, h1, h2⟩ := ih (ids := ids) (by simpa using hlen)
    exact ⟨x :: kept, by simp [h1], by simpa using h2⟩

theorem free_worker {l : List Nat} (h : l.length < 8) : ∃ k ∈ scoreIds, k ∉ l := by
  by_contra hc
  push Not at hc
  have h1 : scoreIds.Nodup := by decide
  have := (h1.subperm (l₂ := l) hc).length_le
  have h2 : scoreIds.length = 8 := rfl
  omega

theorem rstep_total {S : Search α} {M : Int} (hM : M ≠ 1) {pre : List (Node α)} {r : RState α} {a : Action} {s' : SState α}
    (hi : SInv S M pre r.s) (hr : RInv r) (h : sstep S r.s a = some s') (hp : s'.main ≠ .panicked) :
    ∃ c r', rstep S r a c = some r' := by
  have hst := hi.classify hM h
  unfold rstep
  rw [h]
  simp only [if_neg hp]
  have scoreCase : ∀ (i : Nat) (n : Node α) (q : List (Node α)), a = .score i → r.s.scoring[i]? = some n →
      q <+ r.s.queue ++ [scoreWorker S n] → ∃ k x, r.scoring[i]? = some (k, x) ∧ ∃ kept : List Nat,
        kept.length = q.length ∧ (q.zip kept).Sublist (r.s.queue.zip r.queue ++ [(scoreWorker S n, x)]) := by
    intro i n q _ hn hq
    have hlt := (List.getElem?_eq_some_iff.1 hn).1
    rw [← hr.lenS] at hlt
    refine ⟨_, _, List.getElem?_eq_getElem hlt, ?_⟩
    obtain ⟨kept, h1, h2⟩ := kept_exists (ids := r.queue ++ [r.scoring[i].2]) hq (by simp [hr.lenQ])
    refine ⟨kept, h1, ?_⟩
    rwa [List.zip_append hr.lenQ.symm] at h2
  have sub : ∀ (n : Node α) (l : List (Node α)), (if n.level < S.ncols then l ++ [n] else l) <+ l ++ [n] := by
    intro n l
    split
    · exact List.Sublist.refl _
    · exact List.sublist_append_left _ _
  cases hst with
  | want node hm hb =>
    have : r.busy = [] := List.length_eq_zero_iff.1 (by rw [hr.lenB, hb]; rfl)
    refine ⟨⟨9, none, []⟩, ?_⟩
    simp only
    rw [if_pos ⟨by decide, by simp [this]⟩]
    exact ⟨_, rfl⟩
  | rbPrune p f hm hb hc =>
    obtain ⟨⟨g, pi, ch⟩, hbusy, hann⟩ := hr.single hb
    obtain ⟨h1, h2⟩ := hann
    obtain ⟨p', rfl⟩ := Option.isSome_iff_exists.1 h1
    cases h2
    refine ⟨⟨9, none, []⟩, ?_⟩
    simp [hbusy]
  | rbBound p f ch hm hb hc hlt =>
    obtain ⟨⟨g, pi, ch'⟩, hbusy, hann⟩ := hr.single hb
    obtain ⟨h1, h2⟩ := hann
    obtain ⟨p', rfl⟩ := Option.isSome_iff_exists.1 h1
    cases h2
    refine ⟨⟨9, none, []⟩, ?_⟩
    simp [hbusy]
  | rbSend p f ch hm hb hc hlt =>
    obtain ⟨⟨g, pi, ch'⟩, hbusy, hann⟩ := hr.single hb
    obtain ⟨h1, h2⟩ := hann
    obtain ⟨p', rfl⟩ := Option.isSome_iff_exists.1 h1
    cases h2
    refine ⟨⟨9, none, []⟩, ?_⟩
    simp [hbusy]
  | rlPrune p f ch e hm hb hlen =>
    obtain ⟨⟨g, pi, ch'⟩, hbusy, hann⟩ := hr.single hb
    obtain ⟨h1, h2⟩ := hann
    obtain ⟨p', rfl⟩ := Option.isSome_iff_exists.1 h1
    obtain ⟨x, rfl⟩ := Option.isSome_iff_exists.1 h2
    refine ⟨⟨9, none, []⟩, ?_⟩
    simp [hbusy]
  | rlSend p f ch e hm hb hlen =>
    obtain ⟨⟨g, pi, ch'⟩, hbusy, hann⟩ := hr.single hb
    obtain ⟨h1, h2⟩ := hann
    obtain ⟨p', rfl⟩ := Option.isSome_iff_exists.1 h1
    obtain ⟨x, rfl⟩ := Option.isSome_iff_exists.1 h2
    refine ⟨⟨9, none, []⟩, ?_⟩
    simp [hbusy]
  | send p f ch hm hb hs =>
    obtain ⟨⟨g, pi, ch'⟩, hbusy, hann⟩ := hr.single hb
    obtain ⟨h1, h2⟩ := hann
    obtain ⟨p', rfl⟩ := Option.isSome_iff_exists.1 h1
    obtain ⟨x, rfl⟩ := Option.isSome_iff_exists.1 h2
    obtain ⟨k, hk1, hk2⟩ := free_worker (l := r.scoring.map (·.1)) (by simpa [hr.lenS] using hs)
    refine ⟨⟨k, none, []⟩, ?_⟩
    simp only [hbusy, List.getElem?_cons_zero]
    rw [if_pos ⟨hk1, hk2⟩]
    exact ⟨_, rfl⟩
  | prune p f hm hb =>
    obtain ⟨⟨g, pi, ch'⟩, hbusy, hann⟩ := hr.single hb
    obtain ⟨h1, h2⟩ := hann
    obtain ⟨p', rfl⟩ := Option.isSome_iff_exists.1 h1
    cases h2
    refine ⟨⟨9, none, []⟩, ?_⟩
    simp [hbusy]
  | readyNil hm hb hq =>
    obtain ⟨⟨g, pi, ch'⟩, hbusy, hann⟩ := hr.single hb
    obtain ⟨h1, h2⟩ := hann
    cases h1
    cases h2
    refine ⟨⟨9, none, []⟩, ?_⟩
    simp [hbusy]
  | readyNode n rest hm hb hq =>
    obtain ⟨⟨g, pi, ch'⟩, hbusy, hann⟩ := hr.single hb
    obtain ⟨h1, h2⟩ := hann
    cases h1
    cases h2
    refine ⟨⟨9, none, []⟩, ?_⟩
    simp [hbusy]
  | scoreOld i n hm hin hn =>
    obtain ⟨m, q, k, e1, e2, -, -⟩ := afterScore_spec S { r.s with
        scoring := r.s.scoring.eraseIdx i
        inProgress := r.s.inProgress - 1
        progress := (r.s.hs.bestScore, r.s.numChecked, r.s.pruned) :: r.s.progress } (scoreWorker S n)
    simp only [e1]
    obtain ⟨k, x, h1, kept, h2, h3⟩ := scoreCase i n q rfl hin (e2.trans (sub _ _))
    refine ⟨⟨9, none, kept⟩, ?_⟩
    simp only [h1, hin]
    rw [if_pos ⟨h2, h3⟩]
    exact ⟨_, rfl⟩
  | scoreNew i n hs'' hm hin hn hins =>
    obtain ⟨q0, b0, e0, e00, -⟩ := afterInsert_spec { r.s with
        scoring := r.s.scoring.eraseIdx i
        inProgress := r.s.inProgress - 1
        progress := (r.s.hs.bestScore, r.s.numChecked, r.s.pruned) :: r.s.progress } (scoreWorker S n) hs''
    simp only [e0]
    obtain ⟨m, q, k, e1, e2, -, -⟩ := afterScore_spec S { r.s with
        scoring := r.s.scoring.eraseIdx i
        inProgress := r.s.inProgress - 1
        progress := (r.s.hs.bestScore, r.s.numChecked, r.s.pruned) :: r.s.progress
        hs := hs''
        log := r.s.log ++ [scoreWorker S n]
        numChecked := r.s.numChecked + 1
        queue := q0
        best := b0 } (scoreWorker S n)
    simp only [e1]
    obtain ⟨k, x, h1, kept, h2, h3⟩ := scoreCase i n q rfl hin
      ((e2.trans (sub _ _)).trans (e00.append (List.Sublist.refl _)))
    refine ⟨⟨9, none, kept⟩, ?_⟩
    simp only [h1, hin]
    rw [if_pos ⟨h2, h3⟩]
    exact ⟨_, rfl⟩

/-- **C132 (runs).** The runs with accesses are those of `SelectModel`: every state that a run reaches is reached by one with
accesses, and conversely. -/
theorem C132_runs (S : Search α) (M : Int) (hM : M ≠ 1) (pre : List (Node α)) (s : SState α) :
    SelectReaches S M pre s ↔ ∃ r, Executes S M pre r ∧ r.s = s := by
  constructor
  · rintro ⟨hs, s₀, h1, h2, h3⟩
    induction h3 with
    | init => exact ⟨_, .init h1 h2, rfl⟩
    | @step s s' a h3 hst ih =>
      obtain ⟨r, hr, rfl⟩ := ih
      have hreach : SelectReaches S M pre s' := ⟨hs, s₀, h1, h2, .step a h3 hst⟩
      obtain ⟨hr1, hr2⟩ := executes_inv hM hr
      obtain ⟨c, r', hc⟩ := rstep_total hM (SInv.reach hM hr1) hr2 hst (SInv.reach hM hreach).noPanic
      refine ⟨r', .step a c hr hc, ?_⟩
      have := rstep_sstep hc
      rw [hst] at this
      exact (Option.some.inj this).symm
  · rintro ⟨r, hr, rfl⟩
    exact (executes_inv hM hr).1

/-! ### A race -/

/-- Run a schedule. -/
def rrun (S : Search α) (r : RState α) : List (Action × Choice) → Option (RState α)
  | [] => some r
  | (a, c) :: as => (rstep S r a c).bind (fun r' => rrun S r' as)

theorem rrun_executes {S : Search α} {M : Int} {pre : List (Node α)} :
    ∀ (as : List (Action × Choice)) {r r' : RState α}, Executes S M pre r → rrun S r as = some r' → Executes S M pre r'
  | [], r, r', h, he => by cases he; exact h
  | (a, c) :: as, r, r', h, he => by
    unfold rrun at he
    cases hs : rstep S r a c with
    | none => simp [hs] at he
    | some t =>
      rw [hs] at he
      exact rrun_executes as (.step a c h hs) he

/-- A read of the highscore list that nobody waits for while the main loop inserts a node. -/
def raceSchedule : List (Action × Choice) :=
  [(.want, ⟨9, none, []⟩), (.readBest 0, ⟨0, none, []⟩), (.sendNode 0, ⟨1, none, []⟩), (.readBest 0, ⟨0, none, []⟩),
    (.readLen 0, ⟨0, none, []⟩), (.sendNode 0, ⟨2, none, []⟩), (.score 0, ⟨0, none, [1]⟩), (.ready 0, ⟨0, none, []⟩),
    (.want, ⟨10, none, []⟩), (.readBest 0, ⟨0, none, []⟩), (.score 0, ⟨0, none, [2]⟩)]

def raceRun : Option (RState Int) :=
  (sinit exSearch (newHighscore 20)).bind (fun s => rrun exSearch (rinit s) raceSchedule)

theorem not_hb_of_last {tr : List Ev} {i j g : Nat} {l : Loc} {w : Bool} {line : Nat}
    (hi : tr[i]? = some (.access g l w line)) (hlast : ∀ e ∈ tr.drop (i + 1), g ∉ e.parts) : ¬ HappensBefore tr i j := by
  intro h
  have key : ∀ k, ¬ (i < k ∧ ∃ e f g, tr[i]? = some e ∧ tr[k]? = some f ∧ g ∈ e.parts ∧ g ∈ f.parts) := by
    rintro k ⟨hk, e, f, g', h1, h2, h3, h4⟩
    rw [hi] at h1
    cases h1
    simp only [Ev.parts, List.mem_singleton] at h3
    subst h3
    refine hlast f ?_ h4
    refine List.mem_of_getElem? (i := k - (i + 1)) ?_
    rw [List.getElem?_drop, show i + 1 + (k - (i + 1)) = k by omega]
    exact h2
  rcases Relation.TransGen.head'_iff.1 h with ⟨k, hk, -⟩
  exact key k hk

/-- **C132 is false without the exception.** With three features and an empty highscore list, a child worker reads the list
while the main loop inserts a node, and nothing orders the two accesses. -/
theorem C132_refuted : ∃ r : RState Int, Executes exSearch 20 [] r ∧
    r.trace[42]? = some (.access 10 .list false 252) ∧ r.trace[50]? = some (.access 0 .list true 125) ∧
    Race r.trace 42 50 := by
  have hrun : raceRun.any (fun r => decide (r.trace[42]? = some (.access 10 .list false 252)) &&
      decide (r.trace[50]? = some (.access 0 .list true 125)) && r.trace.length == 51 &&
      (r.trace.drop 43).all (fun e => !e.parts.contains 10)) = true := by decide +kernel
  unfold raceRun at hrun
  cases h0 : sinit exSearch (newHighscore 20) with
  | none => simp [h0] at hrun
  | some s =>
    rw [h0, Option.bind_some] at hrun
    cases h1 : rrun exSearch (rinit s) raceSchedule with
    | none => simp [h1] at hrun
    | some r =>
      simp only [h1, Option.any_some, Bool.and_eq_true, decide_eq_true_eq, List.all_eq_true, Bool.not_eq_true',
        List.contains_eq_mem, decide_eq_false_iff_not] at hrun
      obtain ⟨⟨⟨h2, h3⟩, -⟩, h4⟩ := hrun
      refine ⟨r, rrun_executes _ (.init rfl h0) h1, h2, h3, 10, 0, .list, false, true, 252, 125, h2, h3, by decide, by simp,
        not_hb_of_last h2 h4, fun h => ?_⟩
      have := hb_lt h
      omega

/-- The goroutines that know of event `i` before event `n`. -/
def learn (tr : List Ev) (i : Nat) : Nat → List Nat
  | 0 => []
  | n + 1 => match tr[n]? with
    | none => learn tr i n
    | some e => if n = i ∨ e.parts.any (fun g => (learn tr i n).contains g) = true then e.parts ++ learn tr i n
      else learn tr i n

theorem learn_succ {tr : List Ev} {i n g : Nat} (h : g ∈ learn tr i n) : g ∈ learn tr i (n + 1) := by
  unfold learn
  split
  · exact h
  · split
    · exact List.mem_append_right _ h
    · exact h

theorem learn_mono {tr : List Ev} {i n g : Nat} (h : g ∈ learn tr i n) : ∀ {m : Nat}, n ≤ m → g ∈ learn tr i m := by
  intro m hm
  induction hm with
  | refl => exact h
  | step _ ih => exact learn_succ ih

theorem learn_event {tr : List Ev} {i j : Nat} {e : Ev} (he : tr[j]? = some e) (h : j = i ∨ ∃ g ∈ e.parts, g ∈ learn tr i j) :
    ∀ g ∈ e.parts, g ∈ learn tr i (j + 1) := by
  intro g hg
  unfold learn
  rw [he]
  simp only
  rw [if_pos]
  · exact List.mem_append_left _ hg
  · refine h.imp_right ?_
    rintro ⟨g', h1, h2⟩
    exact List.any_eq_true.2 ⟨g', h1, by simpa using h2⟩

theorem hb_learn {tr : List Ev} {i j : Nat} (h : HappensBefore tr i j) :
    ∃ e, tr[j]? = some e ∧ ∃ g ∈ e.parts, g ∈ learn tr i j := by
  induction h with
  | single h =>
    obtain ⟨h1, e, f, g, h2, h3, h4, h5⟩ := h
    exact ⟨f, h3, g, h5, learn_mono (learn_event h2 (Or.inl rfl) g h4) h1⟩
  | tail _ h ih =>
    obtain ⟨h1, e, f, g, h2, h3, h4, h5⟩ := h
    obtain ⟨e', h6, h7⟩ := ih
    rw [h2] at h6
    cases h6
    exact ⟨f, h3, g, h5, learn_mono (learn_event h2 (Or.inr h7) g h4) h1⟩

/-- The same run goes on: the worker makes its second child and reads the score of the node that was inserted. -/
def raceRun' : Option (RState Int) :=
  raceRun.bind (fun r => rrun exSearch r [(.sendNode 0, ⟨3, none, []⟩), (.readBest 0, ⟨0, some 2, []⟩)])

/-- **The second exception is needed.** Shortly afterwards the same child worker reads the score of the inserted node, and
nothing orders this read after the write of the score. -/
theorem C132_score_refuted : ∃ r : RState Int, Executes exSearch 20 [] r ∧
    r.trace[56]? = some (.access 10 (.node 2) false 252) ∧ r.trace[45]? = some (.access 2 (.node 2) true 225) ∧
    r.s.hs.len = 1 ∧ Race r.trace 56 45 := by
  have hrun : raceRun'.any (fun r => decide (r.trace[56]? = some (.access 10 (.node 2) false 252)) &&
      decide (r.trace[45]? = some (.access 2 (.node 2) true 225)) && decide (r.s.hs.len = 1) &&
      !(learn r.trace 45 56).contains 10) = true := by decide +kernel
  unfold raceRun' raceRun at hrun
  cases h0 : sinit exSearch (newHighscore 20) with
  | none => simp [h0] at hrun
  | some s =>
    rw [h0, Option.bind_some] at hrun
    cases h1 : rrun exSearch (rinit s) raceSchedule with
    | none => simp [h1] at hrun
    | some r₁ =>
      rw [h1, Option.bind_some] at hrun
      cases h5 : rrun exSearch r₁ [(.sendNode 0, ⟨3, none, []⟩), (.readBest 0, ⟨0, some 2, []⟩)] with
      | none => simp [h5] at hrun
      | some r =>
        simp only [h5, Option.any_some, Bool.and_eq_true, decide_eq_true_eq, Bool.not_eq_true',
          List.contains_eq_mem, decide_eq_false_iff_not] at hrun
        obtain ⟨⟨⟨h2, h3⟩, h6⟩, h4⟩ := hrun
        refine ⟨r, rrun_executes _ (rrun_executes _ (.init rfl h0) h1) h5, h2, h3, h6, 10, 2, .node 2, false, true, 252, 225, h2,
          h3, by decide, by simp, fun h => ?_, fun h => ?_⟩
        · have := hb_lt h
          omega
        · obtain ⟨e, he, g, hg, hl⟩ := hb_learn h
          rw [h2] at he
          cases he
          simp only [Ev.parts, List.mem_singleton] at hg
          subst hg
          exact h4 hl

/-- The hypotheses of `C132_only_line_252_partial` are met: there is a race. -/
example : ∃ (r : RState Int) (i j : Nat), Executes exSearch 20 [] r ∧ Race r.trace i j := by
  obtain ⟨r, h1, -, -, h2⟩ := C132_refuted
  exact ⟨r, 42, 50, h1, h2⟩

/-- The hypotheses of `C132_return` are met: a run with accesses in which `SelectModel` returns. -/
example : ∃ r : RState Int, Executes exSearch 20 [] r ∧ r.s.main = .done ∧ r.s.hs.bestScore = -1 := by
  obtain ⟨s, h1, h2⟩ := sstart_ex (S := exSearch) (M := 20) exSchedule
    (fun s => decide (s.main = .done) && decide (s.hs.bestScore = -1)) (by decide +kernel)
  obtain ⟨r, hr, rfl⟩ := (C132_runs exSearch 20 (by decide) [] s).1 h1
  simp only [Bool.and_eq_true, decide_eq_true_eq] at h2
  exact ⟨r, hr, h2.1, h2.2⟩

end GoSelect
