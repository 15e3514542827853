import Verif.Model.Select
import Verif.Proofs.Tree
import Verif.Proofs.Highscore

/-! Structural invariant of `SelectModel` runs: token, counters, well-formed nodes. -/

namespace GoSelect

open Spec
open scoped List

variable {α : Type} [LT α] [DecidableLT α] [Zero α] [Neg α]

/-- A node that may be expanded. -/
structure ParentOk (S : Search α) (n : Node α) : Prop where
  len : n.model.length = S.ncols
  lvl : n.level < S.ncols
  suffix : ∀ i, n.level ≤ i → n.model[i]? = S.root[i]?

/-- A node made by `CreateChild` from a good parent. -/
def Made (S : Search α) (n : Node α) : Prop :=
  ∃ parent flip, ParentOk S parent ∧ boundedChild S parent flip = some (some n)

/-- A scored node. -/
def MadeScored (S : Search α) (n : Node α) : Prop := ∃ n₀, Made S n₀ ∧ n = scoreWorker S n₀

/-- Children a worker still has to deliver. -/
def flipsLeft : ChildPc α → Nat
  | .make _ f => if f then 1 else 2
  | .readLen _ f _ _ => if f then 1 else 2
  | .sendNode _ f _ => if f then 1 else 2
  | .sendPrune _ f => if f then 1 else 2
  | .ready => 0

/-- Well-formedness of a worker. -/
def PcOk (S : Search α) : ChildPc α → Prop
  | .make p _ => ParentOk S p
  | .readLen p f c _ => ParentOk S p ∧ boundedChild S p f = some (some c) ∧ 0 ≤ flipsLeft (.make p f)
  | .sendNode p f c => ParentOk S p ∧ boundedChild S p f = some (some c)
  | .sendPrune p _ => ParentOk S p
  | .ready => True

/-- Steps that a state satisfying the invariant can take. -/
inductive SStep (S : Search α) (s : SState α) : Action → SState α → Prop
  | want (node : Option (Node α)) (hm : s.main = .sendWant node) (hb : s.busy = []) :
      SStep S s .want { s with main := .select, busy := [pcOf node] }
  | rbPrune (p : Node α) (f : Bool) (hm : s.main = .select) (hb : s.busy = [.make p f])
      (hc : boundedChild S p f = some none) :
      SStep S s (.readBest 0) { s with busy := [.sendPrune p f] }
  | rbBound (p : Node α) (f : Bool) (c : Node α) (hm : s.main = .select)
      (hb : s.busy = [.make p f]) (hc : boundedChild S p f = some (some c))
      (hlt : -s.hs.bestScore < c.lower) :
      SStep S s (.readBest 0) { s with busy := [.readLen p f c (s.hs.len == 0)] }
  | rbSend (p : Node α) (f : Bool) (c : Node α) (hm : s.main = .select)
      (hb : s.busy = [.make p f]) (hc : boundedChild S p f = some (some c))
      (hlt : ¬ -s.hs.bestScore < c.lower) :
      SStep S s (.readBest 0) { s with busy := [.sendNode p f c] }
  | rlPrune (p : Node α) (f : Bool) (c : Node α) (e : Bool) (hm : s.main = .select)
      (hb : s.busy = [.readLen p f c e]) (hlen : 0 < s.hs.len) :
      SStep S s (.readLen 0) { s with busy := [.sendPrune p f], torn := s.torn || e }
  | rlSend (p : Node α) (f : Bool) (c : Node α) (e : Bool) (hm : s.main = .select)
      (hb : s.busy = [.readLen p f c e]) (hlen : s.hs.len = 0) :
      SStep S s (.readLen 0) { s with busy := [.sendNode p f c] }
  | send (p : Node α) (f : Bool) (c : Node α) (hm : s.main = .select)
      (hb : s.busy = [.sendNode p f c]) (hs : s.scoring.length < 8) :
      SStep S s (.sendNode 0)
        { s with busy := [afterChild p f], scoring := s.scoring ++ [c] }
  | prune (p : Node α) (f : Bool) (hm : s.main = .select) (hb : s.busy = [.sendPrune p f]) :
      SStep S s (.prune 0) (loopOrExit { s with
        busy := [afterChild p f], pruned := p.level :: s.pruned, inProgress := s.inProgress - 1 })
  | readyNil (hm : s.main = .select) (hb : s.busy = [.ready]) (hq : s.queue = []) :
      SStep S s (.ready 0) { s with main := .sendWant none, busy := [] }
  | readyNode (n : Node α) (rest : List (Node α)) (hm : s.main = .select)
      (hb : s.busy = [.ready]) (hq : s.queue = n :: rest) :
      SStep S s (.ready 0) { s with main := .sendWant (some n), busy := [], queue := rest,
                                    inProgress := s.inProgress + 2 }
  | scoreOld (i : Nat) (n : Node α) (hm : s.main = .select) (hi : s.scoring[i]? = some n)
      (hn : isNewNode n = false) :
      SStep S s (.score i) (afterScore S { s with
        scoring := s.scoring.eraseIdx i
        inProgress := s.inProgress - 1
        progress := (s.hs.bestScore, s.numChecked, s.pruned) :: s.progress } (scoreWorker S n))
  | scoreNew (i : Nat) (n : Node α) (hs' : Highscore α) (hm : s.main = .select)
      (hi : s.scoring[i]? = some n) (hn : isNewNode n = true)
      (hins : s.hs.insert (scoreWorker S n) = some hs') :
      SStep S s (.score i) (afterScore S (afterInsert { s with
        scoring := s.scoring.eraseIdx i
        inProgress := s.inProgress - 1
        progress := (s.hs.bestScore, s.numChecked, s.pruned) :: s.progress }
          (scoreWorker S n) hs') (scoreWorker S n))

/-- The structural invariant. -/
structure SInv (S : Search α) (M : Int) (pre : List (Node α)) (s : SState α) : Prop where
  ncols : 3 ≤ S.ncols
  rootLen : S.root.length = S.ncols
  noPanic : s.main ≠ .panicked
  selBusy : s.main = .select → ∃ pc, s.busy = [pc]
  wantBusy : ∀ n, s.main = .sendWant n → s.busy = []
  doneBusy : s.main = .done → s.busy = [.ready] ∧ s.scoring = [] ∧ s.queue = [] ∧ s.inProgress = 0
  count : s.inProgress = (s.busy.map flipsLeft).sum + s.scoring.length +
    (match s.main with | .sendWant (some _) => 2 | _ => 0)
  alive : s.main ≠ .done → 0 < s.inProgress ∨ s.queue ≠ []
  wantNil : s.main = .sendWant none → s.queue = []
  wantOk : ∀ n, s.main = .sendWant (some n) → ParentOk S n
  busyOk : ∀ pc ∈ s.busy, PcOk S pc
  scoringOk : ∀ n ∈ s.scoring, Made S n
  queueOk : ∀ n ∈ s.queue, MadeScored S n ∧ n.level < S.ncols
  logOk : ∀ n ∈ s.log, MadeScored S n ∧ isNewNode n = true
  hist : (newHighscore M).insertAll (pre ++ s.log) = some s.hs
  checked : s.numChecked = s.log.length
  scoreLen : s.scoring.length ≤ 8

theorem scoreWorker_level (S : Search α) (n : Node α) : (scoreWorker S n).level = n.level := by
  unfold scoreWorker; split <;> rfl

theorem scoreWorker_model (S : Search α) (n : Node α) : (scoreWorker S n).model = n.model := by
  unfold scoreWorker; split <;> rfl

theorem scoreWorker_lower (S : Search α) (n : Node α) : (scoreWorker S n).lower = n.lower := by
  unfold scoreWorker; split <;> rfl

theorem scoreWorker_flipped (S : Search α) (n : Node α) :
    (scoreWorker S n).wasFlipped = n.wasFlipped := by
  unfold scoreWorker; split <;> rfl

theorem scoreWorker_isNew (S : Search α) (n : Node α) :
    isNewNode (scoreWorker S n) = isNewNode n := by
  simp [isNewNode, scoreWorker_level, scoreWorker_flipped]

/-- What `CreateChild` makes. -/
theorem boundedChild_some {S : Search α} {p c : Node α} {f : Bool} (hp : ParentOk S p)
    (h : boundedChild S p f = some (some c)) :
    c.model = (if f then flipAt p.model p.level else p.model) ∧ c.level = p.level + 1 ∧
    c.wasFlipped = f ∧ numFeatures c.model < S.nrows ∧
    c.lower = (if 0 < numFeatures c.model then (S.bounds c.model c.level).1 else -S.huge) := by
  have hl : p.level < p.model.length := by rw [hp.len]; exact hp.lvl
  unfold boundedChild at h
  cases f with
  | false =>
    rw [getChildNode_false] at h
    simp only at h
    split at h
    · split at h
      · cases h; simp_all
      · cases h; simp_all
    · cases h
  | true =>
    rw [getChildNode_true _ hl] at h
    simp only at h
    split at h
    · split at h
      · cases h; simp_all
      · cases h; simp_all
    · cases h

theorem boundedChild_ne_none {S : Search α} {p : Node α} {f : Bool} (hp : ParentOk S p) :
    boundedChild S p f ≠ none := by
  have hl : p.level < p.model.length := by rw [hp.len]; exact hp.lvl
  unfold boundedChild
  cases f with
  | false =>
    rw [getChildNode_false]
    simp only
    split
    · split <;> simp
    · simp
  | true =>
    rw [getChildNode_true _ hl]
    simp only
    split
    · split <;> simp
    · simp

theorem boundedChild_none {S : Search α} {p : Node α} {f : Bool} (hp : ParentOk S p)
    (h : boundedChild S p f = some none) :
    S.nrows ≤ numFeatures (if f then flipAt p.model p.level else p.model) := by
  have hl : p.level < p.model.length := by rw [hp.len]; exact hp.lvl
  unfold boundedChild at h
  cases f with
  | false =>
    rw [getChildNode_false] at h
    simp only at h
    split at h
    · split at h <;> cases h
    · simp; omega
  | true =>
    rw [getChildNode_true _ hl] at h
    simp only at h
    split at h
    · split at h <;> cases h
    · simp; omega

theorem Made.level {S : Search α} {n : Node α} (h : Made S n) : 1 ≤ n.level ∧ n.level ≤ S.ncols := by
  obtain ⟨p, f, hp, hc⟩ := h
  have := boundedChild_some hp hc
  have := hp.lvl
  omega

theorem Made.length {S : Search α} {n : Node α} (h : Made S n) : n.model.length = S.ncols := by
  obtain ⟨p, f, hp, hc⟩ := h
  have := (boundedChild_some hp hc).1
  rw [this, ← hp.len]
  split <;> simp [flipAt_length]

theorem Made.suffix {S : Search α} {n : Node α} (h : Made S n) (i : Nat) (hi : n.level ≤ i) :
    n.model[i]? = S.root[i]? := by
  obtain ⟨p, f, hp, hc⟩ := h
  have hb := boundedChild_some hp hc
  rw [hb.1]
  split
  · rw [flipAt_getElem?, if_neg (by omega)]
    exact hp.suffix i (by omega)
  · exact hp.suffix i (by omega)

theorem Made.parentOk {S : Search α} {n : Node α} (h : Made S n) (hl : n.level < S.ncols) :
    ParentOk S n := ⟨h.length, hl, h.suffix⟩

theorem MadeScored.parentOk {S : Search α} {n : Node α} (h : MadeScored S n)
    (hl : n.level < S.ncols) : ParentOk S n := by
  obtain ⟨n₀, h0, rfl⟩ := h
  rw [scoreWorker_level] at hl
  have := h0.parentOk hl
  exact ⟨by rw [scoreWorker_model]; exact this.len, by rw [scoreWorker_level]; exact hl,
    by rw [scoreWorker_level, scoreWorker_model]; exact this.suffix⟩

theorem insert_some_of_inv {M : Int} (hM : M ≠ 1) {ns : List (Node α)} {h : Highscore α}
    (hh : (newHighscore M).insertAll ns = some h) (x : Node α) : ∃ h', h.insert x = some h' := by
  refine insert_isSome ?_
  rintro ⟨h1, h2⟩
  rw [insertAll_maxItems hh, h2] at h1
  simp at h1
  omega

/-- Every step of a good state is one of the listed ones. -/
theorem SInv.classify {S : Search α} {M : Int} (hM : M ≠ 1) {pre : List (Node α)} {s s' : SState α}
    (hi : SInv S M pre s) {a : Action} (h : sstep S s a = some s') : SStep S s a s' := by
  have hsingle : ∀ (i : Nat) (pc pc' : ChildPc α), s.busy = [pc'] → s.busy[i]? = some pc →
      i = 0 ∧ pc' = pc := by
    intro i pc pc' hb hg
    rw [hb] at hg
    cases i with
    | zero => simp at hg; exact ⟨rfl, hg⟩
    | succ i => simp at hg
  cases a with
  | want =>
    simp only [sstep] at h
    split at h
    · rename_i node hm
      have hb := hi.wantBusy node hm
      rw [if_pos (by simp [hb])] at h
      rw [hb] at h
      cases h
      exact .want node hm hb
    · cases h
  | readBest i =>
    simp only [sstep] at h
    split at h
    · cases h
    · rename_i p f hpc _
      have hsel : s.main = .select := by
        cases hmm : s.main with
        | select => rfl
        | sendWant n => rw [hi.wantBusy n hmm] at hpc; simp at hpc
        | done =>
          have := hsingle i _ _ (hi.doneBusy hmm).1 hpc
          cases this.2
        | panicked => exact absurd hmm hi.noPanic
      obtain ⟨pc', hb⟩ := hi.selBusy hsel
      obtain ⟨rfl, rfl⟩ := hsingle i _ _ hb hpc
      have hp : ParentOk S p := by
        exact hi.busyOk (.make p f) (by rw [hb]; simp)
      split at h
      · rename_i hc; exact absurd hc (boundedChild_ne_none hp)
      · rename_i hc
        rw [hb] at h; cases h
        exact .rbPrune p f hsel hb hc
      · rename_i c hc
        split at h
        · rename_i hlt
          rw [hb] at h; cases h
          exact .rbBound p f c hsel hb hc hlt
        · rename_i hlt
          rw [hb] at h; cases h
          exact .rbSend p f c hsel hb hc hlt
    · cases h
  | readLen i =>
    simp only [sstep] at h
    split at h
    · cases h
    · rename_i p f c e hpc _
      have hsel : s.main = .select := by
        cases hmm : s.main with
        | select => rfl
        | sendWant n => rw [hi.wantBusy n hmm] at hpc; simp at hpc
        | done =>
          have := hsingle i _ _ (hi.doneBusy hmm).1 hpc
          cases this.2
        | panicked => exact absurd hmm hi.noPanic
      obtain ⟨pc', hb⟩ := hi.selBusy hsel
      obtain ⟨rfl, rfl⟩ := hsingle i _ _ hb hpc
      split at h
      · rename_i hlt
        rw [hb] at h; cases h
        exact .rlPrune p f c e hsel hb hlt
      · rename_i hlt
        rw [hb] at h; cases h
        exact .rlSend p f c e hsel hb (by omega)
    · cases h
  | sendNode i =>
    simp only [sstep] at h
    split at h
    · cases h
    · rename_i hm hpc
      have := hsingle i _ _ (hi.doneBusy hm).1 hpc
      cases this.2
    · rename_i p f c hpc _ _
      have hsel : s.main = .select := by
        cases hmm : s.main with
        | select => rfl
        | sendWant n => rw [hi.wantBusy n hmm] at hpc; simp at hpc
        | done =>
          have := hsingle i _ _ (hi.doneBusy hmm).1 hpc
          cases this.2
        | panicked => exact absurd hmm hi.noPanic
      obtain ⟨pc', hb⟩ := hi.selBusy hsel
      obtain ⟨rfl, rfl⟩ := hsingle i _ _ hb hpc
      split at h
      · rename_i hlt
        rw [hb] at h; cases h
        exact .send p f c hsel hb hlt
      · cases h
    · cases h
  | prune i =>
    simp only [sstep] at h
    split at h
    · rename_i hm hpc
      have := hsingle i _ _ (hi.doneBusy hm).1 hpc
      cases this.2
    · rename_i p f hsel hpc
      obtain ⟨pc', hb⟩ := hi.selBusy hsel
      obtain ⟨rfl, rfl⟩ := hsingle i _ _ hb hpc
      rw [hb] at h; cases h
      exact .prune p f hsel hb
    · cases h
  | ready i =>
    simp only [sstep] at h
    split at h
    · rename_i hsel hpc
      obtain ⟨pc', hb⟩ := hi.selBusy hsel
      obtain ⟨rfl, rfl⟩ := hsingle i _ _ hb hpc
      split at h
      · rename_i hq
        rw [hb] at h; cases h
        have := SStep.readyNil (S := S) hsel hb hq
        simpa [hq] using this
      · rename_i n rest hq
        rw [hb] at h; cases h
        have := SStep.readyNode (S := S) n rest hsel hb hq
        simpa using this
    · cases h
  | score i =>
    simp only [sstep] at h
    split at h
    · rename_i hm hpc
      rw [(hi.doneBusy hm).2.1] at hpc
      simp at hpc
    · rename_i n hsel hpc
      simp only [Option.some.injEq] at h
      subst h
      unfold onScore
      rw [scoreWorker_isNew]
      cases hn : isNewNode n with
      | false => exact .scoreOld i n hsel hpc hn
      | true =>
        obtain ⟨h', hh'⟩ := insert_some_of_inv hM hi.hist (scoreWorker S n)
        simp only [if_true, hh']
        exact .scoreNew i n h' hsel hpc hn hh'
    · cases h

theorem eraseIdx_perm {β : Type} {l : List β} {i : Nat} {x : β} (h : l[i]? = some x) :
    l.Perm (x :: l.eraseIdx i) := by
  obtain ⟨hi, rfl⟩ := List.getElem?_eq_some_iff.1 h
  exact (List.getElem_cons_eraseIdx_perm hi).symm

theorem eraseIdx_length {β : Type} {l : List β} {i : Nat} {x : β} (h : l[i]? = some x) :
    l.length = (l.eraseIdx i).length + 1 := by
  have := (eraseIdx_perm h).length_eq
  simpa using this

theorem flipsLeft_afterChild (p : Node α) (f : Bool) :
    flipsLeft (afterChild p f) + 1 = if f then 1 else 2 := by
  cases f <;> rfl

theorem loopOrExit_spec (s : SState α) :
    ∃ m, loopOrExit s = { s with main := m } ∧
      ((m = .done ∧ s.inProgress ≤ 0 ∧ s.queue = []) ∨
       (m = .select ∧ (0 < s.inProgress ∨ s.queue ≠ []))) := by
  unfold loopOrExit
  split
  · rename_i h
    exact ⟨.done, rfl, Or.inl ⟨rfl, h.1, List.length_eq_zero_iff.1 h.2⟩⟩
  · rename_i h
    refine ⟨.select, rfl, Or.inr ⟨rfl, ?_⟩⟩
    by_contra hc
    rw [not_or] at hc
    exact h ⟨by omega, by simpa using hc.2⟩

theorem checkOverflow_spec (S : Search α) (s : SState α) :
    ∃ q k, checkOverflow S s = { s with queue := q, overflows := s.overflows + k } ∧ q <+ s.queue ∧
      (k = 0 → q = s.queue) := by
  unfold checkOverflow
  split
  · exact ⟨_, 1, rfl, List.filter_sublist, by simp⟩
  · exact ⟨_, 0, rfl, List.Sublist.refl _, fun _ => rfl⟩

/-- Shape of the state after the main loop received a node. -/
theorem afterScore_spec (S : Search α) (s : SState α) (ns : Node α) :
    ∃ m q k, afterScore S s ns = { s with main := m, queue := q, overflows := s.overflows + k } ∧
      q <+ (if ns.level < S.ncols then s.queue ++ [ns] else s.queue) ∧
      (k = 0 → q = (if ns.level < S.ncols then s.queue ++ [ns] else s.queue)) ∧
      ((m = .done ∧ s.inProgress ≤ 0 ∧ q = []) ∨
       (m = .select ∧ (0 < s.inProgress ∨ q ≠ []))) := by
  unfold afterScore
  have key : ∀ t : SState α, ∃ m q k, loopOrExit (checkOverflow S t) =
      { t with main := m, queue := q, overflows := t.overflows + k } ∧
      q <+ t.queue ∧ (k = 0 → q = t.queue) ∧
      ((m = .done ∧ t.inProgress ≤ 0 ∧ q = []) ∨ (m = .select ∧ (0 < t.inProgress ∨ q ≠ []))) := by
    intro t
    obtain ⟨q, k, e1, e2, e3⟩ := checkOverflow_spec S t
    obtain ⟨m, e4, e5⟩ := loopOrExit_spec (checkOverflow S t)
    rw [e1] at e4 e5
    exact ⟨m, q, k, by rw [e1, e4], e2, e3, e5⟩
  split
  · obtain ⟨m, q, k, e1, e2, e3, e4⟩ := key { s with queue := s.queue ++ [ns] }
    exact ⟨m, q, k, e1, e2, e3, e4⟩
  · obtain ⟨m, q, k, e1, e2, e3, e4⟩ := key s
    exact ⟨m, q, k, e1, e2, e3, e4⟩

theorem afterInsert_spec (s : SState α) (ns : Node α) (hs : Highscore α) :
    ∃ q b, afterInsert s ns hs = { s with
        hs := hs
        log := s.log ++ [ns]
        numChecked := s.numChecked + 1
        queue := q
        best := b } ∧ q <+ s.queue ∧
      (∀ n ∈ s.queue, n ∉ q → -hs.bestScore < n.lower) := by
  unfold afterInsert
  simp only
  split
  · refine ⟨_, _, rfl, List.filter_sublist, fun n hn hq => ?_⟩
    by_contra hc
    exact hq (by simp [cleanQueue, hn, hc])
  · exact ⟨_, _, rfl, List.Sublist.refl _, fun n hn hq => absurd hn hq⟩

theorem SInv.preserved {S : Search α} {M : Int} {pre : List (Node α)} {s s' : SState α}
    (hi : SInv S M pre s) {a : Action} (h : SStep S s a s') : SInv S M pre s' := by
  have hcount := hi.count
  -- common part of the two `score` cases
  have scoreCase : ∀ (i : Nat) (n : Node α) (s1 : SState α), s.main = .select →
      s.scoring[i]? = some n →
      s1.inProgress = s.inProgress - 1 → s1.scoring = s.scoring.eraseIdx i → s1.busy = s.busy →
      s1.queue <+ s.queue →
      (∀ n ∈ s1.log, MadeScored S n ∧ isNewNode n = true) →
      (newHighscore M).insertAll (pre ++ s1.log) = some s1.hs →
      s1.numChecked = s1.log.length →
      SInv S M pre (afterScore S s1 (scoreWorker S n)) := by
    intro i n s1 hm hidx e1 e2 e3 e4 e5 e6 e7
    obtain ⟨m, q, k, f1, f2, -, f3⟩ := afterScore_spec S s1 (scoreWorker S n)
    obtain ⟨pc, hb⟩ := hi.selBusy hm
    have hlen := eraseIdx_length hidx
    have hmade : Made S n := hi.scoringOk n (List.mem_of_getElem? hidx)
    rw [hm, hb] at hcount
    simp only [List.map_cons, List.map_nil, List.sum_cons, List.sum_nil] at hcount
    have hq : ∀ x ∈ q, MadeScored S x ∧ x.level < S.ncols := by
      intro x hx
      have := f2.subset hx
      split at this
      · rename_i hl
        rcases List.mem_append.1 this with h | h
        · exact hi.queueOk x (e4.subset h)
        · rw [List.mem_singleton.1 h]
          exact ⟨⟨n, hmade, rfl⟩, hl⟩
      · exact hi.queueOk x (e4.subset this)
    have hbo := hi.busyOk
    have hso : ∀ x ∈ s.scoring.eraseIdx i, Made S x := fun x hx =>
      hi.scoringOk x (List.mem_of_mem_eraseIdx hx)
    rw [f1]
    rcases f3 with ⟨rfl, g1, rfl⟩ | ⟨rfl, g1⟩
    · have hz : flipsLeft pc = 0 ∧ s.scoring.eraseIdx i = [] := by
        rw [e1] at g1
        constructor
        · omega
        · rw [← List.length_eq_zero_iff]; omega
      have hpc : pc = .ready := by
        cases pc <;> simp [flipsLeft] at hz ⊢ <;> split at hz <;> omega
      refine { hi with
        noPanic := by simp, selBusy := by simp, wantBusy := by simp
        doneBusy := fun _ => ⟨by rw [← hpc, ← hb]; exact e3, by rw [← hz.2]; exact e2, rfl, ?_⟩
        count := ?_, alive := by simp, wantNil := by simp
        wantOk := by simp, busyOk := by simpa [e3] using hbo
        scoringOk := by simpa [e2] using hso, queueOk := by simp, logOk := e5, hist := e6
        checked := e7, scoreLen := ?_ }
      · show s1.inProgress = 0
        rw [e1]; simp [hz] at hlen hcount; omega
      · show s1.inProgress = _
        simp only [e1, e2, e3, hb, hz.2, hpc]
        simp [hz] at hlen hcount; simp [flipsLeft]; omega
      · simp [e2, hz.2]
    · refine { hi with
        noPanic := by simp, selBusy := fun _ => ⟨pc, by rw [← hb]; exact e3⟩, wantBusy := by simp
        doneBusy := by simp
        count := ?_, alive := fun _ => g1, wantNil := by simp
        wantOk := by simp, busyOk := by simpa [e3] using hbo
        scoringOk := by simpa [e2] using hso, queueOk := hq, logOk := e5, hist := e6
        checked := e7, scoreLen := ?_ }
      · simp only [e1, e2, e3, hb, List.map_cons, List.map_nil, List.sum_cons, List.sum_nil]
        omega
      · have := hi.scoreLen
        simp only [e2]; omega
  cases h with
  | want node hm hb =>
    rw [hm, hb] at hcount
    have halive := hi.alive (by rw [hm]; simp)
    refine { hi with
      noPanic := by simp, selBusy := fun _ => ⟨_, rfl⟩, wantBusy := by simp, doneBusy := by simp
      count := ?_, alive := fun _ => halive, wantNil := by simp, wantOk := by simp
      busyOk := ?_ }
    · cases node with
      | none => simpa [pcOf, flipsLeft] using hcount
      | some p => simp [pcOf, flipsLeft] at hcount ⊢; omega
    · intro pc hpc
      rw [List.mem_singleton.1 hpc]
      cases node with
      | none => trivial
      | some p => exact hi.wantOk p hm
  | rbPrune p f hm hb hc =>
    rw [hb] at hcount
    refine { hi with
      selBusy := fun _ => ⟨_, rfl⟩, wantBusy := by simp [hm], doneBusy := by simp [hm]
      count := hcount, busyOk := ?_ }
    intro pc hpc
    rw [List.mem_singleton.1 hpc]
    exact hi.busyOk (.make p f) (by simp [hb])
  | rbBound p f c hm hb hc hlt =>
    rw [hb] at hcount
    refine { hi with
      selBusy := fun _ => ⟨_, rfl⟩, wantBusy := by simp [hm], doneBusy := by simp [hm]
      count := hcount, busyOk := ?_ }
    intro pc hpc
    rw [List.mem_singleton.1 hpc]
    exact ⟨hi.busyOk (.make p f) (by simp [hb]), hc, Nat.zero_le _⟩
  | rbSend p f c hm hb hc hlt =>
    rw [hb] at hcount
    refine { hi with
      selBusy := fun _ => ⟨_, rfl⟩, wantBusy := by simp [hm], doneBusy := by simp [hm]
      count := hcount, busyOk := ?_ }
    intro pc hpc
    rw [List.mem_singleton.1 hpc]
    exact ⟨hi.busyOk (.make p f) (by simp [hb]), hc⟩
  | rlPrune p f c e hm hb hlen =>
    rw [hb] at hcount
    refine { hi with
      selBusy := fun _ => ⟨_, rfl⟩, wantBusy := by simp [hm], doneBusy := by simp [hm]
      count := hcount, busyOk := ?_ }
    intro pc hpc
    rw [List.mem_singleton.1 hpc]
    exact (hi.busyOk (.readLen p f c e) (by simp [hb])).1
  | rlSend p f c e hm hb hlen =>
    rw [hb] at hcount
    refine { hi with
      selBusy := fun _ => ⟨_, rfl⟩, wantBusy := by simp [hm], doneBusy := by simp [hm]
      count := hcount, busyOk := ?_ }
    intro pc hpc
    rw [List.mem_singleton.1 hpc]
    have := hi.busyOk (.readLen p f c e) (by simp [hb])
    exact ⟨this.1, this.2.1⟩
  | send p f c hm hb hs =>
    rw [hb, hm] at hcount
    have hok := hi.busyOk (.sendNode p f c) (by simp [hb])
    refine { hi with
      selBusy := fun _ => ⟨_, rfl⟩, wantBusy := by simp [hm], doneBusy := by simp [hm]
      count := ?_, busyOk := ?_, scoringOk := ?_, scoreLen := ?_ }
    · have h0 : flipsLeft (.sendNode p f c) = if f then 1 else 2 := rfl
      have := flipsLeft_afterChild p f
      simp only [hm, List.map_cons, List.map_nil, List.sum_cons, List.sum_nil, h0,
        List.length_append, List.length_singleton] at hcount ⊢
      push_cast; omega
    · intro pc hpc
      rw [List.mem_singleton.1 hpc]
      cases f
      · exact hok.1
      · trivial
    · intro n hn
      rcases List.mem_append.1 hn with hn | hn
      · exact hi.scoringOk n hn
      · rw [List.mem_singleton.1 hn]; exact ⟨p, f, hok.1, hok.2⟩
    · simp; omega
  | prune p f hm hb =>
    rw [hb, hm] at hcount
    have hok := hi.busyOk (.sendPrune p f) (by simp [hb])
    obtain ⟨m, e1, e2⟩ := loopOrExit_spec { s with
        busy := [afterChild p f], pruned := p.level :: s.pruned, inProgress := s.inProgress - 1 }
    rw [e1]
    have hfl := flipsLeft_afterChild p f
    simp only [List.map_cons, List.map_nil, List.sum_cons, List.sum_nil, flipsLeft] at hcount
    have hok' : ∀ pc ∈ [afterChild p f], PcOk S pc := by
      intro pc hpc
      rw [List.mem_singleton.1 hpc]
      cases f
      · exact hok
      · trivial
    rcases e2 with ⟨rfl, g1, g2⟩ | ⟨rfl, g1⟩
    · simp only at g1 g2
      have hz : f = true ∧ s.scoring = [] := by
        rw [← List.length_eq_zero_iff]
        cases f
        · simp only [Bool.false_eq_true, if_false] at hcount
          exfalso; omega
        · simp only [if_true] at hcount
          exact ⟨rfl, by omega⟩
      obtain ⟨rfl, hz⟩ := hz
      rw [hz] at hcount
      refine { hi with
        noPanic := by simp, selBusy := by simp, wantBusy := by simp
        doneBusy := fun _ => ⟨rfl, hz, g2, by simp at hcount ⊢; omega⟩
        count := by
          have : flipsLeft (afterChild p true) = 0 := rfl
          simp only [hz, List.map_cons, List.map_nil, List.sum_cons, List.sum_nil, this]
          simp at hcount ⊢; omega
        alive := by simp, wantNil := by simp, wantOk := by simp
        busyOk := hok' }
    · refine { hi with
        noPanic := by simp, selBusy := fun _ => ⟨_, rfl⟩, wantBusy := by simp
        doneBusy := by simp
        count := by
          simp only [List.map_cons, List.map_nil, List.sum_cons, List.sum_nil]; omega
        alive := fun _ => g1, wantNil := by simp, wantOk := by simp
        busyOk := hok' }
  | readyNil hm hb hq =>
    rw [hb, hm] at hcount
    have halive := hi.alive (by rw [hm]; simp)
    refine { hi with
      noPanic := by simp, selBusy := by simp, wantBusy := by simp, doneBusy := by simp
      count := by simpa [flipsLeft] using hcount
      alive := fun _ => halive, wantNil := fun _ => hq, wantOk := by simp, busyOk := by simp }
  | readyNode n rest hm hb hq =>
    rw [hb, hm] at hcount
    have hok := hi.queueOk n (by simp [hq])
    refine { hi with
      noPanic := by simp, selBusy := by simp, wantBusy := by simp, doneBusy := by simp
      count := by simp [flipsLeft] at hcount ⊢; omega
      alive := fun _ => Or.inl (by simp [flipsLeft] at hcount ⊢; omega), wantNil := by simp
      wantOk := ?_, busyOk := by simp
      queueOk := fun x hx => hi.queueOk x (by simp [hq, hx]) }
    intro x hx
    simp only [MainPc.sendWant.injEq, Option.some.injEq] at hx
    subst hx
    exact hok.1.parentOk hok.2
  | scoreOld i n hm hidx hn =>
    exact scoreCase i n _ hm hidx rfl rfl rfl (List.Sublist.refl _) hi.logOk hi.hist hi.checked
  | scoreNew i n hs' hm hidx hn hins =>
    obtain ⟨q, b, e1, e2, e3⟩ := afterInsert_spec { s with
        scoring := s.scoring.eraseIdx i
        inProgress := s.inProgress - 1
        progress := (s.hs.bestScore, s.numChecked, s.pruned) :: s.progress } (scoreWorker S n) hs'
    rw [e1]
    refine scoreCase i n _ hm hidx rfl rfl rfl e2 ?_ ?_ ?_
    · intro x hx
      rcases List.mem_append.1 hx with hx | hx
      · exact hi.logOk x hx
      · rw [List.mem_singleton.1 hx, scoreWorker_isNew]
        exact ⟨⟨n, hi.scoringOk n (List.mem_of_getElem? hidx), rfl⟩, hn⟩
    · show (newHighscore M).insertAll (pre ++ (s.log ++ [scoreWorker S n])) = some hs'
      rw [← List.append_assoc, insertAll_snoc, hi.hist, Option.bind_some, hins]
    · simp [hi.checked]

theorem SInv.init {S : Search α} {M : Int} {pre : List (Node α)} {hs : Highscore α}
    {s₀ : SState α} (h1 : (newHighscore M).insertAll pre = some hs) (h2 : sinit S hs = some s₀) :
    SInv S M pre s₀ := by
  unfold sinit at h2
  split at h2
  · cases h2
  · split at h2
    · cases h2
    · rename_i a b
      cases h2
      have hm : (newNode (α := α) 0 S.root).model = S.root := goCopy_replicate _ _
      constructor <;> try simp <;> done
      · omega
      · simpa using b
      · intro n hn
        simp only [MainPc.sendWant.injEq, Option.some.injEq] at hn
        subst hn
        exact ⟨by rw [hm]; simpa using b, by simp [newNode]; omega, by rw [hm]; simp⟩
      · simpa using h1

theorem SInv.reach {S : Search α} {M : Int} (hM : M ≠ 1) {pre : List (Node α)} {s : SState α}
    (h : SelectReaches S M pre s) : SInv S M pre s := by
  obtain ⟨hs, s₀, h1, h2, h3⟩ := h
  induction h3 with
  | init => exact SInv.init h1 h2
  | step a _ hst ih => exact ih.preserved (ih.classify hM hst)

/-- Induction over runs with the structural invariant at hand. -/
theorem SelectReaches.induct {S : Search α} {M : Int} (hM : M ≠ 1) {pre : List (Node α)}
    (I : SState α → Prop)
    (hinit : ∀ hs s₀, (newHighscore M).insertAll pre = some hs → sinit S hs = some s₀ → I s₀)
    (hstep : ∀ s s' a, SInv S M pre s → I s → SStep S s a s' → I s')
    {s : SState α} (h : SelectReaches S M pre s) : I s := by
  obtain ⟨hs, s₀, h1, h2, h3⟩ := h
  have : SInv S M pre s ∧ I s := by
    induction h3 with
    | init => exact ⟨SInv.init h1 h2, hinit hs s₀ h1 h2⟩
    | step a _ hst ih =>
      have hss := ih.1.classify hM hst
      exact ⟨ih.1.preserved hss, hstep _ _ a ih.1 ih.2 hss⟩
  exact this.2

end GoSelect
