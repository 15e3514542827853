import Verif.Proofs.SelectTerm
import Verif.Proofs.BruteForce
import Verif.Props.C08_C11
import Verif.Spec.Search
import Mathlib.Algebra.Order.Group.Defs
import Mathlib.Algebra.Order.Group.Basic

/-! Coverage invariants of `SelectModel` runs: nothing is scored twice, nothing is forgotten. -/

namespace GoSelect

open Spec
open scoped List

variable {α : Type}

/-- Models strictly below a node. -/
def below (S : Search α) (n : Node α) : List (List Bool) :=
  descend n.model n.level (S.ncols - n.level)

/-- Models a node still to be scored stands for. -/
def covSelf (S : Search α) (n : Node α) : List (List Bool) :=
  (if isNewNode n then [n.model] else []) ++ below S n

/-- Models below the child `f` of `p`, with the child itself if it is new. -/
def covFlip (S : Search α) (p : Node α) (f : Bool) : List (List Bool) :=
  if f then flipAt p.model p.level ::
    descend (flipAt p.model p.level) (p.level + 1) (S.ncols - (p.level + 1))
  else descend p.model (p.level + 1) (S.ncols - (p.level + 1))

/-- Models of the children after the current one. -/
def covRest (S : Search α) (p : Node α) (f : Bool) : List (List Bool) :=
  if f then [] else covFlip S p true

/-- Models a worker stands for. -/
def covPc (S : Search α) : ChildPc α → List (List Bool)
  | .make p f => covFlip S p f ++ covRest S p f
  | .readLen p f _ _ => covFlip S p f ++ covRest S p f
  | .sendNode p f _ => covFlip S p f ++ covRest S p f
  | .sendPrune p f => covRest S p f
  | .ready => []

/-- Models the main loop stands for. -/
def covMain (S : Search α) : MainPc α → List (List Bool)
  | .sendWant (some n) => below S n
  | _ => []

/-- How often a model is still going to be looked at. -/
def covCount (S : Search α) (m : List Bool) (s : SState α) : Nat :=
  (covMain S s.main).count m + (s.busy.map (fun pc => (covPc S pc).count m)).sum +
    (s.scoring.map (fun n => (covSelf S n).count m)).sum +
    (s.queue.map (fun n => (below S n).count m)).sum

theorem covFlip_below (S : Search α) (p : Node α) (hl : p.level < S.ncols) :
    below S p = covFlip S p false ++ covFlip S p true := by
  have hk : S.ncols - p.level = (S.ncols - (p.level + 1)) + 1 := by omega
  simp [below, covFlip, hk, descend]

theorem covPc_afterChild (S : Search α) (p : Node α) (f : Bool) :
    covPc S (afterChild p f) = covRest S p f := by
  cases f <;> simp [afterChild, covPc, covRest]

section
variable [LT α] [DecidableLT α] [DecidableEq α] [Zero α] [Neg α]

theorem covSelf_child {S : Search α} {p c : Node α} {f : Bool} (hp : ParentOk S p)
    (h : boundedChild S p f = some (some c)) : covSelf S c = covFlip S p f := by
  obtain ⟨h1, h2, h3, -, -⟩ := boundedChild_some hp h
  have hn : isNewNode c = f := by simp [isNewNode, h2, h3]
  unfold covSelf below
  rw [hn, h1, h2]
  cases f <;> simp [covFlip]

theorem below_scoreWorker (S : Search α) (n : Node α) : below S (scoreWorker S n) = below S n := by
  simp [below, scoreWorker_level, scoreWorker_model]

theorem below_of_level {S : Search α} {n : Node α} (h : ¬ n.level < S.ncols) : below S n = [] := by
  have : S.ncols - n.level = 0 := by omega
  simp [below, this, descend]

/-- (A) Steps never create new obligations; an inserted model is taken off the list. -/
theorem covCount_step {S : Search α} {M : Int} {pre : List (Node α)} {s s' : SState α} {a : Action}
    (hi : SInv S M pre s) (h : SStep S s a s') (m : List Bool) :
    (s'.log.map (·.model)).count m + covCount S m s' ≤
      (s.log.map (·.model)).count m + covCount S m s := by
  have hsel : s.main = .select → covMain S s.main = [] := by intro h; rw [h]; rfl
  have scoreCase : ∀ (i : Nat) (n : Node α) (s1 : SState α), s.main = .select →
      s.scoring[i]? = some n → s1.scoring = s.scoring.eraseIdx i → s1.busy = s.busy →
      s1.queue <+ s.queue →
      covCount S m (afterScore S s1 (scoreWorker S n)) +
        (if isNewNode n then [n.model] else []).count m ≤ covCount S m s ∧
      (afterScore S s1 (scoreWorker S n)).log = s1.log := by
    intro i n s1 hm hidx e2 e3 e4
    obtain ⟨mm, q, k, f1, f2, -, f3⟩ := afterScore_spec S s1 (scoreWorker S n)
    have hp := sum_perm (fun n => (covSelf S n).count m) (eraseIdx_perm hidx)
    have hq := sum_sublist (fun n => (below S n).count m) f2
    have hq2 := sum_sublist (fun n => (below S n).count m) e4
    have hmain : covMain S mm = [] := by
      rcases f3 with ⟨rfl, -⟩ | ⟨rfl, -⟩ <;> rfl
    rw [f1]
    refine ⟨?_, rfl⟩
    simp only [List.map_cons, List.sum_cons] at hp
    simp only [covCount, hmain, hsel hm, e2, e3, hp]
    have hsplit : (covSelf S n).count m =
        (if isNewNode n then [n.model] else []).count m + (below S n).count m := by
      rw [covSelf, List.count_append]
    split at hq
    · simp only [List.map_append, List.map_cons, List.map_nil, List.sum_append, List.sum_cons,
        List.sum_nil, below_scoreWorker] at hq
      omega
    · omega
  cases h with
  | want node hm hb =>
    cases node with
    | none => simp [covCount, hm, hb, covMain, pcOf, covPc]
    | some p =>
      have hl := (hi.wantOk p hm).lvl
      have hx : covMain S s.main = below S p := by rw [hm]; rfl
      have hy : covPc S (pcOf (some p)) = covFlip S p false ++ covRest S p false := rfl
      simp only [covCount, hx, hb, covFlip_below S p hl, hy, covRest, List.map_cons, List.map_nil,
        List.sum_cons, List.sum_nil, List.count_append, Bool.false_eq_true, if_false]
      simp [covMain]
  | rbPrune p f hm hb hc =>
    have h0 : covPc S (.sendPrune p f) = covRest S p f := rfl
    have h1 : covPc S (.make p f) = covFlip S p f ++ covRest S p f := rfl
    simp only [covCount, hb, h0, h1, List.map_cons, List.map_nil, List.sum_cons, List.sum_nil,
      List.count_append]
    omega
  | rbBound p f c hm hb hc hlt =>
    have h0 : covPc S (.readLen p f c (s.hs.len == 0)) = covFlip S p f ++ covRest S p f := rfl
    have h1 : covPc S (.make p f) = covFlip S p f ++ covRest S p f := rfl
    simp only [covCount, hb, h0, h1, List.map_cons, List.map_nil, List.sum_cons, List.sum_nil]
    omega
  | rbSend p f c hm hb hc hlt =>
    have h0 : covPc S (.sendNode p f c) = covFlip S p f ++ covRest S p f := rfl
    have h1 : covPc S (.make p f) = covFlip S p f ++ covRest S p f := rfl
    simp only [covCount, hb, h0, h1, List.map_cons, List.map_nil, List.sum_cons, List.sum_nil]
    omega
  | rlPrune p f c e hm hb hlen =>
    have h0 : covPc S (.sendPrune p f) = covRest S p f := rfl
    have h1 : covPc S (.readLen p f c e) = covFlip S p f ++ covRest S p f := rfl
    simp only [covCount, hb, h0, h1, List.map_cons, List.map_nil, List.sum_cons, List.sum_nil,
      List.count_append]
    omega
  | rlSend p f c e hm hb hlen =>
    have h0 : covPc S (.sendNode p f c) = covFlip S p f ++ covRest S p f := rfl
    have h1 : covPc S (.readLen p f c e) = covFlip S p f ++ covRest S p f := rfl
    simp only [covCount, hb, h0, h1, List.map_cons, List.map_nil, List.sum_cons, List.sum_nil]
    omega
  | send p f c hm hb hs =>
    have hok := hi.busyOk (.sendNode p f c) (by simp [hb])
    have h0 := covSelf_child hok.1 hok.2
    have h1 : covPc S (.sendNode p f c) = covFlip S p f ++ covRest S p f := rfl
    simp only [covCount, hb, h0, h1, covPc_afterChild, List.map_append, List.map_cons,
      List.map_nil, List.sum_append, List.sum_cons, List.sum_nil, List.count_append]
    omega
  | prune p f hm hb =>
    obtain ⟨mm, e1, e2⟩ := loopOrExit_spec { s with
        busy := [afterChild p f], pruned := p.level :: s.pruned, inProgress := s.inProgress - 1 }
    rw [e1]
    have hmain : covMain S mm = [] := by
      rcases e2 with ⟨rfl, -⟩ | ⟨rfl, -⟩ <;> rfl
    have h1 : covPc S (.sendPrune p f) = covRest S p f := rfl
    simp only [covCount, hb, hmain, h1, covPc_afterChild, List.map_cons, List.map_nil,
      List.sum_cons, List.sum_nil, hsel hm]
    omega
  | readyNil hm hb hq => simp [covCount, hm, hb, hq, covMain, covPc]
  | readyNode n rest hm hb hq =>
    have h1 : covPc S (.ready : ChildPc α) = [] := rfl
    have h2 : covMain S (.sendWant (some n)) = below S n := rfl
    simp only [covCount, hb, hq, h1, h2, hsel hm, List.map_cons, List.map_nil, List.sum_cons,
      List.sum_nil]
    simp
    omega
  | scoreOld i n hm hidx hn =>
    have := scoreCase i n { s with
        scoring := s.scoring.eraseIdx i
        inProgress := s.inProgress - 1
        progress := (s.hs.bestScore, s.numChecked, s.pruned) :: s.progress } hm hidx rfl rfl
        (List.Sublist.refl _)
    rw [this.2]
    have h := this.1
    simp only at h ⊢
    omega
  | scoreNew i n hs' hm hidx hn hins =>
    obtain ⟨q, b, e1, e2, e3⟩ := afterInsert_spec { s with
        scoring := s.scoring.eraseIdx i
        inProgress := s.inProgress - 1
        progress := (s.hs.bestScore, s.numChecked, s.pruned) :: s.progress } (scoreWorker S n) hs'
    rw [e1]
    have := scoreCase i n { s with
        scoring := s.scoring.eraseIdx i
        inProgress := s.inProgress - 1
        progress := (s.hs.bestScore, s.numChecked, s.pruned) :: s.progress
        hs := hs'
        log := s.log ++ [scoreWorker S n]
        numChecked := s.numChecked + 1
        queue := q
        best := b } hm hidx rfl rfl e2
    rw [this.2]
    have h := this.1
    simp only [hn, if_true] at h
    simp only [List.map_append, List.map_cons, List.map_nil, List.count_append, scoreWorker_model]
    omega

theorem newNode_model {S : Search α} : (newNode (α := α) 0 S.root).model = S.root :=
  goCopy_replicate _ _

theorem covCount_reach {S : Search α} {M : Int} (hM : M ≠ 1) {pre : List (Node α)} {s : SState α}
    (h : SelectReaches S M pre s) (m : List Bool) :
    (s.log.map (·.model)).count m + covCount S m s ≤ (descend S.root 0 S.ncols).count m := by
  refine h.induct hM (fun s => (s.log.map (·.model)).count m + covCount S m s ≤
    (descend S.root 0 S.ncols).count m) ?_ ?_
  · intro hs s₀ _ h2
    unfold sinit at h2
    split at h2
    · cases h2
    · split at h2
      · cases h2
      · cases h2
        simp [covCount, covMain, below, newNode, goCopy_replicate]
  · intro s s' a hi hI hst
    exact (covCount_step hi hst m).trans hI

/-- Nothing is inserted twice and the root is never inserted. -/
theorem log_spec {S : Search α} {M : Int} (hM : M ≠ 1) {pre : List (Node α)} {s : SState α}
    (h : SelectReaches S M pre s) :
    (s.log.map (·.model)).Nodup ∧ (∀ n ∈ s.log, n.model ≠ S.root) ∧
      s.log.length + 1 ≤ 2 ^ S.ncols := by
  have hi := SInv.reach hM h
  have hk : 0 + S.ncols = S.root.length := by simp [hi.rootLen]
  have hnd := descend_nodup hk
  have hcount : ∀ m, (s.log.map (·.model)).count m ≤ (descend S.root 0 S.ncols).count m := by
    intro m
    have := covCount_reach hM h m
    omega
  have hsub : (s.log.map (·.model)).Subperm (descend S.root 0 S.ncols) :=
    List.subperm_ext_iff.2 (fun m _ => hcount m)
  refine ⟨List.nodup_iff_count_le_one.2 (fun m => (hcount m).trans
    (List.nodup_iff_count_le_one.1 hnd m)), fun n hn => ?_, ?_⟩
  · exact ((mem_descend hk).1 (hsub.subset (List.mem_map_of_mem hn))).2
  · have := hsub.length_le
    rw [List.length_map] at this
    have h2 := descend_length S.root 0 S.ncols
    omega

theorem madeScored_spec {S : Search α} {n : Node α} (h : MadeScored S n)
    (hnew : isNewNode n = true) :
    n.model.length = S.ncols ∧ card n.model < S.nrows ∧
      (0 < card n.model → n.score = -S.aicc (card n.model) S.nrows (S.rss n.model) ∧
        n.coeff = S.fit n.model) ∧
      (card n.model = 0 → n.score = -S.maxFloat) := by
  obtain ⟨n₀, hn₀, rfl⟩ := h
  obtain ⟨p, f, hp, hb⟩ := hn₀
  obtain ⟨-, -, -, h4, -⟩ := boundedChild_some hp hb
  rw [numFeatures_eq_card] at h4
  have hlen := Made.length ⟨p, f, hp, hb⟩
  rw [scoreWorker_isNew] at hnew
  simp only [scoreWorker_model]
  refine ⟨hlen, h4, fun hpos => ?_, fun hz => ?_⟩
  · have : 0 < numFeatures n₀.model ∧ isNewNode n₀ = true := by
      rw [numFeatures_eq_card]; exact ⟨hpos, hnew⟩
    rw [scoreWorker, if_pos this]
    simp [scoreNode, numFeatures_eq_card]
  · have : ¬ (0 < numFeatures n₀.model ∧ isNewNode n₀ = true) := by
      rw [numFeatures_eq_card]; omega
    rw [scoreWorker, if_neg this]

theorem mem_below {S : Search α} {n : Node α} (hlen : n.model.length = S.ncols)
    (hl : n.level ≤ S.ncols) {m : List Bool} (h : m ∈ below S n) :
    SamePrefix n.level n.model m := ((mem_descend (by omega)).1 h).1

theorem mem_covSelf {S : Search α} {c : Node α} (hc : Made S c) {m : List Bool}
    (h : m ∈ covSelf S c) : SamePrefix c.level c.model m := by
  rcases List.mem_append.1 h with h | h
  · split at h
    · rw [List.mem_singleton.1 h]; exact samePrefix_refl _ _
    · simp at h
  · exact mem_below hc.length hc.level.2 h

theorem mem_covFlip {S : Search α} {p : Node α} (hp : ParentOk S p) {f : Bool} {m : List Bool}
    (h : m ∈ covFlip S p f) :
    SamePrefix (p.level + 1) (if f then flipAt p.model p.level else p.model) m := by
  have hl := hp.lvl
  have hlen := hp.len
  unfold covFlip at h
  split at h
  · simp only [*, if_true]
    rcases List.mem_cons.1 h with rfl | h
    · exact samePrefix_refl _ _
    · exact ((mem_descend (by rw [flipAt_length]; omega)).1 h).1
  · simp only [*]
    exact ((mem_descend (by omega)).1 h).1

/-- A child that is dropped because it has too many features covers no competing model. -/
theorem rowPrune_safe {S : Search α} (hr : RowSafe S) {p : Node α} (hp : ParentOk S p) {f : Bool}
    (hc : boundedChild S p f = some none) {m : List Bool} (hm : m ∈ covFlip S p f)
    (hcand : Candidate S m) : False := by
  have hge := boundedChild_none hp hc
  have hpre := mem_covFlip hp hm
  rw [numFeatures_eq_card] at hge
  set c := (if f then flipAt p.model p.level else p.model) with hcdef
  rcases hr with hr | hr
  · have hsub : ContainedIn c m := by
      intro i hi
      by_cases hlt : i < p.level + 1
      · unfold HasFeature at *
        rw [← hpre.2 i hlt]; exact hi
      · exfalso
        unfold HasFeature at hi
        have : c[i]? = S.root[i]? := by
          rw [hcdef]
          split
          · rw [flipAt_getElem?, if_neg (by omega)]
            exact hp.suffix i (by omega)
          · exact hp.suffix i (by omega)
        rw [this, hr, List.getElem?_replicate] at hi
        split at hi <;> simp at hi
    have := card_le_of_contained hsub
    have := hcand.2.2
    omega
  · have h1 : card c ≤ c.length := by rw [card_eq_count]; exact List.count_le_length
    rw [hpre.1, hcand.1] at h1
    omega

theorem candidate_notin_old {S : Search α} {n : Node α} (h : isNewNode n = false) {m : List Bool}
    (hm : m ∈ covSelf S n) : m ∈ below S n := by
  simpa [covSelf, h] using hm

end

/-! ### (B) coverage -/

/-- `m` is still going to be looked at. -/
def Covered (S : Search α) (s : SState α) (m : List Bool) : Prop :=
  m ∈ covMain S s.main ∨ (∃ pc ∈ s.busy, m ∈ covPc S pc) ∨ (∃ n ∈ s.scoring, m ∈ covSelf S n) ∨
    ∃ n ∈ s.queue, m ∈ below S n

instance [LinearOrder α] [AddCommGroup α] [IsOrderedAddMonoid α] : NegReverses α where
  neg_le_neg _ _ h := neg_le_neg h
  neg_le_of _ _ h := neg_le.1 h

theorem Spec.ValidBounds.safe [LinearOrder α] [Neg α] {S : Search α} (h : ValidBounds S) (pre : List (Node α)) :
    SafeBounds S pre := ⟨h.1, fun m hm _ _ hv => hv.le.trans (h.2 m hm)⟩

theorem Spec.SafeBounds.upTo [LinearOrder α] [Neg α] {S : Search α} {pre : List (Node α)} (h : SafeBounds S pre) :
    BoundsUpTo S pre (aiccOf S) := ⟨h.1, h.2, fun _ _ => le_rfl⟩

variable [LinearOrder α] [Zero α] [Neg α]

/-- `BestScore()` of a list that is not empty. -/
theorem SInv.scored {S : Search α} {M : Int} (hM : 2 ≤ M) {pre : List (Node α)} {s : SState α}
    (hi : SInv S M pre s) (hne : s.hs.items ≠ []) : BestValue S pre s.hs.bestScore := by
  have hh : pre ++ s.log ≠ [] := by
    intro h0
    have := (insertAll_inv hi.hist).2.le_hist
    rw [h0] at this
    simp at this
    exact hne this
  obtain ⟨-, ⟨n, hn, he⟩, -⟩ := C11_best_is_max M hM _ hh _ hi.hist
  rcases List.mem_append.1 hn with hn | hn
  · exact Or.inl ⟨n, hn, he.symm⟩
  · right
    obtain ⟨a, b⟩ := hi.logOk n hn
    obtain ⟨h1, h2, h3, h4⟩ := madeScored_spec a b
    rcases Nat.eq_zero_or_pos (card n.model) with hz | hz
    · exact Or.inr (by rw [← he]; exact h4 hz)
    · exact Or.inl ⟨n.model, ⟨h1, hz, h2⟩, by rw [← he]; exact (h3 hz).1⟩

variable [NegReverses α]

/-- The model was inserted, or a node above it has a lower bound that exceeds the best criterion value. -/
def Found (S : Search α) (s : SState α) (m : List Bool) : Prop :=
  (∃ n ∈ s.log, n.model = m) ∨
    s.hs.items ≠ [] ∧ ∃ c, Made S c ∧ m ∈ covSelf S c ∧ -s.hs.bestScore < c.lower

/-- Some node is in the list and the best score is at least `-g m`. -/
def Beaten (g : List Bool → α) (s : SState α) (m : List Bool) : Prop :=
  s.hs.items ≠ [] ∧ -g m ≤ s.hs.bestScore

/-- A node whose lower bound exceeds the best criterion value covers only beaten models. -/
theorem beaten_of_bound {S : Search α} {pre : List (Node α)} {g : List Bool → α} (hv : BoundsUpTo S pre g) {c : Node α} (hc : Made S c)
    {s : SState α} (hne : s.hs.items ≠ []) (hsc : BestValue S pre s.hs.bestScore) (hlt : -s.hs.bestScore < c.lower)
    {m : List Bool} (hm : Candidate S m) (hp : SamePrefix c.level c.model m) : Beaten g s m := by
  refine ⟨hne, NegReverses.neg_le_of _ _ ?_⟩
  obtain ⟨p, f, hp', hb⟩ := hc
  obtain ⟨h1, h2, h3, h4, h5⟩ := boundedChild_some hp' hb
  have hl := Made.level ⟨p, f, hp', hb⟩
  have hlen := Made.length ⟨p, f, hp', hb⟩
  rw [h5] at hlt
  split at hlt
  · rename_i hpos
    rw [numFeatures_eq_card] at hpos
    exact (hlt.trans_le (hv.bound _ _ _ hlen hl.2 hpos hp hm)).le
  · exact hv.empty m hm _ hsc hlt

/-- Coverage invariant. -/
structure CInv (S : Search α) (s : SState α) : Prop where
  ghost : ∀ p f c, ChildPc.readLen p f c false ∈ s.busy →
    s.hs.items ≠ [] ∧ -s.hs.bestScore < c.lower
  cover : s.torn = false → s.overflows = 0 → ∀ m, m ∈ descend S.root 0 S.ncols → Candidate S m →
    Covered S s m ∨ Found S s m

theorem insert_best {M : Int} (hM : 2 ≤ M) {ns : List (Node α)} {h h' : Highscore α} {x : Node α}
    (hh : (newHighscore M).insertAll ns = some h) (hi : h.insert x = some h') :
    h'.items ≠ [] ∧ x.score ≤ h'.bestScore ∧ (h.items ≠ [] → h.bestScore ≤ h'.bestScore) := by
  have hh' : (newHighscore M).insertAll (ns ++ [x]) = some h' := by
    rw [insertAll_snoc, hh, Option.bind_some, hi]
  obtain ⟨⟨n, hn, _⟩, -, hmax⟩ := C11_best_is_max M hM (ns ++ [x]) (by simp) h' hh'
  refine ⟨List.ne_nil_of_mem hn, hmax x (by simp), fun hne => ?_⟩
  have hns : ns ≠ [] := by
    rintro rfl
    have := (insertAll_inv hh).2.le_hist
    simp at this
    exact hne this
  exact C11_best_monotone M hM ns [x] hns h h' hh hh'

theorem CInv.preserved {S : Search α} {M : Int} (hM : 2 ≤ M) {pre : List (Node α)}
    (hr : RowSafe S) {s s' : SState α} {a : Action}
    (hi : SInv S M pre s) (hc : CInv S s) (h : SStep S s a s') : CInv S s' := by
  have hi' := hi.preserved h
  -- steps that touch neither list nor scoring: only the single worker changes
  have workerStep : ∀ (pc pc' : ChildPc α) (t : SState α), s.busy = [pc] → t.busy = [pc'] →
      t.main = s.main → t.hs = s.hs → t.scoring = s.scoring → t.queue = s.queue →
      (t.torn = false → s.torn = false) → t.overflows = s.overflows → t.log = s.log →
      (∀ p f c, ChildPc.readLen p f c false = pc' → s.hs.items ≠ [] ∧ -s.hs.bestScore < c.lower) →
      (t.torn = false → ∀ m, Candidate S m → m ∈ covPc S pc → m ∈ covPc S pc' ∨ Found S t m) →
      CInv S t := by
    intro pc pc' t hb hb' e1 e2 e3 e4 e5 e6 e7 hg hcov
    refine ⟨?_, ?_⟩
    · intro p f c hmem
      rw [hb'] at hmem
      rw [e2]
      exact hg p f c (List.mem_singleton.1 hmem)
    · intro ht ho m hm hcand
      rcases hc.cover (e5 ht) (by omega) m hm hcand with hcv | hbt
      · rcases hcv with h | ⟨x, hx, h⟩ | ⟨x, hx, h⟩ | ⟨x, hx, h⟩
        · exact Or.inl (Or.inl (by rw [e1]; exact h))
        · rw [hb, List.mem_singleton] at hx
          subst hx
          rcases hcov ht m hcand h with h | h
          · exact Or.inl (Or.inr (Or.inl ⟨pc', by simp [hb'], h⟩))
          · exact Or.inr h
        · exact Or.inl (Or.inr (Or.inr (Or.inl ⟨x, by rw [e3]; exact hx, h⟩)))
        · exact Or.inl (Or.inr (Or.inr (Or.inr ⟨x, by rw [e4]; exact hx, h⟩)))
      · exact Or.inr (by unfold Found at *; rw [e2, e7]; exact hbt)
  -- the two `score` cases
  have scoreCase : ∀ (i : Nat) (n : Node α) (s1 : SState α), s.main = .select →
      s.scoring[i]? = some n → s1.scoring = s.scoring.eraseIdx i → s1.busy = s.busy →
      s1.torn = s.torn → s1.overflows = s.overflows →
      (s.hs.items ≠ [] → s1.hs.items ≠ [] ∧ s.hs.bestScore ≤ s1.hs.bestScore) →
      (∀ x ∈ s.queue, x ∉ s1.queue → s1.hs.items ≠ [] ∧ -s1.hs.bestScore < x.lower) →
      (isNewNode n = true → scoreWorker S n ∈ s1.log) → (∀ x ∈ s.log, x ∈ s1.log) →
      CInv S (afterScore S s1 (scoreWorker S n)) := by
    intro i n s1 hm hidx e2 e3 e4 e5 hmono hq hnew hlog
    obtain ⟨mm, q, k, f1, f2, f2', f3⟩ := afterScore_spec S s1 (scoreWorker S n)
    have hmade : Made S n := hi.scoringOk n (List.mem_of_getElem? hidx)
    rw [f1]
    refine ⟨?_, ?_⟩
    · intro p f c hmem
      simp only [e3] at hmem
      obtain ⟨h1, h2⟩ := hc.ghost p f c hmem
      obtain ⟨h3, h4⟩ := hmono h1
      exact ⟨h3, lt_of_le_of_lt (NegReverses.neg_le_neg _ _ h4) h2⟩
    · intro ht ho m hmem hcand
      simp only at ht ho
      have hk : k = 0 := by omega
      have hqeq := f2' hk
      rcases hc.cover (by rw [← e4]; exact ht) (by omega) m hmem hcand with hcv | hbt
      · rcases hcv with h | ⟨x, hx, h⟩ | ⟨x, hx, h⟩ | ⟨x, hx, h⟩
        · rw [hm] at h; simp [covMain] at h
        · exact Or.inl (Or.inr (Or.inl ⟨x, by simpa [e3] using hx, h⟩))
        · have hx' := (eraseIdx_perm hidx).mem_iff.1 hx
          rcases List.mem_cons.1 hx' with rfl | hx'
          · -- the node that was just scored
            rcases List.mem_append.1 h with h | h
            · split at h
              · rename_i hn
                rw [List.mem_singleton] at h
                subst h
                exact Or.inr (Or.inl ⟨_, hnew hn, scoreWorker_model S x⟩)
              · simp at h
            · by_cases hl : (scoreWorker S x).level < S.ncols
              · refine Or.inl (Or.inr (Or.inr (Or.inr ⟨scoreWorker S x, ?_, ?_⟩)))
                · simp only [hqeq, if_pos hl]; simp
                · rw [below_scoreWorker]; exact h
              · rw [scoreWorker_level] at hl
                rw [below_of_level hl] at h
                simp at h
          · exact Or.inl (Or.inr (Or.inr (Or.inl ⟨x, by simpa [e2] using hx', h⟩)))
        · by_cases hx' : x ∈ s1.queue
          · refine Or.inl (Or.inr (Or.inr (Or.inr ⟨x, ?_, h⟩)))
            simp only [hqeq]
            split
            · simp [hx']
            · exact hx'
          · obtain ⟨h1, h2⟩ := hq x hx hx'
            obtain ⟨⟨n₀, hn₀, rfl⟩, hlv⟩ := hi.queueOk x hx
            rw [scoreWorker_lower] at h2
            rw [below_scoreWorker] at h
            exact Or.inr (Or.inr ⟨h1, n₀, hn₀, List.mem_append_right _ h, h2⟩)
      · rcases hbt with ⟨x, hx, h⟩ | ⟨h1, c, h2, h3, h4⟩
        · exact Or.inr (Or.inl ⟨x, hlog x hx, h⟩)
        · obtain ⟨h5, h6⟩ := hmono h1
          exact Or.inr (Or.inr ⟨h5, c, h2, h3, lt_of_le_of_lt (NegReverses.neg_le_neg _ _ h6) h4⟩)
  cases h with
  | want node hm hb =>
    refine ⟨?_, ?_⟩
    · intro p f c hmem
      simp only [List.mem_singleton] at hmem
      cases node <;> simp [pcOf] at hmem
    · intro ht ho m hmem hcand
      rcases hc.cover ht ho m hmem hcand with hcv | hbt
      · rcases hcv with h | ⟨x, hx, h⟩ | ⟨x, hx, h⟩ | ⟨x, hx, h⟩
        · cases node with
          | none => rw [hm] at h; simp [covMain] at h
          | some p =>
            have hl := (hi.wantOk p hm).lvl
            rw [hm] at h
            simp only [covMain, covFlip_below S p hl] at h
            refine Or.inl (Or.inr (Or.inl ⟨_, List.mem_singleton.2 rfl, ?_⟩))
            simpa [pcOf, covPc, covRest] using h
        · rw [hb] at hx; simp at hx
        · exact Or.inl (Or.inr (Or.inr (Or.inl ⟨x, hx, h⟩)))
        · exact Or.inl (Or.inr (Or.inr (Or.inr ⟨x, hx, h⟩)))
      · exact Or.inr hbt
  | rbPrune p f hm hb hcc =>
    refine workerStep _ _ _ hb rfl rfl rfl rfl rfl (fun h => h) rfl rfl (by simp) ?_
    intro _ m hcand hmem
    have hp : ParentOk S p := hi.busyOk (.make p f) (by rw [hb]; simp)
    rcases List.mem_append.1 hmem with h | h
    · exact (rowPrune_safe hr hp hcc h hcand).elim
    · exact Or.inl h
  | rbBound p f c hm hb hcc hlt =>
    refine workerStep _ _ _ hb rfl rfl rfl rfl rfl (fun h => h) rfl rfl ?_ ?_
    · intro p' f' c' he
      simp only [ChildPc.readLen.injEq] at he
      obtain ⟨-, -, rfl, h4⟩ := he
      refine ⟨?_, hlt⟩
      intro h0
      simp [Highscore.len, h0] at h4
    · exact fun _ m _ h => Or.inl h
  | rbSend p f c hm hb hcc hlt =>
    exact workerStep _ _ _ hb rfl rfl rfl rfl rfl (fun h => h) rfl rfl (by simp)
      (fun _ m _ h => Or.inl h)
  | rlPrune p f c e hm hb hlen =>
    refine workerStep _ _ _ hb rfl rfl rfl rfl rfl (fun h => by simp at h; exact h.1) rfl rfl (by simp) ?_
    intro ht m hcand hmem
    simp only [Bool.or_eq_false_iff] at ht
    obtain ⟨-, rfl⟩ := ht
    obtain ⟨h1, h2⟩ := hc.ghost p f c (by rw [hb]; simp)
    have hok := hi.busyOk (.readLen p f c false) (by rw [hb]; simp)
    rcases List.mem_append.1 hmem with h | h
    · rw [← covSelf_child hok.1 hok.2.1] at h
      have hmade : Made S c := ⟨p, f, hok.1, hok.2.1⟩
      exact Or.inr (Or.inr ⟨h1, c, hmade, h, h2⟩)
    · exact Or.inl h
  | rlSend p f c e hm hb hlen =>
    exact workerStep _ _ _ hb rfl rfl rfl rfl rfl (fun h => h) rfl rfl (by simp)
      (fun _ m _ h => Or.inl h)
  | send p f c hm hb hs =>
    have hok := hi.busyOk (.sendNode p f c) (by simp [hb])
    have h0 := covSelf_child hok.1 hok.2
    refine ⟨?_, ?_⟩
    · intro p' f' c' hmem
      simp only [List.mem_singleton] at hmem
      cases f <;> simp [afterChild] at hmem
    · intro ht ho m hmem hcand
      rcases hc.cover ht ho m hmem hcand with hcv | hbt
      · rcases hcv with h | ⟨x, hx, h⟩ | ⟨x, hx, h⟩ | ⟨x, hx, h⟩
        · exact Or.inl (Or.inl h)
        · rw [hb, List.mem_singleton] at hx
          subst hx
          rcases List.mem_append.1 h with h | h
          · exact Or.inl (Or.inr (Or.inr (Or.inl ⟨c, by simp, by rw [h0]; exact h⟩)))
          · exact Or.inl (Or.inr (Or.inl ⟨_, List.mem_singleton.2 rfl, by
              rw [covPc_afterChild]; exact h⟩))
        · exact Or.inl (Or.inr (Or.inr (Or.inl ⟨x, by simp [hx], h⟩)))
        · exact Or.inl (Or.inr (Or.inr (Or.inr ⟨x, hx, h⟩)))
      · exact Or.inr hbt
  | prune p f hm hb =>
    obtain ⟨mm, e1, e2⟩ := loopOrExit_spec { s with
        busy := [afterChild p f], pruned := p.level :: s.pruned, inProgress := s.inProgress - 1 }
    rw [e1]
    refine ⟨?_, ?_⟩
    · intro p' f' c' hmem
      simp only [List.mem_singleton] at hmem
      cases f <;> simp [afterChild] at hmem
    · intro ht ho m hmem hcand
      rcases hc.cover ht ho m hmem hcand with hcv | hbt
      · rcases hcv with h | ⟨x, hx, h⟩ | ⟨x, hx, h⟩ | ⟨x, hx, h⟩
        · rw [hm] at h; simp [covMain] at h
        · rw [hb, List.mem_singleton] at hx
          subst hx
          exact Or.inl (Or.inr (Or.inl ⟨_, List.mem_singleton.2 rfl, by
            rw [covPc_afterChild]; exact h⟩))
        · exact Or.inl (Or.inr (Or.inr (Or.inl ⟨x, hx, h⟩)))
        · exact Or.inl (Or.inr (Or.inr (Or.inr ⟨x, hx, h⟩)))
      · exact Or.inr hbt
  | readyNil hm hb hq =>
    refine ⟨by simp, ?_⟩
    intro ht ho m hmem hcand
    rcases hc.cover ht ho m hmem hcand with hcv | hbt
    · rcases hcv with h | ⟨x, hx, h⟩ | ⟨x, hx, h⟩ | ⟨x, hx, h⟩
      · rw [hm] at h; simp [covMain] at h
      · rw [hb, List.mem_singleton] at hx
        subst hx
        simp [covPc] at h
      · exact Or.inl (Or.inr (Or.inr (Or.inl ⟨x, hx, h⟩)))
      · exact Or.inl (Or.inr (Or.inr (Or.inr ⟨x, hx, h⟩)))
    · exact Or.inr hbt
  | readyNode n rest hm hb hq =>
    refine ⟨by simp, ?_⟩
    intro ht ho m hmem hcand
    rcases hc.cover ht ho m hmem hcand with hcv | hbt
    · rcases hcv with h | ⟨x, hx, h⟩ | ⟨x, hx, h⟩ | ⟨x, hx, h⟩
      · rw [hm] at h; simp [covMain] at h
      · rw [hb, List.mem_singleton] at hx
        subst hx
        simp [covPc] at h
      · exact Or.inl (Or.inr (Or.inr (Or.inl ⟨x, hx, h⟩)))
      · rw [hq] at hx
        rcases List.mem_cons.1 hx with rfl | hx
        · exact Or.inl (Or.inl h)
        · exact Or.inl (Or.inr (Or.inr (Or.inr ⟨x, hx, h⟩)))
    · exact Or.inr hbt
  | scoreOld i n hm hidx hn =>
    refine scoreCase i n _ hm hidx rfl rfl rfl rfl (fun h => ⟨h, le_rfl⟩) ?_ ?_ (fun x hx => hx)
    · intro x hx hx'; exact absurd hx hx'
    · intro h; rw [hn] at h; cases h
  | scoreNew i n hs' hm hidx hn hins =>
    obtain ⟨q, b, e1, e2, e3⟩ := afterInsert_spec { s with
        scoring := s.scoring.eraseIdx i
        inProgress := s.inProgress - 1
        progress := (s.hs.bestScore, s.numChecked, s.pruned) :: s.progress } (scoreWorker S n) hs'
    rw [e1] at hi' ⊢
    obtain ⟨h1, h2, h3⟩ := insert_best hM hi.hist hins
    refine scoreCase i n _ hm hidx rfl rfl rfl rfl (fun h => ⟨h1, h3 h⟩) ?_ ?_ ?_
    · intro x hx hx'
      exact ⟨h1, e3 x hx hx'⟩
    · intro _; simp
    · intro x hx; simp [hx]

theorem CInv.reach {S : Search α} {M : Int} (hM : 2 ≤ M) {pre : List (Node α)} (hr : RowSafe S)
    {s : SState α} (h : SelectReaches S M pre s) : CInv S s := by
  refine h.induct (by omega) (CInv S) ?_ (fun s s' a hi hc hst => hc.preserved hM hr hi hst)
  intro hs s₀ h1 h2
  have hi := SInv.init h1 h2
  unfold sinit at h2
  split at h2
  · cases h2
  · split at h2
    · cases h2
    · cases h2
      refine ⟨by simp, ?_⟩
      intro _ _ m hm _
      left; left
      simpa [covMain, below, newNode, goCopy_replicate] using hm

/-- When the search has finished every competing model other than the root was inserted, or a node above it was pruned. -/
theorem all_found {S : Search α} {M : Int} (hM : 2 ≤ M) {pre : List (Node α)} (hr : RowSafe S)
    {s : SState α} (h : SelectReaches S M pre s) (hd : s.main = .done)
    (ht : s.torn = false) (ho : s.overflows = 0) (m : List Bool) (hm : Candidate S m)
    (hroot : m ≠ S.root) : Found S s m := by
  have hi := SInv.reach (by omega : M ≠ 1) h
  have hc := CInv.reach hM hr h
  have hmem : m ∈ descend S.root 0 S.ncols := by
    rw [mem_descend (by simp [hi.rootLen])]
    exact ⟨⟨by rw [hi.rootLen, hm.1], by simp⟩, hroot⟩
  rcases hc.cover ht ho m hmem hm with hcv | hb
  · obtain ⟨d1, d2, d3, -⟩ := hi.doneBusy hd
    rcases hcv with h | ⟨x, hx, h⟩ | ⟨x, hx, h⟩ | ⟨x, hx, h⟩
    · rw [hd] at h; simp [covMain] at h
    · rw [d1, List.mem_singleton] at hx
      subst hx
      simp [covPc] at h
    · rw [d2] at hx; simp at hx
    · rw [d3] at hx; simp at hx
  · exact hb

/-- When the search has finished every competing model other than the root is beaten. -/
theorem all_beaten {S : Search α} {M : Int} (hM : 2 ≤ M) {pre : List (Node α)} {g : List Bool → α} (hv : BoundsUpTo S pre g) (hr : RowSafe S)
    {s : SState α} (h : SelectReaches S M pre s) (hd : s.main = .done)
    (ht : s.torn = false) (ho : s.overflows = 0) (m : List Bool) (hm : Candidate S m)
    (hroot : m ≠ S.root) : Beaten g s m := by
  have hi := SInv.reach (by omega : M ≠ 1) h
  rcases all_found hM hr h hd ht ho m hm hroot with ⟨n, hn, rfl⟩ | ⟨h1, c, h2, h3, h4⟩
  · obtain ⟨a, b⟩ := hi.logOk n hn
    obtain ⟨-, -, h3, -⟩ := madeScored_spec a b
    have hmem : n ∈ pre ++ s.log := List.mem_append_right _ hn
    obtain ⟨⟨x, hx, -⟩, -, hmax⟩ := C11_best_is_max M hM _ (List.ne_nil_of_mem hmem) s.hs hi.hist
    refine ⟨List.ne_nil_of_mem hx, le_trans (NegReverses.neg_le_neg _ _ (hv.own n.model hm)) ?_⟩
    have h5 := hmax n hmem
    rw [(h3 hm.2.1).1] at h5
    exact h5
  · exact beaten_of_bound hv h2 h1 (hi.scored hM h1) h4 hm (mem_covSelf h2 h3)

end GoSelect
