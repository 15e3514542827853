import Verif.Props.C20
import Verif.Props.C12_regression

/-!
# C159: what is known while the search is running
-/

namespace GoSelect

open Spec
open scoped List

section
variable {α : Type} [LinearOrder α] [Zero α] [Neg α]

/-- Neither flag is ever taken back. -/
theorem flags_step {S : Search α} {s s' : SState α} {a : Action} (h : SStep S s a s') :
    (s'.torn = false → s.torn = false) ∧ (s'.overflows = 0 → s.overflows = 0) := by
  cases h with
  | prune p f hm hb =>
    obtain ⟨mm, e1, -⟩ := loopOrExit_spec { s with
        busy := [afterChild p f], pruned := p.level :: s.pruned, inProgress := s.inProgress - 1 }
    rw [e1]
    exact ⟨id, id⟩
  | rlPrune p f c e hm hb hlen =>
    refine ⟨fun h => ?_, id⟩
    simp only [Bool.or_eq_false_iff] at h
    exact h.1
  | scoreOld i n hm hidx hn =>
    obtain ⟨mm, q, k, f1, -⟩ := afterScore_spec S { s with
        scoring := s.scoring.eraseIdx i
        inProgress := s.inProgress - 1
        progress := (s.hs.bestScore, s.numChecked, s.pruned) :: s.progress } (scoreWorker S n)
    rw [f1]
    exact ⟨id, fun h => by simp only at h; omega⟩
  | scoreNew i n hs' hm hidx hn hins =>
    obtain ⟨q, b, e1, -⟩ := afterInsert_spec { s with
        scoring := s.scoring.eraseIdx i
        inProgress := s.inProgress - 1
        progress := (s.hs.bestScore, s.numChecked, s.pruned) :: s.progress } (scoreWorker S n) hs'
    rw [e1]
    obtain ⟨mm, q', k, f1, -⟩ := afterScore_spec S { s with
        scoring := s.scoring.eraseIdx i
        inProgress := s.inProgress - 1
        progress := (s.hs.bestScore, s.numChecked, s.pruned) :: s.progress
        hs := hs'
        log := s.log ++ [scoreWorker S n]
        numChecked := s.numChecked + 1
        queue := q
        best := b } (scoreWorker S n)
    rw [f1]
    exact ⟨id, fun h => by simp only at h; omega⟩
  | _ => exact ⟨id, id⟩

/-- The models that are still going to be looked at. -/
def covList (S : Search α) (s : SState α) : List (List Bool) :=
  covMain S s.main ++ (s.busy.flatMap (covPc S) ++ (s.scoring.flatMap (covSelf S) ++ s.queue.flatMap (below S)))

theorem below_length (S : Search α) (n : Node α) : (below S n).length ≤ subtree S n.level := by
  have := descend_length n.model n.level (S.ncols - n.level)
  unfold below subtree
  omega

theorem covFlip_length (S : Search α) (p : Node α) (f : Bool) : (covFlip S p f).length ≤ subtree S (p.level + 1) := by
  unfold covFlip subtree
  cases f with
  | false =>
    have := descend_length p.model (p.level + 1) (S.ncols - (p.level + 1))
    simp only [Bool.false_eq_true, if_false]
    omega
  | true =>
    have := descend_length (flipAt p.model p.level) (p.level + 1) (S.ncols - (p.level + 1))
    simp only [if_true, List.length_cons]
    omega

theorem flatMap_length_le {A B : Type} (f : A → List B) (g : A → Nat) (l : List A) (h : ∀ a ∈ l, (f a).length ≤ g a) :
    (l.flatMap f).length ≤ (l.map g).sum := by
  induction l with
  | nil => simp
  | cons a l ih =>
    have h1 := h a (by simp)
    have h2 := ih (fun x hx => h x (by simp [hx]))
    simp only [List.flatMap_cons, List.length_append, List.map_cons, List.sum_cons]
    omega

theorem covList_length (S : Search α) (s : SState α) : (covList S s).length ≤ liveSub S s := by
  have h2 := flatMap_length_le (covPc S) (pcSub S) s.busy (fun pc _ => by
    cases pc with
    | make p f =>
      have := covFlip_length S p f
      have := covFlip_length S p true
      cases f <;> simp [covPc, pcSub, covRest] at * <;> omega
    | readLen p f c e =>
      have := covFlip_length S p f
      have := covFlip_length S p true
      cases f <;> simp [covPc, pcSub, covRest] at * <;> omega
    | sendNode p f c =>
      have := covFlip_length S p f
      have := covFlip_length S p true
      cases f <;> simp [covPc, pcSub, covRest] at * <;> omega
    | sendPrune p f =>
      have := covFlip_length S p true
      cases f <;> simp [covPc, pcSub, covRest] at * <;> omega
    | ready => simp [covPc])
  have h3 := flatMap_length_le (covSelf S) (fun n => subtree S n.level) s.scoring (fun n _ => by
    have := descend_length n.model n.level (S.ncols - n.level)
    unfold covSelf below subtree
    split <;> simp <;> omega)
  have h4 := flatMap_length_le (below S) (fun n => subtree S n.level) s.queue (fun n _ => below_length S n)
  unfold covList liveSub
  simp only [List.length_append]
  cases s.main with
  | sendWant o =>
    cases o with
    | some n =>
      have := below_length S n
      simp only [covMain]
      omega
    | none =>
      simp only [covMain, List.length_nil]
      omega
  | _ =>
    simp only [covMain, List.length_nil]
    omega

theorem covered_mem {S : Search α} {s : SState α} {m : List Bool} (h : Covered S s m) : m ∈ covList S s := by
  unfold covList
  rcases h with h | ⟨x, hx, h⟩ | ⟨x, hx, h⟩ | ⟨x, hx, h⟩
  · exact List.mem_append_left _ h
  · exact List.mem_append_right _ (List.mem_append_left _ (List.mem_flatMap.2 ⟨x, hx, h⟩))
  · exact List.mem_append_right _ (List.mem_append_right _ (List.mem_append_left _ (List.mem_flatMap.2 ⟨x, hx, h⟩)))
  · exact List.mem_append_right _ (List.mem_append_right _ (List.mem_append_right _ (List.mem_flatMap.2 ⟨x, hx, h⟩)))

variable [NegReverses α]

/-- A model that is better than the best one so far is still going to be looked at. -/
theorem better_covered {S : Search α} {M : Int} (hM : 2 ≤ M) {pre : List (Node α)} (hv : SafeBounds S pre) (hr : RowSafe S)
    {s : SState α} (h : SelectReaches S M pre s) (ht : s.torn = false) (ho : s.overflows = 0) {m : List Bool}
    (hm : Candidate S m) (hroot : m ≠ S.root) (hb : s.hs.bestScore < -aiccOf S m) :
    Covered S s m ∧ m ∉ s.log.map (·.model) := by
  have hi := SInv.reach (by omega : M ≠ 1) h
  have hmem : m ∈ descend S.root 0 S.ncols := by
    rw [mem_descend (by simp [hi.rootLen])]
    exact ⟨⟨by rw [hi.rootLen, hm.1], by simp⟩, hroot⟩
  have hlog : m ∉ s.log.map (·.model) := by
    intro hmem
    obtain ⟨n, hn, rfl⟩ := List.mem_map.1 hmem
    obtain ⟨a, b⟩ := hi.logOk n hn
    obtain ⟨-, -, h3, -⟩ := madeScored_spec a b
    have hmem : n ∈ pre ++ s.log := List.mem_append_right _ hn
    obtain ⟨-, -, hmax⟩ := C11_best_is_max M hM _ (List.ne_nil_of_mem hmem) s.hs hi.hist
    have h5 := hmax n hmem
    rw [(h3 hm.2.1).1] at h5
    exact absurd hb (not_lt.2 h5)
  refine ⟨?_, hlog⟩
  rcases (CInv.reach hM hr h).cover ht ho m hmem hm with hc | ⟨n, hn, rfl⟩ | ⟨h1, c, h2, h3, h4⟩
  · exact hc
  · exact absurd (List.mem_map.2 ⟨n, hn, rfl⟩) hlog
  · exact absurd hb (not_lt.2 (beaten_of_bound hv.upTo h2 h1 (hi.scored hM h1) h4 hm (mem_covSelf h2 h3)).2)

/-- The number of better models at any time. -/
theorem better_count {S : Search α} {M : Int} (hM : 2 ≤ M) {pre : List (Node α)} (hv : SafeBounds S pre) (hr : RowSafe S)
    {s : SState α} (h : SelectReaches S M pre s) (ht : s.torn = false) (ho : s.overflows = 0) (L : List (List Bool))
    (hL : L.Nodup) (hm : ∀ m ∈ L, Candidate S m ∧ m ≠ S.root ∧ s.hs.bestScore < -aiccOf S m) :
    L.length + prunedSub S s ≤ 2 ^ S.ncols ∧ L.length + s.log.length + 1 ≤ 2 ^ S.ncols := by
  have hM1 : M ≠ 1 := by omega
  have hi := SInv.reach hM1 h
  have hall := fun m hmL => better_covered hM hv hr h ht ho (hm m hmL).1 (hm m hmL).2.1 (hm m hmL).2.2
  constructor
  · have h1 : L.length ≤ (covList S s).length :=
      (List.subperm_of_subset hL (fun m hmL => covered_mem (hall m hmL).1)).length_le
    have h2 := covList_length S s
    have h3 := (liveSub_reach hM1 h).1
    omega
  · obtain ⟨l1, l2, -⟩ := log_spec hM1 h
    have hk : 0 + S.ncols = S.root.length := by simp [hi.rootLen]
    have hsub : (L ++ s.log.map (·.model)) ⊆ descend S.root 0 S.ncols := by
      intro m hmm
      rw [mem_descend hk]
      rcases List.mem_append.1 hmm with hmm | hmm
      · exact ⟨⟨by rw [hi.rootLen, (hm m hmm).1.1], by simp⟩, (hm m hmm).2.1⟩
      · obtain ⟨n, hn, rfl⟩ := List.mem_map.1 hmm
        obtain ⟨a, b⟩ := hi.logOk n hn
        exact ⟨⟨by rw [hi.rootLen, (madeScored_spec a b).1], by simp⟩, l2 n hn⟩
    have hnd : (L ++ s.log.map (·.model)).Nodup := by
      rw [List.nodup_append]
      exact ⟨hL, l1, fun a ha b hb hab => (hall a ha).2 (hab ▸ hb)⟩
    have h1 := (List.subperm_of_subset hnd hsub).length_le
    have h2 := descend_length S.root 0 S.ncols
    rw [List.length_append, List.length_map] at h1
    omega

/-- The reported number of pruned models is one more than twice their number. -/
theorem reported_double {S : Search α} {M : Int} (hM : M ≠ 1) {pre : List (Node α)} {s : SState α}
    (h : SelectReaches S M pre s) (p : α × Nat × List Nat) (hp : p ∈ s.progress) :
    (2 : ℝ) ^ reportedLog2 S p = 1 + 2 * ((p.2.2.map (fun l => subtree S (l + 1))).sum : Nat) := by
  have hsuf := ((progress_reach hM h).2 p hp).2
  have hlt : ∀ l ∈ p.2.2, l < S.ncols := fun l hl => pruned_lt hM h l (hsuf.subset hl)
  have hdouble : ∀ ls : List Nat, (∀ l ∈ ls, l < S.ncols) →
      (ls.map (fun l => 2 ^ (S.ncols - l))).sum = 2 * (ls.map (fun l => subtree S (l + 1))).sum := by
    intro ls hls
    induction ls with
    | nil => rfl
    | cons l ls ih =>
      have h2 := subtree_split S (hls l (by simp))
      simp only [List.map_cons, List.sum_cons, ih (fun x hx => hls x (by simp [hx]))]
      unfold subtree at h2 ⊢
      omega
  have h2 : (2 : ℝ) ^ reportedLog2 S p = 1 + ((p.2.2.map (fun l => 2 ^ (S.ncols - l))).sum : Nat) :=
    two_pow_log2Pruned _ _ fun l hl => (hlt l hl).le
  rw [h2, hdouble _ hlt]
  push_cast
  ring

/-- **C159 (reports).** At the time of a report at most `2 ^ ncols - (2 ^ Log2NumPruned - 1) / 2` models are better than the
reported best score, and at most `2 ^ ncols - 1 - NumExplored`. -/
theorem C159_report (S : Search α) (M : Int) (hM : 2 ≤ M) (pre : List (Node α)) (hv : SafeBounds S pre) (hr : RowSafe S)
    (s : SState α) (h : SelectReaches S M pre s) (ht : s.torn = false) (ho : s.overflows = 0)
    (p : α × Nat × List Nat) (hp : p ∈ s.progress) (L : List (List Bool)) (hL : L.Nodup)
    (hm : ∀ m ∈ L, Candidate S m ∧ m ≠ S.root ∧ p.1 < -aiccOf S m) :
    (L.length : ℝ) ≤ 2 ^ S.ncols - (2 ^ reportedLog2 S p - 1) / 2 ∧ L.length + p.2.1 + 1 ≤ 2 ^ S.ncols := by
  have hM1 : M ≠ 1 := by omega
  have key : s.torn = false → s.overflows = 0 → ∀ p ∈ s.progress, (∀ m ∈ L, Candidate S m ∧ m ≠ S.root ∧ p.1 < -aiccOf S m) →
      L.length + (p.2.2.map (fun l => subtree S (l + 1))).sum ≤ 2 ^ S.ncols ∧ L.length + p.2.1 + 1 ≤ 2 ^ S.ncols := by
    clear hp hm ht ho
    obtain ⟨hs, s₀, h1, h2, h3⟩ := h
    induction h3 with
    | init =>
      intro _ _ p hp
      unfold sinit at h2
      split at h2
      · cases h2
      · split at h2
        · cases h2
        · cases h2
          simp at hp
    | step a h3 hst ih =>
      rename_i s s'
      have hreach : SelectReaches S M pre s := ⟨hs, s₀, h1, h2, h3⟩
      have hi := SInv.reach hM1 hreach
      have hstep := hi.classify hM1 hst
      intro ht ho p hp hm
      have ht' := (flags_step hstep).1 ht
      have ho' := (flags_step hstep).2 ho
      rcases progress_step hi hstep with ⟨e1, -, -, -⟩ | ⟨e1, -, -, -⟩
      · rw [e1] at hp
        exact ih ht' ho' p hp hm
      · rw [e1] at hp
        rcases List.mem_cons.1 hp with rfl | hp
        · exact better_count hM hv hr hreach ht' ho' L hL hm
        · exact ih ht' ho' p hp hm
  obtain ⟨k1, k2⟩ := key ht ho p hp hm
  refine ⟨?_, k2⟩
  rw [reported_double hM1 h p hp]
  have : ((L.length + (p.2.2.map (fun l => subtree S (l + 1))).sum : Nat) : ℝ) ≤ ((2 ^ S.ncols : Nat) : ℝ) := by
    exact_mod_cast k1
  push_cast at this ⊢
  linarith

/-- **C159 (list).** At any time, not only when a report is made, the number of models that are better than the best one in
the list, the number of models inserted so far and the root model together are at most `2 ^ ncols`. -/
theorem C159_list (S : Search α) (M : Int) (hM : 2 ≤ M) (pre : List (Node α)) (hv : SafeBounds S pre) (hr : RowSafe S)
    (s : SState α) (h : SelectReaches S M pre s) (ht : s.torn = false) (ho : s.overflows = 0)
    (L : List (List Bool)) (hL : L.Nodup)
    (hm : ∀ m ∈ L, Candidate S m ∧ m ≠ S.root ∧ s.hs.bestScore < -aiccOf S m) :
    L.length + s.numChecked + 1 ≤ 2 ^ S.ncols := by
  rw [(SInv.reach (by omega : M ≠ 1) h).checked]
  exact (better_count hM hv hr h ht ho L hL hm).2

end

/-- **C159 (data).** The same on a data set: the models counted have a least-squares fit whose AICc is better than the
reported best score. -/
theorem C159_regression (svd : Mat ℝ → SVD ℝ) (X : Mat ℝ) (y : List ℝ) (hdata : GoodData svd X y)
    (root : List Bool) (hroot : root = List.replicate X.nc false ∨ X.nc < X.nr)
    (maxQueue : Int) (cutoff : ℝ) (M : Int) (hM : 2 ≤ M) (pre : List (Node ℝ)) (s : SState ℝ)
    (h : SelectReaches (regressionSearch svd X y root maxQueue cutoff) M pre s)
    (ht : s.torn = false) (ho : s.overflows = 0) (p : ℝ × Nat × List Nat) (hp : p ∈ s.progress)
    (L : List (List Bool)) (hL : L.Nodup)
    (hm : ∀ m ∈ L, m.length = X.nc ∧ 0 < card m ∧ card m < X.nr ∧ m ≠ root ∧
      ∃ c r, fit (svd (designOf X m)) (designOf X m) y = some c ∧ rss (designOf X m) c y = some r ∧
        aicc (card m) X.nr r < -p.1) :
    (L.length : ℝ) ≤ 2 ^ X.nc -
      (2 ^ reportedLog2 (regressionSearch svd X y root maxQueue cutoff) p - 1) / 2 ∧
      L.length + p.2.1 + 1 ≤ 2 ^ X.nc := by
  refine C159_report (regressionSearch svd X y root maxQueue cutoff) M hM pre
    ((hdata.validBounds root maxQueue cutoff).safe pre) hroot s h ht ho p hp L hL (fun m hmL => ?_)
  obtain ⟨h1, h2, h3, h4, c, r, h5, h6, h7⟩ := hm m hmL
  refine ⟨⟨h1, h2, h3⟩, h4, ?_⟩
  obtain ⟨c', hc', hfit, hcl⟩ := fitModel_eq_some (svd := svd) hdata.rows h2 h1.le
  rw [h5] at hfit
  cases hfit
  have hr : rss (designOf X m) c y = some (sse (designOf X m) (vec c) (vec y)) := rss_eq_some hcl hdata.rows
  rw [h6] at hr
  cases hr
  have e : aiccOf (regressionSearch svd X y root maxQueue cutoff) m =
      aicc (card m) X.nr (sse (designOf X m) (vec c) (vec y)) := by
    simp [aiccOf, regressionSearch, regressionProblem, hc']
  rw [e]
  linarith

/-- At the last report of a run over 3 columns six models have been explored: at most one can be better. -/
example : ∃ s p, SelectReaches exSearch 20 [] s ∧ p ∈ s.progress ∧ p.2.1 = 6 ∧
    ∀ L : List (List Bool), L.Nodup → (∀ m ∈ L, Candidate exSearch m ∧ m ≠ exSearch.root ∧ p.1 < -aiccOf exSearch m) →
      L.length ≤ 1 := by
  obtain ⟨s, h1, h2⟩ := sstart_ex (S := exSearch) (M := 20) exSchedule
    (fun s => decide (s.torn = false ∧ s.overflows = 0 ∧ s.progress.head?.map (fun p => p.2.1) = some 6)) (by decide +kernel)
  obtain ⟨ht, ho, h3⟩ := of_decide_eq_true h2
  cases hp : s.progress with
  | nil => simp [hp] at h3
  | cons p ps =>
    rw [hp] at h3
    simp only [List.head?_cons, Option.map_some, Option.some.injEq] at h3
    refine ⟨s, p, h1, by simp [hp], h3, fun L hL hm => ?_⟩
    have := (C159_report exSearch 20 (by decide) [] (exSearch_bounds.safe []) (.inl rfl) s h1 ht ho p (by simp [hp]) L hL hm).2
    have e : exSearch.ncols = 3 := rfl
    rw [h3, e] at this
    omega

end GoSelect
