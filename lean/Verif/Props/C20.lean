import Verif.Proofs.SelectProgress
import Verif.Proofs.SelectRun
import Verif.Props.C22

/-!
C20, C73: what `SelectModel` reports through `SearchProgress`.

`s.progress` lists the arguments of the calls of `sp.Set` made so far, latest first: best score,
number of explored nodes, and the levels received from `pruneCh` so far, from which the third
argument `log2Pruned` is computed.
-/

namespace GoSelect

open Spec
open scoped List

/-- The third argument of a call of `sp.Set`. -/
noncomputable def reportedLog2 {α : Type} (S : Search α) (p : α × Nat × List Nat) : ℝ :=
  log2Pruned S.ncols p.2.2

theorem log2Pruned_cons_le (ncols : Nat) (l : Nat) (ls : List Nat) :
    log2Pruned ncols ls ≤ log2Pruned ncols (l :: ls) := by
  simp only [log2Pruned, newLog2Pruned]
  have h : (0 : ℝ) ≤ Real.logb 2 (1 + (2 : ℝ) ^ ((((ncols : Int) - l : Int) : ℝ) - log2Pruned ncols ls)) := by
    refine Real.logb_nonneg (by norm_num) ?_
    have : (0 : ℝ) ≤ (2 : ℝ) ^ ((((ncols : Int) - l : Int) : ℝ) - log2Pruned ncols ls) := by positivity
    linarith
  linarith

theorem log2Pruned_mono (ncols : Nat) {a b : List Nat} (h : a <:+ b) :
    log2Pruned ncols a ≤ log2Pruned ncols b := by
  obtain ⟨t, rfl⟩ := h
  induction t with
  | nil => exact le_rfl
  | cons x t ih => exact ih.trans (log2Pruned_cons_le ncols x _)

theorem two_pow_log2Pruned (ncols : Nat) (ls : List Nat) (h : ∀ l ∈ ls, l ≤ ncols) :
    (2 : ℝ) ^ log2Pruned ncols ls = 1 + ((ls.map (fun l => 2 ^ (ncols - l))).sum : Nat) := by
  induction ls with
  | nil => simp [log2Pruned]
  | cons l ls ih =>
    have hl := h l (by simp)
    rw [log2Pruned, C22_adds, ih (fun x hx => h x (by simp [hx]))]
    have : (((ncols : Int) - l : Int) : ℝ) = ((ncols - l : Nat) : ℝ) := by
      rw [Nat.cast_sub hl]; simp
    rw [this, Real.rpow_natCast]
    simp only [List.map_cons, List.sum_cons]
    push_cast
    ring

section
variable {α : Type} [LinearOrder α] [Zero α] [Neg α]

/-- Along every run the reported number of explored nodes and the reported `Log2NumPruned` never
decrease: a later report (further left in `s.progress`) is at least an earlier one. -/
theorem C20_monotone (S : Search α) (M : Int) (hM : M ≠ 1) (pre : List (Node α)) (s : SState α)
    (h : SelectReaches S M pre s) :
    s.progress.Pairwise (fun later earlier =>
      earlier.2.1 ≤ later.2.1 ∧ reportedLog2 S earlier ≤ reportedLog2 S later) :=
  (progress_reach hM h).1.imp fun hh => ⟨hh.1, log2Pruned_mono _ hh.2⟩

/-- A report is made exactly when a score is received.  It contains the best score and the number
of nodes inserted before that score was received. -/
theorem C20_exact (S : Search α) (M : Int) (hM : M ≠ 1) (pre : List (Node α)) (s s' : SState α)
    (a : Action) (h : SelectReaches S M pre s) (hs : sstep S s a = some s') :
    ((∃ i, a = .score i) → ∃ p, s'.progress = p :: s.progress ∧
      p.1 = s.hs.bestScore ∧ p.2.1 = s.log.length ∧ p.2.2 = s.pruned) ∧
    ((∀ i, a ≠ .score i) → s'.progress = s.progress ∧ s'.log = s.log) := by
  have hi := SInv.reach hM h
  rcases progress_step hi (hi.classify hM hs) with ⟨e1, e2, e3, -⟩ | ⟨e1, -, ⟨i, e2⟩, -⟩
  · exact ⟨fun ⟨i, hi⟩ => absurd hi (e3 i), fun _ => ⟨e1, e2⟩⟩
  · exact ⟨fun _ => ⟨_, e1, rfl, rfl, rfl⟩, fun hx => absurd e2 (hx i)⟩

/-- The latest report lags behind by at most one node. -/
theorem C20_lag (S : Search α) (M : Int) (hM : M ≠ 1) (pre : List (Node α)) (s : SState α)
    (h : SelectReaches S M pre s) :
    match s.progress with
    | [] => s.log = []
    | p :: _ => p.2.1 ≤ s.log.length ∧ s.log.length ≤ p.2.1 + 1 := by
  refine h.induct hM (fun s => match s.progress with
    | [] => s.log = []
    | p :: _ => p.2.1 ≤ s.log.length ∧ s.log.length ≤ p.2.1 + 1) ?_ ?_
  · intro hs s₀ _ h2
    unfold sinit at h2
    split at h2
    · cases h2
    · split at h2
      · cases h2
      · cases h2
        simp
  · intro s s' a hi ih hst
    rcases progress_step hi hst with ⟨e1, e2, -, -⟩ | ⟨e1, -, -, e2⟩
    · simp only [e1, e2]; exact ih
    · rw [e1]
      rcases e2 with e2 | ⟨n, e2⟩ <;> simp [e2]

/-- Full claim of C73: the number of models reported as pruned, `2 ^ Log2NumPruned`, is at most the
number `2 ^ ncols` of models.  Proved: it is at most `2 * 2 ^ ncols - 1` (the level of the parent is
reported instead of the level of the pruned child, and the count starts at one; the model whose score
caused the report is not pruned).  `C73_refuted` shows that no smaller bound holds. -/
theorem C73_reported_pruned_partial (S : Search α) (M : Int) (hM : M ≠ 1) (pre : List (Node α))
    (s : SState α) (h : SelectReaches S M pre s) (p : α × Nat × List Nat) (hp : p ∈ s.progress) :
    (2 : ℝ) ^ reportedLog2 S p ≤ 2 * 2 ^ S.ncols - 1 := by
  have hsuf := ((progress_reach hM h).2 p hp).2
  have hlt : ∀ l ∈ p.2.2, l < S.ncols := fun l hl => pruned_lt hM h l (hsuf.subset hl)
  have h1 := reported_sub hM h p hp
  have hdouble : ∀ ls : List Nat, (∀ l ∈ ls, l < S.ncols) →
      (ls.map (fun l => 2 ^ (S.ncols - l))).sum = 2 * (ls.map (fun l => subtree S (l + 1))).sum := by
    intro ls hls
    induction ls with
    | nil => rfl
    | cons l ls ih =>
      have h2 := subtree_split S (hls l (by simp))
      simp only [List.map_cons, List.sum_cons, ih (fun x hx => hls x (by simp [hx]))]
      unfold subtree at h2 ⊢
      omega
  have h2 : (2 : ℝ) ^ reportedLog2 S p = 1 + ((p.2.2.map (fun l => 2 ^ (S.ncols - l))).sum : Nat) :=
    two_pow_log2Pruned _ _ fun l hl => (hlt l hl).le
  have h3 : (((p.2.2.map (fun l => subtree S (l + 1))).sum : Nat) : ℝ) + 1 ≤ 2 ^ S.ncols := by
    exact_mod_cast h1
  rw [h2, hdouble _ hlt]
  push_cast at h3 ⊢
  linarith

end

/-- A search from the model with the last two features in which everything else is pruned. -/
def pruneSearch : Search Int := { exSearch with
  root := [false, true, true]
  bounds := fun m _ => if m = [false, true, true] then (0, 5) else (5, 5)
  huge := 100 }

/-- A model that is in the list when the search starts. -/
def pruneNode : Node Int := { newNode 3 [true, false, false] with score := -1 }

/-- The claim is false, and the bound of `C73_reported_pruned_partial` is sharp: a search over `2 ^ 3 = 8` models
reports `2 ^ Log2NumPruned = 15` pruned models. -/
theorem C73_refuted : ∃ s p, SelectReaches pruneSearch 20 [pruneNode] s ∧ p ∈ s.progress ∧
    (2 : ℝ) ^ reportedLog2 pruneSearch p = 15 ∧ (15 : ℝ) = 2 * 2 ^ pruneSearch.ncols - 1 := by
  obtain ⟨hs, s₀, s, h1, h2, h3, h4⟩ : ∃ hs s₀ s, (newHighscore 20).insertAll [pruneNode] = some hs ∧
      sinit pruneSearch hs = some s₀ ∧ srun pruneSearch s₀ (greedy pruneSearch s₀ 200) = some s ∧
      s.progress.head?.map (fun p => p.2.2) = some [2, 1, 0] := by
    have h : (((newHighscore 20).insertAll [pruneNode]).any fun hs => (sinit pruneSearch hs).any fun s₀ =>
        (srun pruneSearch s₀ (greedy pruneSearch s₀ 200)).any fun s =>
          decide (s.progress.head?.map (fun p => p.2.2) = some [2, 1, 0])) = true := by decide +kernel
    simp only [Option.any_eq_true, decide_eq_true_eq] at h
    obtain ⟨hs, h1, s₀, h2, s, h3, h4⟩ := h
    exact ⟨hs, s₀, s, h1, h2, h3, h4⟩
  cases hp : s.progress with
  | nil => simp [hp] at h4
  | cons p ps =>
    rw [hp] at h4
    simp only [List.head?_cons, Option.map_some, Option.some.injEq] at h4
    refine ⟨s, p, ⟨hs, s₀, h1, h2, srun_reach h3⟩, by simp [hp], ?_, by simp [pruneSearch, exSearch]; norm_num⟩
    have := two_pow_log2Pruned 3 [2, 1, 0] (by simp)
    rw [reportedLog2, h4]
    show (2 : ℝ) ^ log2Pruned 3 [2, 1, 0] = 15
    rw [this]
    norm_num

/-- Reports of a complete run over 3 columns. -/
example : ∃ s, SelectReaches exSearch 20 [] s ∧ s.main = .done ∧
    s.progress.map (fun p => p.2.1) = [6, 6, 5, 5, 4, 4, 3, 3, 2, 2, 1, 1, 0, 0] := by
  obtain ⟨s, h1, h2⟩ := sstart_ex (S := exSearch) (M := 20) exSchedule
    (fun s => decide (s.main = .done ∧
      s.progress.map (fun p => p.2.1) = [6, 6, 5, 5, 4, 4, 3, 3, 2, 2, 1, 1, 0, 0])) (by decide +kernel)
  exact ⟨s, h1, of_decide_eq_true h2⟩

end GoSelect
