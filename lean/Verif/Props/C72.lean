import Verif.Model.BnbCommand

/-! C72: the branch-and-bound command finishes and saves the final list. -/

namespace GoSelect

variable {α σ β : Type} {insert : σ → α → σ} {encode : σ → β}

/-! ### Specification -/

/-- The insertions of a trace, in order. -/
def Spec.insertions : List (BnbEvent α β) → List α
  | [] => []
  | .inserted a :: t => a :: Spec.insertions t
  | .written _ :: t => Spec.insertions t

/-- Steps of the program, as opposed to the clock. -/
def Spec.programSteps (ls : List BnbLabel) : Nat := (ls.filter (fun l => l ≠ .tick)).length

/-- Ticks of the clock. -/
def Spec.clockTicks (ls : List BnbLabel) : Nat := (ls.filter (fun l => l = .tick)).length

/-- Some step with this label is possible. -/
def Spec.Enabled (insert : σ → α → σ) (encode : σ → β) (l : BnbLabel) (s : BnbState α σ β) : Prop :=
  ∃ s', BnbStep insert encode s l s'

/-- An infinite execution. -/
structure Spec.InfiniteRun (insert : σ → α → σ) (encode : σ → β) (s0 : BnbState α σ β) (run : Nat → BnbState α σ β)
    (lab : Nat → BnbLabel) : Prop where
  start : run 0 = s0
  step : ∀ i, BnbStep insert encode (run i) (lab i) (run (i + 1))

/-- A step of the program that is possible again and again is taken again and again: goroutines that can run are
scheduled, and `select` does not ignore a ready channel for ever. -/
def Spec.Fair (insert : σ → α → σ) (encode : σ → β) (run : Nat → BnbState α σ β) (lab : Nat → BnbLabel) : Prop :=
  ∀ l, l ≠ .tick → (∀ n, ∃ i, n ≤ i ∧ Spec.Enabled insert encode l (run i)) → ∀ n, ∃ i, n ≤ i ∧ lab i = l

/-! ### The invariant -/

theorem insertions_append (t u : List (BnbEvent α β)) :
    Spec.insertions (t ++ u) = Spec.insertions t ++ Spec.insertions u := by
  induction t with
  | nil => rfl
  | cons e t ih => cases e <;> simp [Spec.insertions, ih]

/-- What the final part of `main` has established. -/
def BnbFinal (encode : σ → β) (s : BnbState α σ β) : Prop :=
  match s.main with
  | .select => s.search = .running ∨ s.search = .sending
  | .report => s.search = .running ∨ s.search = .sending
  | .write _ => s.search = .running ∨ s.search = .sending
  | .finalSave => s.search = .leaving ∨ s.search = .gone
  | .finalWrite b => (s.search = .leaving ∨ s.search = .gone) ∧ b = encode s.list
  | .wait => (s.search = .leaving ∨ s.search = .gone) ∧ s.file = some (encode s.list) ∧
      ∃ t, s.trace = t ++ [.written (encode s.list)]
  | .done => s.search = .gone ∧ s.file = some (encode s.list) ∧
      ∃ t, s.trace = t ++ [.written (encode s.list)]

/-- The invariant. -/
structure BnbInv (insert : σ → α → σ) (encode : σ → β) (todo : List α) (empty : σ) (s : BnbState α σ β) : Prop where
  order : Spec.insertions s.trace ++ s.todo = todo
  list : s.list = (Spec.insertions s.trace).foldl insert empty
  finished : s.search = .running ∨ s.todo = []
  final : BnbFinal encode s

theorem bnbInit_inv (todo : List α) (empty : σ) (file : Option β) :
    BnbInv insert encode todo empty (bnbInit todo empty file) :=
  ⟨rfl, rfl, .inl rfl, .inl rfl⟩

theorem bnbStep_inv {todo : List α} {empty : σ} {s s' : BnbState α σ β} {l : BnbLabel}
    (h : BnbInv insert encode todo empty s) (hs : BnbStep insert encode s l s') :
    BnbInv insert encode todo empty s' := by
  obtain ⟨h1, h2, h3, h4⟩ := h
  cases hs with
  | insert a rest g1 g2 =>
    refine ⟨?_, ?_, .inl g1, ?_⟩
    · simp only [insertions_append, Spec.insertions, List.append_assoc, List.singleton_append]
      rw [← g2, h1]
    · simp only [insertions_append, Spec.insertions, List.foldl_append, List.foldl_cons, List.foldl_nil, h2]
    · unfold BnbFinal at h4 ⊢
      simp only
      split at h4 <;> simp_all
  | finish g1 g2 =>
    refine ⟨h1, h2, .inr g2, ?_⟩
    unfold BnbFinal at h4 ⊢
    simp only
    split at h4 <;> simp_all
  | tick => exact ⟨h1, h2, h3, h4⟩
  | takeTick g1 g2 =>
    refine ⟨h1, h2, h3, ?_⟩
    unfold BnbFinal at h4 ⊢
    simp_all
  | marshal b g1 =>
    refine ⟨h1, h2, h3, ?_⟩
    unfold BnbFinal at h4 ⊢
    simp_all
  | write b g1 =>
    refine ⟨?_, ?_, h3, ?_⟩
    · simpa [insertions_append, Spec.insertions] using h1
    · simpa [insertions_append, Spec.insertions] using h2
    · unfold BnbFinal at h4 ⊢
      simp_all
  | receive g1 g2 =>
    refine ⟨h1, h2, .inr ?_, .inl rfl⟩
    rcases h3 with h3 | h3
    · rw [g2] at h3; cases h3
    · exact h3
  | finalMarshal g1 =>
    refine ⟨h1, h2, h3, ?_⟩
    unfold BnbFinal at h4 ⊢
    simp_all
  | finalWrite b g1 =>
    refine ⟨?_, ?_, h3, ?_⟩
    · simpa [insertions_append, Spec.insertions] using h1
    · simpa [insertions_append, Spec.insertions] using h2
    · unfold BnbFinal at h4 ⊢
      rw [g1] at h4
      obtain ⟨h5, rfl⟩ := h4
      exact ⟨h5, rfl, _, rfl⟩
  | wgDone g1 =>
    refine ⟨h1, h2, .inr ?_, ?_⟩
    · rcases h3 with h3 | h3
      · rw [g1] at h3; cases h3
      · exact h3
    · unfold BnbFinal at h4 ⊢
      simp only
      split at h4 <;> simp_all
  | wgWait g1 g2 =>
    refine ⟨h1, h2, h3, ?_⟩
    unfold BnbFinal at h4 ⊢
    simp_all

theorem bnbExec_inv {todo : List α} {empty : σ} {file : Option β} {ls : List BnbLabel} {s : BnbState α σ β}
    (h : BnbExec insert encode (bnbInit todo empty file) ls s) : BnbInv insert encode todo empty s := by
  induction h with
  | nil => exact bnbInit_inv ..
  | snoc _ hs ih => exact bnbStep_inv ih hs

/-- **C72 (final list).** Whenever `findOptimalSolution` has returned, the search has made all its insertions, the
last write of the file came after all of them, and the file holds the list that results from all insertions.  This
holds for every schedule, whatever the periodic saves have written. -/
theorem C72_saved (todo : List α) (empty : σ) (file : Option β) (ls : List BnbLabel) (s : BnbState α σ β)
    (h : BnbExec insert encode (bnbInit todo empty file) ls s) (hd : s.main = .done) :
    s.file = some (encode (todo.foldl insert empty)) ∧ s.search = .gone ∧
      ∃ t, s.trace = t ++ [.written (encode (todo.foldl insert empty))] ∧ Spec.insertions t = todo := by
  obtain ⟨h1, h2, h3, h4⟩ := bnbExec_inv h
  unfold BnbFinal at h4
  rw [hd] at h4
  obtain ⟨h5, h6, t, ht⟩ := h4
  have h7 : s.todo = [] := by
    rcases h3 with h3 | h3
    · rw [h5] at h3; cases h3
    · exact h3
  rw [h7, List.append_nil] at h1
  have h8 : s.list = todo.foldl insert empty := by rw [h2, h1]
  refine ⟨by rw [h6, h8], h5, t, by rw [← h8, ht], ?_⟩
  rw [ht, insertions_append] at h1
  simpa [Spec.insertions] using h1

/-- **C72 (no deadlock).** As long as the command has not returned, the program can make a step without waiting for
the clock. -/
theorem C72_progress (todo : List α) (empty : σ) (file : Option β) (ls : List BnbLabel) (s : BnbState α σ β)
    (h : BnbExec insert encode (bnbInit todo empty file) ls s) (hd : s.main ≠ .done) :
    ∃ l, l ≠ .tick ∧ Spec.Enabled insert encode l s := by
  have hi := bnbExec_inv h
  have h4 := hi.final
  unfold BnbFinal at h4
  have hrun : s.search = .running → ∃ l, l ≠ .tick ∧ Spec.Enabled insert encode l s := by
    intro hr
    cases ht : s.todo with
    | nil => exact ⟨.finish, by decide, _, .finish s hr ht⟩
    | cons a rest => exact ⟨.insert, by decide, _, .insert s a rest hr ht⟩
  cases hm : s.main with
  | select =>
    rw [hm] at h4
    rcases h4 with h4 | h4
    · exact hrun h4
    · exact ⟨.receive, by decide, _, .receive s hm h4⟩
  | report => exact ⟨.marshal, by decide, _, .marshal s (encode s.list) hm⟩
  | write b => exact ⟨.write, by decide, _, .write s b hm⟩
  | finalSave => exact ⟨.finalMarshal, by decide, _, .finalMarshal s hm⟩
  | finalWrite b => exact ⟨.finalWrite, by decide, _, .finalWrite s b hm⟩
  | wait =>
    rw [hm] at h4
    rcases h4.1 with h5 | h5
    · exact ⟨.wgDone, by decide, _, .wgDone s h5⟩
    · exact ⟨.wgWait, by decide, _, .wgWait s hm h5⟩
  | done => exact absurd hm hd

/-! ### Termination -/

/-- Remaining work of the search goroutine. -/
def BnbSearch.rank : BnbSearch → Nat
  | .running => 3
  | .sending => 2
  | .leaving => 1
  | .gone => 0

/-- Remaining work of the main goroutine. -/
def BnbMain.rank : BnbMain β → Nat
  | .report => 6
  | .write _ => 5
  | .select => 4
  | .finalSave => 3
  | .finalWrite _ => 2
  | .wait => 1
  | .done => 0

/-- Remaining work. -/
def bnbWork (s : BnbState α σ β) : Nat :=
  s.todo.length + s.search.rank + s.main.rank + if s.tick then 3 else 0

theorem bnbStep_work {s s' : BnbState α σ β} {l : BnbLabel} (h : BnbStep insert encode s l s') :
    (l ≠ .tick → bnbWork s' + 1 ≤ bnbWork s) ∧ bnbWork s' ≤ bnbWork s + 3 := by
  cases h with
  | insert a rest g1 g2 => simp [bnbWork, g2]; omega
  | finish g1 g2 => simp [bnbWork, g1, BnbSearch.rank]; omega
  | tick => simp [bnbWork]
  | takeTick g1 g2 => simp [bnbWork, g1, g2, BnbMain.rank]
  | marshal b g1 => simp [bnbWork, g1, BnbMain.rank]; omega
  | write b g1 => simp [bnbWork, g1, BnbMain.rank]; omega
  | receive g1 g2 => simp [bnbWork, g1, g2, BnbMain.rank, BnbSearch.rank]; omega
  | finalMarshal g1 => simp [bnbWork, g1, BnbMain.rank]; omega
  | finalWrite b g1 => simp [bnbWork, g1, BnbMain.rank]; omega
  | wgDone g1 => simp [bnbWork, g1, BnbSearch.rank]; omega
  | wgWait g1 g2 => simp [bnbWork, g1, g2, BnbMain.rank, BnbSearch.rank]; omega

/-- **C72 (bound).** The number of steps of the program is bounded by the number of insertions and of ticks: a
schedule with finitely many ticks ends. -/
theorem C72_bounded (todo : List α) (empty : σ) (file : Option β) (ls : List BnbLabel) (s : BnbState α σ β)
    (h : BnbExec insert encode (bnbInit todo empty file) ls s) :
    Spec.programSteps ls ≤ todo.length + 7 + 3 * Spec.clockTicks ls := by
  have key : Spec.programSteps ls + bnbWork s ≤ todo.length + 7 + 3 * Spec.clockTicks ls := by
    induction h with
    | nil => simp [Spec.programSteps, Spec.clockTicks, bnbWork, bnbInit, BnbSearch.rank, BnbMain.rank]
    | @snoc ls s s' l _ hs ih =>
      obtain ⟨h1, h2⟩ := bnbStep_work hs
      unfold Spec.programSteps Spec.clockTicks at *
      simp only [List.filter_append, List.length_append]
      by_cases hl : l = .tick
      · subst hl
        simp at ih ⊢
        omega
      · have := h1 hl
        simp [hl] at ih ⊢
        omega
  omega

/-- Remaining work, the periodic saves not counted. -/
def bnbMainWork (s : BnbState α σ β) : Nat :=
  s.todo.length + s.search.rank + min s.main.rank 4

/-- The steps of periodic saving. -/
def Periodic (l : BnbLabel) : Prop := l = .tick ∨ l = .takeTick ∨ l = .marshal ∨ l = .write

theorem bnbStep_mainWork {s s' : BnbState α σ β} {l : BnbLabel} (h : BnbStep insert encode s l s') :
    bnbMainWork s' ≤ bnbMainWork s ∧ (¬ Periodic l → bnbMainWork s' < bnbMainWork s) := by
  unfold Periodic
  cases h with
  | insert a rest g1 g2 => simp [bnbMainWork, g2]
  | finish g1 g2 => simp [bnbMainWork, g1, BnbSearch.rank]
  | tick => simp [bnbMainWork]
  | takeTick g1 g2 => simp [bnbMainWork, g1, BnbMain.rank]
  | marshal b g1 => simp [bnbMainWork, g1, BnbMain.rank]
  | write b g1 => simp [bnbMainWork, g1, BnbMain.rank]
  | receive g1 g2 => simp [bnbMainWork, g1, g2, BnbMain.rank, BnbSearch.rank]
  | finalMarshal g1 => simp [bnbMainWork, g1, BnbMain.rank]
  | finalWrite b g1 => simp [bnbMainWork, g1, BnbMain.rank]
  | wgDone g1 => simp [bnbMainWork, g1, BnbSearch.rank]
  | wgWait g1 g2 => simp [bnbMainWork, g1, g2, BnbMain.rank, BnbSearch.rank]

/-- A sequence that never increases becomes constant. -/
theorem eventually_const (f : Nat → Nat) (h : ∀ i, f (i + 1) ≤ f i) : ∃ n, ∀ i, n ≤ i → f i = f n := by
  have mono : ∀ i j, i ≤ j → f j ≤ f i := by
    intro i j hij
    induction hij with
    | refl => exact Nat.le_refl _
    | step _ ih => exact Nat.le_trans (h _) ih
  have key : ∀ m n, f n ≤ m → ∃ n, ∀ i, n ≤ i → f i = f n := by
    intro m
    induction m with
    | zero =>
      intro n hn
      exact ⟨n, fun i hi => by have := mono n i hi; omega⟩
    | succ m ih =>
      intro n hn
      by_cases hc : ∀ i, n ≤ i → f i = f n
      · exact ⟨n, hc⟩
      · have ⟨i, hi⟩ : ∃ i, ¬ (n ≤ i → f i = f n) := Classical.not_forall.1 hc
        have hni : n ≤ i := Classical.byContradiction fun h0 => hi (fun h1 => absurd h1 h0)
        have hne : f i ≠ f n := fun e => hi (fun _ => e)
        have := mono n i hni
        exact ih i (by omega)
  exact key (f 0) 0 (Nat.le_refl _)

/-- **C72 (termination).** Under every fair schedule, with any number of ticks, the command returns. -/
theorem C72_terminates (todo : List α) (empty : σ) (file : Option β) (run : Nat → BnbState α σ β)
    (lab : Nat → BnbLabel) (hr : Spec.InfiniteRun insert encode (bnbInit todo empty file) run lab)
    (hf : Spec.Fair insert encode run lab) : ∃ i, (run i).main = .done := by
  refine Classical.byContradiction fun hnd => ?_
  have hnd : ∀ i, (run i).main ≠ .done := fun i h => hnd ⟨i, h⟩
  have hinv : ∀ i, BnbInv insert encode todo empty (run i) := by
    intro i
    induction i with
    | zero => rw [hr.start]; exact bnbInit_inv ..
    | succ i ih => exact bnbStep_inv ih (hr.step i)
  have ⟨n, hn⟩ := eventually_const (fun i => bnbMainWork (run i)) (fun i => (bnbStep_mainWork (hr.step i)).1)
  have hper : ∀ i, n ≤ i → Periodic (lab i) := by
    intro i hi
    refine Classical.byContradiction fun hp => ?_
    have h1 := (bnbStep_mainWork (hr.step i)).2 hp
    have h2 := hn i hi
    have h3 := hn (i + 1) (by omega)
    omega
  -- a step that is not periodic saving is not possible again and again
  have hnot : ∀ l, ¬ Periodic l → ¬ ∀ m, ∃ i, m ≤ i ∧ Spec.Enabled insert encode l (run i) := by
    intro l hl hen
    have hlt : l ≠ .tick := fun e => hl (.inl e)
    obtain ⟨i, hi, e⟩ := hf l hlt hen n
    exact hl (e ▸ hper i hi)
  -- after step n the search goroutine stays where it is
  have hsearch : ∀ i, n ≤ i → (run (i + 1)).search = (run i).search ∧ (run (i + 1)).todo = (run i).todo := by
    intro i hi
    have hp := hper i hi
    have hs := hr.step i
    generalize run i = s at hs
    generalize run (i + 1) = s' at hs
    generalize lab i = l at hs hp
    cases hs <;> first | exact ⟨rfl, rfl⟩ | (unfold Periodic at hp; simp at hp)
  have hconst : ∀ i, n ≤ i → (run i).search = (run n).search ∧ (run i).todo = (run n).todo := by
    intro i hi
    induction hi with
    | refl => exact ⟨rfl, rfl⟩
    | @step i hi ih =>
      have := hsearch i hi
      exact ⟨this.1.trans ih.1, this.2.trans ih.2⟩
  -- the search has finished
  have hnotrun : (run n).search ≠ .running := by
    intro hrun
    cases ht : (run n).todo with
    | nil =>
      apply hnot .finish (by simp [Periodic])
      intro m
      have hc := hconst (max m n) (Nat.le_max_right ..)
      exact ⟨max m n, Nat.le_max_left .., _, .finish _ (hc.1.trans hrun) (hc.2.trans ht)⟩
    | cons a rest =>
      apply hnot .insert (by simp [Periodic])
      intro m
      have hc := hconst (max m n) (Nat.le_max_right ..)
      exact ⟨max m n, Nat.le_max_left .., _, .insert _ a rest (hc.1.trans hrun) (hc.2.trans ht)⟩
  have hnotleave : (run n).search ≠ .leaving := by
    intro hl
    apply hnot .wgDone (by simp [Periodic])
    intro m
    exact ⟨max m n, Nat.le_max_left .., _, .wgDone _ ((hconst (max m n) (Nat.le_max_right ..)).1.trans hl)⟩
  cases hsn : (run n).search with
  | running => exact hnotrun hsn
  | leaving => exact hnotleave hsn
  | gone =>
    -- main is in its final part and can always go on
    have hg : ∀ i, n ≤ i → (run i).search = .gone := fun i hi => (hconst i hi).1.trans hsn
    have hlab : ∀ i, n ≤ i → lab i = .tick := by
      intro i hi
      have h4 := (hinv i).final
      unfold BnbFinal at h4
      have hgi := hg i hi
      have hs := hr.step i
      have hp := hper i hi
      generalize run i = s at hs h4 hgi
      generalize run (i + 1) = s' at hs
      generalize lab i = l at hs hp ⊢
      cases hs with
      | tick => rfl
      | takeTick g1 _ => rw [g1] at h4; simp [hgi] at h4
      | marshal b g1 => rw [g1] at h4; simp [hgi] at h4
      | write b g1 => rw [g1] at h4; simp [hgi] at h4
      | _ => unfold Periodic at hp; simp at hp
    have hmain : ∀ i, n ≤ i → (run i).main = (run n).main := by
      intro i hi
      induction hi with
      | refl => rfl
      | @step i hi ih =>
        have hs := hr.step i
        rw [hlab i hi] at hs
        rw [← ih]
        generalize run i = s at hs
        generalize run (i + 1) = s' at hs
        cases hs
        rfl
    have h4 := (hinv n).final
    unfold BnbFinal at h4
    cases hm : (run n).main with
    | select => rw [hm] at h4; simp [hsn] at h4
    | report => rw [hm] at h4; simp [hsn] at h4
    | write b => rw [hm] at h4; simp [hsn] at h4
    | finalSave =>
      apply hnot .finalMarshal (by simp [Periodic])
      intro m
      exact ⟨max m n, Nat.le_max_left .., _, .finalMarshal _ ((hmain _ (Nat.le_max_right ..)).trans hm)⟩
    | finalWrite b =>
      apply hnot .finalWrite (by simp [Periodic])
      intro m
      exact ⟨max m n, Nat.le_max_left .., _, .finalWrite _ b ((hmain _ (Nat.le_max_right ..)).trans hm)⟩
    | wait =>
      apply hnot .wgWait (by simp [Periodic])
      intro m
      exact ⟨max m n, Nat.le_max_left .., _, .wgWait _ ((hmain _ (Nat.le_max_right ..)).trans hm)
        (hg _ (Nat.le_max_right ..))⟩
    | done => exact hnd n hm
  | sending =>
    -- main is in the loop and comes back to select again and again
    have hg : ∀ i, n ≤ i → (run i).search = .sending := fun i hi => (hconst i hi).1.trans hsn
    have hloop : ∀ i, n ≤ i → (run i).main = .select ∨ (run i).main = .report ∨ ∃ b, (run i).main = .write b := by
      intro i hi
      have h4 := (hinv i).final
      unfold BnbFinal at h4
      cases hm : (run i).main with
      | select => exact .inl rfl
      | report => exact .inr (.inl rfl)
      | write b => exact .inr (.inr ⟨b, rfl⟩)
      | _ => rw [hm] at h4; simp [hg i hi] at h4
    have hselect : ∀ m, ∃ i, m ≤ i ∧ n ≤ i ∧ (run i).main = .select := by
      intro m
      refine Classical.byContradiction fun hno => ?_
      have hno : ∀ i, m ≤ i → n ≤ i → (run i).main ≠ .select := fun i h1 h2 h3 => hno ⟨i, h1, h2, h3⟩
      -- the step `write` leads back to `select`
      have hnw : ∀ i, m ≤ i → n ≤ i → lab i ≠ .write := by
        intro i h1 h2 hl
        have hs := hr.step i
        rw [hl] at hs
        have := hno (i + 1) (by omega) (by omega)
        generalize run (i + 1) = s' at hs this
        generalize run i = s at hs
        cases hs
        exact this rfl
      -- so `write` is not reached
      have hnb : ∀ i, m ≤ i → n ≤ i → ∀ b, (run i).main ≠ .write b := by
        intro i h1 h2 b hb
        have hstay : ∀ j, i ≤ j → (run j).main = .write b := by
          intro j hj
          induction hj with
          | refl => exact hb
          | @step j hj ih =>
            have hj' : i ≤ j := hj
            have hs := hr.step j
            have hl := hnw j (by omega) (by omega)
            have hp := hper j (by omega)
            generalize run j = s at hs ih
            generalize run (j + 1) = s' at hs ⊢
            generalize lab j = l at hs hp hl
            cases hs with
            | tick => exact ih
            | takeTick g1 _ => rw [ih] at g1; cases g1
            | marshal b g1 => rw [ih] at g1; cases g1
            | write b g1 => exact absurd rfl hl
            | _ => unfold Periodic at hp; simp at hp
        obtain ⟨j, hj, hlj⟩ := hf .write (by decide)
          (fun k => ⟨max k i, Nat.le_max_left .., _, .write _ b (hstay _ (Nat.le_max_right ..))⟩) i
        exact hnw j (by omega) (by omega) hlj
      have hrep : ∀ i, m ≤ i → n ≤ i → (run i).main = .report := by
        intro i h1 h2
        rcases hloop i h2 with h | h | ⟨b, h⟩
        · exact absurd h (hno i h1 h2)
        · exact h
        · exact absurd h (hnb i h1 h2 b)
      obtain ⟨j, hj, hlj⟩ := hf .marshal (by decide)
        (fun k => ⟨max k (max m n), Nat.le_max_left .., _, .marshal _ (encode (run (max k (max m n))).list)
          (hrep _ (by omega) (by omega))⟩) (max m n)
      have hs := hr.step j
      rw [hlj] at hs
      have h5 := hnb (j + 1) (by omega) (by omega)
      generalize run (j + 1) = s' at hs h5
      generalize run j = s at hs
      cases hs with
      | marshal b _ => exact h5 b rfl
    apply hnot .receive (by simp [Periodic])
    intro m
    obtain ⟨i, h1, h2, h3⟩ := hselect m
    exact ⟨i, h1, _, .receive _ h3 (hg i h2)⟩

/-! ### Examples -/

/-- A schedule with a periodic save that races with the search and writes garbage. -/
example : ∃ ls s, BnbExec (fun l (a : Nat) => l ++ [a]) (fun l => l) (bnbInit [3, 5] [] none) ls s ∧
    s.main = .done ∧ s.file = some [3, 5] ∧
    s.trace = [.inserted 3, .written [99], .inserted 5, .written [3, 5]] := by
  refine ⟨_, _, .snoc (.snoc (.snoc (.snoc (.snoc (.snoc (.snoc (.snoc (.snoc (.snoc (.snoc (.snoc .nil
    (.insert _ 3 [5] rfl rfl)) (.tick _)) (.takeTick _ rfl rfl)) (.marshal _ [99] rfl)) (.write _ [99] rfl))
    (.insert _ 5 [] rfl rfl)) (.finish _ rfl rfl)) (.receive _ rfl rfl)) (.finalMarshal _ rfl))
    (.finalWrite _ _ rfl)) (.wgDone _ rfl)) (.wgWait _ rfl rfl), rfl, rfl, rfl⟩

/-- A state of a schedule without a periodic save. -/
def bnbExampleRun : Nat → BnbState Nat (List Nat) (List Nat)
  | 0 => bnbInit [3] [] none
  | 1 => ⟨[], [3], .running, false, .select, none, [.inserted 3]⟩
  | 2 => ⟨[], [3], .sending, false, .select, none, [.inserted 3]⟩
  | 3 => ⟨[], [3], .leaving, false, .finalSave, none, [.inserted 3]⟩
  | 4 => ⟨[], [3], .leaving, false, .finalWrite [3], none, [.inserted 3]⟩
  | 5 => ⟨[], [3], .leaving, false, .wait, some [3], [.inserted 3, .written [3]]⟩
  | 6 => ⟨[], [3], .gone, false, .wait, some [3], [.inserted 3, .written [3]]⟩
  | 7 => ⟨[], [3], .gone, false, .done, some [3], [.inserted 3, .written [3]]⟩
  | _ + 8 => ⟨[], [3], .gone, true, .done, some [3], [.inserted 3, .written [3]]⟩

/-- Its steps; after the return only the clock goes on. -/
def bnbExampleLab : Nat → BnbLabel
  | 0 => .insert
  | 1 => .finish
  | 2 => .receive
  | 3 => .finalMarshal
  | 4 => .finalWrite
  | 5 => .wgDone
  | 6 => .wgWait
  | _ + 7 => .tick

example : Spec.InfiniteRun (fun l (a : Nat) => l ++ [a]) (fun l => l) (bnbInit [3] [] none) bnbExampleRun
      bnbExampleLab ∧
    Spec.Fair (fun l (a : Nat) => l ++ [a]) (fun l => l) bnbExampleRun bnbExampleLab := by
  refine ⟨⟨rfl, fun i => ?_⟩, fun l hl hen => ?_⟩
  · match i with
    | 0 => exact .insert _ 3 [] rfl rfl
    | 1 => exact .finish _ rfl rfl
    | 2 => exact .receive _ rfl rfl
    | 3 => exact .finalMarshal _ rfl
    | 4 => exact .finalWrite _ [3] rfl
    | 5 => exact .wgDone _ rfl
    | 6 => exact .wgWait _ rfl rfl
    | 7 => exact .tick _
    | _ + 8 => exact .tick _
  · obtain ⟨i, hi, s', hs⟩ := hen 8
    obtain ⟨j, rfl⟩ : ∃ j, i = j + 8 := ⟨i - 8, by omega⟩
    have e : bnbExampleRun (j + 8) =
        ⟨[], [3], .gone, true, .done, some [3], [.inserted 3, .written [3]]⟩ := rfl
    rw [e] at hs
    cases hs with
    | tick => exact absurd rfl hl
    | insert _ _ g1 _ => cases g1
    | finish g1 _ => cases g1
    | takeTick g1 _ => cases g1
    | marshal _ g1 => cases g1
    | write _ g1 => cases g1
    | receive g1 _ => cases g1
    | finalMarshal g1 => cases g1
    | finalWrite _ g1 => cases g1
    | wgDone g1 => cases g1
    | wgWait g1 _ => cases g1

end GoSelect
