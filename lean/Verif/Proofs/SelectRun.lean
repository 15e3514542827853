import Verif.Model.Select
import Verif.Spec.Search
import Mathlib.Algebra.Order.Ring.Int

/-! Schedules as data, and small searches used as concrete cases. -/

namespace GoSelect

open Spec

variable {α : Type} [Zero α] [Neg α] [LT α] [DecidableLT α]

theorem SReach.trans {S : Search α} {a b c : SState α} (h1 : SReach S a b) (h2 : SReach S b c) :
    SReach S a c := by
  induction h2 with
  | init => exact h1
  | step x _ hs ih => exact .step x ih hs

/-- A schedule that can be run shows reachability. -/
theorem srun_reach {S : Search α} : ∀ {as : List Action} {s s' : SState α},
    srun S s as = some s' → SReach S s s'
  | [], s, s', h => by cases h; exact .init
  | a :: as, s, s', h => by
    simp only [srun] at h
    cases hs : sstep S s a with
    | none => simp [hs] at h
    | some t =>
      rw [hs, Option.bind_some] at h
      exact SReach.trans (.step a .init hs) (srun_reach h)

/-- Run a schedule from the start with an empty highscore list of capacity `M`. -/
def sstart (S : Search α) (M : Int) (as : List Action) : Option (SState α) :=
  (sinit S (newHighscore M)).bind (fun s => srun S s as)

theorem sstart_reaches {S : Search α} {M : Int} {as : List Action} {s : SState α}
    (h : sstart S M as = some s) : SelectReaches S M [] s := by
  unfold sstart at h
  cases h0 : sinit S (newHighscore M) with
  | none => simp [h0] at h
  | some t =>
    rw [h0, Option.bind_some] at h
    exact ⟨_, t, rfl, h0, srun_reach h⟩

theorem sstart_ex {S : Search α} {M : Int} (as : List Action) (P : SState α → Bool)
    (h : (sstart S M as).any P = true) : ∃ s, SelectReaches S M [] s ∧ P s = true := by
  cases hs : sstart S M as with
  | none => simp [hs] at h
  | some s => exact ⟨s, sstart_reaches hs, by simpa [hs] using h⟩

/-- A scheduler that takes the first enabled step in a fixed order. -/
def greedyStep (S : Search α) (s : SState α) : Option (Action × SState α) :=
  ([.want, .readBest 0, .readLen 0, .sendNode 0, .prune 0, .score 0, .ready 0] : List Action).findSome?
    (fun a => (sstep S s a).map (fun t => (a, t)))

/-- The schedule of that scheduler. -/
def greedy (S : Search α) (s : SState α) : Nat → List Action
  | 0 => []
  | k + 1 => match greedyStep S s with
    | none => []
    | some (a, t) => a :: greedy S t k

/-- 3 columns, 10 rows, criterion 1 for `[false, true, false]` and 5 for all other models. -/
def exSearch : Search Int where
  nrows := 10
  ncols := 3
  fit := fun m => List.replicate (card m) 1
  rss := fun m => if m = [false, true, false] then 1 else 5
  aicc := fun _ _ r => r
  root := [false, false, false]
  maxQueue := 1000
  cutoff := 0
  bounds := fun _ _ => (1, 5)
  huge := 100
  maxFloat := 1000
  mean := fun l => l.sum / l.length

theorem exSearch_bounds : ValidBounds exSearch := by
  have h : ∀ m, 1 ≤ aiccOf exSearch m := by
    intro m
    simp only [aiccOf, exSearch]
    split <;> decide
  refine ⟨fun p l m _ _ _ _ _ => h m, fun m _ => ?_⟩
  have := h m
  simp only [exSearch] at this ⊢
  omega

/-- A complete schedule for `exSearch`. -/
def exSchedule : List Action := match sinit exSearch (newHighscore 20) with
  | some s => greedy exSearch s 200
  | none => []

/-- A schedule in which the first insertion into the highscore list happens between the two reads
`h.BestScore()` and `h.Len()` of the worker that creates `[false, true, false]`. -/
def tornSchedule : List Action :=
  let start : List Action := [.want, .readBest 0, .sendNode 0, .readBest 0, .readLen 0,
    .sendNode 0, .score 0, .ready 0, .want, .readBest 0, .sendNode 0, .readBest 0, .score 0,
    .readLen 0, .prune 0]
  match sstart exSearch 20 start with
  | some s => start ++ greedy exSearch s 200
  | none => []

end GoSelect
