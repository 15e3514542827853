import Verif.Model.SelectParams

/-!
# C122: parameters of `SelectModel` can be used again

A `SelectModelOptParams` without root model should mean the empty model in every call.  It does so only until the first
call, which writes an all-false root model of its own length into the parameters of the caller: a later call on data
with another number of columns panics (`C122_refuted`, `C122_other_columns`).  Calls on data with the same number of
columns are not affected (`C122_same_columns_partial`).
-/

namespace GoSelect

variable {α : Type}

namespace Spec

/-- What a call should search with: the root model given, or the empty model; `none` if there are fewer than three
columns or the root model has another length. -/
def wantedStart (params : OptParams α) (ncols : Nat) : Option (SelectStart α) :=
  let root := params.rootModel.getD (List.replicate ncols false)
  if 3 ≤ ncols ∧ root.length = ncols then some ⟨root, params.cutoff, params.maxQueue⟩ else none

end Spec

open Spec

theorem selectStart_wanted (params : OptParams α) (n : Nat) : (selectStart params n).2 = wantedStart params n := by
  unfold selectStart wantedStart
  cases hr : params.rootModel with
  | none =>
    by_cases h : n < 3
    · rw [if_pos h, if_neg (by omega)]
    · rw [if_neg h, if_pos ⟨by omega, by simp⟩]
      rfl
  | some root =>
    by_cases h : n < 3
    · rw [if_pos h, if_neg (by omega)]
    · rw [if_neg h]
      dsimp only
      by_cases hl : root.length = n
      · rw [if_neg (by simpa using hl), if_pos ⟨by omega, hl⟩]
        rfl
      · rw [if_pos hl, if_neg (fun e => hl e.2)]

theorem selectStart_again (params : OptParams α) (n : Nat) :
    selectStart (selectStart params n).1 n = selectStart params n := by
  unfold selectStart
  by_cases h : n < 3
  · simp [h]
  · cases hr : params.rootModel with
    | none => simp [h]
    | some root =>
      by_cases hl : root.length = n <;> simp [h, hl, hr]

/-- **C122** (what holds).  Any number of calls on data with the same number of columns: every one of them searches with
the parameters as they were first given. -/
theorem C122_same_columns_partial (params : OptParams α) (n k : Nat) :
    selectStarts params (List.replicate k n) = List.replicate k (wantedStart params n) := by
  induction k generalizing params with
  | zero => rfl
  | succ k ih =>
    rw [List.replicate_succ, List.replicate_succ, selectStarts, ih, selectStart_wanted]
    congr 2
    rw [← selectStart_wanted, ← selectStart_wanted, selectStart_again]

/-- With a root model that was given, every call does what it should, whatever the numbers of columns. -/
theorem C122_given_root (params : OptParams α) (root : List Bool) (h : params.rootModel = some root) (ns : List Nat) :
    selectStarts params ns = ns.map (wantedStart params) := by
  induction ns with
  | nil => rfl
  | cons n ns ih =>
    have hp : (selectStart params n).1 = params := by
      unfold selectStart
      by_cases h3 : n < 3
      · rw [if_pos h3]
      · rw [if_neg h3, h]
        dsimp only
        split <;> rfl
    rw [selectStarts, List.map_cons, hp, ih, selectStart_wanted]

/-- Without a root model, after a call on data with `n` columns every call on data with another number of columns
panics, until the caller resets the root model. -/
theorem C122_other_columns (params : OptParams α) (h : params.rootModel = none) (n : Nat) (hn : 3 ≤ n) (ns : List Nat) :
    selectStarts params (n :: ns) =
      some ⟨List.replicate n false, params.cutoff, params.maxQueue⟩ ::
        ns.map fun m => if m = n then some ⟨List.replicate n false, params.cutoff, params.maxQueue⟩ else none := by
  have hs : selectStart params n = ({ params with rootModel := some (List.replicate n false) },
      some ⟨List.replicate n false, params.cutoff, params.maxQueue⟩) := by
    unfold selectStart
    rw [if_neg (by omega), h]
  rw [selectStarts, hs, C122_given_root _ _ rfl]
  congr 1
  apply List.map_congr_left
  intro m _
  unfold wantedStart
  dsimp only [Option.getD_some]
  by_cases hm : m = n
  · rw [if_pos hm, if_pos ⟨by omega, by simp [hm]⟩]
  · rw [if_neg hm, if_neg (fun e => hm (by simpa using e.2.symm))]

/-- **C122** (refuted).  New default parameters, a search on three columns, then one on four: the second panics, though
it would not have panicked as the first one. -/
theorem C122_refuted (zero : α) :
    ∃ ns : List Nat, (∀ n ∈ ns, wantedStart (newOptParams zero) n ≠ none) ∧
      none ∈ selectStarts (newOptParams zero) ns := by
  refine ⟨[3, 4], ?_, ?_⟩
  · intro n hn
    simp only [List.mem_cons, List.not_mem_nil, or_false] at hn
    rcases hn with rfl | rfl <;> simp [wantedStart, newOptParams]
  · rw [C122_other_columns _ rfl 3 (by omega)]
    simp

/-- A nil pointer means the defaults in every call. -/
theorem C122_nil (zero : α) (n : Nat) (hn : 3 ≤ n) :
    selectStartNil zero n = some ⟨List.replicate n false, zero, 10000000000⟩ := by
  unfold selectStartNil
  rw [selectStart_wanted, wantedStart, if_pos ⟨hn, by simp [newOptParams]⟩]
  rfl

example : selectStarts (⟨1, some [true, false, true, false], 5⟩ : OptParams Int) [4, 2, 3, 4] =
    [some ⟨[true, false, true, false], 1, 5⟩, none, none, some ⟨[true, false, true, false], 1, 5⟩] := by
  decide

example : selectStarts (newOptParams (0 : Int)) [4, 4] =
    [some ⟨[false, false, false, false], 0, 10000000000⟩, some ⟨[false, false, false, false], 0, 10000000000⟩] := by
  decide

end GoSelect
