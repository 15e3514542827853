/-!
# Loops that may run for ever

`for { ... }` loops are modelled by their body, a function from the loop state to `next` state,
`ret`urned result or `panic`.  `Runs body s r` says that the loop started in state `s` ends
normally with result `r` after finitely many iterations.
-/

namespace GoSelect

/-- Outcome of one iteration. -/
inductive Outcome (σ ρ : Type) where
  | next (s : σ)
  | ret (r : ρ)
  | panic
  deriving DecidableEq, Repr

/-- Big-step semantics of a loop. -/
inductive Runs {σ ρ : Type} (body : σ → Outcome σ ρ) : σ → ρ → Prop
  | ret {s : σ} {r : ρ} (h : body s = .ret r) : Runs body s r
  | next {s s' : σ} {r : ρ} (h : body s = .next s') (h' : Runs body s' r) : Runs body s r

/-- A loop has at most one result. -/
theorem Runs.unique {σ ρ : Type} {body : σ → Outcome σ ρ} {s : σ} {r r' : ρ}
    (h : Runs body s r) (h' : Runs body s r') : r = r' := by
  induction h with
  | ret h =>
    cases h' with
    | ret h2 => rw [h] at h2; cases h2; rfl
    | next h2 => rw [h] at h2; cases h2
  | next h _ ih =>
    cases h' with
    | ret h2 => rw [h] at h2; cases h2
    | next h2 h3 => rw [h] at h2; cases h2; exact ih h3

end GoSelect
