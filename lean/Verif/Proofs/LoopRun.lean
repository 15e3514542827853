import Verif.Model.Loop

/-! Executing a loop for a number of iterations. -/

namespace GoSelect

/-- The result of a loop, if it ends normally within `n` iterations. -/
def runFuel {σ ρ : Type} (body : σ → Outcome σ ρ) : Nat → σ → Option ρ
  | 0, _ => none
  | n + 1, s =>
    match body s with
    | .next s' => runFuel body n s'
    | .ret r => some r
    | .panic => none

theorem runs_of_runFuel {σ ρ : Type} {body : σ → Outcome σ ρ} {n : Nat} {s : σ} {r : ρ}
    (h : runFuel body n s = some r) : Runs body s r := by
  induction n generalizing s with
  | zero => cases h
  | succ n ih =>
    unfold runFuel at h
    split at h
    · rename_i s' hs
      exact .next hs (ih h)
    · rename_i r' hs
      simp only [Option.some.injEq] at h
      subst h
      exact .ret hs
    · cases h

/-- A loop that keeps an invariant, does not panic and has no infinite run ends normally. -/
theorem runs_of_progress {σ ρ : Type} {body : σ → Outcome σ ρ} (inv : σ → Prop) {s : σ} (h0 : inv s)
    (hp : ∀ s, inv s → body s ≠ .panic) (hn : ∀ s s', inv s → body s = .next s' → inv s')
    (hfin : ∀ run : Nat → σ, run 0 = s → ¬ ∀ k, body (run k) = .next (run (k + 1))) : ∃ r, Runs body s r := by
  refine Classical.byContradiction fun hc => ?_
  have hstep : ∀ q : { q // inv q ∧ ¬ ∃ r, Runs body q r }, ∃ q' : { q // inv q ∧ ¬ ∃ r, Runs body q r },
      body q.1 = .next q'.1 := by
    rintro ⟨q, hq, hqn⟩
    cases hb : body q with
    | panic => exact absurd hb (hp q hq)
    | ret r => exact absurd ⟨r, .ret hb⟩ hqn
    | next q' => exact ⟨⟨q', hn q q' hq hb, fun ⟨r, hr⟩ => hqn ⟨r, .next hb hr⟩⟩, rfl⟩
  let run : Nat → { q // inv q ∧ ¬ ∃ r, Runs body q r } :=
    fun n => Nat.rec ⟨s, h0, hc⟩ (fun _ q => Classical.choose (hstep q)) n
  exact hfin (fun n => (run n).1) rfl (fun k => Classical.choose_spec (hstep (run k)))

end GoSelect
