import Mathlib.Data.List.Basic

/-! `mapM` in `Option`. -/

namespace GoSelect

theorem mapM_some_iff {β γ : Type} {f : β → Option γ} {l : List β} {out : List γ} :
    l.mapM f = some out ↔ l.map f = out.map some := by
  induction l generalizing out with
  | nil => cases out <;> simp
  | cons a l ih =>
    rw [List.mapM_cons, List.map_cons]
    cases hf : f a with
    | none => cases out <;> simp
    | some b =>
      cases hm : l.mapM f with
      | none =>
        cases out with
        | nil => simp
        | cons c out =>
          have := ih (out := out)
          rw [hm] at this
          simp at this
          simp [this]
      | some bs =>
        have := ih.1 hm
        cases out with
        | nil => simp
        | cons c out =>
          simp only [Option.bind_eq_bind, Option.bind_some, Option.pure_def, Option.some.injEq,
            List.cons.injEq, List.map_cons]
          rw [this]
          constructor
          · rintro ⟨rfl, rfl⟩; simp
          · rintro ⟨rfl, h⟩
            exact ⟨rfl, List.map_injective_iff.2 (fun _ _ h => Option.some.inj h) h⟩

theorem mapM_length {β γ : Type} {f : β → Option γ} {l : List β} {out : List γ}
    (h : l.mapM f = some out) : out.length = l.length := by
  have := congrArg List.length (mapM_some_iff.1 h)
  simpa using this.symm

theorem mapM_getElem {β γ : Type} {f : β → Option γ} {l : List β} {out : List γ}
    (h : l.mapM f = some out) (i : Nat) (hi : i < l.length) :
    f l[i] = some (out[i]'(by rw [mapM_length h]; exact hi)) := by
  have := mapM_some_iff.1 h
  have h2 : (l.map f)[i]'(by simpa using hi) = (out.map some)[i]'(by simp [mapM_length h, hi]) := by
    simp only [this]
  simpa using h2

theorem mapM_of_forall {β γ : Type} {f : β → Option γ} {g : β → γ} {l : List β}
    (h : ∀ a ∈ l, f a = some (g a)) : l.mapM f = some (l.map g) := by
  rw [mapM_some_iff, List.map_map]
  exact List.map_congr_left h

theorem mapM_isSome {β γ : Type} {f : β → Option γ} {l : List β} (h : ∀ a ∈ l, ∃ b, f a = some b) :
    ∃ out, l.mapM f = some out := by
  induction l with
  | nil => exact ⟨[], rfl⟩
  | cons a l ih =>
    obtain ⟨b, hb⟩ := h a (by simp)
    obtain ⟨out, ho⟩ := ih (fun x hx => h x (by simp [hx]))
    exact ⟨b :: out, by rw [List.mapM_cons, hb, ho]; rfl⟩

end GoSelect
