import Verif.Props.C83

/-!
# C183: LARS paths for different smallest regularisations
-/

namespace GoSelect

open Spec

section
variable {K : Type} [Field K] [LinearOrder K] [IsStrictOrderedRing K] {X : Mat K} {y : Nat → K} {tol lambMin lambMin' : K}
  {est : Nat → List Nat → List K → Option (List K × List K)} {s : LarsState K} {path : List (LassoLarsNode K)}

/-- What an iteration returns or passes on. -/
theorem larsBody_step :
    (∀ r, larsBody X y tol lambMin est s = .ret r → (¬ lambMin < s.lamb ∧ r = s.res) ∨ ∃ n, n.lamb = s.lamb ∧ r = s.res ++ [n]) ∧
    ∀ s', larsBody X y tol lambMin est s = .next s' → s'.lamb ≤ s.lamb ∧ ∃ n, n.lamb = s.lamb ∧ s'.res = s.res ++ [n] := by
  rcases larsBody_cases (X := X) (y := y) (tol := tol) (lambMin := lambMin) (est := est) (s := s) with h | ⟨h0, h⟩ |
    ⟨-, -, c, d, jts, -, -, -, -, h⟩
  · rw [h]
    exact ⟨fun r hr => (by cases hr), fun s' hr => (by cases hr)⟩
  · rw [h]
    refine ⟨fun r hr => ?_, fun s' hr => (by cases hr)⟩
    cases hr
    exact .inl ⟨h0, rfl⟩
  · rw [h]
    unfold larsMove
    simp only
    split
    · split
      · exact ⟨fun r hr => by cases hr; exact .inr ⟨_, rfl, rfl⟩, fun s' hr => (by cases hr)⟩
      · rename_i hle
        exact ⟨fun r hr => (by cases hr), fun s' hr => by cases hr; exact ⟨not_lt.1 hle, _, rfl, rfl⟩⟩
    · split
      · exact ⟨fun r hr => by cases hr; exact .inr ⟨_, rfl, rfl⟩, fun s' hr => (by cases hr)⟩
      · rename_i hle
        exact ⟨fun r hr => (by cases hr), fun s' hr => by cases hr; exact ⟨not_lt.1 hle, _, rfl, rfl⟩⟩

/-- Nodes that are added later do not have a larger regularisation. -/
theorem runs_tail (h : Runs (larsBody X y tol lambMin est) s path) : ∃ tail, path = s.res ++ tail ∧ ∀ n ∈ tail, n.lamb ≤ s.lamb := by
  induction h with
  | ret h =>
    rcases larsBody_step.1 _ h with ⟨-, e⟩ | ⟨n, hn, e⟩
    · exact ⟨[], by simp [e], by simp⟩
    · exact ⟨[n], e, by simp [hn]⟩
  | next h _ ih =>
    obtain ⟨hle, n, hn, e⟩ := larsBody_step.2 _ h
    obtain ⟨tail, e', ht⟩ := ih
    refine ⟨n :: tail, by rw [e', e]; simp, fun a ha => ?_⟩
    rcases List.mem_cons.1 ha with rfl | ha
    · exact hn.le
    · exact (ht a ha).trans hle

theorem larsBody_min (h : lambMin < s.lamb) (h' : lambMin' < s.lamb) :
    larsBody X y tol lambMin' est s = larsBody X y tol lambMin est s := by
  unfold larsBody
  rw [if_neg (not_not.2 h), if_neg (not_not.2 h')]

theorem runs_min (hl : lambMin ≤ lambMin') (h : Runs (larsBody X y tol lambMin est) s path) (hres : ∀ n ∈ s.res, lambMin' < n.lamb) :
    Runs (larsBody X y tol lambMin' est) s (path.filter (fun n => lambMin' < n.lamb)) := by
  induction h with
  | @ret s r h =>
    by_cases hs : lambMin' < s.lamb
    · rcases larsBody_step.1 _ h with ⟨h0, -⟩ | ⟨n, hn, e⟩
      · exact absurd (hl.trans_lt hs) h0
      · have hf : r.filter (fun n => lambMin' < n.lamb) = r := by
          rw [List.filter_eq_self]
          intro a ha
          rw [e] at ha
          rcases List.mem_append.1 ha with ha | ha
          · exact decide_eq_true (hres a ha)
          · rw [List.mem_singleton.1 ha]
            exact decide_eq_true (hn.symm ▸ hs)
        rw [hf]
        exact .ret (by rw [larsBody_min (hl.trans_lt hs) hs, h])
    · obtain ⟨tail, e, ht⟩ := runs_tail (.ret h)
      have hf : r.filter (fun n => lambMin' < n.lamb) = s.res := by
        rw [e, List.filter_append, List.filter_eq_self.2 fun a ha => decide_eq_true (hres a ha),
          List.filter_eq_nil_iff.2 fun a ha => by simpa using (ht a ha).trans (not_lt.1 hs), List.append_nil]
      rw [hf]
      exact .ret (by unfold larsBody; rw [if_pos hs])
  | @next s s' r h h' ih =>
    by_cases hs : lambMin' < s.lamb
    · obtain ⟨hle, n, hn, e⟩ := larsBody_step.2 _ h
      refine .next (by rw [larsBody_min (hl.trans_lt hs) hs, h]) (ih fun a ha => ?_)
      rw [e] at ha
      rcases List.mem_append.1 ha with ha | ha
      · exact hres a ha
      · rw [List.mem_singleton.1 ha]
        exact hn.symm ▸ hs
    · obtain ⟨tail, e, ht⟩ := runs_tail (.next h h')
      have hf : r.filter (fun n => lambMin' < n.lamb) = s.res := by
        rw [e, List.filter_append, List.filter_eq_self.2 fun a ha => decide_eq_true (hres a ha),
          List.filter_eq_nil_iff.2 fun a ha => by simpa using (ht a ha).trans (not_lt.1 hs), List.append_nil]
      rw [hf]
      exact .ret (by unfold larsBody; rw [if_pos hs])

end

/-- **C183.** If `LassoLars` returns a path for some `lambMin`, then for a larger one it returns the nodes of this path whose
regularisation is larger than that, for every estimator. -/
theorem C183_larger {K : Type} [Field K] [LinearOrder K] [IsStrictOrderedRing K] (X : Mat K) (y : Nat → K) (tol : K)
    {lambMin lambMin' : K} (hl : lambMin ≤ lambMin') (est : Nat → List Nat → List K → Option (List K × List K))
    (path path' : List (LassoLarsNode K)) (h : LarsReturns X y tol lambMin est path) :
    LarsReturns X y tol lambMin' est path' ↔ path' = path.filter (fun n => lambMin' < n.lamb) := by
  obtain ⟨s, hs, hr⟩ := h
  have hr' := runs_min hl hr (by
    unfold larsInit at hs
    split at hs
    · cases hs
    · cases hs
      simp)
  constructor
  · rintro ⟨t, ht, hp⟩
    rw [hs, Option.some.injEq] at ht
    subst ht
    exact hp.unique hr'
  · rintro rfl
    exact ⟨s, hs, hr'⟩

/-- **C183.** The path for the larger `lambMin` is the first part of the other one. -/
theorem C183_prefix {K : Type} [Field K] [LinearOrder K] [IsStrictOrderedRing K] (X : Mat K) (y : Nat → K) (tol : K)
    {lambMin lambMin' : K} (hl : lambMin ≤ lambMin') (est : Nat → List Nat → List K → Option (List K × List K))
    (path path' : List (LassoLarsNode K)) (h : LarsReturns X y tol lambMin est path) (h' : LarsReturns X y tol lambMin' est path') :
    path' <+: path := by
  rw [(C183_larger X y tol hl est path path' h).1 h']
  have hp := (C63_path X y tol lambMin est path h).2
  clear h h'
  induction path with
  | nil => simp
  | cons n path ih =>
    obtain ⟨h1, h2⟩ := List.pairwise_cons.1 hp
    by_cases hn : lambMin' < n.lamb
    · rw [List.filter_cons_of_pos (by simpa using hn)]
      exact List.prefix_cons_inj n |>.2 (ih h2)
    · rw [List.filter_cons_of_neg (by simpa using hn), List.filter_eq_nil_iff.2 fun a ha => by
        simpa using (h1 a ha).trans (not_lt.1 hn)]
      exact List.nil_prefix

namespace LarsExample

/-- With `lambMin` 2 only the first node of the path for 1/2 is returned. -/
example : LarsReturns X y lassoTol 2 (larsToyEst y) [⟨[0], 3, [1]⟩] := by
  have hp : LarsReturns X y lassoTol (1 / 2) (larsToyEst y) [⟨[0], 3, [1]⟩, ⟨[0, -2], 1, [0, 1]⟩] := by
    refine ⟨_, rfl, runs_of_runFuel (n := 3) ?_⟩
    decide +kernel
  refine (C183_larger X y lassoTol (by norm_num : (1 / 2 : ℚ) ≤ 2) _ _ _ hp).2 ?_
  norm_num [List.filter]

end LarsExample

end GoSelect
