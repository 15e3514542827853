import Verif.Model.Lars
import Verif.Proofs.MapM
import Verif.Proofs.LoopRun
import Mathlib.Algebra.Order.Archimedean.Basic
import Mathlib.Algebra.Order.Floor.Semiring
import Mathlib.Tactic.Linarith
import Mathlib.Tactic.Positivity
import Mathlib.Tactic.NormNum
import Mathlib.Algebra.Order.Field.Rat

/-! C63: paths of `LassoLars` are well formed; the loop terminates. -/

namespace GoSelect

open Finset

section
variable {K : Type} [Field K] [LinearOrder K]

theorem maxTime_loop (v : List (Option K)) (pre : List (Option K)) (s : K × Nat)
    (h0 : 0 ≤ s.1) (h1 : (s.1 = 0 ∧ s.2 = 0) ∨ (0 < s.1 ∧ (pre ++ v)[s.2]? = some (some s.1)))
    (h2 : ∀ t, some t ∈ pre → t ≤ s.1) :
    let m := (v.zipIdx pre.length).foldl (fun s ti => match ti.1 with
      | some t => if t > s.1 then (t, ti.2) else s
      | none => s) s
    0 ≤ m.1 ∧ ((m.1 = 0 ∧ m.2 = 0) ∨ (0 < m.1 ∧ (pre ++ v)[m.2]? = some (some m.1))) ∧
      ∀ t, some t ∈ pre ++ v → t ≤ m.1 := by
  induction v generalizing pre s with
  | nil =>
    simp only [List.zipIdx_nil, List.foldl_nil, List.append_nil] at h1 ⊢
    exact ⟨h0, h1, h2⟩
  | cons a v ih =>
    rw [List.zipIdx_cons, List.foldl_cons]
    have he : pre ++ a :: v = (pre ++ [a]) ++ v := by simp
    have hl : pre.length + 1 = (pre ++ [a]).length := by simp
    rw [he] at h1 ⊢
    rw [hl]
    have hpre : ((pre ++ [a]) ++ v)[pre.length]? = some a := by simp
    apply ih (pre ++ [a])
    · cases a with
      | none => exact h0
      | some t => simp only; split <;> [(rename_i h; exact le_of_lt (lt_of_le_of_lt h0 h)); exact h0]
    · cases a with
      | none => exact h1
      | some t =>
        simp only
        split
        · rename_i h
          exact .inr ⟨lt_of_le_of_lt h0 h, hpre⟩
        · exact h1
    · intro t ht
      rcases List.mem_append.1 ht with ht | ht
      · have := h2 t ht
        cases a with
        | none => exact this
        | some u =>
          simp only
          split
          · rename_i h
            exact le_of_lt (lt_of_le_of_lt this h)
          · exact this
      · have : a = some t := (List.mem_singleton.1 ht).symm
        subst this
        simp only
        split
        · exact le_refl _
        · rename_i h
          exact not_lt.1 h

theorem maxTime_spec (v : List (Option K)) :
    0 ≤ (maxTime v).1 ∧ (((maxTime v).1 = 0 ∧ (maxTime v).2 = 0) ∨
      (0 < (maxTime v).1 ∧ v[(maxTime v).2]? = some (some (maxTime v).1))) ∧
      ∀ t, some t ∈ v → t ≤ (maxTime v).1 :=
  maxTime_loop v [] (0, 0) (le_refl _) (.inl ⟨rfl, rfl⟩) (by simp)

theorem setNeg_get (v : List K) (active : List Nat) (i : Nat) :
    (active.foldl (fun v ind => v.set ind (-1)) v)[i]? =
      if i ∈ active ∧ i < v.length then some (-1) else v[i]? := by
  induction active generalizing v with
  | nil => simp
  | cons a active ih =>
    rw [List.foldl_cons, ih, List.length_set, List.getElem?_set]
    by_cases hi : i < v.length
    · by_cases hia : i ∈ active
      · simp [hia, hi]
      · by_cases ha : a = i
        · subst ha; simp [hia, hi]
        · have : i ≠ a := fun h => ha h.symm
          simp [hia, hi, ha, this]
    · simp only [hi, and_false, if_false]
      by_cases ha : a = i
      · subst ha; simp [hi]
      · simp [ha]

variable [IsStrictOrderedRing K]

/-- `maxJoinTime`: never a feature of the active set, if positive. -/
theorem maxJoinTime_spec (v : List K) (active : List Nat) :
    0 ≤ (maxJoinTime v active).1 ∧
      (0 < (maxJoinTime v active).1 → (maxJoinTime v active).2 ∉ active ∧
        v[(maxJoinTime v active).2]? = some (maxJoinTime v active).1) ∧
      ∀ i t, i ∉ active → v[i]? = some t → t ≤ (maxJoinTime v active).1 := by
  obtain ⟨h1, h2, h3⟩ := maxTime_spec ((active.foldl (fun v ind => v.set ind (-1)) v).map some)
  unfold maxJoinTime
  refine ⟨h1, fun hp => ?_, fun i t hi ht => ?_⟩
  · rcases h2 with ⟨h2, -⟩ | ⟨-, h2⟩
    · exact absurd h2 (ne_of_gt hp)
    · rw [List.getElem?_map, setNeg_get] at h2
      split at h2
      · simp only [Option.map_some, Option.some.injEq] at h2
        rw [← h2] at hp
        linarith
      · rename_i hn
        rw [Option.map_eq_some_iff] at h2
        obtain ⟨a, ha, hb⟩ := h2
        simp only [Option.some.injEq] at hb
        subst hb
        refine ⟨fun hm => hn ⟨hm, (List.getElem?_eq_some_iff.1 ha).1⟩, ?_⟩
        exact ha
  · apply h3
    rw [List.mem_iff_getElem?]
    refine ⟨i, ?_⟩
    rw [List.getElem?_map, setNeg_get, if_neg (fun h => hi h.1), ht]
    rfl

/-- A node of a well-formed path. -/
structure Spec.NodeOk (nc : Nat) (lambMin : K) (n : LassoLarsNode K) : Prop where
  sorted : n.selection.Pairwise (· < ·)
  nonempty : n.selection ≠ []
  range : ∀ f ∈ n.selection, f < nc
  coeff : n.coeff.length = n.selection.length
  lamb : lambMin < n.lamb

/-- The invariant of the loop. -/
structure LarsInv (nc : Nat) (lambMin : K) (s : LarsState K) : Prop where
  nodup : s.activeSet.Nodup
  range : ∀ f ∈ s.activeSet, f < nc
  ok : ∀ n ∈ s.res, Spec.NodeOk nc lambMin n
  dec : s.res.Pairwise (fun a b => b.lamb ≤ a.lamb)
  ge : ∀ n ∈ s.res, s.lamb ≤ n.lamb

/-- Everything an iteration that does not panic has computed. -/
theorem larsBody_cases {X : Mat K} {y : Nat → K} {tol lambMin : K}
    {est : Nat → List Nat → List K → Option (List K × List K)} {s : LarsState K} :
    (larsBody X y tol lambMin est s = .panic) ∨
    (¬ s.lamb > lambMin ∧ larsBody X y tol lambMin est s = .ret s.res) ∨
    (s.lamb > lambMin ∧ s.activeSet ≠ [] ∧ ∃ c d jts,
      est s.res.length (s.activeSet.insertionSort (· ≤ ·)) ((s.activeSet.insertionSort (· ≤ ·)).map s.allSigns) = some (c, d) ∧
      c.length = s.activeSet.length ∧ d.length = s.activeSet.length ∧
      tJoin X y tol s.lamb (s.activeSet.insertionSort (· ≤ ·)) c d s.last = some jts ∧
      larsBody X y tol lambMin est s = larsMove X y s (s.activeSet.insertionSort (· ≤ ·)) c d
        (maxJoinTime jts (s.activeSet.insertionSort (· ≤ ·))) (maxTime (tCross tol s.lamb c d))) := by
  unfold larsBody
  by_cases h1 : ¬ s.lamb > lambMin
  · right; left
    exact ⟨h1, by rw [if_pos h1]⟩
  · rw [if_neg h1]
    by_cases h2 : s.activeSet = []
    · left; rw [if_pos h2]
    · rw [if_neg h2]
      simp only
      cases h3 : est s.res.length (s.activeSet.insertionSort (· ≤ ·)) ((s.activeSet.insertionSort (· ≤ ·)).map s.allSigns) with
      | none => left; rfl
      | some p =>
        obtain ⟨c, d⟩ := p
        simp only
        by_cases h4 : c.length ≠ (s.activeSet.insertionSort (· ≤ ·)).length ∨
            d.length ≠ (s.activeSet.insertionSort (· ≤ ·)).length
        · left; rw [if_pos h4]
        · rw [if_neg h4]
          cases h5 : tJoin X y tol s.lamb (s.activeSet.insertionSort (· ≤ ·)) c d s.last with
          | none => left; rfl
          | some jts =>
            right; right
            simp only [List.length_insertionSort] at h4
            refine ⟨by simpa using h1, h2, c, d, jts, rfl, ?_, ?_, h5, rfl⟩ <;> omega

theorem sorted_active {l : List Nat} (h : l.Nodup) : (l.insertionSort (· ≤ ·)).Pairwise (· < ·) := by
  have h1 : (l.insertionSort (· ≤ ·)).Pairwise (· ≤ ·) := List.pairwise_insertionSort _ _
  have h2 : (l.insertionSort (· ≤ ·)).Nodup := (List.perm_insertionSort _ l).nodup_iff.2 h
  exact (h1.and h2).imp (fun h => lt_of_le_of_ne h.1 h.2)

theorem dropped_sub {l : List Nat} {k : Nat} (hk : k < l.length) :
    (l.set k (l.getLastD 0)).dropLast.Perm (l.eraseIdx k) := by
  rcases List.eq_nil_or_concat l with rfl | ⟨t, a, rfl⟩
  · simp at hk
  · rw [List.concat_eq_append] at hk ⊢
    have hlast : (t ++ [a]).getLastD 0 = a := by simp
    rw [hlast]
    simp only [List.length_append, List.length_singleton] at hk
    rcases Nat.lt_or_ge k t.length with h | h
    · rw [List.set_append_left _ _ h, List.dropLast_concat, List.eraseIdx_append_of_lt_length h]
      rw [List.set_eq_take_append_cons_drop, if_pos h, List.eraseIdx_eq_take_drop_succ, List.append_assoc]
      exact (List.perm_append_left_iff _).2 (List.perm_append_singleton a _).symm
    · have : k = t.length := by omega
      subst this
      rw [List.set_append_right _ _ (le_refl _), List.eraseIdx_append_of_length_le (le_refl _)]
      simp

theorem larsMove_inv {X : Mat K} {y : Nat → K} {lambMin : K} {s : LarsState K} {c d : List K} {jts : List K}
    {ct : K × Nat} (hi : LarsInv X.nc lambMin s) (hl : s.lamb > lambMin) (hne : s.activeSet ≠ [])
    (hc : c.length = s.activeSet.length) (hj : jts.length = X.nc)
    (hct : 0 ≤ ct.1) (hctk : ct.2 < s.activeSet.length) :
    (∀ r, larsMove X y s (s.activeSet.insertionSort (· ≤ ·)) c d
        (maxJoinTime jts (s.activeSet.insertionSort (· ≤ ·))) ct = .ret r →
      (∀ n ∈ r, Spec.NodeOk X.nc lambMin n) ∧ r.Pairwise (fun a b => b.lamb ≤ a.lamb)) ∧
    (∀ s', larsMove X y s (s.activeSet.insertionSort (· ≤ ·)) c d
        (maxJoinTime jts (s.activeSet.insertionSort (· ≤ ·))) ct = .next s' → LarsInv X.nc lambMin s') := by
  have hperm := List.perm_insertionSort (· ≤ ·) s.activeSet
  have hsorted := sorted_active hi.nodup
  have hnd : (s.activeSet.insertionSort (· ≤ ·)).Nodup := hperm.nodup_iff.2 hi.nodup
  have hrange : ∀ f ∈ s.activeSet.insertionSort (· ≤ ·), f < X.nc := fun f hf => hi.range f (hperm.mem_iff.1 hf)
  generalize hact : s.activeSet.insertionSort (· ≤ ·) = active at *
  have hlen : active.length = s.activeSet.length := hperm.length_eq
  have hne' : active ≠ [] := by
    intro h
    rw [h] at hlen
    exact hne (List.eq_nil_of_length_eq_zero hlen.symm)
  have hres : (∀ n ∈ s.res ++ [⟨betaLARS c d s.lamb, s.lamb, active⟩], Spec.NodeOk X.nc lambMin n) ∧
      (s.res ++ [(⟨betaLARS c d s.lamb, s.lamb, active⟩ : LassoLarsNode K)]).Pairwise (fun a b => b.lamb ≤ a.lamb) ∧
      ∀ n ∈ s.res ++ [(⟨betaLARS c d s.lamb, s.lamb, active⟩ : LassoLarsNode K)], s.lamb ≤ n.lamb := by
    refine ⟨?_, ?_, ?_⟩
    · intro n hn
      rcases List.mem_append.1 hn with hn | hn
      · exact hi.ok n hn
      · rw [List.mem_singleton.1 hn]
        exact ⟨hsorted, hne', hrange, by simp [betaLARS, hc, hlen], hl⟩
    · rw [List.pairwise_append]
      refine ⟨hi.dec, by simp, ?_⟩
      intro a ha b hb
      rw [List.mem_singleton.1 hb]
      exact hi.ge a ha
    · intro n hn
      rcases List.mem_append.1 hn with hn | hn
      · exact hi.ge n hn
      · rw [List.mem_singleton.1 hn]
  obtain ⟨h1, h2, h3⟩ := hres
  unfold larsMove
  simp only
  obtain ⟨j0, j1, -⟩ := maxJoinTime_spec jts active
  split
  · rename_i hjt
    obtain ⟨hm1, hm2⟩ := j1 (lt_of_le_of_lt hct hjt)
    split
    · refine ⟨fun r hr => ?_, fun s' hs => by simp at hs⟩
      simp only [Outcome.ret.injEq] at hr
      subst hr
      exact ⟨h1, h2⟩
    · rename_i hle
      refine ⟨fun r hr => by simp at hr, fun s' hs => ?_⟩
      simp only [Outcome.next.injEq] at hs
      subst hs
      refine ⟨?_, ?_, h1, h2, fun n hn => le_trans (not_lt.1 hle) (h3 n hn)⟩
      · simp only
        rw [List.nodup_append]
        refine ⟨hnd, by simp, ?_⟩
        intro a ha b hb
        rw [List.mem_singleton.1 hb]
        rintro rfl
        exact hm1 ha
      · intro f hf
        rcases List.mem_append.1 hf with hf | hf
        · exact hrange f hf
        · rw [List.mem_singleton.1 hf, ← hj]
          exact (List.getElem?_eq_some_iff.1 hm2).1
  · split
    · refine ⟨fun r hr => ?_, fun s' hs => by simp at hs⟩
      simp only [Outcome.ret.injEq] at hr
      subst hr
      exact ⟨h1, h2⟩
    · rename_i hle
      refine ⟨fun r hr => by simp at hr, fun s' hs => ?_⟩
      simp only [Outcome.next.injEq] at hs
      subst hs
      have hp := dropped_sub (l := active) (k := ct.2) (by omega)
      refine ⟨?_, ?_, h1, h2, fun n hn => le_trans (not_lt.1 hle) (h3 n hn)⟩
      · exact hp.nodup_iff.2 (hnd.sublist (List.eraseIdx_sublist _ _))
      · intro f hf
        exact hrange f ((List.eraseIdx_sublist _ _).subset (hp.mem_iff.1 hf))

theorem cross_index {tol lamb : K} {c d : List K} (hc : c ≠ []) :
    (maxTime (tCross tol lamb c d)).2 < c.length := by
  obtain ⟨-, h, -⟩ := maxTime_spec (tCross tol lamb c d)
  rcases h with ⟨-, h⟩ | ⟨-, h⟩
  · rw [h]; exact List.length_pos_iff.2 hc
  · have := (List.getElem?_eq_some_iff.1 h).1
    simpa [tCross] using this

theorem larsInit_inv {X : Mat K} {y : Nat → K} {lambMin : K} {s : LarsState K} (h : larsInit X y = some s) :
    LarsInv X.nc lambMin s := by
  unfold larsInit at h
  split at h
  · cases h
  · rename_i hn
    simp only [Option.some.injEq] at h
    subst h
    refine ⟨by simp, ?_, by simp, by simp, by simp⟩
    intro f hf
    rw [List.mem_singleton.1 hf]
    obtain ⟨-, h, -⟩ := maxTime_spec ((List.range X.nc).map (fun i => some |larsXy X y i|))
    rcases h with ⟨-, h⟩ | ⟨-, h⟩
    · rw [h]; omega
    · have := (List.getElem?_eq_some_iff.1 h).1
      simpa using this

theorem larsBody_inv {X : Mat K} {y : Nat → K} {tol lambMin : K}
    {est : Nat → List Nat → List K → Option (List K × List K)} {s : LarsState K} (hi : LarsInv X.nc lambMin s) :
    (∀ r, larsBody X y tol lambMin est s = .ret r →
      (∀ n ∈ r, Spec.NodeOk X.nc lambMin n) ∧ r.Pairwise (fun a b => b.lamb ≤ a.lamb)) ∧
    (∀ s', larsBody X y tol lambMin est s = .next s' → LarsInv X.nc lambMin s') := by
  rcases larsBody_cases (X := X) (y := y) (tol := tol) (lambMin := lambMin) (est := est) (s := s) with h | ⟨-, h⟩ |
    ⟨hl, hne, c, d, jts, -, hc, -, hj, h⟩
  · rw [h]; simp
  · rw [h]
    refine ⟨fun r hr => ?_, by simp⟩
    simp only [Outcome.ret.injEq] at hr
    subst hr
    exact ⟨hi.ok, hi.dec⟩
  · rw [h]
    have hcne : c ≠ [] := by
      intro h0
      rw [h0] at hc
      exact hne (List.eq_nil_of_length_eq_zero hc.symm)
    refine larsMove_inv hi hl hne hc ?_ (maxTime_spec _).1 ?_
    · have := mapM_length hj
      simpa using this
    · rw [← hc]
      exact cross_index hcne

/-- **C63.** Every node of a path that `LassoLars` returns has a strictly increasing, non-empty selection of
columns and as many coefficients; the regularisations exceed `lambMin` and never increase along the path.  This
holds for every estimator. -/
theorem C63_path (X : Mat K) (y : Nat → K) (tol lambMin : K)
    (est : Nat → List Nat → List K → Option (List K × List K)) (path : List (LassoLarsNode K))
    (h : LarsReturns X y tol lambMin est path) :
    (∀ n ∈ path, Spec.NodeOk X.nc lambMin n) ∧ path.Pairwise (fun a b => b.lamb ≤ a.lamb) := by
  obtain ⟨s, hs, hr⟩ := h
  have hi : LarsInv X.nc lambMin s := larsInit_inv hs
  clear hs
  induction hr with
  | ret h => exact (larsBody_inv hi).1 _ h
  | next h _ ih => exact ih ((larsBody_inv hi).2 _ h)

theorem crossTime_some {tol lamb c d t : K} (h : crossTime tol lamb c d = some t) :
    t = 0 ∨ (d ≠ 0 ∧ t = c / d ∧ t + tol ≤ lamb) := by
  unfold crossTime at h
  split at h
  · rename_i ratio hr
    simp only [Option.some.injEq] at h
    unfold Fl.divFin at hr
    split at hr
    · split at hr
      · cases hr
      · split at hr <;> cases hr
    · rename_i hd
      simp only [Fl.fin.injEq] at hr
      subst hr
      split at h
      · exact .inl h.symm
      · rename_i hn
        subst h
        exact .inr ⟨hd, rfl, not_lt.1 hn⟩
  · simp only [Option.some.injEq] at h
    exact .inl h.symm
  · cases h

/-- What an iteration does to the regularisation and the size of the active set. -/
theorem larsBody_next {X : Mat K} {y : Nat → K} {tol lambMin : K}
    {est : Nat → List Nat → List K → Option (List K × List K)} {s s' : LarsState K} (htol : 0 < tol)
    (h : larsBody X y tol lambMin est s = .next s') :
    s.lamb > lambMin ∧
      (s'.lamb ≤ s.lamb ∧ s'.activeSet.length = s.activeSet.length + 1 ∨
        (s'.lamb = 0 ∨ s'.lamb ≤ s.lamb - tol) ∧ s'.activeSet.length + 1 = s.activeSet.length) := by
  rcases larsBody_cases (X := X) (y := y) (tol := tol) (lambMin := lambMin) (est := est) (s := s) with h' | ⟨-, h'⟩ |
    ⟨hl, hne, c, d, jts, -, hc, -, hj, h'⟩
  · rw [h'] at h; cases h
  · rw [h'] at h; cases h
  · rw [h'] at h
    refine ⟨hl, ?_⟩
    unfold larsMove at h
    simp only at h
    split at h
    · split at h
      · cases h
      · rename_i hle
        simp only [Outcome.next.injEq] at h
        subst h
        left
        exact ⟨not_lt.1 hle, by simp [List.length_insertionSort]⟩
    · split at h
      · cases h
      · rename_i hle
        simp only [Outcome.next.injEq] at h
        subst h
        right
        have hpos : 0 < s.activeSet.length := List.length_pos_iff.2 hne
        refine ⟨?_, by simp only [List.length_dropLast, List.length_set, List.length_insertionSort]; omega⟩
        obtain ⟨-, h1, -⟩ := maxTime_spec (tCross tol s.lamb c d)
        rcases h1 with ⟨h1, -⟩ | ⟨-, h1⟩
        · exact .inl h1
        · unfold tCross at h1
          rw [List.getElem?_map, Option.map_eq_some_iff] at h1
          obtain ⟨a, -, h2⟩ := h1
          rcases crossTime_some h2 with h3 | ⟨-, -, h3⟩
          · exact .inl h3
          · right
            change (maxTime (tCross tol s.lamb c d)).1 ≤ s.lamb - tol
            unfold tCross
            linarith

/-- **C63 (termination).** For `lambMin ≥ 0` the loop ends, by returning or by a panic, for every estimator. -/
theorem C63_terminates [FloorSemiring K] (X : Mat K) (y : Nat → K) (tol lambMin : K) (htol : 0 < tol)
    (hmin : 0 ≤ lambMin) (est : Nat → List Nat → List K → Option (List K × List K)) (run : Nat → LarsState K)
    (h0 : larsInit X y = some (run 0)) : ¬ ∀ k, larsBody X y tol lambMin est (run k) = .next (run (k + 1)) := by
  intro hr
  have hinv : ∀ k, LarsInv X.nc lambMin (run k) := by
    intro k
    induction k with
    | zero => exact larsInit_inv h0
    | succ k ih => exact (larsBody_inv ih).2 _ (hr k)
  have hlen : ∀ k, (run k).activeSet.length ≤ X.nc := by
    intro k
    have h1 := (hinv k).nodup.subperm (l₂ := List.range X.nc) (fun f hf => List.mem_range.2 ((hinv k).range f hf))
    simpa using h1.length_le
  have hpos : ∀ k, 0 < (run k).lamb := fun k => lt_of_le_of_lt hmin (larsBody_next htol (hr k)).1
  let mu := fun k => ⌊(run k).lamb / tol⌋₊ * (X.nc + 1) + (X.nc - (run k).activeSet.length)
  have hmu : ∀ k, mu (k + 1) + 1 ≤ mu k := by
    intro k
    have hl := hlen k
    have hl' := hlen (k + 1)
    rcases (larsBody_next htol (hr k)).2 with ⟨h1, h2⟩ | ⟨h1, h2⟩
    · have h3 : ⌊(run (k + 1)).lamb / tol⌋₊ ≤ ⌊(run k).lamb / tol⌋₊ :=
        Nat.floor_le_floor (div_le_div_of_nonneg_right h1 (le_of_lt htol))
      have h4 := Nat.mul_le_mul_right (X.nc + 1) h3
      simp only [mu]
      omega
    · have h3 : (run (k + 1)).lamb ≤ (run k).lamb - tol := by
        rcases h1 with h1 | h1
        · exact absurd h1 (ne_of_gt (hpos (k + 1)))
        · exact h1
      have h4 : ⌊(run (k + 1)).lamb / tol⌋₊ + 1 ≤ ⌊(run k).lamb / tol⌋₊ := by
        rw [← Nat.floor_add_one (div_nonneg (le_of_lt (hpos _)) (le_of_lt htol))]
        apply Nat.floor_le_floor
        rw [← div_self (ne_of_gt htol), ← add_div]
        apply div_le_div_of_nonneg_right _ (le_of_lt htol)
        linarith
      have h5 := Nat.mul_le_mul_right (X.nc + 1) h4
      rw [Nat.add_mul, Nat.one_mul] at h5
      simp only [mu]
      omega
  have hsum : ∀ k, mu k + k ≤ mu 0 := by
    intro k
    induction k with
    | zero => simp
    | succ k ih => have := hmu k; omega
  have := hsum (mu 0 + 1)
  omega

/-- C63: above the largest correlation the path is empty. -/
theorem C63_empty (X : Mat K) (y : Nat → K) (tol lambMin : K) (hr : 0 < X.nr) (hc : 0 < X.nc)
    (est : Nat → List Nat → List K → Option (List K × List K)) (h0 : 0 ≤ lambMin)
    (h : ∀ i, i < X.nc → |larsXy X y i| ≤ lambMin) : LarsReturns X y tol lambMin est [] := by
  unfold LarsReturns larsInit
  rw [if_neg (by omega)]
  refine ⟨_, rfl, .ret ?_⟩
  unfold larsBody
  simp only
  rw [if_pos]
  rw [not_lt]
  obtain ⟨-, h1, -⟩ := maxTime_spec ((List.range X.nc).map (fun i => some |larsXy X y i|))
  rcases h1 with ⟨h1, -⟩ | ⟨-, h1⟩
  · rw [h1]; exact h0
  · rw [List.getElem?_map, Option.map_eq_some_iff] at h1
    obtain ⟨a, ha, h1⟩ := h1
    simp only [Option.some.injEq] at h1
    rw [← h1]
    apply h
    have := List.mem_of_getElem? ha
    exact List.mem_range.1 this

end

/-- The estimator of two orthonormal columns. -/
def larsToyEst (y : Nat → ℚ) (_ : Nat) (active : List Nat) (signs : List ℚ) : Option (List ℚ × List ℚ) :=
  some (active.map y, signs)

/-- Two orthonormal columns: the path starts at the largest correlation, the second feature joins at its
correlation. -/
example : LarsReturns (K := ℚ) ⟨2, 2, fun i j => if i = j then 1 else 0⟩ (fun i => if i = 0 then 1 else -3)
    lassoTol (1 / 2) (larsToyEst (fun i => if i = 0 then 1 else -3)) [⟨[0], 3, [1]⟩, ⟨[0, -2], 1, [0, 1]⟩] := by
  refine ⟨_, rfl, runs_of_runFuel (n := 3) ?_⟩
  decide +kernel

end GoSelect
