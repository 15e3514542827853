import Verif.Model.Sorting
import Mathlib.Data.List.Basic
import Mathlib.Order.Basic
import Mathlib.Order.Defs.LinearOrder
import Mathlib.Data.List.Sort

/-! C36: Argsort, Argmin, Argmax. -/

namespace GoSelect

variable {α : Type} [LinearOrder α]

namespace Spec

/-- `i` is the first index of a smallest element of `a`. -/
def IsFirstMin (a : List α) (i : Nat) : Prop :=
  ∃ v, a[i]? = some v ∧ (∀ x ∈ a, v ≤ x) ∧ ∀ j < i, ∀ x, a[j]? = some x → v < x

/-- `i` is the first index of a largest element of `a`. -/
def IsFirstMax (a : List α) (i : Nat) : Prop :=
  ∃ v, a[i]? = some v ∧ (∀ x ∈ a, x ≤ v) ∧ ∀ j < i, ∀ x, a[j]? = some x → x < v

end Spec

open Spec

/-- The two scanning loops, for a strict order `r` (`<` or `>`). -/
theorem scan_spec (r : α → α → Prop) [DecidableRel r] (htr : ∀ a b c, r a b → r b c → r a c)
    (hneg : ∀ a b c, ¬ r a b → r a c → r b c) (hirr : ∀ a, ¬ r a a) (a pre suf : List α) (v : α) (i : Nat)
    (ha : a = pre ++ suf) (hv : a[i]? = some v) (hmin : ∀ x ∈ pre, ¬ r x v)
    (hfirst : ∀ j < i, ∀ x, a[j]? = some x → r v x) :
    ∃ i' v', (suf.zipIdx pre.length).foldl (fun s vi => if r vi.1 s.2 then (vi.2, vi.1) else s) (i, v)
        = (i', v') ∧ a[i']? = some v' ∧ (∀ x ∈ a, ¬ r x v') ∧
      ∀ j < i', ∀ x, a[j]? = some x → r v' x := by
  induction suf generalizing pre v i with
  | nil =>
    rw [List.append_nil] at ha
    subst ha
    exact ⟨i, v, rfl, hv, hmin, hfirst⟩
  | cons x suf ih =>
    rw [List.zipIdx_cons, List.foldl_cons]
    have ha' : a = (pre ++ [x]) ++ suf := by rw [ha]; simp
    have hx : a[pre.length]? = some x := by rw [ha]; simp
    have hlen : (pre ++ [x]).length = pre.length + 1 := by simp
    by_cases h : r x v
    · simp only [h, if_true]
      rw [← hlen]
      refine ih (pre ++ [x]) x pre.length ha' hx ?_ ?_
      · intro z hz
        rcases List.mem_append.1 hz with hz | hz
        · intro hzx
          exact hmin z hz (htr _ _ _ hzx h)
        · rw [List.mem_singleton.1 hz]; exact hirr x
      · intro j hj z hz
        have : z ∈ pre := by
          rw [ha, List.getElem?_append_left hj] at hz
          exact List.mem_of_getElem? hz
        by_contra hn
        exact hmin z this (hneg x z v hn h)
    · simp only [h, if_false]
      rw [← hlen]
      refine ih (pre ++ [x]) v i ha' hv ?_ hfirst
      intro z hz
      rcases List.mem_append.1 hz with hz | hz
      · exact hmin z hz
      · rw [List.mem_singleton.1 hz]; exact h

/-- `Argmin` returns the first index of the minimum and panics only on an empty slice. -/
theorem C36_argmin (a : List α) :
    (argmin a = none ↔ a = []) ∧ ∀ i, argmin a = some i → IsFirstMin a i := by
  cases a with
  | nil => simp [argmin]
  | cons a0 a =>
    refine ⟨by simp [argmin], fun i hi => ?_⟩
    obtain ⟨i', v', h1, h2, h3, h4⟩ := scan_spec (fun x y : α => x < y)
      (fun _ _ _ h h' => h.trans h') (fun _ _ _ h h' => (not_lt.1 h).trans_lt h') (fun _ => lt_irrefl _)
      (a0 :: a) [] (a0 :: a) a0 0 rfl rfl (by simp) (by simp)
    simp only [argmin, Option.some.injEq] at hi
    rw [List.length_nil] at h1
    rw [h1] at hi
    subst hi
    exact ⟨v', h2, fun x hx => not_lt.1 (h3 x hx), h4⟩

/-- `Argmax` returns the first index of the maximum and panics only on an empty slice. -/
theorem C36_argmax (a : List α) :
    (argmax a = none ↔ a = []) ∧ ∀ i, argmax a = some i → IsFirstMax a i := by
  cases a with
  | nil => simp [argmax]
  | cons a0 a =>
    refine ⟨by simp [argmax], fun i hi => ?_⟩
    obtain ⟨i', v', h1, h2, h3, h4⟩ := scan_spec (fun x y : α => y < x)
      (fun _ _ _ h h' => h'.trans h) (fun _ _ _ h h' => h'.trans_le (not_lt.1 h)) (fun _ => lt_irrefl _)
      (a0 :: a) [] (a0 :: a) a0 0 rfl rfl (by simp) (by simp)
    simp only [argmax, Option.some.injEq] at hi
    rw [List.length_nil] at h1
    rw [h1] at hi
    subst hi
    exact ⟨v', h2, fun x hx => not_lt.1 (h3 x hx), h4⟩

/-- `Argsort` returns a permutation of the indices along which the values do not decrease, for
every sorting algorithm. -/
theorem C36_argsort (sort : List (α × Nat) → List (α × Nat)) (hsort : SortsByValue sort)
    (a : List α) :
    (argsort sort a).Perm (List.range a.length) ∧
      ∃ vals, (argsort sort a).mapM (fun i => a[i]?) = some vals ∧ vals.Pairwise (· ≤ ·) ∧
        vals.Perm a := by
  have hp := hsort.perm a.zipIdx
  have hz : ∀ p ∈ sort a.zipIdx, a[p.2]? = some p.1 := fun p hp' => by
    have := hp.mem_iff.1 hp'
    exact List.mem_zipIdx_iff_getElem?.1 this
  refine ⟨?_, (sort a.zipIdx).map (·.1), ?_, ?_, ?_⟩
  · have := hp.map (·.2)
    rwa [List.zipIdx_map_snd, ← List.range_eq_range'] at this
  · have key : ∀ l : List (α × Nat), (∀ p ∈ l, a[p.2]? = some p.1) →
        (l.map (·.2)).mapM (fun i => a[i]?) = some (l.map (·.1)) := by
      intro l
      induction l with
      | nil => intro _; rfl
      | cons p l ih =>
        intro hl
        rw [List.map_cons, List.mapM_cons, hl p (by simp), ih fun q hq => hl q (by simp [hq])]
        rfl
    exact key _ hz
  · rw [List.pairwise_map]
    exact (hsort.sorted a.zipIdx).imp fun h => not_lt.1 h
  · have := hp.map (·.1)
    rwa [List.zipIdx_map_fst] at this

/-- A sorting function with the contract, and the loops on a slice with ties. -/
example : SortsByValue (fun l : List (Int × Nat) => l.mergeSort (fun a b => decide (a.1 ≤ b.1))) ∧
    argmin [3, 1, 2, 1] = some 1 ∧ argmax [1, 3, 2, 3] = some 1 ∧
    argmin ([] : List Int) = none := by
  refine ⟨⟨fun l => List.mergeSort_perm l _, fun l => ?_⟩, by decide, by decide, by decide⟩
  have := List.pairwise_mergeSort (le := fun a b : Int × Nat => decide (a.1 ≤ b.1))
    (fun a b c h1 h2 => by simp at *; omega) (fun a b => by simp; omega) l
  exact this.imp fun h => by simpa using h

end GoSelect
