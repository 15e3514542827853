import Verif.Model.PoolRace
import Verif.Proofs.Pool
import Verif.Proofs.SelectRace
import Mathlib.Logic.Relation

/-! Happens-before in worker pools, and the invariant behind C152. -/

namespace GoSelect

variable {M W R L : Type}

namespace Spec

/-- The happens-before order of the Go memory model on the events of a run: the order within one goroutine, the meeting of
a send and a receive on an unbuffered channel, the start of a goroutine, and what follows from these. -/
def PoolHB (tr : List (PEv L)) : Nat → Nat → Prop :=
  Relation.TransGen fun i j => i < j ∧ ∃ e f g, tr[i]? = some e ∧ tr[j]? = some f ∧ g ∈ e.parts ∧ g ∈ f.parts

/-- A data race at memory `l`: two goroutines access it, at least one of them writes, and neither access happens before
the other. -/
def RaceAt (tr : List (PEv L)) (l : L) (i j : Nat) : Prop :=
  ∃ g h w w', tr[i]? = some (.access g l w) ∧ tr[j]? = some (.access h l w') ∧ g ≠ h ∧ (w = true ∨ w' = true) ∧
    ¬ PoolHB tr i j ∧ ¬ PoolHB tr j i

end Spec

open Spec

theorem phb_lt {tr : List (PEv L)} {i j : Nat} (h : PoolHB tr i j) : i < j := by
  induction h with
  | single h => exact h.1
  | tail _ h ih => exact ih.trans h.1

theorem phb_append {tr es : List (PEv L)} {i j : Nat} (h : PoolHB tr i j) : PoolHB (tr ++ es) i j := by
  induction h with
  | single h =>
    obtain ⟨h1, e, f, g, h2, h3, h4⟩ := h
    exact .single ⟨h1, e, f, g, getElem?_append_some h2, getElem?_append_some h3, h4⟩
  | tail _ h ih =>
    obtain ⟨h1, e, f, g, h2, h3, h4⟩ := h
    exact .tail ih ⟨h1, e, f, g, getElem?_append_some h2, getElem?_append_some h3, h4⟩

/-- What happens later does not order earlier events. -/
theorem phb_of_append {tr es : List (PEv L)} {i j : Nat} (h : PoolHB (tr ++ es) i j) (hj : j < tr.length) : PoolHB tr i j := by
  induction h with
  | single h =>
    obtain ⟨h1, e, f, g, h2, h3, h4⟩ := h
    rw [List.getElem?_append_left (h1.trans hj)] at h2
    rw [List.getElem?_append_left hj] at h3
    exact .single ⟨h1, e, f, g, h2, h3, h4⟩
  | tail _ h ih =>
    obtain ⟨h1, e, f, g, h2, h3, h4⟩ := h
    rw [List.getElem?_append_left (h1.trans hj)] at h2
    rw [List.getElem?_append_left hj] at h3
    exact .tail (ih (h1.trans hj)) ⟨h1, e, f, g, h2, h3, h4⟩

/-- Event `i` is an event of `g`, or happens before one. -/
def PKnown (tr : List (PEv L)) (g i : Nat) : Prop :=
  ∃ (j : Nat) (e : PEv L), tr[j]? = some e ∧ g ∈ e.parts ∧ (i = j ∨ PoolHB tr i j)

theorem PKnown.append {tr es : List (PEv L)} {g i : Nat} (h : PKnown tr g i) : PKnown (tr ++ es) g i := by
  obtain ⟨j, e, h1, h2, h3⟩ := h
  exact ⟨j, e, getElem?_append_some h1, h2, h3.imp_right phb_append⟩

/-- What is known to a goroutine happens before its new events. -/
theorem PKnown.hb {tr es : List (PEv L)} {g i j : Nat} {e : PEv L} (h : PKnown tr g i) (hj : tr.length ≤ j)
    (he : (tr ++ es)[j]? = some e) (hg : g ∈ e.parts) : PoolHB (tr ++ es) i j := by
  obtain ⟨k, f, h1, h2, h3⟩ := h
  have hk : k < j := lt_of_lt_of_le (List.getElem?_eq_some_iff.1 h1).1 hj
  have edge : PoolHB (tr ++ es) k j := .single ⟨hk, f, e, g, getElem?_append_some h1, he, h2, hg⟩
  rcases h3 with rfl | h3
  · exact edge
  · exact Relation.TransGen.trans (phb_append h3) edge

theorem PKnown.self {tr : List (PEv L)} {g j : Nat} {e : PEv L} (he : tr[j]? = some e) (hg : g ∈ e.parts) : PKnown tr g j :=
  ⟨j, e, he, hg, Or.inl rfl⟩

/-- Whoever meets a goroutine learns what it knows. -/
theorem PKnown.meet {tr : List (PEv L)} {g h i : Nat} {e : PEv L} (hk : PKnown tr h i) (hh : h ∈ e.parts)
    (hg : g ∈ e.parts) : PKnown (tr ++ [e]) g i := by
  have hj : (tr ++ [e])[tr.length]? = some e := by simp
  exact ⟨tr.length, e, hj, hg, Or.inr (hk.hb (le_refl _) hj hh)⟩

theorem pev_old_or_new {tr es : List (PEv L)} {i : Nat} {e : PEv L} (h : (tr ++ es)[i]? = some e) :
    tr[i]? = some e ∨ (e ∈ es ∧ tr.length ≤ i) := by
  by_cases hi : i < tr.length
  · rw [List.getElem?_append_left hi] at h
    exact Or.inl h
  · rw [List.getElem?_append_right (not_lt.1 hi)] at h
    exact Or.inr ⟨List.mem_of_getElem? h, not_lt.1 hi⟩

theorem mem_accesses {g g' : Nat} {l : L} {b : Bool} {as : List (L × Bool)} :
    PEv.access g' l b ∈ accesses g as ↔ g' = g ∧ (l, b) ∈ as := by
  unfold accesses
  rw [List.mem_map]
  constructor
  · rintro ⟨⟨l', b'⟩, h1, h2⟩
    cases h2
    exact ⟨rfl, h1⟩
  · rintro ⟨rfl, h⟩
    exact ⟨(l, b), h, rfl⟩

/-- The worker has the job `w` and has not delivered its result. -/
def Worker.Has (w : W) (k : Worker W R) : Prop := k.held = some w

/-- In each state the main goroutine keeps off the memory of the jobs in progress. -/
def PoolQuiet (act : M → Act M W R) (comp : W → R → Prop) (m₀ : M) (mem : PoolMem M W L) : Prop :=
  ∀ s, PoolReach act comp m₀ s → act s.main ≠ .panic → ∀ (k : Nat) (x : Worker W R) (w : W), s.workers[k]? = some x → x.Has w →
    ∀ l b b', (l, b) ∈ mem.main s.main → (l, b') ∈ mem.work w → b = false ∧ b' = false

/-- Two different jobs access the same memory, and at least one of them writes. -/
def Clash (mem : PoolMem M W L) (ev : List W) (l : L) (b b' : Bool) : Prop :=
  ∃ (a c : Nat) (w w' : W), a < c ∧ ev[a]? = some w ∧ ev[c]? = some w' ∧ (l, b) ∈ mem.work w ∧ (l, b') ∈ mem.work w'

theorem Clash.append {mem : PoolMem M W L} {ev ev' : List W} {l : L} {b b' : Bool} (h : Clash mem ev l b b') :
    Clash mem (ev ++ ev') l b b' := by
  obtain ⟨a, c, w, w', h1, h2, h3, h4⟩ := h
  exact ⟨a, c, w, w', h1, getElem?_append_some h2, getElem?_append_some h3, h4⟩

/-- The invariant. -/
structure MemInv (mem : PoolMem M W L) (s : Pool M W R) (tr : List (PEv L)) : Prop where
  own : ∀ (i k : Nat) (l : L) (b : Bool), tr[i]? = some (.access (k + 1) l b) → PKnown tr 0 i ∨
    ∃ w r, s.workers[k]? = some (.sending w r) ∧ (l, b) ∈ mem.work w
  job : ∀ (i k : Nat) (l : L) (b : Bool), tr[i]? = some (.access (k + 1) l b) → ∃ (a : Nat) (w : W), s.evaluated[a]? = some w ∧ (l, b) ∈ mem.work w
  tell : ∀ (k : Nat) (w : W), s.workers[k]? = some (.computing w) → ∀ (i : Nat) (l : L) (b : Bool), tr[i]? = some (.access 0 l b) → PKnown tr (k + 1) i ∨
    ∀ b', (l, b') ∈ mem.work w → b = false ∧ b' = false
  ord : ∀ (i j g h : Nat) (l : L) (b b' : Bool), tr[i]? = some (.access g l b) → tr[j]? = some (.access h l b') → i < j → g ≠ h →
    (b = true ∨ b' = true) → PoolHB tr i j ∨ (0 < g ∧ 0 < h ∧ Clash mem s.evaluated l b b')

theorem MemInv.init (mem : PoolMem M W L) (m : M) : MemInv mem (poolInit m : Pool M W R) (accesses 0 mem.before) := by
  have key : ∀ (i g : Nat) (l : L) (b : Bool), (accesses 0 mem.before)[i]? = some (.access g l b) → g = 0 := fun i g l b h =>
    (mem_accesses.1 (List.mem_of_getElem? h)).1
  refine ⟨fun i k l b h => ?_, fun i k l b h => ?_, fun k w h => by simp [poolInit] at h, fun i j g h l b b' h1 h2 _ h3 => ?_⟩
  · exact absurd (key _ _ _ _ h) (by omega)
  · exact absurd (key _ _ _ _ h) (by omega)
  · exact absurd ((key _ _ _ _ h1).trans (key _ _ _ _ h2).symm) h3

/-- The main goroutine makes its accesses. -/
theorem MemInv.main {mem : PoolMem M W L} {s : Pool M W R} {tr : List (PEv L)} (hi : MemInv mem s tr)
    {as : List (L × Bool)}
    (hq : ∀ (k : Nat) (x : Worker W R) (w : W), s.workers[k]? = some x → x.Has w → ∀ l b b', (l, b) ∈ as →
      (l, b') ∈ mem.work w → b = false ∧ b' = false) : MemInv mem s (tr ++ accesses 0 as) := by
  refine ⟨fun i k l b h => ?_, fun i k l b h => ?_, fun k w hk i l b h => ?_, fun i j g h l b b' h1 h2 hij hne hb => ?_⟩
  · rcases pev_old_or_new h with h | ⟨h, -⟩
    · exact (hi.own i k l b h).imp_left PKnown.append
    · exact absurd (mem_accesses.1 h).1 (by omega)
  · rcases pev_old_or_new h with h | ⟨h, -⟩
    · exact hi.job i k l b h
    · exact absurd (mem_accesses.1 h).1 (by omega)
  · rcases pev_old_or_new h with h | ⟨h, -⟩
    · exact (hi.tell k w hk i l b h).imp_left PKnown.append
    · exact Or.inr (fun b' hb' => hq k _ w hk rfl l b b' (mem_accesses.1 h).2 hb')
  · rcases pev_old_or_new h2 with h2' | ⟨h2', hj⟩
    · have hj := (List.getElem?_eq_some_iff.1 h2').1
      rw [List.getElem?_append_left (hij.trans hj)] at h1
      exact (hi.ord i j g h l b b' h1 h2' hij hne hb).imp_left phb_append
    · obtain ⟨rfl, hm⟩ := mem_accesses.1 h2'
      rcases pev_old_or_new h1 with h1 | ⟨h1, -⟩
      · obtain ⟨k, rfl⟩ : ∃ k, g = k + 1 := ⟨g - 1, by omega⟩
        rcases hi.own i k l b h1 with h3 | ⟨w, r, h3, h4⟩
        · exact Or.inl (h3.hb hj h2 (by simp [PEv.parts]))
        · obtain ⟨rfl, rfl⟩ := hq k _ w h3 rfl l b' b hm h4
          simp at hb
      · exact absurd (mem_accesses.1 h1).1 hne

/-- Goroutines meet. -/
theorem MemInv.sync {mem : PoolMem M W L} {s : Pool M W R} {tr : List (PEv L)} (hi : MemInv mem s tr) {e : PEv L}
    (he : ∀ g l b, e ≠ .access g l b) : MemInv mem s (tr ++ [e]) := by
  have key : ∀ {i g : Nat} {l : L} {b : Bool}, (tr ++ [e])[i]? = some (.access g l b) → tr[i]? = some (.access g l b) := by
    intro i g l b h
    rcases pev_old_or_new h with h | ⟨h, -⟩
    · exact h
    · exact absurd (List.mem_singleton.1 h).symm (he _ _ _)
  refine ⟨fun i k l b h => ?_, fun i k l b h => ?_, fun k w hk i l b h => ?_, fun i j g h l b b' h1 h2 hij hne hb => ?_⟩
  · exact (hi.own i k l b (key h)).imp_left PKnown.append
  · exact hi.job i k l b (key h)
  · exact (hi.tell k w hk i l b (key h)).imp_left PKnown.append
  · exact (hi.ord i j g h l b b' (key h1) (key h2) hij hne hb).imp_left phb_append

theorem PoolRun.reach {act : M → Act M W R} {comp : W → R → Prop} {m₀ : M} {mem : PoolMem M W L} {s : Pool M W R}
    {tr : List (PEv L)} {b : Bool} (h : PoolRun act comp m₀ mem s tr b) : PoolReach act comp m₀ s := by
  induction h with
  | init => exact .init
  | spawn m _ h ih => exact .step ih (.spawn m h)
  | tau m _ h ih => exact .step ih (.tau m h)
  | send w m i _ h hi ih => exact .step ih (.send w m i h hi)
  | compute w i r _ hi hc ih => exact .step ih (.compute w i r hi hc)
  | recv f w i r _ h hi ih => exact .step ih (.recv f w i r h hi)
  | ret _ _ ih => exact ih

theorem PoolReach.run {act : M → Act M W R} {comp : W → R → Prop} {m₀ : M} (mem : PoolMem M W L) {s : Pool M W R}
    (h : PoolReach act comp m₀ s) : ∃ tr, PoolRun act comp m₀ mem s tr false := by
  induction h with
  | init => exact ⟨_, .init⟩
  | step _ h' ih =>
    obtain ⟨tr, ih⟩ := ih
    cases h' with
    | spawn m h => exact ⟨_, .spawn m ih h⟩
    | tau m h => exact ⟨_, .tau m ih h⟩
    | send w m i h hi => exact ⟨_, .send w m i ih h hi⟩
    | compute w i r hi hc => exact ⟨_, .compute w i r ih hi hc⟩
    | recv f w i r h hi => exact ⟨_, .recv f w i r ih h hi⟩

theorem PoolRun.inv {act : M → Act M W R} {comp : W → R → Prop} {m₀ : M} {mem : PoolMem M W L}
    (hq : PoolQuiet act comp m₀ mem) {s : Pool M W R} {tr : List (PEv L)} {b : Bool} (h : PoolRun act comp m₀ mem s tr b) :
    MemInv mem s tr := by
  induction h with
  | init => exact MemInv.init mem m₀
  | @spawn s tr m hr h ih =>
    have h1 := ((ih.main (hq s hr.reach (by simp [h]))).sync
      (e := .sync 0 (s.workers.length + 1)) (fun g l b => by simp))
    rw [List.append_assoc] at h1
    have old : ∀ (k : Nat) (x : Worker W R), (s.workers ++ [.idle])[k]? = some x → x ≠ .idle → s.workers[k]? = some x := by
      intro k x hk hx
      by_cases hlt : k < s.workers.length
      · rwa [List.getElem?_append_left hlt] at hk
      · rw [List.getElem?_append_right (not_lt.1 hlt)] at hk
        exact absurd (List.mem_singleton.1 (List.mem_of_getElem? hk)) hx
    refine ⟨fun i k l b h => ?_, h1.job, fun k w hk => h1.tell k w (old k _ hk (by simp)), h1.ord⟩
    rcases h1.own i k l b h with h2 | ⟨w, r, h2, h3⟩
    · exact Or.inl h2
    · exact Or.inr ⟨w, r, getElem?_append_some h2, h3⟩
  | @tau s tr m hr h ih =>
    have h1 := ih.main (hq s hr.reach (by simp [h]))
    exact ⟨h1.own, h1.job, h1.tell, h1.ord⟩
  | @send s tr w m i hr h hi ih =>
    have h0 := ih.main (hq s hr.reach (by simp [h]))
    have h1 := h0.sync (e := .sync 0 (i + 1)) (fun g l b => by simp)
    rw [List.append_assoc] at h1
    refine ⟨fun j k l b hj => ?_, h1.job, fun k w' hk j l b hj => ?_, h1.ord⟩
    · refine (h1.own j k l b hj).imp_right ?_
      rintro ⟨w', r, h2, h3⟩
      have hne : i ≠ k := by
        rintro rfl
        rw [hi] at h2
        cases h2
      exact ⟨w', r, by simpa [List.getElem?_set_ne hne] using h2, h3⟩
    · by_cases hik : i = k
      · subst hik
        left
        rw [← List.append_assoc] at hj ⊢
        rcases pev_old_or_new hj with hj | ⟨hj, -⟩
        · exact (PKnown.self hj (by simp [PEv.parts])).meet (h := 0) (by simp [PEv.parts]) (by simp [PEv.parts])
        · simp at hj
      · exact h1.tell k w' (by simpa [List.getElem?_set_ne hik] using hk) j l b hj
  | @compute s tr b w i r hr hi hc ih =>
    refine ⟨fun j k l b hj => ?_, fun j k l b hj => ?_, fun k w' hk j l b hj => ?_,
      fun j j' g h l b b' h1 h2 hjj hne hb => ?_⟩
    · rcases pev_old_or_new hj with hj | ⟨hj, -⟩
      · rcases ih.own j k l b hj with h2 | ⟨w', r', h2, h3⟩
        · exact Or.inl h2.append
        · have hne : i ≠ k := by
            rintro rfl
            rw [hi] at h2
            cases h2
          exact Or.inr ⟨w', r', by simpa [List.getElem?_set_ne hne] using h2, h3⟩
      · obtain ⟨h1, h2⟩ := mem_accesses.1 hj
        obtain rfl : k = i := by omega
        refine Or.inr ⟨w, r, ?_, h2⟩
        simp only
        rw [List.getElem?_set_self (List.getElem?_eq_some_iff.1 hi).1]
    · rcases pev_old_or_new hj with hj | ⟨hj, -⟩
      · obtain ⟨a, w', h1, h2⟩ := ih.job j k l b hj
        exact ⟨a, w', getElem?_append_some h1, h2⟩
      · exact ⟨s.evaluated.length, w, by simp, (mem_accesses.1 hj).2⟩
    · have hne : i ≠ k := by
        rintro rfl
        simp only at hk
        rw [List.getElem?_set_self (List.getElem?_eq_some_iff.1 hi).1] at hk
        cases hk
      rcases pev_old_or_new hj with hj | ⟨hj, -⟩
      · exact (ih.tell k w' (by simpa [List.getElem?_set_ne hne] using hk) j l b hj).imp_left PKnown.append
      · exact absurd (mem_accesses.1 hj).1 (by omega)
    · rcases pev_old_or_new h2 with h2' | ⟨h2', hj⟩
      · have hj := (List.getElem?_eq_some_iff.1 h2').1
        rw [List.getElem?_append_left (hjj.trans hj)] at h1
        exact (ih.ord j j' g h l b b' h1 h2' hjj hne hb).imp phb_append (fun ⟨h3, h4, h5⟩ => ⟨h3, h4, h5.append⟩)
      · obtain ⟨rfl, hm⟩ := mem_accesses.1 h2'
        rcases pev_old_or_new h1 with h1 | ⟨h1, -⟩
        · cases g with
          | zero =>
            rcases ih.tell i w hi j l b h1 with h3 | h3
            · exact Or.inl (h3.hb hj h2 (by simp [PEv.parts]))
            · obtain ⟨rfl, rfl⟩ := h3 b' hm
              simp at hb
          | succ k =>
            obtain ⟨a, w', h3, h4⟩ := ih.job j k l b h1
            exact Or.inr ⟨by omega, by omega, a, s.evaluated.length, w', w, (List.getElem?_eq_some_iff.1 h3).1,
              getElem?_append_some h3, by simp, h4, hm⟩
        · exact absurd (mem_accesses.1 h1).1 hne
  | @recv s tr f w i r hr h hi ih =>
    have h0 := ih.main (hq s hr.reach (by simp [h]))
    have h1 := h0.sync (e := .sync (i + 1) 0) (fun g l b => by simp)
    rw [List.append_assoc] at h1
    refine ⟨fun j k l b hj => ?_, h1.job, fun k w' hk j l b hj => ?_, h1.ord⟩
    · by_cases hik : i = k
      · subst hik
        left
        rw [← List.append_assoc] at hj ⊢
        rcases pev_old_or_new hj with hj | ⟨hj, -⟩
        · exact (PKnown.self hj (by simp [PEv.parts])).meet (h := i + 1) (by simp [PEv.parts]) (by simp [PEv.parts])
        · simp at hj
      · refine (h1.own j k l b hj).imp_right ?_
        rintro ⟨w', r', h2, h3⟩
        exact ⟨w', r', by simpa [List.getElem?_set_ne hik] using h2, h3⟩
    · by_cases hik : i = k
      · subst hik
        simp only at hk
        rw [List.getElem?_set_self (List.getElem?_eq_some_iff.1 hi).1] at hk
        cases hk
      · exact h1.tell k w' (by simpa [List.getElem?_set_ne hik] using hk) j l b hj
  | @ret s tr hr h ih =>
    have h1 := ((ih.main (hq s hr.reach (by simp [h]))).sync
      (e := .ret) (fun g l b => by simp))
    rwa [List.append_assoc] at h1

/-- Where pools race: two different jobs that were evaluated access the same memory. -/
theorem PoolRun.race {act : M → Act M W R} {comp : W → R → Prop} {m₀ : M} {mem : PoolMem M W L}
    (hq : PoolQuiet act comp m₀ mem) {s : Pool M W R} {tr : List (PEv L)} {b : Bool} (h : PoolRun act comp m₀ mem s tr b)
    {l : L} {i j : Nat} (hr : RaceAt tr l i j) :
    ∃ c c', (c = true ∨ c' = true) ∧ Clash mem s.evaluated l c c' ∧
      ∃ g h, 0 < g ∧ 0 < h ∧ g ≠ h ∧ (∃ c, tr[i]? = some (.access g l c)) ∧ ∃ c, tr[j]? = some (.access h l c) := by
  have hi := h.inv hq
  obtain ⟨g, k, c, c', h1, h2, hne, hb, h3, h4⟩ := hr
  rcases lt_trichotomy i j with hij | rfl | hij
  · rcases hi.ord i j g k l c c' h1 h2 hij hne hb with h5 | ⟨h5, h6, h7⟩
    · exact absurd h5 h3
    · exact ⟨c, c', hb, h7, g, k, h5, h6, hne, ⟨c, h1⟩, c', h2⟩
  · rw [h1] at h2
    cases h2
    exact absurd rfl hne
  · rcases hi.ord j i k g l c' c h2 h1 hij hne.symm hb.symm with h5 | ⟨h5, h6, h7⟩
    · exact absurd h5 h4
    · exact ⟨c', c, hb.symm, h7, g, k, h6, h5, hne, ⟨c, h1⟩, c', h2⟩

/-- When the call returns and no job is in progress, everything that was accessed happens before the return and nothing is
accessed later. -/
theorem PoolRun.returns {act : M → Act M W R} {comp : W → R → Prop} {m₀ : M} {mem : PoolMem M W L}
    (hq : PoolQuiet act comp m₀ mem)
    (hd : ∀ s, PoolReach act comp m₀ s → act s.main = .done → ∀ x ∈ s.workers, x = .idle) {s : Pool M W R}
    {tr : List (PEv L)} {b : Bool} (h : PoolRun act comp m₀ mem s tr b) :
    b = true → act s.main = .done ∧ ∃ tr₀, tr = tr₀ ++ [.ret] ∧
      ∀ (i g : Nat) (l : L) (c : Bool), tr[i]? = some (.access g l c) → PoolHB tr i tr₀.length := by
  induction h with
  | init => intro h; cases h
  | spawn => intro h; cases h
  | tau => intro h; cases h
  | send => intro h; cases h
  | recv => intro h; cases h
  | @compute s tr b w i r hr hi hc ih =>
    intro hb
    have := hd s hr.reach (ih hb).1 _ (List.mem_of_getElem? hi)
    cases this
  | @ret s tr hr h ih =>
    intro _
    refine ⟨h, tr ++ accesses 0 (mem.main s.main), by simp, fun i g l c hi => ?_⟩
    have hinv := (hr.inv hq).main (hq s hr.reach (by simp [h]))
    rw [← List.append_assoc] at hi ⊢
    have hlast : (tr ++ accesses 0 (mem.main s.main) ++ [PEv.ret])[(tr ++ accesses 0 (mem.main s.main)).length]? =
        some .ret := by simp
    rcases pev_old_or_new hi with hi | ⟨hi, -⟩
    · refine PKnown.hb (g := 0) ?_ (le_refl _) hlast (by simp [PEv.parts])
      cases g with
      | zero => exact PKnown.self hi (by simp [PEv.parts])
      | succ k =>
        rcases hinv.own i k l c hi with h1 | ⟨w, r, h1, -⟩
        · exact h1
        · have := hd s hr.reach h _ (List.mem_of_getElem? h1)
          cases this
    · simp at hi

end GoSelect
