import Verif.Proofs.PoolFirst
import Verif.Props.C41
import Verif.Props.C57
import Verif.Props.C58

/-!
# C152: Data races in the worker pools

`LassoCrdDescPath`, `CalculateCohenSequence` and `L2ConsistentCovTO`: the accesses of their goroutines to shared memory, for
all data and all schedules.
-/

namespace GoSelect

open Spec

section
variable {M W R L : Type}

theorem mem_held {ws : List (Worker W R)} {k : Nat} {x : Worker W R} {w : W} (hk : ws[k]? = some x) (hx : x.Has w) :
    w ∈ ws.filterMap Worker.held := List.mem_filterMap.2 ⟨x, List.mem_of_getElem? hk, hx⟩

/-- Jobs are evaluated as often as they are handed out, at most. -/
theorem PoolInv.evaluated_le {comp : W → R → Prop} {s : Pool M W R} (h : PoolInv comp s) :
    (s.evaluated : Multiset W) ≤ (s.sent : Multiset W) := by
  rw [h.sent, h.evaluated]
  apply add_le_add_right
  rw [Multiset.coe_le]
  generalize s.workers = l
  induction l with
  | nil => simp
  | cons x l ih =>
    cases x with
    | idle => exact ih
    | computing w =>
      simp only [List.filterMap_cons, Worker.held, Worker.ready]
      exact ih.trans (List.sublist_cons_self _ _).subperm
    | sending w r =>
      simp only [List.filterMap_cons, Worker.held, Worker.ready]
      exact (List.subperm_cons w).2 ih

theorem held_nil_idle {ws : List (Worker W R)} (h : ws.filterMap Worker.held = []) : ∀ x ∈ ws, x = .idle := by
  intro x hx
  have := List.filterMap_eq_nil_iff.1 h x hx
  cases x <;> simp_all [Worker.held]

/-- **C152 (runs).** The runs with events are the runs of the models of C41, C57 and C58: every state of these has a run
with events, and every run with events leads to such a state. -/
theorem C152_runs (act : M → Act M W R) (comp : W → R → Prop) (m₀ : M) (mem : PoolMem M W L) (s : Pool M W R) :
    PoolReach act comp m₀ s ↔ ∃ tr b, PoolRun act comp m₀ mem s tr b :=
  ⟨fun h => (h.run mem).imp fun _ h => ⟨false, h⟩, fun ⟨_, _, h⟩ => h.reach⟩

end

/-! ### `L2ConsistentCovTO` -/

section
variable {K : Type} [Field K]

theorem cov_quiet {N S : Nat} {diff : Nat → Nat → K} (hN : 0 < N) :
    PoolQuiet (covAct N S) (covComp diff) (covInit N) (covMem (K := K)) := by
  intro s hs _ k x w hk hx l b b' hl hw
  have hi := cov_inv hN hs
  simp only [covMem] at hl
  split at hl
  · rename_i p hp
    have hph := hi.phase
    simp only [CovPhaseInv, hp] at hph
    obtain ⟨r, hr, h1, h2, h3, h4, h5, h6, h7⟩ := hph
    have hg : s.main.gridPt = 1 := by
      have := congrArg Prod.snd h6
      simp only at this
      omega
    have hr0 : r = 0 := by
      have : 0 < covLead N s.main.part := by
        unfold covLead covSim
        split <;> [split <;> omega; omega]
      omega
    have hb := hi.pool.busy
    rw [h5, hi.got, h1, hr0, hg] at hb
    have hz : s.workers.filterMap Worker.held = [] := List.eq_nil_of_length_eq_zero (by omega)
    have := mem_held hk hx
    rw [hz] at this
    simp at this
  · simp at hl

/-- **C152 (`L2ConsistentCovTO`).** There are no data races. -/
theorem C152_cov (N S : Nat) (diff : Nat → Nat → K) (hN : 0 < N) (s : Pool (CovMain K) (Nat × Nat) (K × Nat))
    (tr : List (PEv CovLoc)) (b : Bool) (h : CovTrace N S diff s tr b) (l : CovLoc) (i j : Nat) : ¬ RaceAt tr l i j := by
  intro hr
  obtain ⟨c, c', hc, ⟨a, a', w, w', -, -, -, h1, h2⟩, -⟩ := h.race (cov_quiet hN) hr
  simp only [covMem, List.mem_singleton, Prod.mk.injEq] at h1 h2
  rw [h1.2, h2.2] at hc
  simp at hc

end

/-! ### `CalculateCohenSequence` -/

section
variable {K : Type} [LinearOrder K] [Zero K]

theorem cohen_work {n : Nat} {obj : Nat → Nat} {corr : Nat → Option Nat} {t : Nat} {l : CohenLoc} {b : Bool}
    (h : (l, b) ∈ (cohenMem (K := K) n obj corr).work t) :
    b = false ∧ (l = .data ∨ l = .hyper (obj t)) ∨ l = .x0 (obj t) ∨ ∃ c, corr (obj t) = some c ∧ l = .corr c := by
  simp only [cohenMem, List.mem_append, List.mem_cons, List.not_mem_nil, or_false, Prod.mk.injEq, List.mem_flatMap,
    Option.mem_toList] at h
  rcases h with (⟨rfl, rfl⟩ | ⟨rfl, rfl⟩ | ⟨rfl, rfl⟩ | ⟨rfl, rfl⟩) | ⟨c, h1, ⟨rfl, rfl⟩ | ⟨rfl, rfl⟩⟩
  · simp
  · simp
  · simp
  · simp
  · exact Or.inr (Or.inr ⟨c, h1, rfl⟩)
  · exact Or.inr (Or.inr ⟨c, h1, rfl⟩)

theorem cohen_quiet {n : Nat} {obj : Nat → Nat} {corr : Nat → Option Nat} :
    PoolQuiet (cohenAct (K := K) cohenWorkers n) cohenComp cohenInit (cohenMem n obj corr) := by
  intro s _ _ k x w _ _ l b b' hl hw
  simp only [cohenMem, List.mem_map, Prod.mk.injEq] at hl
  obtain ⟨t, -, rfl, rfl⟩ := hl
  rcases cohen_work hw with ⟨rfl, -⟩ | h | ⟨c, -, h⟩
  · exact ⟨rfl, rfl⟩
  · cases h
  · cases h

/-- **C152 (`CalculateCohenSequence`).** All races are between two workers, at the start vector of an object that was passed
as two targets, or at a `CLasso` correction that is used by two targets. -/
theorem C152_cohen_partial (n : Nat) (obj : Nat → Nat) (corr : Nat → Option Nat) (s : Pool (CohenMain K) Nat (Nat × Fl K))
    (tr : List (PEv CohenLoc)) (b : Bool) (h : CohenTrace n obj corr s tr b) (l : CohenLoc) (i j : Nat)
    (hr : RaceAt tr l i j) :
    (∃ g h, 0 < g ∧ 0 < h ∧ g ≠ h ∧ (∃ c, tr[i]? = some (.access g l c)) ∧ ∃ c, tr[j]? = some (.access h l c)) ∧
      ∃ t t', t < n ∧ t' < n ∧ t ≠ t' ∧ (l = .x0 (obj t) ∧ obj t = obj t' ∨
        ∃ c, l = .corr c ∧ corr (obj t) = some c ∧ corr (obj t') = some c) := by
  obtain ⟨c, c', hc, ⟨a, a', t, t', haa, h3, h4, h1, h2⟩, hg⟩ := h.race cohen_quiet hr
  obtain ⟨hnd, hlt⟩ := C41_never_twice n s h.reach
  have hne : t ≠ t' := by
    rintro rfl
    have := (List.getElem?_inj (List.getElem?_eq_some_iff.1 h3).1 hnd).1 (h3.trans h4.symm)
    omega
  refine ⟨hg, t, t', hlt t (List.mem_of_getElem? h3), hlt t' (List.mem_of_getElem? h4), hne, ?_⟩
  rcases cohen_work h1 with ⟨rfl, h5⟩ | rfl | ⟨d, h5, rfl⟩
  · rcases cohen_work h2 with ⟨rfl, -⟩ | h6 | ⟨d, -, h6⟩
    · simp at hc
    · subst h6
      simp at h5
    · subst h6
      simp at h5
  · rcases cohen_work h2 with ⟨rfl, h5⟩ | h6 | ⟨d, -, h6⟩
    · simp at h5
    · exact Or.inl ⟨rfl, by simpa using h6⟩
    · cases h6
  · rcases cohen_work h2 with ⟨rfl, h6⟩ | h6 | ⟨d', h6, h7⟩
    · simp at h6
    · cases h6
    · cases h7
      exact Or.inr ⟨d, rfl, h5, h6⟩

/-- **C152 (`CalculateCohenSequence`).** There are no data races if all targets are different objects and no two of them
share a `CLasso` correction. -/
theorem C152_cohen_distinct (n : Nat) (obj : Nat → Nat) (corr : Nat → Option Nat)
    (hobj : ∀ t < n, ∀ t' < n, obj t = obj t' → t = t')
    (hcorr : ∀ t < n, ∀ t' < n, ∀ c, corr (obj t) = some c → corr (obj t') = some c → t = t')
    (s : Pool (CohenMain K) Nat (Nat × Fl K))
    (tr : List (PEv CohenLoc)) (b : Bool) (h : CohenTrace n obj corr s tr b) (l : CohenLoc) (i j : Nat) :
    ¬ RaceAt tr l i j := by
  intro hr
  obtain ⟨-, t, t', h1, h2, hne, ⟨-, h3⟩ | ⟨c, -, h3, h4⟩⟩ := C152_cohen_partial n obj corr s tr b h l i j hr
  · exact hne (hobj t h1 t' h2 h3)
  · exact hne (hcorr t h1 t' h2 c h3 h4)

theorem cohen_idle {n : Nat} (s : Pool (CohenMain K) Nat (Nat × Fl K)) (h : CohenReach n s) (hd : CohenDone n s) :
    ∀ x ∈ s.workers, x = .idle := by
  have hi := cohen_inv (by decide) h
  refine held_nil_idle (List.eq_nil_of_length_eq_zero ?_)
  have hg := (C41_each_once n s h hd).2.length_eq
  have hb := hi.pool.busy
  rw [List.length_map, List.length_range] at hg
  rw [hi.sent, List.length_range, hg] at hb
  have : s.main.nextTarget ≤ n := by
    have := hi.phase
    unfold CohenPhaseInv at this
    split at this <;> omega
  omega

/-- **C152 (return of `CalculateCohenSequence`).** All accesses happen before the return, and there are none after it. -/
theorem C152_cohen_return (n : Nat) (obj : Nat → Nat) (corr : Nat → Option Nat) (s : Pool (CohenMain K) Nat (Nat × Fl K))
    (tr : List (PEv CohenLoc)) (h : CohenTrace n obj corr s tr true) :
    ∃ tr₀, tr = tr₀ ++ [.ret] ∧
      ∀ (i g : Nat) (l : CohenLoc) (c : Bool), tr[i]? = some (.access g l c) → PoolHB tr i tr₀.length :=
  (h.returns cohen_quiet cohen_idle rfl).2

/-- A worker that was started and is waiting has delivered a result, or gets the next target, or never gets one. -/
theorem cohen_fresh {n : Nat} {obj : Nat → Nat} {corr : Nat → Option Nat} {s : Pool (CohenMain K) Nat (Nat × Fl K)}
    {tr : List (PEv CohenLoc)} {b : Bool} (h : CohenTrace n obj corr s tr b) :
    ∀ k : Nat, s.workers[k]? = some .idle → Delivered tr k ∨ s.main.phase = .sendFirst k ∨ n ≤ k := by
  induction h with
  | init => intro k hk; simp [poolInit] at hk
  | @spawn s tr m hr h ih =>
    intro k hk
    have hph := (cohen_inv (by decide) hr.reach).phase
    simp only [cohenAct] at h
    split at h
    · rename_i i hp
      simp only [CohenPhaseInv, hp] at hph
      split at h
      · simp only [Act.spawn.injEq] at h
        subst h
        by_cases hlt : k < s.workers.length
        · simp only at hk
          rw [List.getElem?_append_left hlt] at hk
          rcases ih k hk with h1 | h1 | h1
          · exact Or.inl h1.append
          · rw [hp] at h1
            cases h1
          · exact Or.inr (Or.inr h1)
        · have hkl := (List.getElem?_eq_some_iff.1 hk).1
          simp only [List.length_append, List.length_singleton] at hkl
          right
          by_cases hn : s.main.nextTarget < n
          · left
            simp only [if_pos hn, CohenPhase.sendFirst.injEq]
            omega
          · right
            omega
      · cases h
    · cases h
    · split at h <;> cases h
    · cases h
  | @tau s tr m hr h ih =>
    intro k hk
    simp only [cohenAct] at h
    split at h
    · rename_i i hp
      split at h
      · cases h
      · simp only [Act.tau.injEq] at h
        subst h
        rcases ih k hk with h1 | h1 | h1
        · exact Or.inl h1.append
        · rw [hp] at h1
          cases h1
        · exact Or.inr (Or.inr h1)
    · cases h
    · split at h <;> cases h
    · cases h
  | @send s tr w m i hr h hi ih =>
    intro k hk
    have hik : i ≠ k := by
      rintro rfl
      simp only at hk
      rw [List.getElem?_set_self (List.getElem?_eq_some_iff.1 hi).1] at hk
      cases hk
    simp only at hk
    rw [List.getElem?_set_ne hik] at hk
    rcases ih k hk with h1 | h1 | h1
    · exact Or.inl h1.append
    · have hinv := cohen_inv (by decide) hr.reach
      have hph := hinv.phase
      simp only [CohenPhaseInv, h1] at hph
      have hg : s.got = [] := List.eq_nil_of_length_eq_zero (by rw [hinv.got]; exact hph.2.2.1)
      -- worker `i` is waiting as well, so it has delivered; but nothing was received
      have hnd : ¬ Delivered tr i := hr.none_delivered hg i
      rcases ih i hi with h2 | h2 | h2
      · exact absurd h2 hnd
      · rw [h1] at h2
        cases h2
        exact absurd rfl hik
      · have := (List.getElem?_eq_some_iff.1 hi).1
        omega
    · exact Or.inr (Or.inr h1)
  | @compute s tr b w i r hr hi hc ih =>
    intro k hk
    have hik : i ≠ k := by
      rintro rfl
      simp only at hk
      rw [List.getElem?_set_self (List.getElem?_eq_some_iff.1 hi).1] at hk
      cases hk
    simp only at hk
    rw [List.getElem?_set_ne hik] at hk
    exact (ih k hk).imp_left Delivered.append
  | @recv s tr f w i r hr h hi ih =>
    intro k hk
    rw [← List.append_assoc, delivered_take, delivered_accesses]
    by_cases hik : i = k
    · exact Or.inl (Or.inr hik.symm)
    · simp only at hk
      rw [List.getElem?_set_ne hik] at hk
      rcases ih k hk with h1 | h1 | h1
      · exact Or.inl (Or.inl h1)
      · simp only [cohenAct, h1] at h
        cases h
      · exact Or.inr (Or.inr h1)
  | @ret s tr hr h ih =>
    intro k hk
    exact (ih k hk).imp_left Delivered.append

/-- **C152 (the exceptions, `CalculateCohenSequence`).** If one object is passed as two of the first sixteen targets, every
run races at its start vector as soon as both have been evaluated; in particular every run that returns. -/
theorem C152_cohen_refuted (n : Nat) (obj : Nat → Nat) (corr : Nat → Option Nat) (t t' : Nat) (htt : t < t') (ht : t' < 16)
    (hobj : obj t = obj t') (s : Pool (CohenMain K) Nat (Nat × Fl K)) (tr : List (PEv CohenLoc)) (b : Bool)
    (h : CohenTrace n obj corr s tr b) :
    (t ∈ s.evaluated → t' ∈ s.evaluated → ∃ i j, RaceAt tr (.x0 (obj t)) i j) ∧
      (b = true → t' < n → ∃ i j, RaceAt tr (.x0 (obj t)) i j) := by
  have hinv : FirstInv (fun t => t < 16) (cohenMem n obj corr) s tr := by
    refine FirstInv.run (fun s hs w m ha hw => ?_) (fun s hs m ha => ?_) (fun s tr hr w m ha hg k hk => ?_) h
    · have hi := cohen_inv (by decide) hs
      have hph := hi.phase
      refine List.eq_nil_of_length_eq_zero ?_
      rw [hi.got]
      simp only [cohenAct] at ha
      split at ha
      · split at ha <;> cases ha
      · rename_i hp
        simp only [CohenPhaseInv, hp] at hph
        exact hph.2.2.1
      · split at ha <;> cases ha
      · rename_i hp
        simp only [CohenPhaseInv, hp] at hph
        simp only [Act.send.injEq] at ha
        have : cohenWorkers = 16 := rfl
        omega
    · have hi := cohen_inv (by decide) hs
      have hph := hi.phase
      refine List.eq_nil_of_length_eq_zero ?_
      rw [hi.got]
      simp only [cohenAct] at ha
      split at ha
      · rename_i hp
        simp only [CohenPhaseInv, hp] at hph
        exact hph.2.1
      · cases ha
      · split at ha <;> cases ha
      · cases ha
    · have hi := cohen_inv (by decide) hr.reach
      have hph := hi.phase
      have hkl := (List.getElem?_eq_some_iff.1 hk).1
      have hg' : s.main.numReceives ≠ 0 := by
        rw [← hi.got]
        exact fun h => hg (List.eq_nil_of_length_eq_zero h)
      rcases cohen_fresh hr k hk with h1 | h1 | h1
      · exact h1
      · simp only [CohenPhaseInv, h1] at hph
        omega
      · simp only [cohenAct] at ha
        split at ha
        · split at ha <;> cases ha
        · rename_i hp
          simp only [CohenPhaseInv, hp] at hph
          omega
        · split at ha <;> cases ha
        · rename_i hp
          simp only [CohenPhaseInv, hp] at hph
          omega
  have key : t ∈ s.evaluated → t' ∈ s.evaluated → ∃ i j, RaceAt tr (.x0 (obj t)) i j := by
    intro h1 h2
    obtain ⟨a, h1⟩ := List.mem_iff_getElem?.1 h1
    obtain ⟨c, h2⟩ := List.mem_iff_getElem?.1 h2
    have m1 : (CohenLoc.x0 (obj t), true) ∈ (cohenMem (K := K) n obj corr).work t := by simp [cohenMem]
    have m2 : (CohenLoc.x0 (obj t), true) ∈ (cohenMem (K := K) n obj corr).work t' := by simp [cohenMem, hobj]
    rcases lt_trichotomy a c with hac | rfl | hac
    · exact hinv.race a c t t' hac h1 h2 (htt.trans ht) ht _ _ _ m1 m2 (Or.inl rfl)
    · rw [h1] at h2
      simp only [Option.some.injEq] at h2
      omega
    · exact hinv.race c a t' t hac h2 h1 ht (htt.trans ht) _ _ _ m2 m1 (Or.inl rfl)
  refine ⟨key, fun hb htn => ?_⟩
  have hd := (h.returns cohen_quiet cohen_idle hb).1
  have hev := (C41_each_once n s h.reach hd).1
  exact key (hev.mem_iff.2 (List.mem_range.2 (htt.trans htn))) (hev.mem_iff.2 (List.mem_range.2 htn))

end

/-! ### `LassoCrdDescPath` -/

section
variable {K : Type} [Zero K]

theorem pathAct_spawn {n nFeat : Nat} {m m' : PathMain K} (h : pathAct n nFeat m = .spawn m') :
    ∃ i, m.phase = .spawning i ∧ m' = { m with phase := .sendFirst i } := by
  simp only [pathAct] at h
  split at h
  · rename_i i hp
    split at h
    · cases h
      exact ⟨i, hp, rfl⟩
    · cases h
  · split at h
    · cases h
    · split at h <;> cases h
  · split at h <;> cases h
  · split at h
    · cases h
    · split at h
      · split at h
        · cases h
        · split at h
          · cases h
          · split at h <;> cases h
      · cases h
  · cases h

theorem pathAct_tau {n nFeat : Nat} {m m' : PathMain K} (h : pathAct n nFeat m = .tau m') :
    (∃ i, m.phase = .spawning i) ∧ m' = { m with phase := .receiving } := by
  simp only [pathAct] at h
  split at h
  · rename_i i hp
    split at h
    · cases h
    · cases h
      exact ⟨⟨i, hp⟩, rfl⟩
  · split at h
    · cases h
    · split at h <;> cases h
  · split at h <;> cases h
  · split at h
    · cases h
    · split at h
      · split at h
        · cases h
        · split at h
          · cases h
          · split at h <;> cases h
      · cases h
  · cases h

theorem pathAct_send {n nFeat : Nat} {m m' : PathMain K} {w : Nat × List K} (h : pathAct n nFeat m = .send w m') :
    (∃ i, m.phase = .sendFirst i ∧ m'.phase = .spawning (i + 1) ∨ m.phase = .sendNext ∧ m'.phase = .receiving) ∧
      m'.nodes = m.nodes ∧ m.availableLambs = w.1 :: m'.availableLambs := by
  simp only [pathAct] at h
  split at h
  · split at h <;> cases h
  · rename_i i hp
    split at h
    · cases h
    · rename_i k rest hc
      split at h
      · cases h
        exact ⟨⟨i, Or.inl ⟨hp, rfl⟩⟩, rfl, hc⟩
      · cases h
  · split at h <;> cases h
  · rename_i hp
    split at h
    · cases h
    · split at h
      · split at h
        · cases h
        · split at h
          · cases h
          · rename_i hc
            split at h
            · cases h
              exact ⟨⟨0, Or.inr ⟨hp, rfl⟩⟩, rfl, hc⟩
            · cases h
      · cases h
  · cases h

theorem pathAct_recv {n nFeat : Nat} {m : PathMain K} {f : LassoLarsNode K × Nat → PathMain K}
    (h : pathAct n nFeat m = .recv f) : m.phase = .receiving ∧ f = pathReceive n m := by
  simp only [pathAct] at h
  split at h
  · split at h <;> cases h
  · split at h
    · cases h
    · split at h <;> cases h
  · rename_i hp
    split at h
    · cases h
      exact ⟨hp, rfl⟩
    · cases h
  · split at h
    · cases h
    · split at h
      · split at h
        · cases h
        · split at h
          · cases h
          · split at h <;> cases h
      · cases h
  · cases h

theorem pathReceive_nodes {n : Nat} {m : PathMain K} {r : LassoLarsNode K × Nat} {i : Nat}
    (h : ((pathReceive n m r).nodes.getD i none).isSome) : (m.nodes.getD i none).isSome ∨ (i : Int) = (n : Int) - r.2 - 1 := by
  unfold pathReceive at h
  simp only at h
  split at h
  · exact Or.inl h
  · rename_i nodes hs
    obtain ⟨-, k, hk, hk2, rfl⟩ := goSetInt_length hs
    by_cases hik : k = i
    · right
      omega
    · left
      simp only [List.getD_eq_getElem?_getD] at h ⊢
      rwa [List.getElem?_set_ne hik] at h

theorem pathReceive_phase {n : Nat} {m : PathMain K} {r : LassoLarsNode K × Nat} {i : Nat} :
    (pathReceive n m r).phase ≠ .sendFirst i := by
  unfold pathReceive
  simp only
  split
  · simp
  · simp only
    split <;> simp

/-- Nodes are there only when they have been received. -/
theorem path_received {n nFeat : Nat} {solve : Nat → List K → LassoLarsNode K → Prop}
    {s : Pool (PathMain K) (Nat × List K) (LassoLarsNode K × Nat)} (h : PathReach n nFeat solve s) :
    ∀ i < n, (s.main.nodes.getD i none).isSome → ∃ p ∈ s.got, p.2.2 = n - 1 - i := by
  induction h with
  | init =>
    intro i hi h
    simp only [poolInit, pathInit, List.getD_eq_getElem?_getD, List.getElem?_replicate] at h
    split at h <;> simp at h
  | @step s s' hs h' ih =>
    cases h' with
    | spawn m h =>
      obtain ⟨i, -, rfl⟩ := pathAct_spawn h
      exact ih
    | tau m h =>
      obtain ⟨-, rfl⟩ := pathAct_tau h
      exact ih
    | send w m i h hi =>
      simp only
      rw [(pathAct_send h).2.1]
      exact ih
    | compute w i r hi hc => exact ih
    | recv f w i r h hi =>
      obtain ⟨-, rfl⟩ := pathAct_recv h
      intro j hj hsome
      rcases pathReceive_nodes hsome with h1 | h1
      · obtain ⟨p, hp, hp2⟩ := ih j hj h1
        exact ⟨p, List.mem_append_left _ hp, hp2⟩
      · exact ⟨(w, r), by simp, by simp only; omega⟩

/-- A job in progress has not been received, and is not the next one. -/
theorem path_held {n nFeat : Nat} {solve : Nat → List K → LassoLarsNode K → Prop}
    {s : Pool (PathMain K) (Nat × List K) (LassoLarsNode K × Nat)} (h : PathReach n nFeat solve s) {w : Nat × List K}
    (hw : w ∈ s.workers.filterMap Worker.held) :
    (∀ p ∈ s.got, p.2.2 ≠ w.1) ∧ s.main.availableLambs.length ≤ w.1 ∧ w.1 < n := by
  have hi := path_inv h
  have hle := hi.le
  have hms := hi.pool.sent
  have hnd : (s.sent.map (·.1)).Nodup := by
    rw [hi.sent]
    exact pathSent_nodup (by omega)
  have hm : ((s.sent.map (·.1) : List Nat) : Multiset Nat) =
      ((s.got.map (·.1)).map (·.1) : List Nat) + ((s.workers.filterMap Worker.held).map (·.1) : List Nat) := by
    rw [← Multiset.map_coe, hms, Multiset.map_add, Multiset.map_coe, Multiset.map_coe]
  have hm' : (s.sent.map (·.1)).Perm ((s.got.map (·.1)).map (·.1) ++ (s.workers.filterMap Worker.held).map (·.1)) := by
    rw [← Multiset.coe_eq_coe, hm, Multiset.coe_add]
  have hnd' := hm'.nodup_iff.1 hnd
  rw [List.nodup_append] at hnd'
  have hw' : w.1 ∈ (s.workers.filterMap Worker.held).map (·.1) := List.mem_map.2 ⟨w, hw, rfl⟩
  refine ⟨fun p hp => ?_, ?_⟩
  · rw [(hi.pool.got p hp).2]
    exact hnd'.2.2 _ (List.mem_map.2 ⟨p.1, List.mem_map.2 ⟨p, hp, rfl⟩, rfl⟩) _ hw'
  · have := hm'.mem_iff.2 (List.mem_append_right _ hw')
    rw [hi.sent, List.mem_map] at this
    obtain ⟨i, h1, h2⟩ := this
    rw [List.mem_range] at h1
    omega

theorem path_work {n nFeat : Nat} {corr cov : Bool} {w : Nat × List K} {l : PathLoc} {b : Bool}
    (h : (l, b) ∈ (pathMem n nFeat corr cov).work w) :
    l = .data ∧ b = false ∨ l = pathStart n w.1 ∨ l = .corr ∧ corr = true ∨ l = .cov ∧ cov = true ∨ l = .node w.1 := by
  simp only [pathMem, List.mem_append, List.mem_cons, List.not_mem_nil, or_false, Prod.mk.injEq] at h
  rcases h with (((h | h) | h) | h) | h
  · exact Or.inl h
  · split at h
    · simp at h
    · simp only [List.mem_cons, List.not_mem_nil, or_false, Prod.mk.injEq] at h
      exact Or.inr (Or.inl h.1)
  · split at h
    · simp only [List.mem_cons, List.not_mem_nil, or_false, Prod.mk.injEq] at h
      rcases h with h | h <;> exact Or.inr (Or.inr (Or.inl ⟨h.1, by assumption⟩))
    · simp at h
  · split at h
    · simp only [List.mem_cons, List.not_mem_nil, or_false, Prod.mk.injEq] at h
      rcases h with h | h <;> exact Or.inr (Or.inr (Or.inr (Or.inl ⟨h.1, by assumption⟩)))
    · simp at h
  · exact Or.inr (Or.inr (Or.inr (Or.inr h.1)))

theorem pathStart_cases (n k : Nat) : pathStart n k = .start ∧ n - 1 - k < pathWorkers n ∨ pathStart n k = .x0 k := by
  unfold pathStart
  split
  · exact Or.inl ⟨rfl, by assumption⟩
  · exact Or.inr rfl

theorem path_quiet {n nFeat : Nat} {corr cov : Bool} {solve : Nat → List K → LassoLarsNode K → Prop} :
    PoolQuiet (pathAct n nFeat) (pathComp solve) (pathInit n) (pathMem n nFeat corr cov) := by
  intro s hs _ k x w hk hx l b b' hl hw
  obtain ⟨h1, h2, h3⟩ := path_held hs (mem_held hk hx)
  have hi := path_inv hs
  simp only [pathMem, List.mem_cons, List.mem_append, Prod.mk.injEq, List.mem_map, List.mem_filter, List.mem_range] at hl
  rcases hl with ⟨rfl, rfl⟩ | ⟨i, ⟨h4, h5⟩, rfl, rfl⟩ | hl
  · rcases path_work hw with ⟨-, rfl⟩ | h | ⟨h, -⟩ | ⟨h, -⟩ | h
    · exact ⟨rfl, rfl⟩
    · rcases pathStart_cases n w.1 with ⟨h6, -⟩ | h6 <;> rw [h6] at h <;> cases h
    · cases h
    · cases h
    · cases h
  · rcases path_work hw with ⟨h, -⟩ | h | ⟨h, -⟩ | ⟨h, -⟩ | h
    · cases h
    · rcases pathStart_cases n w.1 with ⟨h6, -⟩ | h6 <;> rw [h6] at h <;> cases h
    · cases h
    · cases h
    · obtain ⟨p, hp, hp2⟩ := path_received hs i h4 h5
      rw [PathLoc.node.injEq] at h
      exact absurd (hp2.trans h) (h1 p hp)
  · split at hl
    · rename_i k' rest hp hc
      simp only [List.mem_singleton, Prod.mk.injEq] at hl
      obtain ⟨rfl, rfl⟩ := hl
      have hk' := (path_avail_cons hi.avail hc).1
      have hlen : s.main.availableLambs.length = rest.length + 1 := by rw [hc]; rfl
      rcases path_work hw with ⟨h, -⟩ | h | ⟨h, -⟩ | ⟨h, -⟩ | h
      · cases h
      · rcases pathStart_cases n w.1 with ⟨h6, -⟩ | h6
        · rw [h6] at h
          cases h
        · rw [h6] at h
          rw [PathLoc.x0.injEq] at h
          omega
      · cases h
      · cases h
      · cases h
    · simp at hl

/-- **C152 (`LassoCrdDescPath`).** All races are between two workers: at the start vector that the first ten jobs share, at a
`CLasso` correction, or at the counter of a `SparseThresholded` covariance. -/
theorem C152_path_partial (n nFeat : Nat) (corr cov : Bool) (solve : Nat → List K → LassoLarsNode K → Prop)
    (s : Pool (PathMain K) (Nat × List K) (LassoLarsNode K × Nat)) (tr : List (PEv PathLoc)) (b : Bool)
    (h : PathTrace n nFeat corr cov solve s tr b) (l : PathLoc) (i j : Nat) (hr : RaceAt tr l i j) :
    (∃ g h, 0 < g ∧ 0 < h ∧ g ≠ h ∧ (∃ c, tr[i]? = some (.access g l c)) ∧ ∃ c, tr[j]? = some (.access h l c)) ∧
      (l = .start ∧ 2 ≤ n ∨ l = .corr ∧ corr = true ∨ l = .cov ∧ cov = true) := by
  obtain ⟨c, c', hc, ⟨a, a', w, w', haa, h3, h4, h1, h2⟩, hg⟩ := h.race path_quiet hr
  refine ⟨hg, ?_⟩
  have hi := path_inv h.reach
  have hnd : (s.evaluated.map (·.1)).Nodup := by
    refine Multiset.coe_nodup.1 (Multiset.nodup_of_le ?_ (Multiset.coe_nodup.2 (C57_never_twice s h.reach).1))
    rw [← Multiset.map_coe, ← Multiset.map_coe]
    exact Multiset.map_le_map hi.pool.evaluated_le
  have hlt : ∀ w ∈ s.evaluated, w.1 < n := by
    intro w hw
    have := Multiset.mem_of_le hi.pool.evaluated_le (Multiset.mem_coe.2 hw)
    rw [Multiset.mem_coe] at this
    have : w.1 ∈ s.sent.map (·.1) := List.mem_map.2 ⟨w, this, rfl⟩
    rw [hi.sent, List.mem_map] at this
    obtain ⟨k, h5, h6⟩ := this
    rw [List.mem_range] at h5
    omega
  have hne : w.1 ≠ w'.1 := by
    intro e
    have e1 : (s.evaluated.map (·.1))[a]? = some w.1 := by rw [List.getElem?_map, h3]; rfl
    have e2 : (s.evaluated.map (·.1))[a']? = some w'.1 := by rw [List.getElem?_map, h4]; rfl
    have := (List.getElem?_inj (List.getElem?_eq_some_iff.1 e1).1 hnd).1 (e1.trans ((congrArg some e).trans e2.symm))
    omega
  have hw := hlt w (List.mem_of_getElem? h3)
  have hw' := hlt w' (List.mem_of_getElem? h4)
  rcases path_work h1 with ⟨rfl, rfl⟩ | rfl | ⟨rfl, h5⟩ | ⟨rfl, h5⟩ | rfl
  · rcases path_work h2 with ⟨-, rfl⟩ | h | ⟨h, -⟩ | ⟨h, -⟩ | h
    · simp at hc
    · rcases pathStart_cases n w'.1 with ⟨h6, -⟩ | h6 <;> rw [h6] at h <;> cases h
    · cases h
    · cases h
    · cases h
  · rcases pathStart_cases n w.1 with ⟨h6, -⟩ | h6
    · exact Or.inl ⟨h6, by omega⟩
    · rw [h6] at h2
      rcases path_work h2 with ⟨h, -⟩ | h | ⟨h, -⟩ | ⟨h, -⟩ | h
      · cases h
      · rcases pathStart_cases n w'.1 with ⟨h7, -⟩ | h7
        · rw [h7] at h
          cases h
        · rw [h7, PathLoc.x0.injEq] at h
          exact absurd h hne
      · cases h
      · cases h
      · cases h
  · exact Or.inr (Or.inl ⟨rfl, h5⟩)
  · exact Or.inr (Or.inr ⟨rfl, h5⟩)
  · rcases path_work h2 with ⟨h, -⟩ | h | ⟨h, -⟩ | ⟨h, -⟩ | h
    · cases h
    · rcases pathStart_cases n w'.1 with ⟨h6, -⟩ | h6 <;> rw [h6] at h <;> cases h
    · cases h
    · cases h
    · rw [PathLoc.node.injEq] at h
      exact absurd h hne

/-- **C152 (return of `LassoCrdDescPath`).** All accesses happen before the return, and there are none after it. -/
theorem C152_path_return (n nFeat : Nat) (corr cov : Bool) (solve : Nat → List K → LassoLarsNode K → Prop)
    (s : Pool (PathMain K) (Nat × List K) (LassoLarsNode K × Nat)) (tr : List (PEv PathLoc))
    (h : PathTrace n nFeat corr cov solve s tr true) :
    ∃ tr₀, tr = tr₀ ++ [.ret] ∧
      ∀ (i g : Nat) (l : PathLoc) (c : Bool), tr[i]? = some (.access g l c) → PoolHB tr i tr₀.length :=
  (h.returns path_quiet (fun s hs hd => held_nil_idle (C57_each_once s hs hd).2.2) rfl).2

/-- A worker that was started and is waiting has delivered a result, or gets the next job. -/
theorem path_fresh {n nFeat : Nat} {corr cov : Bool} {solve : Nat → List K → LassoLarsNode K → Prop}
    {s : Pool (PathMain K) (Nat × List K) (LassoLarsNode K × Nat)} {tr : List (PEv PathLoc)} {b : Bool}
    (h : PathTrace n nFeat corr cov solve s tr b) :
    ∀ k : Nat, s.workers[k]? = some .idle → Delivered tr k ∨ s.main.phase = .sendFirst k := by
  induction h with
  | init => intro k hk; simp [poolInit] at hk
  | @spawn s tr m hr h ih =>
    intro k hk
    have hph := (path_inv hr.reach).phase
    obtain ⟨i, hp, rfl⟩ := pathAct_spawn h
    simp only [PathPhaseInv, hp] at hph
    by_cases hlt : k < s.workers.length
    · simp only at hk
      rw [List.getElem?_append_left hlt] at hk
      rcases ih k hk with h1 | h1
      · exact Or.inl h1.append
      · rw [hp] at h1
        cases h1
    · have hkl := (List.getElem?_eq_some_iff.1 hk).1
      simp only [List.length_append, List.length_singleton] at hkl
      right
      simp only [PathPhase.sendFirst.injEq]
      omega
  | @tau s tr m hr h ih =>
    intro k hk
    obtain ⟨⟨i, hp⟩, rfl⟩ := pathAct_tau h
    rcases ih k hk with h1 | h1
    · exact Or.inl h1.append
    · rw [hp] at h1
      cases h1
  | @send s tr w m i hr h hi ih =>
    intro k hk
    have hik : i ≠ k := by
      rintro rfl
      simp only at hk
      rw [List.getElem?_set_self (List.getElem?_eq_some_iff.1 hi).1] at hk
      cases hk
    simp only at hk
    rw [List.getElem?_set_ne hik] at hk
    rcases ih k hk with h1 | h1
    · exact Or.inl h1.append
    · have hinv := path_inv hr.reach
      have hph := hinv.phase
      simp only [PathPhaseInv, h1] at hph
      have hg : s.got = [] := List.eq_nil_of_length_eq_zero (by rw [hinv.got]; exact hph.2.1)
      rcases ih i hi with h2 | h2
      · exact absurd h2 (hr.none_delivered hg i)
      · rw [h1] at h2
        cases h2
        exact absurd rfl hik
  | @compute s tr b w i r hr hi hc ih =>
    intro k hk
    have hik : i ≠ k := by
      rintro rfl
      simp only at hk
      rw [List.getElem?_set_self (List.getElem?_eq_some_iff.1 hi).1] at hk
      cases hk
    simp only at hk
    rw [List.getElem?_set_ne hik] at hk
    exact (ih k hk).imp_left Delivered.append
  | @recv s tr f w i r hr h hi ih =>
    intro k hk
    rw [← List.append_assoc, delivered_take, delivered_accesses]
    by_cases hik : i = k
    · exact Or.inl (Or.inr hik.symm)
    · simp only at hk
      rw [List.getElem?_set_ne hik] at hk
      rcases ih k hk with h1 | h1
      · exact Or.inl (Or.inl h1)
      · rw [(pathAct_recv h).1] at h1
        cases h1
  | @ret s tr hr h ih =>
    intro k hk
    exact (ih k hk).imp_left Delivered.append

/-- The first jobs of `LassoCrdDescPath` are not ordered. -/
theorem path_first {n nFeat : Nat} {corr cov : Bool} {solve : Nat → List K → LassoLarsNode K → Prop}
    {s : Pool (PathMain K) (Nat × List K) (LassoLarsNode K × Nat)} {tr : List (PEv PathLoc)} {b : Bool}
    (h : PathTrace n nFeat corr cov solve s tr b) :
    FirstInv (fun w : Nat × List K => n - 1 - w.1 < pathWorkers n) (pathMem n nFeat corr cov) s tr := by
  refine FirstInv.run (fun s hs w m ha hw => ?_) (fun s hs m ha => ?_) (fun s tr hr w m ha hg k hk => ?_) h
  · have hi := path_inv hs
    have hph := hi.phase
    have hle := hi.le
    refine List.eq_nil_of_length_eq_zero ?_
    rw [hi.got]
    obtain ⟨⟨i, ⟨hp, -⟩ | ⟨hp, -⟩⟩, -, hc⟩ := pathAct_send ha
    · simp only [PathPhaseInv, hp] at hph
      exact hph.2.1
    · simp only [PathPhaseInv, hp] at hph
      have hk' := (path_avail_cons hi.avail hc).1
      have hlen : s.main.availableLambs.length = m.availableLambs.length + 1 := by rw [hc]; rfl
      omega
  · have hi := path_inv hs
    have hph := hi.phase
    refine List.eq_nil_of_length_eq_zero ?_
    rw [hi.got]
    obtain ⟨i, hp, -⟩ := pathAct_spawn ha
    simp only [PathPhaseInv, hp] at hph
    exact hph.2.1
  · have hi := path_inv hr.reach
    have hph := hi.phase
    rcases path_fresh hr k hk with h1 | h1
    · exact h1
    · simp only [PathPhaseInv, h1] at hph
      refine absurd (List.eq_nil_of_length_eq_zero ?_) hg
      rw [hi.got]
      exact hph.2.1

/-- **C152 is false for `LassoCrdDescPath`.** With at least two regularisations and one feature, in every run, whatever the
correction and the covariance, two workers write the start vector that they share, and nothing orders the writes.  With a
`CLasso` correction, or a `SparseThresholded` covariance, the same holds for its state. -/
theorem C152_path_refuted (n nFeat : Nat) (corr cov : Bool) (solve : Nat → List K → LassoLarsNode K → Prop) (hn : 2 ≤ n)
    (s : Pool (PathMain K) (Nat × List K) (LassoLarsNode K × Nat)) (tr : List (PEv PathLoc))
    (h : PathTrace n nFeat corr cov solve s tr true) :
    (0 < nFeat → ∃ i j, RaceAt tr .start i j) ∧ (corr = true → ∃ i j, RaceAt tr .corr i j) ∧
      (cov = true → ∃ i j, RaceAt tr .cov i j) := by
  have hinv := path_first h
  have hd := (h.returns path_quiet (fun s hs hd => held_nil_idle (C57_each_once s hs hd).2.2) rfl).1
  have hev := (C57_each_once s h.reach hd).1
  obtain ⟨w, hw, hw1⟩ := List.mem_map.1 (hev.mem_iff.2 (List.mem_range.2 (show n - 1 < n by omega)))
  obtain ⟨w', hw', hw1'⟩ := List.mem_map.1 (hev.mem_iff.2 (List.mem_range.2 (show n - 2 < n by omega)))
  obtain ⟨a, ha⟩ := List.mem_iff_getElem?.1 hw
  obtain ⟨c, hc⟩ := List.mem_iff_getElem?.1 hw'
  have hnw : 2 ≤ pathWorkers n := by
    unfold pathWorkers
    split <;> omega
  have hF : n - 1 - w.1 < pathWorkers n := by omega
  have hF' : n - 1 - w'.1 < pathWorkers n := by omega
  have key : ∀ l, (l, true) ∈ (pathMem n nFeat corr cov).work w → (l, true) ∈ (pathMem n nFeat corr cov).work w' →
      ∃ i j, RaceAt tr l i j := by
    intro l h1 h2
    rcases lt_trichotomy a c with hac | rfl | hac
    · exact hinv.race a c w w' hac ha hc hF hF' l _ _ h1 h2 (Or.inl rfl)
    · rw [ha] at hc
      cases hc
      omega
    · exact hinv.race c a w' w hac hc ha hF' hF l _ _ h2 h1 (Or.inl rfl)
  refine ⟨fun hf => key _ ?_ ?_, fun hf => key _ ?_ ?_, fun hf => key _ ?_ ?_⟩
  · simp [pathMem, pathStart, hF, Nat.ne_of_gt hf]
  · simp [pathMem, pathStart, hF', Nat.ne_of_gt hf]
  · simp [pathMem, hf]
  · simp [pathMem, hf]
  · simp [pathMem, hf]
  · simp [pathMem, hf]

end

/-! ### Examples -/

/-- A run with two regularisations that returns, so the hypotheses of `C152_path_refuted` can be met. -/
example : ∃ (s : Pool (PathMain ℚ) (Nat × List ℚ) (LassoLarsNode ℚ × Nat)) (tr : List (PEv PathLoc)),
    PathTrace 2 3 true false toySolve s tr true ∧ s.evaluated.map (·.1) = [1, 0] := by
  refine ⟨_, _, .ret (.recv _ ((0, [0, 0, 0]) : Nat × List ℚ) 1 ((⟨[1], ((0 : Nat) : ℚ), [2]⟩, 0) : LassoLarsNode ℚ × Nat)
    (.recv _ ((1, [0, 0, 0]) : Nat × List ℚ) 0 ((⟨[1], ((1 : Nat) : ℚ), [2]⟩, 1) : LassoLarsNode ℚ × Nat)
    (.compute ((0, [0, 0, 0]) : Nat × List ℚ) 1 ((⟨[1], ((0 : Nat) : ℚ), [2]⟩, 0) : LassoLarsNode ℚ × Nat)
    (.compute ((1, [0, 0, 0]) : Nat × List ℚ) 0 ((⟨[1], ((1 : Nat) : ℚ), [2]⟩, 1) : LassoLarsNode ℚ × Nat)
    (.tau _ (.send ((0, [0, 0, 0]) : Nat × List ℚ) _ 1 (.spawn _ (.send ((1, [0, 0, 0]) : Nat × List ℚ) _ 0
      (.spawn _ .init rfl) rfl rfl) rfl) rfl rfl) rfl)
    rfl ⟨rfl, rfl⟩) rfl ⟨rfl, rfl⟩) rfl rfl) rfl rfl) rfl, rfl⟩

/-- The same object as two targets, both evaluated: the hypotheses of `C152_cohen_refuted` can be met. -/
example : ∃ (s : Pool (CohenMain ℚ) Nat (Nat × Fl ℚ)) (tr : List (PEv CohenLoc)),
    CohenTrace 2 (fun _ => 7) (fun _ => none) s tr false ∧ 0 ∈ s.evaluated ∧ 1 ∈ s.evaluated :=
  ⟨_, _, .compute 0 0 (0, .fin 1) (.compute 1 1 (1, .fin (1/2)) (.send 1 _ 1 (.spawn _ (.send 0 _ 0 (.spawn _ .init rfl) rfl rfl)
    rfl) rfl rfl) rfl rfl) rfl rfl, by decide, by decide⟩

/-- Different targets with corrections of their own, as in `goselect-cohenlasso`. -/
example : (∀ t < 5, ∀ t' < 5, id t = id t' → t = t') ∧
    ∀ t < 5, ∀ t' < 5, ∀ c, (some (id t) : Option Nat) = some c → some (id t') = some c → t = t' := by
  refine ⟨fun t _ t' _ h => h, fun t _ t' _ c h h' => ?_⟩
  simp only [id, Option.some.injEq] at h h'
  omega

/-- A run of the search for a threshold in which two workers read the matrices of the first partition. -/
example : ∃ (s : Pool (CovMain ℚ) (Nat × Nat) (ℚ × Nat)) (tr : List (PEv CovLoc)),
    CovTrace 3 2 (fun k g => (k + g * g : ℚ)) s tr false ∧ tr.length = 7 ∧ tr[5]? = some (.access 1 (.parts 0) false) ∧
      tr[6]? = some (.access 2 (.parts 0) false) :=
  ⟨_, _, .compute (0, 1) 1 _ (.compute (0, 0) 0 _ (.send (0, 1) _ 1 (.spawn _ (.send (0, 0) _ 0 (.spawn _ .init rfl) rfl rfl)
    rfl) rfl rfl) rfl rfl) rfl rfl, rfl, rfl, rfl⟩

end GoSelect
