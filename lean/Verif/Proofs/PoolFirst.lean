import Verif.Proofs.PoolRace

/-! The first jobs of a pool are never ordered: a worker learns of the others only through the main goroutine, and the main
goroutine only from results. -/

namespace GoSelect

open Spec

variable {M W R L : Type}

theorem phb_step_of_append {tr es : List (PEv L)} {i j : Nat} (h : PoolHB (tr ++ es) i j) (hi : i < tr.length) :
    j < tr.length ∧ PoolHB tr i j ∨ tr.length ≤ j ∧ ∃ k e f g, tr[k]? = some e ∧ (k = i ∨ PoolHB tr i k) ∧ f ∈ es ∧
      g ∈ e.parts ∧ g ∈ f.parts := by
  induction h with
  | @single j h =>
    obtain ⟨h1, e, f, g, h2, h3, h4, h5⟩ := h
    rw [List.getElem?_append_left hi] at h2
    rcases pev_old_or_new h3 with h3 | ⟨h3, hj⟩
    · exact Or.inl ⟨(List.getElem?_eq_some_iff.1 h3).1, .single ⟨h1, e, f, g, h2, h3, h4, h5⟩⟩
    · exact Or.inr ⟨hj, i, e, f, g, h2, Or.inl rfl, h3, h4, h5⟩
  | @tail k j _ h ih =>
    obtain ⟨h1, e, f, g, h2, h3, h4, h5⟩ := h
    rcases ih with ⟨hk, ih⟩ | ⟨hk, ih⟩
    · rw [List.getElem?_append_left hk] at h2
      rcases pev_old_or_new h3 with h3 | ⟨h3, hj⟩
      · exact Or.inl ⟨(List.getElem?_eq_some_iff.1 h3).1, .tail ih ⟨h1, e, f, g, h2, h3, h4, h5⟩⟩
      · exact Or.inr ⟨hj, k, e, f, g, h2, Or.inr ih, h3, h4, h5⟩
    · exact Or.inr ⟨by omega, ih⟩

/-- New events spread knowledge only to those who take part in them. -/
theorem PKnown.of_append {tr es : List (PEv L)} {g i : Nat} (h : PKnown (tr ++ es) g i) (hi : i < tr.length) :
    PKnown tr g i ∨ (∃ f ∈ es, g ∈ f.parts) ∧ ∃ f ∈ es, ∃ h ∈ f.parts, PKnown tr h i := by
  obtain ⟨j, e, h1, h2, h3⟩ := h
  rcases pev_old_or_new h1 with h1 | ⟨h1, hj⟩
  · left
    refine ⟨j, e, h1, h2, h3.imp_right (fun h => phb_of_append h (List.getElem?_eq_some_iff.1 h1).1)⟩
  · right
    refine ⟨⟨e, h1, h2⟩, ?_⟩
    rcases h3 with rfl | h3
    · omega
    · rcases phb_step_of_append h3 hi with ⟨h4, -⟩ | ⟨-, k, e', f, g', h4, h5, h6, h7, h8⟩
      · omega
      · exact ⟨f, h6, g', h8, k, e', h4, h7, h5.imp (fun h => h.symm) id⟩

/-- Accesses spread no knowledge. -/
theorem PKnown.of_accesses {tr : List (PEv L)} {g g' i : Nat} {as : List (L × Bool)}
    (h : PKnown (tr ++ accesses g' as) g i) (hi : i < tr.length) : PKnown tr g i := by
  rcases h.of_append hi with h | ⟨⟨f, h1, h2⟩, f', h3, k, h4, h5⟩
  · exact h
  · obtain ⟨a, -, rfl⟩ := List.mem_map.1 h1
    obtain ⟨a', -, rfl⟩ := List.mem_map.1 h3
    simp only [PEv.parts, List.mem_singleton] at h2 h4
    subst h2 h4
    exact h5

theorem PKnown.of_sync {tr : List (PEv L)} {g i : Nat} {e : PEv L} (h : PKnown (tr ++ [e]) g i) (hi : i < tr.length) :
    PKnown tr g i ∨ g ∈ e.parts ∧ ∃ h ∈ e.parts, PKnown tr h i := by
  rcases h.of_append hi with h | ⟨⟨f, h1, h2⟩, f', h3, k, h4, h5⟩
  · exact Or.inl h
  · rw [List.mem_singleton.1 h1] at h2
    rw [List.mem_singleton.1 h3] at h4
    exact Or.inr ⟨h2, k, h4, h5⟩

/-- Worker `k` has delivered a result. -/
def Delivered (tr : List (PEv L)) (k : Nat) : Prop := PEv.sync (k + 1) 0 ∈ tr

/-- Nothing was delivered before the first receive. -/
theorem PoolRun.none_delivered {act : M → Act M W R} {comp : W → R → Prop} {m₀ : M} {mem : PoolMem M W L} {s : Pool M W R}
    {tr : List (PEv L)} {b : Bool} (h : PoolRun act comp m₀ mem s tr b) : s.got = [] → ∀ k, ¬ Delivered tr k := by
  induction h with
  | recv => intro h; simp at h
  | _ => simp_all [Delivered, accesses, poolInit]

/-- Event `i` of worker `k` is known to nobody else before the worker has delivered, and to no worker that has not
delivered. -/
structure Hidden (tr : List (PEv L)) (k i : Nat) : Prop where
  lt : i < tr.length
  all : ¬ Delivered tr k → ∀ g, g ≠ k + 1 → ¬ PKnown tr g i
  other : ∀ k', k' ≠ k → ¬ Delivered tr k' → ¬ PKnown tr (k' + 1) i

theorem delivered_accesses {tr : List (PEv L)} {k g : Nat} {as : List (L × Bool)} :
    Delivered (tr ++ accesses g as) k ↔ Delivered tr k := by
  unfold Delivered
  rw [List.mem_append]
  refine or_iff_left ?_
  unfold accesses
  simp

theorem delivered_give {tr : List (PEv L)} {k k' : Nat} : Delivered (tr ++ [.sync 0 (k' + 1)]) k ↔ Delivered tr k := by
  unfold Delivered
  simp

theorem delivered_ret {tr : List (PEv L)} {k : Nat} : Delivered (tr ++ [.ret]) k ↔ Delivered tr k := by
  unfold Delivered
  simp

theorem delivered_take {tr : List (PEv L)} {k k' : Nat} :
    Delivered (tr ++ [.sync (k' + 1) 0]) k ↔ Delivered tr k ∨ k = k' := by
  unfold Delivered
  simp

theorem Delivered.append {tr es : List (PEv L)} {k : Nat} (h : Delivered tr k) : Delivered (tr ++ es) k :=
  List.mem_append_left _ h

theorem Hidden.accesses {tr : List (PEv L)} {k i g : Nat} {as : List (L × Bool)} (h : Hidden tr k i) :
    Hidden (tr ++ accesses g as) k i := by
  refine ⟨by rw [List.length_append]; have := h.lt; omega, fun hd g' hg hk => ?_, fun k' hk' hd hk => ?_⟩
  · rw [delivered_accesses] at hd
    exact h.all hd g' hg (hk.of_accesses h.lt)
  · rw [delivered_accesses] at hd
    exact h.other k' hk' hd (hk.of_accesses h.lt)

/-- The main goroutine meets a worker that has not delivered only as long as nobody has. -/
theorem Hidden.give {tr : List (PEv L)} {k i k' : Nat} (h : Hidden tr k i) (hk : k' = k → Delivered tr k)
    (hd : Delivered tr k' ∨ ∀ k, ¬ Delivered tr k) : Hidden (tr ++ [.sync 0 (k' + 1)]) k i := by
  have hdd : ∀ {k''}, ¬ Delivered (tr ++ [.sync 0 (k' + 1)]) k'' → ¬ Delivered tr k'' := fun h1 h2 => h1 h2.append
  refine ⟨by rw [List.length_append]; have := h.lt; omega, fun h1 g hg h2 => ?_, fun k'' hk'' h1 h2 => ?_⟩
  · have h1 := hdd h1
    have hne : k' ≠ k := fun e => h1 (hk e)
    rcases h2.of_sync h.lt with h3 | ⟨-, g', h3, h4⟩
    · exact h.all h1 g hg h3
    · simp only [PEv.parts, List.mem_cons, List.not_mem_nil, or_false] at h3
      exact h.all h1 g' (by omega) h4
  · have h1 := hdd h1
    rcases h2.of_sync h.lt with h3 | ⟨h3, g', h4, h5⟩
    · exact h.other k'' hk'' h1 h3
    · simp only [PEv.parts, List.mem_cons, List.not_mem_nil, or_false] at h3 h4
      obtain rfl : k'' = k' := by omega
      rcases hd with hd | hd
      · exact h1 (delivered_give.2 hd)
      · exact h.all (hd k) g' (by omega) h5

theorem Hidden.take {tr : List (PEv L)} {k i k' : Nat} (h : Hidden tr k i) : Hidden (tr ++ [.sync (k' + 1) 0]) k i := by
  have hdd : ∀ {k''}, ¬ Delivered (tr ++ [.sync (k' + 1) 0]) k'' → ¬ Delivered tr k'' ∧ k'' ≠ k' := fun h1 =>
    ⟨fun h2 => h1 h2.append, fun e => h1 (by subst e; unfold Delivered; simp)⟩
  refine ⟨by rw [List.length_append]; have := h.lt; omega, fun h1 g hg h2 => ?_, fun k'' hk'' h1 h2 => ?_⟩
  · obtain ⟨h1, hne⟩ := hdd h1
    rcases h2.of_sync h.lt with h3 | ⟨-, g', h3, h4⟩
    · exact h.all h1 g hg h3
    · simp only [PEv.parts, List.mem_cons, List.not_mem_nil, or_false] at h3
      exact h.all h1 g' (by omega) h4
  · obtain ⟨h1, hne⟩ := hdd h1
    rcases h2.of_sync h.lt with h3 | ⟨h3, -⟩
    · exact h.other k'' hk'' h1 h3
    · simp only [PEv.parts, List.mem_cons, List.not_mem_nil, or_false] at h3
      omega

theorem Hidden.ret {tr : List (PEv L)} {k i : Nat} (h : Hidden tr k i) : Hidden (tr ++ [.ret]) k i := by
  have hdd : ∀ {k''}, ¬ Delivered (tr ++ [.ret]) k'' → ¬ Delivered tr k'' := fun h1 h2 => h1 h2.append
  refine ⟨by rw [List.length_append]; have := h.lt; omega, fun h1 g hg h2 => ?_, fun k'' hk'' h1 h2 => ?_⟩
  · have h1 := hdd h1
    rcases h2.of_sync h.lt with h3 | ⟨h4, g', h3, h5⟩
    · exact h.all h1 g hg h3
    · simp only [PEv.parts, List.mem_singleton] at h3 h4
      subst h3 h4
      exact h.all h1 0 hg h5
  · rcases h2.of_sync h.lt with h3 | ⟨h3, -⟩
    · exact h.other k'' hk'' (hdd h1) h3
    · simp [PEv.parts] at h3

theorem Spec.RaceAt.append {tr es : List (PEv L)} {l : L} {i j : Nat} (h : RaceAt tr l i j) : RaceAt (tr ++ es) l i j := by
  obtain ⟨g, k, b, b', h1, h2, h3, h4, h5, h6⟩ := h
  exact ⟨g, k, b, b', getElem?_append_some h1, getElem?_append_some h2, h3, h4,
    fun h => h5 (phb_of_append h (List.getElem?_eq_some_iff.1 h2).1),
    fun h => h6 (phb_of_append h (List.getElem?_eq_some_iff.1 h1).1)⟩

/-- The invariant; `F` tells the first jobs. -/
structure FirstInv (F : W → Prop) (mem : PoolMem M W L) (s : Pool M W R) (tr : List (PEv L)) : Prop where
  none : s.got = [] → ∀ k, ¬ Delivered tr k
  comp : ∀ (k : Nat) (w : W), s.workers[k]? = some (.computing w) → F w → ¬ Delivered tr k
  acc : ∀ w ∈ s.evaluated, F w → ∃ k, ((∃ r, s.workers[k]? = some (.sending w r)) ∨ Delivered tr k) ∧
    ∀ l b, (l, b) ∈ mem.work w → ∃ i, tr[i]? = some (.access (k + 1) l b) ∧ Hidden tr k i
  race : ∀ (a c : Nat) (w w' : W), a < c → s.evaluated[a]? = some w → s.evaluated[c]? = some w' → F w → F w' →
    ∀ l b b', (l, b) ∈ mem.work w → (l, b') ∈ mem.work w' → (b = true ∨ b' = true) → ∃ i j, RaceAt tr l i j

theorem FirstInv.access {F : W → Prop} {mem : PoolMem M W L} {s : Pool M W R} {tr : List (PEv L)}
    (h : FirstInv F mem s tr) (g : Nat) (as : List (L × Bool)) : FirstInv F mem s (tr ++ accesses g as) := by
  refine ⟨fun h1 k => ?_, fun k w h1 h2 => ?_, fun w h1 h2 => ?_, fun a c w w' h1 h2 h3 h4 h5 l b b' h6 h7 h8 => ?_⟩
  · rw [delivered_accesses]
    exact h.none h1 k
  · rw [delivered_accesses]
    exact h.comp k w h1 h2
  · obtain ⟨k, h3, h4⟩ := h.acc w h1 h2
    refine ⟨k, h3.imp_right Delivered.append, fun l b h5 => ?_⟩
    obtain ⟨i, h6, h7⟩ := h4 l b h5
    exact ⟨i, getElem?_append_some h6, h7.accesses⟩
  · obtain ⟨i, j, h9⟩ := h.race a c w w' h1 h2 h3 h4 h5 l b b' h6 h7 h8
    exact ⟨i, j, h9.append⟩

theorem FirstInv.ret {F : W → Prop} {mem : PoolMem M W L} {s : Pool M W R} {tr : List (PEv L)}
    (h : FirstInv F mem s tr) : FirstInv F mem s (tr ++ [.ret]) := by
  refine ⟨fun h1 k => ?_, fun k w h1 h2 => ?_, fun w h1 h2 => ?_, fun a c w w' h1 h2 h3 h4 h5 l b b' h6 h7 h8 => ?_⟩
  · rw [delivered_ret]
    exact h.none h1 k
  · rw [delivered_ret]
    exact h.comp k w h1 h2
  · obtain ⟨k, h3, h4⟩ := h.acc w h1 h2
    refine ⟨k, h3.imp_right Delivered.append, fun l b h5 => ?_⟩
    obtain ⟨i, h6, h7⟩ := h4 l b h5
    exact ⟨i, getElem?_append_some h6, h7.ret⟩
  · obtain ⟨i, j, h9⟩ := h.race a c w w' h1 h2 h3 h4 h5 l b b' h6 h7 h8
    exact ⟨i, j, h9.append⟩

theorem FirstInv.run {F : W → Prop} {act : M → Act M W R} {comp : W → R → Prop} {m₀ : M} {mem : PoolMem M W L}
    (hF : ∀ s, PoolReach act comp m₀ s → ∀ w m, act s.main = .send w m → F w → s.got = [])
    (hspawn : ∀ s, PoolReach act comp m₀ s → ∀ m, act s.main = .spawn m → s.got = [])
    (hsend : ∀ s tr, PoolRun act comp m₀ mem s tr false → ∀ w m, act s.main = .send w m → s.got ≠ [] →
      ∀ k : Nat, s.workers[k]? = some .idle → Delivered tr k)
    {s : Pool M W R} {tr : List (PEv L)} {b : Bool} (h : PoolRun act comp m₀ mem s tr b) : FirstInv F mem s tr := by
  induction h with
  | init =>
    refine ⟨fun _ k h => ?_, fun k w h => by simp [poolInit] at h, fun w h => by simp [poolInit] at h,
      fun a c w w' _ h => by simp [poolInit] at h⟩
    unfold Delivered accesses at h
    simp at h
  | @spawn s tr m hr h ih =>
    have h0 := ih.access 0 (mem.main s.main)
    have hg := hspawn s hr.reach m h
    rw [← List.append_assoc]
    generalize tr ++ accesses 0 (mem.main s.main) = tr at h0
    refine ⟨fun h1 k => ?_, fun k w h1 h2 => ?_, fun w h1 h2 => ?_, fun a c w w' h1 h2 h3 h4 h5 l b b' h6 h7 h8 => ?_⟩
    · rw [delivered_give]
      exact h0.none h1 k
    · rw [delivered_give]
      exact h0.none hg k
    · obtain ⟨k, h3, h4⟩ := h0.acc w h1 h2
      refine ⟨k, h3.imp (fun ⟨r, h⟩ => ⟨r, getElem?_append_some h⟩) Delivered.append, fun l b h5 => ?_⟩
      obtain ⟨i, h6, h7⟩ := h4 l b h5
      refine ⟨i, getElem?_append_some h6, h7.give (fun e => ?_) (Or.inr (h0.none hg))⟩
      rcases h3 with ⟨r, h3⟩ | h3
      · have := (List.getElem?_eq_some_iff.1 h3).1
        omega
      · exact h3
    · obtain ⟨i, j, h9⟩ := h0.race a c w w' h1 h2 h3 h4 h5 l b b' h6 h7 h8
      exact ⟨i, j, h9.append⟩
  | @tau s tr m hr h ih =>
    have h0 := ih.access 0 (mem.main s.main)
    exact ⟨h0.none, h0.comp, h0.acc, h0.race⟩
  | @send s tr w m i hr h hi ih =>
    have h0 := ih.access 0 (mem.main s.main)
    have hd : s.got ≠ [] → Delivered (tr ++ accesses 0 (mem.main s.main)) i := fun hg =>
      (hsend s tr hr w m h hg i hi).append
    have hg := hF s hr.reach w m h
    rw [← List.append_assoc]
    generalize tr ++ accesses 0 (mem.main s.main) = tr at h0 hd
    refine ⟨fun h1 k => ?_, fun k w' h1 h2 => ?_, fun w' h1 h2 => ?_,
      fun a c w w' h1 h2 h3 h4 h5 l b b' h6 h7 h8 => ?_⟩
    · rw [delivered_give]
      exact h0.none h1 k
    · rw [delivered_give]
      by_cases hik : i = k
      · subst hik
        simp only at h1
        rw [List.getElem?_set_self (List.getElem?_eq_some_iff.1 hi).1] at h1
        cases h1
        exact h0.none (hg h2) i
      · exact h0.comp k w' (by simpa [List.getElem?_set_ne hik] using h1) h2
    · obtain ⟨k, h3, h4⟩ := h0.acc w' h1 h2
      have hki : (∃ r, s.workers[k]? = some (.sending w' r)) → i ≠ k := by
        rintro ⟨r, h5⟩ rfl
        rw [hi] at h5
        cases h5
      refine ⟨k, h3.imp (fun h5 => ?_) Delivered.append, fun l b h5 => ?_⟩
      · obtain ⟨r, h6⟩ := id h5
        exact ⟨r, by simpa [List.getElem?_set_ne (hki h5)] using h6⟩
      · obtain ⟨j, h6, h7⟩ := h4 l b h5
        refine ⟨j, getElem?_append_some h6, h7.give (fun e => ?_) ?_⟩
        · rcases h3 with h3 | h3
          · exact absurd e (hki h3)
          · exact h3
        · by_cases hgn : s.got = []
          · exact Or.inr (h0.none hgn)
          · exact Or.inl (hd hgn)
    · obtain ⟨i, j, h9⟩ := h0.race a c w w' h1 h2 h3 h4 h5 l b b' h6 h7 h8
      exact ⟨i, j, h9.append⟩
  | @compute s tr b w i r hr hi hc ih =>
    have hilt := (List.getElem?_eq_some_iff.1 hi).1
    have h0 := ih.access (i + 1) (mem.work w)
    have hself : (s.workers.set i (.sending w r))[i]? = some (.sending w r) := List.getElem?_set_self hilt
    have hnew : ∀ l b, (l, b) ∈ mem.work w → ∃ j, tr.length ≤ j ∧
        (tr ++ accesses (i + 1) (mem.work w))[j]? = some (.access (i + 1) l b) := by
      intro l b hl
      obtain ⟨j, h1⟩ := List.mem_iff_getElem?.1 (mem_accesses.2 ⟨rfl, hl⟩ : PEv.access (i + 1) l b ∈ accesses (i + 1) (mem.work w))
      refine ⟨tr.length + j, by omega, ?_⟩
      rw [List.getElem?_append_right (by omega), Nat.add_sub_cancel_left]
      exact h1
    refine ⟨h0.none, fun k w' h1 h2 => ?_, fun w' h1 h2 => ?_, fun a c w₁ w' h1 h2 h3 h4 h5 l b b' h6 h7 h8 => ?_⟩
    · by_cases hik : i = k
      · subst hik
        simp only at h1
        rw [hself] at h1
        cases h1
      · exact h0.comp k w' (by simpa [List.getElem?_set_ne hik] using h1) h2
    · rcases List.mem_append.1 h1 with h1 | h1
      · obtain ⟨k, h3, h4⟩ := h0.acc w' h1 h2
        refine ⟨k, h3.imp_left ?_, h4⟩
        rintro ⟨r', h5⟩
        have hik : i ≠ k := by
          rintro rfl
          rw [hi] at h5
          cases h5
        exact ⟨r', by simpa [List.getElem?_set_ne hik] using h5⟩
      · obtain rfl := List.mem_singleton.1 h1
        refine ⟨i, Or.inl ⟨r, hself⟩, fun l b hl => ?_⟩
        obtain ⟨j, hj, h3⟩ := hnew l b hl
        have key : ∀ g, g ≠ i + 1 → ¬ PKnown (tr ++ accesses (i + 1) (mem.work w')) g j := by
          rintro g hg ⟨j', e, h4, h5, h6⟩
          have hj' : j ≤ j' := by
            rcases h6 with rfl | h6
            · exact le_refl _
            · exact (phb_lt h6).le
          rcases pev_old_or_new h4 with h4 | ⟨h4, -⟩
          · have := (List.getElem?_eq_some_iff.1 h4).1
            omega
          · obtain ⟨x, -, rfl⟩ := List.mem_map.1 h4
            simp only [PEv.parts, List.mem_singleton] at h5
            exact hg h5
        exact ⟨j, h3, (List.getElem?_eq_some_iff.1 h3).1, fun _ => key, fun k hk _ => key _ (by omega)⟩
    · by_cases hc' : c < s.evaluated.length
      · simp only at h2 h3
        rw [List.getElem?_append_left hc'] at h3
        rw [List.getElem?_append_left (h1.trans hc')] at h2
        exact h0.race a c w₁ w' h1 h2 h3 h4 h5 l b b' h6 h7 h8
      · simp only at h2 h3
        rw [List.getElem?_append_right (not_lt.1 hc')] at h3
        have hcl := (List.getElem?_eq_some_iff.1 h3).1
        simp only [List.length_singleton] at hcl
        obtain rfl := List.mem_singleton.1 (List.mem_of_getElem? h3)
        rw [List.getElem?_append_left (by omega)] at h2
        obtain ⟨k, h9, h10⟩ := ih.acc w₁ (List.mem_of_getElem? h2) h4
        have hnd := ih.comp i w' hi h5
        have hik : k ≠ i := by
          rintro rfl
          rcases h9 with ⟨r', h9⟩ | h9
          · rw [hi] at h9
            cases h9
          · exact hnd h9
        obtain ⟨p, h11, h12⟩ := h10 l b h6
        obtain ⟨j, hj, h13⟩ := hnew l b' h7
        refine ⟨p, j, k + 1, i + 1, b, b', getElem?_append_some h11, h13, by omega, h8, fun hb => ?_, fun hb => ?_⟩
        · refine h12.other i (Ne.symm hik) hnd (PKnown.of_accesses (g' := i + 1) (as := mem.work w') ?_ h12.lt)
          exact ⟨j, _, h13, by simp [PEv.parts], Or.inr hb⟩
        · have := phb_lt hb
          have := h12.lt
          omega
  | @recv s tr f w i r hr h hi ih =>
    have hilt := (List.getElem?_eq_some_iff.1 hi).1
    have h0 := ih.access 0 (mem.main s.main)
    rw [← List.append_assoc]
    generalize tr ++ accesses 0 (mem.main s.main) = tr at h0
    refine ⟨fun h1 => by simp at h1, fun k w' h1 h2 => ?_, fun w' h1 h2 => ?_,
      fun a c w w' h1 h2 h3 h4 h5 l b b' h6 h7 h8 => ?_⟩
    · have hik : i ≠ k := by
        rintro rfl
        simp only at h1
        rw [List.getElem?_set_self hilt] at h1
        cases h1
      rw [delivered_take]
      rintro (h3 | h3)
      · exact h0.comp k w' (by simpa [List.getElem?_set_ne hik] using h1) h2 h3
      · exact hik h3.symm
    · obtain ⟨k, h3, h4⟩ := h0.acc w' h1 h2
      refine ⟨k, ?_, fun l b h5 => ?_⟩
      · rw [delivered_take]
        by_cases hik : i = k
        · exact Or.inr (Or.inr hik.symm)
        · refine h3.imp ?_ Or.inl
          rintro ⟨r', h5⟩
          exact ⟨r', by simpa [List.getElem?_set_ne hik] using h5⟩
      · obtain ⟨j, h6, h7⟩ := h4 l b h5
        exact ⟨j, getElem?_append_some h6, h7.take⟩
    · obtain ⟨i, j, h9⟩ := h0.race a c w w' h1 h2 h3 h4 h5 l b b' h6 h7 h8
      exact ⟨i, j, h9.append⟩
  | @ret s tr hr h ih =>
    rw [← List.append_assoc]
    exact (ih.access 0 (mem.main s.main)).ret

end GoSelect
