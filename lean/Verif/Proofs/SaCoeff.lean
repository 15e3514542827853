import Verif.Props.C23_C26

/-! Coefficients in the highscore list of simulated annealing. -/

namespace GoSelect

section
variable {α : Type} [LinearOrder α]

/-- `insertNew` changes `BestItem` to the new item or leaves it. -/
theorem insertNew_best {s s' : SAScore α} {k : Nat} {x : SAItem α} (h : s.insertNew k x = some s') :
    s'.best = some k ∨ s'.best = s.best := by
  unfold SAScore.insertNew SAScore.insert at h
  simp only at h
  split at h
  · rw [← Option.some.inj h]; exact Or.inr rfl
  · split at h
    · rw [← Option.some.inj h]; exact Or.inl rfl
    · split at h
      · rename_i b w hb hw
        split at h
        · rw [← Option.some.inj h]
          simp only
          split
          · exact Or.inl rfl
          · exact Or.inr hb.symm
        · split at h
          · rw [← Option.some.inj h]
            simp only
            split
            · exact Or.inl rfl
            · exact Or.inr hb.symm
          · rw [← Option.some.inj h]; exact Or.inr rfl
      · cases h

/-- `BestItem` is an inserted item, with its own coefficients, unless two different selections tie. -/
theorem saRun_best_coeff (cap : Int) (hcap : 2 ≤ cap) (dflt : SAItem α) (hist : List (SAItem α)) (s : SAScore α)
    (h : saRun cap dflt hist = some s)
    (hinj : ∀ x ∈ hist, ∀ z ∈ hist, x.score = z.score → x.selection = z.selection)
    (b : Nat) (hb : s.best = some b) : s.heap b ∈ hist := by
  induction hist using List.reverseRecOn generalizing s b with
  | nil => rw [(SAInv.of_run h).noptr rfl] at hb; cases hb
  | append_singleton hist x ih =>
    obtain ⟨s₀, h0, h2, -⟩ := saRun_last h
    have hinv := SAInv.of_run h0
    rw [saRun_snoc, h0, Option.bind_some] at h
    have hinj0 : ∀ x ∈ hist, ∀ z ∈ hist, x.score = z.score → x.selection = z.selection := fun x hx z hz =>
      hinj x (List.mem_append_left _ hx) z (List.mem_append_left _ hz)
    have upd : Function.update s₀.heap hist.length x b ∈ hist ++ [x] := by
      by_cases hk : b = hist.length
      · rw [hk, Function.update_self]; simp
      · rw [Function.update_of_ne hk]
        rcases insertNew_best h with h' | h'
        · rw [h', Option.some.injEq] at hb; exact absurd hb.symm hk
        · exact List.mem_append_left _ (ih s₀ h0 hinj0 b (h'.symm.trans hb))
    cases h2 with
    | ignored hi _ _ hh => rw [hh]; exact upd
    | appended hi _ hh => rw [hh]; exact upd
    | replaced w hi _ hwm hh hmin hlt hnew hfull =>
      rw [hh]
      by_cases hbw : b = w
      · exfalso
        subst hbw
        have hpos : 0 < hist.length := lt_of_le_of_lt (Nat.zero_le _) (hinv.lt b hwm)
        obtain ⟨b', w', hb', -, hbn, -, -, hmax, -⟩ := hinv.ptrs hpos
        have hbb : b' = b := by
          rcases insertNew_best h with h' | h'
          · rw [h', Option.some.injEq] at hb
            exact absurd (hinv.lt b hwm) (by omega)
          · rw [h', hb', Option.some.injEq] at hb
            exact hb
        subst hbb
        rw [hinv.capEq] at hfull
        -- a second entry
        have hlen : 2 ≤ s₀.items.length := by omega
        obtain ⟨v, hv, hvb⟩ : ∃ v ∈ s₀.items, v ≠ b' := by
          by_contra hc
          have hall : ∀ v ∈ s₀.items, v = b' := by
            intro v hv
            by_contra hne
            exact hc ⟨v, hv, hne⟩
          have := (List.subperm_of_subset hinv.nodup (fun v hv => List.mem_singleton.2 (hall v hv))).length_le
          simp at this
          omega
        have hscore : (s₀.heap v).score = (s₀.heap b').score := le_antisymm (hmax v hv) (hmin v hv)
        obtain ⟨z1, hz1, hs1, hc1⟩ := C26_selection_score cap dflt hist s₀ h0 _ (List.mem_map.2 ⟨v, hv, rfl⟩)
        obtain ⟨z2, hz2, hs2, hc2⟩ := C26_selection_score cap dflt hist s₀ h0 _ (List.mem_map.2 ⟨b', hwm, rfl⟩)
        have := hinj0 z1 hz1 z2 hz2 (by rw [hc1, hc2, hscore])
        rw [hs1, hs2] at this
        exact hvb ((List.inj_on_of_nodup_map hinv.sel) hv hwm this)
      · rw [Function.update_of_ne hbw]; exact upd

/-- What happens to coefficients when a full list takes a better item: the entry that shows the new selection keeps
the coefficients of another inserted item, the worst of the list. -/
theorem saRun_stale (cap : Int) (hcap : 1 ≤ cap) (dflt : SAItem α) (hist : List (SAItem α)) (x : SAItem α)
    (s : SAScore α) (h : saRun cap dflt (hist ++ [x]) = some s)
    (hnum : ((hist.map (·.selection)).dedup.length : Int) = cap)
    (hnew : ∀ z ∈ hist, z.selection ≠ x.selection) (hbetter : ∃ z ∈ hist, z.score < x.score)
    (hfun : ∀ x ∈ hist, ∀ z ∈ hist, x.selection = z.selection → x.score = z.score) :
    ∃ z ∈ hist, (∀ v ∈ hist, z.score ≤ v.score) ∧ (⟨x.selection, z.coeff, x.score⟩ : SAItem α) ∈ s.entries := by
  obtain ⟨s₀, h0, h2, -⟩ := saRun_last h
  have hinv := SAInv.of_run h0
  have hmem : ∀ e ∈ s₀.entries, e ∈ hist :=
    C26_no_overflow_partial cap dflt hist s₀ h0 (by rw [hnum]; exact le_max_left _ _)
  have hnod := (C23_no_duplicates cap dflt hist s₀ h0).1
  -- every selection of the history is in the list
  have hall : ∀ z ∈ hist, ∃ e ∈ s₀.entries, e.selection = z.selection := by
    intro z hz
    by_contra hc
    have hmiss : ∀ e ∈ s₀.entries, e.selection ≠ z.selection := fun e he he' => hc ⟨e, he, he'⟩
    obtain ⟨hl, -⟩ := C25_keeps_best cap dflt hist s₀ h0 hfun z hz hmiss
    have hn : (z.selection :: s₀.entries.map (·.selection)).Nodup := by
      rw [List.nodup_cons]
      refine ⟨fun hc => ?_, hnod⟩
      obtain ⟨e, he, hs⟩ := List.mem_map.1 hc
      exact hmiss e he hs
    have hsub : (z.selection :: s₀.entries.map (·.selection)) ⊆ (hist.map (·.selection)).dedup := by
      intro a ha
      rw [List.mem_dedup]
      rcases List.mem_cons.1 ha with rfl | ha
      · exact List.mem_map.2 ⟨z, hz, rfl⟩
      · obtain ⟨e, he, rfl⟩ := List.mem_map.1 ha
        exact List.mem_map.2 ⟨e, hmem e he, rfl⟩
    have := (List.subperm_of_subset hn hsub).length_le
    simp only [List.length_cons, List.length_map] at this
    omega
  have hfull : cap ≤ s₀.items.length := by
    have hsub : (hist.map (·.selection)).dedup ⊆ s₀.entries.map (·.selection) := by
      intro a ha
      obtain ⟨z, hz, rfl⟩ := List.mem_map.1 (List.mem_dedup.1 ha)
      obtain ⟨e, he, hs⟩ := hall z hz
      exact List.mem_map.2 ⟨e, he, hs⟩
    have := (List.subperm_of_subset (List.nodup_dedup _) hsub).length_le
    simp only [List.length_map, SAScore.entries] at this
    omega
  obtain ⟨z, hz, hzx⟩ := hbetter
  obtain ⟨e, he, hes⟩ := hall z hz
  have hes' : e.score = z.score := hfun e (hmem e he) z hz hes
  cases h2 with
  | ignored hi _ _ hh _ hc =>
    exfalso
    rcases hc with ⟨e', he', hs'⟩ | ⟨-, -, hle⟩
    · exact hnew e' (hmem e' he') hs'
    · exact absurd (hle e he) (not_le.2 (hes' ▸ hzx))
  | appended hi _ hh _ hroom =>
    exfalso
    rw [hinv.capEq] at hroom
    rcases hroom with hr | hr
    · rw [hr] at hfull; simp at hfull; omega
    · omega
  | replaced w hi _ hwm hh hmin hlt _ _ =>
    have hw := hmem _ (List.mem_map.2 ⟨w, hwm, rfl⟩)
    refine ⟨s₀.heap w, hw, fun v hv => ?_, List.mem_map.2 ⟨w, by rw [hi]; exact hwm, ?_⟩⟩
    · obtain ⟨e', he', hs'⟩ := hall v hv
      rw [← hfun e' (hmem e' he') v hv hs']
      obtain ⟨u, hu, rfl⟩ := List.mem_map.1 he'
      exact hmin u hu
    · rw [hh, Function.update_self]

end

end GoSelect
