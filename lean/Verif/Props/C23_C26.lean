import Verif.Proofs.SaScore
import Mathlib.Data.List.Dedup

/-!
C23-C26: the highscore list of simulated annealing.

`saRun cap dflt hist = some s`: after inserting fresh items with the contents `hist`, one after the
other, into a new list of capacity `cap`, the list is `s`.  `s.entries` are the items it shows.
-/

namespace GoSelect

section
variable {α : Type} [LinearOrder α]

/-- No insertion history panics. -/
theorem C23_no_panic (cap : Int) (dflt : SAItem α) (hist : List (SAItem α)) :
    ∃ s, saRun cap dflt hist = some s :=
  (saRun_inv cap dflt hist).imp fun _ h => h.1

/-- No two entries have the same selection, and there are at most `max(Cap, 1)` entries. -/
theorem C23_no_duplicates (cap : Int) (dflt : SAItem α) (hist : List (SAItem α)) (s : SAScore α)
    (h : saRun cap dflt hist = some s) :
    (s.entries.map (·.selection)).Nodup ∧ (s.entries.length : Int) ≤ max cap 1 ∧
      (hist ≠ [] → s.entries ≠ []) := by
  have hi := SAInv.of_run h
  refine ⟨by simpa [SAScore.entries, Function.comp_def] using hi.sel,
    by simpa [SAScore.entries] using hi.len, fun hne => ?_⟩
  intro h0
  rw [SAScore.entries, List.map_eq_nil_iff, hi.empty] at h0
  exact hne (List.length_eq_zero_iff.1 h0)

/-- The number of entries never decreases. -/
theorem C23_grows (cap : Int) (dflt : SAItem α) (before after : List (SAItem α))
    (s s' : SAScore α) (h : saRun cap dflt before = some s)
    (h' : saRun cap dflt (before ++ after) = some s') : s.entries.length ≤ s'.entries.length := by
  induction after using List.reverseRecOn generalizing s' with
  | nil =>
    rw [List.append_nil, h, Option.some.injEq] at h'
    rw [h']
  | append_singleton after x ih =>
    rw [← List.append_assoc] at h'
    obtain ⟨s₁, h1, h2, -⟩ := saRun_last h'
    refine (ih s₁ h1).trans ?_
    simp only [SAScore.entries, List.length_map]
    cases h2 with
    | ignored hi => rw [hi]
    | appended hi => rw [hi]; simp
    | replaced w hi => rw [hi]

/-- `WorstItem` is in `Items` and has the smallest score there. -/
theorem C24_worst (cap : Int) (dflt : SAItem α) (hist : List (SAItem α)) (s : SAScore α)
    (h : saRun cap dflt hist = some s) (hne : hist ≠ []) :
    ∃ w, s.worst = some w ∧ w ∈ s.items ∧ ∀ e ∈ s.entries, (s.heap w).score ≤ e.score := by
  obtain ⟨-, w, -, hw, -, hwi, h1, -⟩ := (SAInv.of_run h).ptrs (List.length_pos_of_ne_nil hne)
  refine ⟨w, hw, hwi, fun e he => ?_⟩
  obtain ⟨v, hv, rfl⟩ := List.mem_map.1 he
  exact h1 v hv

/-- `BestItem` has the largest score in `Items`, and some entry has that score. -/
theorem C24_best (cap : Int) (dflt : SAItem α) (hist : List (SAItem α)) (s : SAScore α)
    (h : saRun cap dflt hist = some s) (hne : hist ≠ []) :
    ∃ b, s.best = some b ∧ (∀ e ∈ s.entries, e.score ≤ (s.heap b).score) ∧
      ∃ e ∈ s.entries, e.score = (s.heap b).score := by
  obtain ⟨b, -, hb, -, -, -, -, h1, v, hv, h2⟩ :=
    (SAInv.of_run h).ptrs (List.length_pos_of_ne_nil hne)
  refine ⟨b, hb, fun e he => ?_, s.heap v, List.mem_map.2 ⟨v, hv, rfl⟩, h2⟩
  obtain ⟨u, hu, rfl⟩ := List.mem_map.1 he
  exact h1 u hu

/-- `BestItem` is at least as good as every item that was not refused as a duplicate. -/
theorem C24_best_of_all (cap : Int) (dflt : SAItem α) (before after : List (SAItem α))
    (x : SAItem α) (s₀ s : SAScore α) (h₀ : saRun cap dflt before = some s₀)
    (hnew : ∀ e ∈ s₀.entries, e.selection ≠ x.selection)
    (h : saRun cap dflt (before ++ x :: after) = some s) :
    ∃ b, s.best = some b ∧ x.score ≤ (s.heap b).score := by
  induction after using List.reverseRecOn generalizing s with
  | nil =>
    obtain ⟨s₁, h1, -, -, h2⟩ := saRun_last h
    rw [h₀, Option.some.injEq] at h1
    subst h1
    obtain ⟨b, -, hb, -⟩ := (SAInv.of_run h).ptrs (by simp)
    exact ⟨b, hb, h2 hnew b hb⟩
  | append_singleton after z ih =>
    rw [← List.cons_append, ← List.append_assoc] at h
    obtain ⟨s₁, h1, -, h2, -⟩ := saRun_last h
    obtain ⟨b, hb, hbx⟩ := ih s₁ h1
    obtain ⟨b', -, hb', -⟩ := (SAInv.of_run h).ptrs (by simp)
    exact ⟨b', hb', hbx.trans (h2 b b' hb hb')⟩

/-- Selection and score of every entry come from one and the same inserted item. -/
theorem C26_selection_score (cap : Int) (dflt : SAItem α) (hist : List (SAItem α)) (s : SAScore α)
    (h : saRun cap dflt hist = some s) (e : SAItem α) (he : e ∈ s.entries) :
    ∃ x ∈ hist, x.selection = e.selection ∧ x.score = e.score := by
  induction hist using List.reverseRecOn generalizing s e with
  | nil =>
    have := (SAInv.of_run h).empty.2 rfl
    rw [SAScore.entries, this] at he
    simp at he
  | append_singleton hist x ih =>
    obtain ⟨s₀, h0, h2, -⟩ := saRun_last h
    have hinv := SAInv.of_run h0
    have hup : ∀ v ∈ s₀.items, Function.update s₀.heap hist.length x v = s₀.heap v :=
      fun v hv => Function.update_of_ne (hinv.lt v hv).ne _ _
    have old : ∀ v ∈ s₀.items, ∃ z ∈ hist ++ [x], z.selection = (s₀.heap v).selection ∧
        z.score = (s₀.heap v).score := by
      intro v hv
      obtain ⟨z, hz, hz'⟩ := ih s₀ h0 (s₀.heap v) (List.mem_map.2 ⟨v, hv, rfl⟩)
      exact ⟨z, List.mem_append_left _ hz, hz'⟩
    obtain ⟨v, hv, rfl⟩ := List.mem_map.1 he
    cases h2 with
    | ignored hi _ _ hh =>
      rw [hi] at hv
      rw [hh, hup v hv]
      exact old v hv
    | appended hi _ hh =>
      rw [hi] at hv
      rw [hh]
      rcases List.mem_append.1 hv with hv | hv
      · rw [hup v hv]; exact old v hv
      · rw [List.mem_singleton.1 hv, Function.update_self]
        exact ⟨x, by simp, rfl, rfl⟩
    | replaced w hi _ hwm hh =>
      rw [hi] at hv
      rw [hh]
      by_cases hvw : v = w
      · rw [hvw, Function.update_self]
        exact ⟨x, by simp, rfl, rfl⟩
      · rw [Function.update_of_ne hvw, hup v hv]
        exact old v hv

/-- The same for all items ever inserted, in particular for `BestItem`, which need not be in
`Items`. -/
theorem C24_best_item (cap : Int) (dflt : SAItem α) (hist : List (SAItem α)) (s : SAScore α)
    (h : saRun cap dflt hist = some s) (b : Nat) (hb : s.best = some b) :
    ∃ x ∈ hist, x.selection = (s.heap b).selection ∧ x.score = (s.heap b).score := by
  have key : ∀ hist s, saRun cap dflt hist = some s → ∀ k, k < hist.length →
      ∃ x ∈ hist, x.selection = (s.heap k).selection ∧ x.score = (s.heap k).score := by
    intro hist
    induction hist using List.reverseRecOn with
    | nil => intro s _ k hk; simp at hk
    | append_singleton hist x ih =>
      intro s h k hk
      obtain ⟨s₀, h0, h2, -⟩ := saRun_last h
      have upd : ∃ z ∈ hist ++ [x], z.selection = (Function.update s₀.heap hist.length x k).selection ∧
          z.score = (Function.update s₀.heap hist.length x k).score := by
        by_cases hkn : k = hist.length
        · exact ⟨x, by simp, by rw [hkn, Function.update_self], by rw [hkn, Function.update_self]⟩
        · rw [Function.update_of_ne hkn]
          obtain ⟨z, hz, hz'⟩ := ih s₀ h0 k (by simp at hk; omega)
          exact ⟨z, List.mem_append_left _ hz, hz'⟩
      cases h2 with
      | ignored hi _ _ hh => rw [hh]; exact upd
      | appended hi _ hh => rw [hh]; exact upd
      | replaced w hi _ hwm hh =>
        rw [hh]
        by_cases hkw : k = w
        · rw [hkw, Function.update_self]
          exact ⟨x, by simp, rfl, rfl⟩
        · rw [Function.update_of_ne hkw]; exact upd
  have hi := SAInv.of_run h
  have hpos : 0 < hist.length := by
    rcases Nat.eq_zero_or_pos hist.length with h0 | h0
    · rw [hi.noptr h0] at hb; cases hb
    · exact h0
  obtain ⟨b', -, hb', -, hlt, -⟩ := hi.ptrs hpos
  rw [hb, Option.some.injEq] at hb'
  exact key hist s h b (hb' ▸ hlt)

/-- The list keeps the best: if equal selections always come with equal scores, an inserted item
whose selection is missing in the list is at most as good as every entry, and the list is full. -/
theorem C25_keeps_best (cap : Int) (dflt : SAItem α) (hist : List (SAItem α)) (s : SAScore α)
    (h : saRun cap dflt hist = some s)
    (hfun : ∀ x ∈ hist, ∀ z ∈ hist, x.selection = z.selection → x.score = z.score)
    (x : SAItem α) (hx : x ∈ hist) (hmiss : ∀ e ∈ s.entries, e.selection ≠ x.selection) :
    cap ≤ s.entries.length ∧ ∀ e ∈ s.entries, x.score ≤ e.score := by
  induction hist using List.reverseRecOn generalizing s x with
  | nil => simp at hx
  | append_singleton hist z ih =>
    obtain ⟨s₀, h0, h2, -⟩ := saRun_last h
    have hinv := SAInv.of_run h0
    have hup : ∀ v ∈ s₀.items, Function.update s₀.heap hist.length z v = s₀.heap v :=
      fun v hv => Function.update_of_ne (hinv.lt v hv).ne _ _
    have ih' := ih s₀ h0 (fun a ha b hb => hfun a (List.mem_append_left _ ha) b (List.mem_append_left _ hb))
    have hsame : s.items = s₀.items → s.heap = Function.update s₀.heap hist.length z →
        s.entries = s₀.entries := by
      intro h1 h2
      rw [SAScore.entries, SAScore.entries, h1, h2]
      exact List.map_congr_left hup
    cases h2 with
    | ignored hi _ _ hh _ hcase =>
      rw [hsame hi hh] at hmiss ⊢
      rcases List.mem_append.1 hx with hx | hx
      · exact ih' x hx hmiss
      · rw [List.mem_singleton.1 hx] at hmiss ⊢
        rcases hcase with ⟨e, he, hs⟩ | ⟨h1, -, h3⟩
        · exact absurd hs (hmiss e he)
        · refine ⟨?_, h3⟩
          rw [← hinv.capEq]
          simpa [SAScore.entries] using h1
    | appended hi _ hh hnew hroom =>
      have hent : s.entries = s₀.entries ++ [z] := by
        rw [SAScore.entries, hi, hh, List.map_append, SAScore.entries]
        simp only [List.map_cons, List.map_nil, Function.update_self]
        rw [List.map_congr_left hup]
      rw [hent] at hmiss
      rcases List.mem_append.1 hx with hx | hx
      · have := ih' x hx (fun e he => hmiss e (List.mem_append_left _ he))
        rcases hroom with h | h
        · have hz := hinv.empty.1 h
          rw [List.length_eq_zero_iff.1 hz] at hx
          simp at hx
        · rw [← hinv.capEq] at this
          simp only [SAScore.entries, List.length_map] at this
          omega
      · exact absurd (List.mem_singleton.1 hx ▸ rfl) (hmiss z (by simp))
    | replaced w hi _ hwm hh hmin hlt hnew hfull =>
      have hsw : (s.heap w) = ⟨z.selection, (s₀.heap w).coeff, z.score⟩ := by
        rw [hh, Function.update_self]
      have hsv : ∀ v ∈ s₀.items, v ≠ w → s.heap v = s₀.heap v := by
        intro v hv hvw
        rw [hh, Function.update_of_ne hvw, hup v hv]
      have hge : ∀ e ∈ s.entries, (s₀.heap w).score ≤ e.score := by
        intro e he
        obtain ⟨v, hv, rfl⟩ := List.mem_map.1 he
        rw [hi] at hv
        by_cases hvw : v = w
        · rw [hvw, hsw]; exact hlt.le
        · rw [hsv v hv hvw]; exact hmin v hv
      have hfull' : cap ≤ s.entries.length := by
        rw [← hinv.capEq, SAScore.entries, hi, List.length_map]; exact hfull
      refine ⟨hfull', ?_⟩
      have hzw : z.selection ≠ x.selection := by
        have := hmiss (s.heap w) (List.mem_map.2 ⟨w, by rw [hi]; exact hwm, rfl⟩)
        rwa [hsw] at this
      have hx' : x ∈ hist := by
        rcases List.mem_append.1 hx with hx | hx
        · exact hx
        · exact absurd (List.mem_singleton.1 hx ▸ rfl) hzw
      suffices hle : x.score ≤ (s₀.heap w).score from fun e he => hle.trans (hge e he)
      by_cases hin : ∃ e ∈ s₀.entries, e.selection = x.selection
      · obtain ⟨e, he, hes⟩ := hin
        obtain ⟨v, hv, rfl⟩ := List.mem_map.1 he
        have hvw : v = w := by
          by_contra hvw
          exact hmiss (s.heap v) (List.mem_map.2 ⟨v, by rw [hi]; exact hv, rfl⟩)
            (by rw [hsv v hv hvw]; exact hes)
        subst hvw
        obtain ⟨x₀, hx₀, e1, e2⟩ := C26_selection_score cap dflt hist s₀ h0 _ he
        rw [← e2]
        exact (hfun x hx x₀ (List.mem_append_left _ hx₀) (by rw [e1, hes])).le
      · exact (ih' x hx' fun e he hes => hin ⟨e, he, hes⟩).2 _ (List.mem_map.2 ⟨w, hwm, rfl⟩)

/-- As long as no more than `max(Cap, 1)` different selections were inserted, every entry is one of
the inserted items, with its own coefficients.  Missing for the full claim: histories that
overwrite items, where it is false (`C26_refuted`). -/
theorem C26_no_overflow_partial (cap : Int) (dflt : SAItem α) (hist : List (SAItem α))
    (s : SAScore α) (h : saRun cap dflt hist = some s)
    (hfew : (((hist.map (·.selection)).dedup.length : Nat) : Int) ≤ max cap 1)
    (e : SAItem α) (he : e ∈ s.entries) : e ∈ hist := by
  induction hist using List.reverseRecOn generalizing s e with
  | nil =>
    have := (SAInv.of_run h).empty.2 rfl
    rw [SAScore.entries, this] at he
    simp at he
  | append_singleton hist x ih =>
    obtain ⟨s₀, h0, h2, -⟩ := saRun_last h
    have hinv := SAInv.of_run h0
    have hup : ∀ v ∈ s₀.items, Function.update s₀.heap hist.length x v = s₀.heap v :=
      fun v hv => Function.update_of_ne (hinv.lt v hv).ne _ _
    have hfew0 : (((hist.map (·.selection)).dedup.length : Nat) : Int) ≤ max cap 1 := by
      refine le_trans (Int.ofNat_le.2 ?_) hfew
      refine (List.subperm_of_subset (List.nodup_dedup _) ?_).length_le
      intro a ha
      rw [List.mem_dedup] at ha ⊢
      rw [List.map_append]
      exact List.mem_append_left _ ha
    have old : ∀ v ∈ s₀.items, s₀.heap v ∈ hist ++ [x] := fun v hv =>
      List.mem_append_left _ (ih s₀ h0 hfew0 _ (List.mem_map.2 ⟨v, hv, rfl⟩))
    obtain ⟨v, hv, rfl⟩ := List.mem_map.1 he
    cases h2 with
    | ignored hi _ _ hh =>
      rw [hi] at hv
      rw [hh, hup v hv]
      exact old v hv
    | appended hi _ hh =>
      rw [hi] at hv
      rw [hh]
      rcases List.mem_append.1 hv with hv | hv
      · rw [hup v hv]; exact old v hv
      · rw [List.mem_singleton.1 hv, Function.update_self]
        simp
    | replaced w hi _ hwm hh hmin hlt hnew hfull =>
      exfalso
      -- the selections in the list and that of `x` are all different
      have hsub : (x.selection :: s₀.entries.map (·.selection)) ⊆
          ((hist ++ [x]).map (·.selection)).dedup := by
        intro a ha
        rw [List.mem_dedup]
        rcases List.mem_cons.1 ha with rfl | ha
        · simp
        · obtain ⟨e', he', rfl⟩ := List.mem_map.1 ha
          obtain ⟨z, hz, hz1, -⟩ := C26_selection_score cap dflt hist s₀ h0 e' he'
          exact List.mem_map.2 ⟨z, List.mem_append_left _ hz, hz1⟩
      have hnod : (x.selection :: s₀.entries.map (·.selection)).Nodup := by
        rw [List.nodup_cons]
        refine ⟨fun hc => ?_, (C23_no_duplicates cap dflt hist s₀ h0).1⟩
        obtain ⟨e', he', hs⟩ := List.mem_map.1 hc
        exact hnew e' he' hs
      have hlen := (List.subperm_of_subset hnod hsub).length_le
      simp only [List.length_cons, List.length_map, SAScore.entries] at hlen
      have hpos : 0 < s₀.items.length := List.length_pos_of_mem hwm
      rw [hinv.capEq] at hfull
      have h1 : max cap 1 ≤ (s₀.items.length : Int) := max_le hfull (by omega)
      omega

end

/-! ### Concrete cases -/

/-- Three items for a list of capacity 2; the third replaces the first. -/
def exHist : List (SAItem Int) := [⟨[0], [7], 1⟩, ⟨[1], [8], 2⟩, ⟨[0, 1], [9, 9], 3⟩]

/-- False in general: after these three insertions the list shows the selection `[0, 1]` (score 3)
with the coefficients `[7]` of the selection `[0]`. -/
theorem C26_refuted : ∃ s, saRun 2 ⟨[], [], 0⟩ exHist = some s ∧
    s.entries = [⟨[0, 1], [7], 3⟩, ⟨[1], [8], 2⟩] ∧
    ¬ ∃ x ∈ exHist, (⟨[0, 1], [7], 3⟩ : SAItem Int) = x := by
  refine ⟨_, rfl, rfl, ?_⟩
  decide

/-- The hypotheses of C24 and C25 hold for `exHist`, whose first item is not in the final list;
those of C26_no_overflow_partial hold for its first two items. -/
example : ∃ s, saRun 2 ⟨[], [], 0⟩ exHist = some s ∧
    (∀ x ∈ exHist, ∀ z ∈ exHist, x.selection = z.selection → x.score = z.score) ∧
    (∀ e ∈ s.entries, e.selection ≠ [0]) ∧ s.worst = some 1 ∧ s.best = some 2 ∧
    (((exHist.take 2).map (·.selection)).dedup.length : Int) ≤ max 2 1 :=
  ⟨_, rfl, by decide, by decide, rfl, rfl, by decide⟩

end GoSelect
