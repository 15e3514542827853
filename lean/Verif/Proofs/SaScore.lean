import Verif.Model.SaScore
import Verif.Proofs.IntUtil
import Mathlib.Order.Basic
import Mathlib.Data.List.Nodup
import Mathlib.Order.Defs.LinearOrder

/-! Invariants of the SA highscore list. -/

namespace GoSelect

variable {α : Type} [LinearOrder α]

theorem saRun_snoc (cap : Int) (dflt : SAItem α) (hist : List (SAItem α)) (x : SAItem α) :
    saRun cap dflt (hist ++ [x]) =
      (saRun cap dflt hist).bind (fun s => s.insertNew hist.length x) := by
  simp only [saRun, List.zipIdx_append, List.foldlM_append]
  cases h : List.foldlM (fun (s : SAScore α) xk => s.insertNew xk.2 xk.1)
      (newSAScore cap (fun _ => dflt)) hist.zipIdx with
  | none => simp
  | some s => simp

theorem worstLoop_spec (heap : Nat → SAItem α) (items : List Nat) (m : α) (w : Nat) :
    (worstLoop heap items (m, w)).1 ≤ m ∧
    (∀ v ∈ items, (worstLoop heap items (m, w)).1 ≤ (heap v).score) ∧
    (worstLoop heap items (m, w) = (m, w) ∨
      ((worstLoop heap items (m, w)).2 ∈ items ∧
        (heap (worstLoop heap items (m, w)).2).score = (worstLoop heap items (m, w)).1)) := by
  induction items generalizing m w with
  | nil => simp [worstLoop]
  | cons v items ih =>
    have e : worstLoop heap (v :: items) (m, w) =
        worstLoop heap items (if (heap v).score < m then ((heap v).score, v) else (m, w)) := rfl
    rw [e]
    split
    · rename_i h
      obtain ⟨h1, h2, h3⟩ := ih (heap v).score v
      refine ⟨h1.trans h.le, ?_, ?_⟩
      · intro u hu
        rcases List.mem_cons.1 hu with rfl | hu
        · exact h1
        · exact h2 u hu
      · right
        rcases h3 with h3 | ⟨h3, h4⟩
        · rw [h3]; exact ⟨List.mem_cons_self, rfl⟩
        · exact ⟨List.mem_cons_of_mem _ h3, h4⟩
    · rename_i h
      obtain ⟨h1, h2, h3⟩ := ih m w
      refine ⟨h1, ?_, ?_⟩
      · intro u hu
        rcases List.mem_cons.1 hu with rfl | hu
        · exact h1.trans (not_lt.1 h)
        · exact h2 u hu
      · rcases h3 with h3 | ⟨h3, h4⟩
        · exact Or.inl h3
        · exact Or.inr ⟨List.mem_cons_of_mem _ h3, h4⟩

/-- Invariant after `n` insertions. -/
structure SAInv (cap : Int) (n : Nat) (s : SAScore α) : Prop where
  capEq : s.cap = cap
  noptr : n = 0 → s.best = none
  nodup : s.items.Nodup
  lt : ∀ v ∈ s.items, v < n
  len : (s.items.length : Int) ≤ max cap 1
  sel : (s.items.map (fun v => (s.heap v).selection)).Nodup
  empty : s.items = [] ↔ n = 0
  ptrs : 0 < n → ∃ b w, s.best = some b ∧ s.worst = some w ∧ b < n ∧ w ∈ s.items ∧
    (∀ v ∈ s.items, (s.heap w).score ≤ (s.heap v).score) ∧
    (∀ v ∈ s.items, (s.heap v).score ≤ (s.heap b).score) ∧
    (∃ v ∈ s.items, (s.heap v).score = (s.heap b).score)

/-- The possible effects of inserting the fresh item `x`. -/
inductive SAEffect (s : SAScore α) (k : Nat) (x : SAItem α) : SAScore α → Prop
  /-- a duplicate, or worse than everything in a full list -/
  | ignored (s' : SAScore α) (hi : s'.items = s.items) (hb : s'.best = s.best)
      (hw : s'.worst = s.worst) (hh : s'.heap = Function.update s.heap k x) (hc : s'.cap = s.cap)
      (h : (∃ e ∈ s.entries, e.selection = x.selection) ∨
        (s.cap ≤ s.items.length ∧ s.items ≠ [] ∧ ∀ e ∈ s.entries, x.score ≤ e.score)) :
      SAEffect s k x s'
  /-- appended -/
  | appended (s' : SAScore α) (hi : s'.items = s.items ++ [k]) (hc : s'.cap = s.cap)
      (hh : s'.heap = Function.update s.heap k x)
      (hnew : ∀ e ∈ s.entries, e.selection ≠ x.selection)
      (hroom : s.items = [] ∨ (s.items.length : Int) < s.cap) : SAEffect s k x s'
  /-- overwrites the worst item `w` -/
  | replaced (s' : SAScore α) (w : Nat) (hi : s'.items = s.items) (hc : s'.cap = s.cap)
      (hwm : w ∈ s.items)
      (hh : s'.heap = Function.update (Function.update s.heap k x) w
        ⟨x.selection, (s.heap w).coeff, x.score⟩)
      (hmin : ∀ v ∈ s.items, (s.heap w).score ≤ (s.heap v).score)
      (hlt : (s.heap w).score < x.score)
      (hnew : ∀ e ∈ s.entries, e.selection ≠ x.selection)
      (hfull : s.cap ≤ s.items.length) : SAEffect s k x s'

theorem exists_iff (s : SAScore α) (k : Nat) :
    s.exists k = true ↔ ∃ v ∈ s.items, (s.heap v).selection = (s.heap k).selection := by
  simp [SAScore.exists, equalInt_iff]

/-- One insertion keeps the invariant and has one of the effects. -/
theorem SAInv.insertNew {cap : Int} {n : Nat} {s : SAScore α} (hi : SAInv cap n s) (x : SAItem α) :
    ∃ s', s.insertNew n x = some s' ∧ SAInv cap (n + 1) s' ∧ SAEffect s n x s' ∧
      (∀ b b', s.best = some b → s'.best = some b' → (s.heap b).score ≤ (s'.heap b').score) ∧
      ((∀ e ∈ s.entries, e.selection ≠ x.selection) →
        ∀ b', s'.best = some b' → x.score ≤ (s'.heap b').score) := by
  have hne : ∀ v ∈ s.items, v ≠ n := fun v hv => (hi.lt v hv).ne
  have hup : ∀ v ∈ s.items, Function.update s.heap n x v = s.heap v :=
    fun v hv => Function.update_of_ne (hne v hv) _ _
  have hself : Function.update s.heap n x n = x := Function.update_self _ _ _
  have hmapsel : s.items.map (fun v => (Function.update s.heap n x v).selection) =
      s.items.map (fun v => (s.heap v).selection) :=
    List.map_congr_left fun v hv => by rw [hup v hv]
  -- case: duplicate
  by_cases hex : ∃ e ∈ s.entries, e.selection = x.selection
  · have hexi : ({ s with heap := Function.update s.heap n x } : SAScore α).exists n = true := by
      rw [exists_iff]
      obtain ⟨e, he, hs⟩ := hex
      obtain ⟨v, hv, rfl⟩ := List.mem_map.1 he
      exact ⟨v, hv, by simp only [hup v hv, hself]; exact hs⟩
    have hnpos : 0 < n := by
      rcases Nat.eq_zero_or_pos n with h0 | h0
      · obtain ⟨e, he, -⟩ := hex
        rw [SAScore.entries, hi.empty.2 h0] at he
        simp at he
      · exact h0
    obtain ⟨b, w, hb, hw, hbn, hwi, h1, h2, v, hv, h3⟩ := hi.ptrs hnpos
    have hbup : Function.update s.heap n x b = s.heap b := Function.update_of_ne hbn.ne _ _
    refine ⟨{ s with heap := Function.update s.heap n x }, ?_, ?_, ?_, ?_, ?_⟩
    · rw [SAScore.insertNew, SAScore.insert, if_pos hexi]
    · refine ⟨hi.capEq, by omega, hi.nodup, fun v hv => (hi.lt v hv).trans (Nat.lt_succ_self n), hi.len,
        by rw [hmapsel]; exact hi.sel, ?_, fun _ => ?_⟩
      · rw [hi.empty]; omega
      · refine ⟨b, w, hb, hw, by omega, hwi, ?_, ?_, v, hv, ?_⟩
        · intro u hu; simp only [hup u hu, hup w hwi]; exact h1 u hu
        · intro u hu; simp only [hup u hu, hbup]; exact h2 u hu
        · simp only [hup v hv, hbup]; exact h3
    · exact .ignored _ rfl rfl rfl rfl rfl (Or.inl hex)
    · intro b1 b2 e1 e2
      rw [hb] at e1
      simp only [hb] at e2
      cases e1; cases e2
      simp only [hbup]
      exact le_refl _
    · intro hc
      obtain ⟨e, he, hs⟩ := hex
      exact absurd hs (hc e he)
  · have hnew : ∀ e ∈ s.entries, e.selection ≠ x.selection :=
      fun e he hs => hex ⟨e, he, hs⟩
    have hexi : ¬ ({ s with heap := Function.update s.heap n x } : SAScore α).exists n = true := by
      rw [exists_iff]
      rintro ⟨v, hv, hs⟩
      simp only [hup v hv, hself] at hs
      exact hnew _ (List.mem_map.2 ⟨v, hv, rfl⟩) hs
    have hselapp : ((s.items ++ [n]).map
        (fun v => (Function.update s.heap n x v).selection)).Nodup := by
      rw [List.map_append, hmapsel]
      refine List.Nodup.append hi.sel (by simp) ?_
      intro a ha hb
      simp only [List.map_cons, List.map_nil, List.mem_singleton, hself] at hb
      obtain ⟨v, hv, hva⟩ := List.mem_map.1 ha
      exact hnew _ (List.mem_map.2 ⟨v, hv, rfl⟩) (hva.trans hb)
    have hnodapp : (s.items ++ [n]).Nodup :=
      List.Nodup.append hi.nodup (by simp) (by
        intro a ha hb
        rw [List.mem_singleton.1 hb] at ha
        exact hne n ha rfl)
    by_cases h0 : s.items = []
    · have hn0 := hi.empty.1 h0
      subst hn0
      refine ⟨⟨s.cap, s.items ++ [0], some 0, some 0, Function.update s.heap 0 x⟩, ?_, ?_, ?_, ?_, ?_⟩
      · rw [SAScore.insertNew, SAScore.insert, if_neg hexi, if_pos (by simp [h0])]
      · refine ⟨hi.capEq, by omega, hnodapp, ?_, ?_, hselapp, by simp, fun _ => ⟨0, 0, rfl, rfl, by omega, by simp,
          ?_, ?_, 0, by simp, rfl⟩⟩
        · simp [h0]
        · simp only [h0, List.nil_append, List.length_singleton, Nat.cast_one]
          exact le_max_right _ _
        · simp [h0]
        · simp [h0]
      · exact .appended _ rfl rfl rfl hnew (Or.inl h0)
      · intro b b' hb
        rw [hi.noptr rfl] at hb
        cases hb
      · intro _ b' hb'
        simp only [Option.some.injEq] at hb'
        subst hb'
        simp
    · have hnpos : 0 < n := Nat.pos_of_ne_zero fun h => h0 (hi.empty.2 h)
      obtain ⟨b, w, hb, hw, hbn, hwi, h1, h2, v, hv, h3⟩ := hi.ptrs hnpos
      have hbup : Function.update s.heap n x b = s.heap b := Function.update_of_ne hbn.ne _ _
      have hwup := hup w hwi
      have hlen0 : ¬ s.items.length = 0 := by simpa using h0
      by_cases hcap : (s.items.length : Int) < s.cap
      · refine ⟨⟨s.cap, s.items ++ [n],
          if (s.heap b).score < x.score then some n else some b,
          if x.score < (s.heap w).score then some n else some w,
          Function.update s.heap n x⟩, ?_, ?_, ?_, ?_, ?_⟩
        · rw [SAScore.insertNew, SAScore.insert, if_neg hexi, if_neg hlen0]
          simp only [hb, hw, if_pos hcap, hself, hbup, hwup]
        · refine ⟨hi.capEq, by omega, hnodapp, ?_, ?_, hselapp, by simp, fun _ => ?_⟩
          · intro u hu
            rcases List.mem_append.1 hu with hu | hu
            · exact (hi.lt u hu).trans (Nat.lt_succ_self n)
            · rw [List.mem_singleton.1 hu]; omega
          · simp only [List.length_append, List.length_singleton]
            refine le_trans ?_ (le_max_left _ _)
            rw [← hi.capEq]
            push_cast
            omega
          · have hmem : ∀ u, u ∈ s.items ++ [n] → u ∈ s.items ∨ u = n := by
              intro u hu; simpa using hu
            refine ⟨if (s.heap b).score < x.score then n else b,
              if x.score < (s.heap w).score then n else w, ?_, ?_, ?_, ?_, ?_, ?_, ?_⟩
            · simp only; split <;> rfl
            · simp only; split <;> rfl
            · split <;> omega
            · show _ ∈ s.items ++ [n]
              split
              · simp
              · exact List.mem_append_left _ hwi
            · intro u hu
              simp only
              split
              · rename_i hlt
                rw [hself]
                rcases hmem u hu with hu | rfl
                · rw [hup u hu]; exact hlt.le.trans (h1 u hu)
                · rw [hself]
              · rename_i hlt
                rw [hwup]
                rcases hmem u hu with hu | rfl
                · rw [hup u hu]; exact h1 u hu
                · rw [hself]; exact not_lt.1 hlt
            · intro u hu
              simp only
              split
              · rename_i hlt
                rw [hself]
                rcases hmem u hu with hu | rfl
                · rw [hup u hu]; exact (h2 u hu).trans hlt.le
                · rw [hself]
              · rename_i hlt
                rw [hbup]
                rcases hmem u hu with hu | rfl
                · rw [hup u hu]; exact h2 u hu
                · rw [hself]; exact not_lt.1 hlt
            · simp only
              split
              · exact ⟨n, by simp, rfl⟩
              · exact ⟨v, List.mem_append_left _ hv, by rw [hup v hv, hbup, h3]⟩
        · exact .appended _ rfl rfl rfl hnew (Or.inr hcap)
        · intro b1 b2 e1 e2
          rw [hb] at e1
          cases e1
          simp only at e2 ⊢
          split at e2
          · rename_i hlt; cases e2; rw [hself]; exact hlt.le
          · cases e2; rw [hbup]
        · intro _ b' hb'
          simp only at hb' ⊢
          split at hb'
          · cases hb'; rw [hself]
          · rename_i hlt; cases hb'; rw [hbup]; exact not_lt.1 hlt
      · by_cases hlt : (s.heap w).score < x.score
        · -- the worst item is overwritten
          have hwn : w ≠ n := hne w hwi
          set H := Function.update (Function.update s.heap n x) w
            ⟨x.selection, (s.heap w).coeff, x.score⟩ with hH
          have Hw : H w = ⟨x.selection, (s.heap w).coeff, x.score⟩ := Function.update_self _ _ _
          have Hn : H n = x := by rw [hH, Function.update_of_ne hwn.symm, hself]
          have Hv : ∀ u ∈ s.items, u ≠ w → H u = s.heap u := by
            intro u hu huw
            rw [hH, Function.update_of_ne huw, hup u hu]
          obtain ⟨l1, l2, l3⟩ := worstLoop_spec H s.items x.score w
          refine ⟨⟨s.cap, s.items, if (H b).score < x.score then some n else some b,
            some (worstLoop H s.items (x.score, w)).2, H⟩, ?_, ?_, ?_, ?_, ?_⟩
          · rw [SAScore.insertNew, SAScore.insert, if_neg hexi, if_neg hlen0]
            simp only [hb, hw, if_neg hcap, hself, hwup, if_pos hlt]
            rw [← hH, Hn]
          · have hb1 : ∀ u ∈ s.items, (H u).score ≤ max x.score (s.heap b).score := by
              intro u hu
              by_cases huw : u = w
              · rw [huw, Hw]; exact le_max_left _ _
              · rw [Hv u hu huw]; exact (h2 u hu).trans (le_max_right _ _)
            have hHb : (H b).score = if b = w then x.score else (s.heap b).score := by
              split
              · rename_i h; rw [h, Hw]
              · rename_i h; rw [hH, Function.update_of_ne h, hbup]
            refine ⟨hi.capEq, by omega, hi.nodup, fun u hu => (hi.lt u hu).trans (Nat.lt_succ_self n),
              hi.len, ?_, ?_, fun _ => ?_⟩
            · rw [List.nodup_map_iff_inj_on hi.nodup]
              intro u hu u' hu' he
              have inj := (List.nodup_map_iff_inj_on hi.nodup).1 hi.sel
              simp only at he
              by_cases huw : u = w <;> by_cases huw' : u' = w
              · rw [huw, huw']
              · rw [huw, Hw, Hv u' hu' huw'] at he
                exact absurd he.symm (hnew _ (List.mem_map.2 ⟨u', hu', rfl⟩))
              · rw [huw', Hw, Hv u hu huw] at he
                exact absurd he (hnew _ (List.mem_map.2 ⟨u, hu, rfl⟩))
              · rw [Hv u hu huw, Hv u' hu' huw'] at he
                exact inj u hu u' hu' he
            · constructor
              · intro h; exact absurd h h0
              · intro h; omega
            · refine ⟨if (H b).score < x.score then n else b, _, ?_, rfl, ?_, ?_, ?_, ?_, ?_⟩
              · simp only; split <;> rfl
              · split <;> omega
              · rcases l3 with l3 | ⟨l3, -⟩
                · rw [l3]; exact hwi
                · exact l3
              · intro u hu
                have e : (H (worstLoop H s.items (x.score, w)).2).score =
                    (worstLoop H s.items (x.score, w)).1 := by
                  rcases l3 with l3 | ⟨-, l3⟩
                  · rw [l3]; simp only [Hw]
                  · exact l3
                simp only [e]
                exact l2 u hu
              · intro u hu
                simp only
                split
                · rename_i hc
                  rw [Hn]
                  refine (hb1 u hu).trans (max_le (le_refl _) ?_)
                  rw [hHb] at hc
                  split at hc
                  · exact absurd hc (lt_irrefl _)
                  · exact hc.le
                · rename_i hc
                  refine (hb1 u hu).trans (max_le (not_lt.1 hc) ?_)
                  rw [hHb]
                  split
                  · rename_i hbw; rw [hbw]; exact hlt.le
                  · exact le_refl _
              · simp only
                split
                · exact ⟨w, hwi, by rw [Hn, Hw]⟩
                · rename_i hc
                  by_cases hbw : b = w
                  · exact ⟨w, hwi, by rw [hbw]⟩
                  · rw [hHb, if_neg hbw] at hc ⊢
                    have hvw : v ≠ w := by
                      rintro rfl
                      rw [h3] at hlt
                      exact hc hlt
                    exact ⟨v, hv, by rw [Hv v hv hvw, h3]⟩
          · exact .replaced _ w rfl rfl hwi rfl h1 hlt hnew (not_lt.1 hcap)
          · intro b1 b2 e1 e2
            rw [hb] at e1
            cases e1
            have hHb : (s.heap b).score ≤ (H b).score := by
              by_cases hbw : b = w
              · rw [hbw, Hw]; exact hlt.le
              · rw [hH, Function.update_of_ne hbw, hbup]
            simp only at e2 ⊢
            split at e2
            · rename_i hc; cases e2; rw [Hn]; exact hHb.trans hc.le
            · cases e2; exact hHb
          · intro _ b' hb'
            simp only at hb' ⊢
            split at hb'
            · cases hb'; rw [Hn]
            · rename_i hc; cases hb'; exact not_lt.1 hc
        · refine ⟨{ s with heap := Function.update s.heap n x }, ?_, ?_, ?_, ?_, ?_⟩
          · rw [SAScore.insertNew, SAScore.insert, if_neg hexi, if_neg hlen0]
            simp only [hb, hw, if_neg hcap, hself, hwup, if_neg hlt]
          · refine ⟨hi.capEq, by omega, hi.nodup, fun v hv => (hi.lt v hv).trans (Nat.lt_succ_self n),
              hi.len, by rw [hmapsel]; exact hi.sel, ?_, fun _ => ?_⟩
            · rw [hi.empty]; omega
            · refine ⟨b, w, hb, hw, by omega, hwi, ?_, ?_, v, hv, ?_⟩
              · intro u hu; simp only [hup u hu, hup w hwi]; exact h1 u hu
              · intro u hu; simp only [hup u hu, hbup]; exact h2 u hu
              · simp only [hup v hv, hbup]; exact h3
          · refine .ignored _ rfl rfl rfl rfl rfl (Or.inr ⟨not_lt.1 hcap, h0, ?_⟩)
            intro e he
            obtain ⟨u, hu, rfl⟩ := List.mem_map.1 he
            exact (not_lt.1 hlt).trans (h1 u hu)
          · intro b1 b2 e1 e2
            rw [hb] at e1
            simp only [hb] at e2
            cases e1; cases e2
            simp only [hbup]
            exact le_refl _
          · intro _ b' hb'
            simp only [hb] at hb'
            cases hb'
            simp only [hbup]
            exact ((not_lt.1 hlt).trans (h1 v hv)).trans (h2 v hv)

theorem SAInv.init (cap : Int) (dflt : SAItem α) :
    SAInv cap 0 (newSAScore cap (fun _ => dflt)) :=
  ⟨rfl, fun _ => rfl, by simp [newSAScore], by simp [newSAScore],
    le_trans zero_le_one (le_max_right _ _), by simp [newSAScore], by simp [newSAScore], by simp⟩

/-- Insertions never panic and keep the invariant. -/
theorem saRun_inv (cap : Int) (dflt : SAItem α) (hist : List (SAItem α)) :
    ∃ s, saRun cap dflt hist = some s ∧ SAInv cap hist.length s := by
  induction hist using List.reverseRecOn with
  | nil => exact ⟨_, rfl, SAInv.init cap dflt⟩
  | append_singleton hist x ih =>
    obtain ⟨s, h, hi⟩ := ih
    obtain ⟨s', h1, h2, -⟩ := hi.insertNew x
    refine ⟨s', ?_, by simpa using h2⟩
    rw [saRun_snoc, h, Option.bind_some, h1]

theorem SAInv.of_run {cap : Int} {dflt : SAItem α} {hist : List (SAItem α)} {s : SAScore α}
    (h : saRun cap dflt hist = some s) : SAInv cap hist.length s := by
  obtain ⟨s', h1, h2⟩ := saRun_inv cap dflt hist
  rw [h, Option.some.injEq] at h1
  exact h1 ▸ h2

/-- Last insertion of a history. -/
theorem saRun_last {cap : Int} {dflt : SAItem α} {hist : List (SAItem α)} {x : SAItem α}
    {s' : SAScore α} (h : saRun cap dflt (hist ++ [x]) = some s') :
    ∃ s, saRun cap dflt hist = some s ∧ SAEffect s hist.length x s' ∧
      (∀ b b', s.best = some b → s'.best = some b' → (s.heap b).score ≤ (s'.heap b').score) ∧
      ((∀ e ∈ s.entries, e.selection ≠ x.selection) →
        ∀ b', s'.best = some b' → x.score ≤ (s'.heap b').score) := by
  obtain ⟨s, h1, h2⟩ := saRun_inv cap dflt hist
  obtain ⟨s'', h3, -, h5, h6, h7⟩ := h2.insertNew x
  rw [saRun_snoc, h1, Option.bind_some, h3, Option.some.injEq] at h
  subst h
  exact ⟨s, h1, h5, h6, h7⟩

end GoSelect
