import Verif.Props.C67_C68

/-! # C79: lines of the path plot. C80: entrance line. -/

namespace GoSelect

open Finset Spec

theorem maxFold_spec (l : List Int) (s : Int) :
    (∀ m, l.foldl (fun max v => if v > max then v else max) s ≤ m ↔ s ≤ m ∧ ∀ v ∈ l, v ≤ m) := by
  induction l generalizing s with
  | nil => simp
  | cons a l ih =>
    intro m
    rw [List.foldl_cons, ih]
    simp only [List.mem_cons, forall_eq_or_imp]
    split
    · constructor
      · rintro ⟨h1, h2⟩; exact ⟨by omega, h1, h2⟩
      · rintro ⟨h1, h2, h3⟩; exact ⟨h2, h3⟩
    · constructor
      · rintro ⟨h1, h2⟩; exact ⟨h1, by omega, h2⟩
      · rintro ⟨h1, h2, h3⟩; exact ⟨h1, h3⟩

theorem minFoldInt_spec (l : List Int) (s : Int) :
    (∀ m, m ≤ l.foldl (fun min v => if v < min then v else min) s ↔ m ≤ s ∧ ∀ v ∈ l, m ≤ v) := by
  induction l generalizing s with
  | nil => simp
  | cons a l ih =>
    intro m
    rw [List.foldl_cons, ih]
    simp only [List.mem_cons, forall_eq_or_imp]
    split
    · constructor
      · rintro ⟨h1, h2⟩; exact ⟨by omega, h1, h2⟩
      · rintro ⟨h1, h2, h3⟩; exact ⟨h2, h3⟩
    · constructor
      · rintro ⟨h1, h2⟩; exact ⟨h1, by omega, h2⟩
      · rintro ⟨h1, h2, h3⟩; exact ⟨h1, h3⟩

theorem maxMin_fold {K : Type} (nodes : List (LassoLarsNode K)) (st : Int × Int) (hst : -2147483648 ≤ st.2)
    (hst1 : st.1 ≤ 2147483647) :
    let r := nodes.foldl (fun st n =>
      let max := maxInt (n.selection.map Int.ofNat)
      let min := minInt (n.selection.map Int.ofNat)
      (if min < st.1 then min else st.1, if max > st.2 then max else st.2)) st
    (∀ m, r.2 ≤ m ↔ st.2 ≤ m ∧ ∀ v ∈ pathFeatures nodes, (v : Int) ≤ m) ∧
    (∀ m, m ≤ r.1 ↔ m ≤ st.1 ∧ ∀ v ∈ pathFeatures nodes, m ≤ (v : Int)) := by
  induction nodes generalizing st with
  | nil => simp [pathFeatures]
  | cons n nodes ih =>
    intro r
    have hmax := maxFold_spec (n.selection.map Int.ofNat) (-2147483648)
    have hmin := minFoldInt_spec (n.selection.map Int.ofNat) 2147483647
    change ∀ m, maxInt (n.selection.map Int.ofNat) ≤ m ↔ _ at hmax
    change ∀ m, m ≤ minInt (n.selection.map Int.ofNat) ↔ _ at hmin
    have hle1 : minInt (n.selection.map Int.ofNat) ≤ 2147483647 := ((hmin _).1 (le_refl _)).1
    have := ih (if minInt (n.selection.map Int.ofNat) < st.1 then minInt (n.selection.map Int.ofNat) else st.1,
      if maxInt (n.selection.map Int.ofNat) > st.2 then maxInt (n.selection.map Int.ofNat) else st.2)
      (by show _ ≤ ite _ _ _; split <;> omega) (by show ite _ _ _ ≤ _; split <;> omega)
    obtain ⟨h1, h2⟩ := this
    constructor
    · intro m
      refine (h1 m).trans ?_
      have e : (if maxInt (n.selection.map Int.ofNat) > st.2 then maxInt (n.selection.map Int.ofNat) else st.2) ≤ m ↔
          st.2 ≤ m ∧ ∀ v ∈ n.selection, (v : Int) ≤ m := by
        have := hmax m
        simp only [List.mem_map, forall_exists_index, and_imp, forall_apply_eq_imp_iff₂] at this
        split
        · rw [this]
          constructor
          · rintro ⟨h3, h4⟩; exact ⟨by have := (hmax m).2 ⟨h3, by simpa using h4⟩; omega, h4⟩
          · rintro ⟨h3, h4⟩; exact ⟨by omega, h4⟩
        · constructor
          · intro h3
            exact ⟨h3, (this.1 (by omega)).2⟩
          · exact fun h => h.1
      simp only [e]
      simp only [pathFeatures, List.flatMap_cons, List.mem_append]
      constructor
      · rintro ⟨⟨h3, h4⟩, h5⟩
        exact ⟨h3, fun v hv => hv.elim (h4 v) (h5 v)⟩
      · rintro ⟨h3, h4⟩
        exact ⟨⟨h3, fun v hv => h4 v (.inl hv)⟩, fun v hv => h4 v (.inr hv)⟩
    · intro m
      refine (h2 m).trans ?_
      have e : m ≤ (if minInt (n.selection.map Int.ofNat) < st.1 then minInt (n.selection.map Int.ofNat) else st.1) ↔
          m ≤ st.1 ∧ ∀ v ∈ n.selection, m ≤ (v : Int) := by
        have := hmin m
        simp only [List.mem_map, forall_exists_index, and_imp, forall_apply_eq_imp_iff₂] at this
        split
        · rw [this]
          constructor
          · rintro ⟨h3, h4⟩; exact ⟨by have := (hmin m).2 ⟨h3, by simpa using h4⟩; omega, h4⟩
          · rintro ⟨h3, h4⟩; exact ⟨by omega, h4⟩
        · constructor
          · intro h3
            exact ⟨h3, (this.1 (by omega)).2⟩
          · exact fun h => h.1
      simp only [e]
      simp only [pathFeatures, List.flatMap_cons, List.mem_append]
      constructor
      · rintro ⟨⟨h3, h4⟩, h5⟩
        exact ⟨h3, fun v hv => hv.elim (h4 v) (h5 v)⟩
      · rintro ⟨h3, h4⟩
        exact ⟨⟨h3, fun v hv => h4 v (.inl hv)⟩, fun v hv => h4 v (.inr hv)⟩

/-- `MaxMinFeatNo`: the largest feature, and the smallest one up to `math.MaxInt32`. -/
theorem maxMinFeatNo_spec {K : Type} (nodes : List (LassoLarsNode K)) :
    (∀ m, (maxMinFeatNo nodes).2 ≤ m ↔ 0 ≤ m ∧ ∀ v ∈ pathFeatures nodes, (v : Int) ≤ m) ∧
    (∀ m, m ≤ (maxMinFeatNo nodes).1 ↔ m ≤ 2147483647 ∧ ∀ v ∈ pathFeatures nodes, m ≤ (v : Int)) :=
  maxMin_fold nodes (2147483647, 0) (by decide) (by decide)

/-- C80: `MaxMinFeatNo` returns the smallest and the largest feature of the path. -/
theorem C80_range {K : Type} (nodes : List (LassoLarsNode K)) (hne : pathFeatures nodes ≠ [])
    (hb : ∀ v ∈ pathFeatures nodes, v ≤ 2147483647) :
    ∃ a ∈ pathFeatures nodes, ∃ b ∈ pathFeatures nodes, maxMinFeatNo nodes = ((a : Int), (b : Int)) ∧
      ∀ v ∈ pathFeatures nodes, a ≤ v ∧ v ≤ b := by
  obtain ⟨h1, h2⟩ := maxMinFeatNo_spec nodes
  obtain ⟨x, hx⟩ := List.exists_mem_of_ne_nil _ hne
  have hnn : 0 ≤ (maxMinFeatNo nodes).1 := (h2 0).2 ⟨by decide, fun v _ => by omega⟩
  have hle := (h2 _).1 (le_refl _)
  have hge := (h1 _).1 (le_refl _)
  have ha : (maxMinFeatNo nodes).1.toNat ∈ pathFeatures nodes := by
    by_contra hcon
    have := (h2 ((maxMinFeatNo nodes).1 + 1)).2 ⟨?_, ?_⟩
    · omega
    · have h3 := hle.2 x hx
      have h4 := hb x hx
      by_cases h5 : (maxMinFeatNo nodes).1 = 2147483647
      · exfalso
        have : x = (maxMinFeatNo nodes).1.toNat := by omega
        exact hcon (this ▸ hx)
      · omega
    · intro v hv
      have h3 := hle.2 v hv
      by_contra h4
      have : v = (maxMinFeatNo nodes).1.toNat := by omega
      exact hcon (this ▸ hv)
  have hb' : (maxMinFeatNo nodes).2.toNat ∈ pathFeatures nodes := by
    by_contra hcon
    have := (h1 ((maxMinFeatNo nodes).2 - 1)).2 ⟨?_, ?_⟩
    · omega
    · have h3 := hge.2 x hx
      by_contra h5
      have : x = (maxMinFeatNo nodes).2.toNat := by omega
      exact hcon (this ▸ hx)
    · intro v hv
      have h3 := hge.2 v hv
      by_contra h4
      have : v = (maxMinFeatNo nodes).2.toNat := by omega
      exact hcon (this ▸ hv)
  refine ⟨_, ha, _, hb', ?_, fun v hv => ?_⟩
  · have h0 := hge.1
    ext <;> simp <;> omega
  · have h3 := hle.2 v hv
    have h4 := hge.2 v hv
    omega

/-! ### C79 -/

/-- Full C79: every feature of the path has its line.  False: `C79_refuted`. -/
def Spec.EveryFeatureDrawn (K : Type) [Zero K] : Prop :=
  ∀ (log10 : K → K) (nodes : List (LassoLarsNode K)) (lines : List (Nat × List (K × K))) (a b : K),
    plotPath log10 nodes = some (lines, a, b) → ∀ v ∈ pathFeatures nodes, ∃ xy, (v, xy) ∈ lines

/-- C79: the lines are those of the features below the largest one, each with the coefficients of its feature, and
the zero line reaches from the last to the first node. -/
theorem C79_lines_partial {K β : Type} [Zero K] (log10 : K → β) (nodes : List (LassoLarsNode K))
    (hne : pathFeatures nodes ≠ []) (hb : ∀ v ∈ pathFeatures nodes, v ≤ 2147483647)
    (h : ∀ n ∈ nodes, n.selection.length ≤ n.coeff.length) :
    ∃ last ∈ pathFeatures nodes, (∀ v ∈ pathFeatures nodes, v ≤ last) ∧
      ∃ a b, nodes.getLast? = some a ∧ nodes.head? = some b ∧
      plotPath log10 nodes = some ((List.range last).map (fun f =>
        (f, nodes.map (fun n => (log10 n.lamb, coeffOf n f)))), log10 a.lamb, log10 b.lamb) := by
  obtain ⟨a, -, b, hb1, hmm, hbd⟩ := C80_range nodes hne hb
  have hnodes : nodes ≠ [] := by rintro rfl; exact hne rfl
  refine ⟨b, hb1, fun v hv => (hbd v hv).2, nodes.getLast hnodes, nodes.head hnodes,
    List.getLast?_eq_some_getLast hnodes, List.head?_eq_some_head hnodes, ?_⟩
  have e : (List.range (maxMinFeatNo nodes).2.toNat).mapM (fun featNo =>
      (extractPath log10 nodes featNo).map (fun xy => (featNo, xy))) =
      some ((List.range b).map (fun f => (f, nodes.map (fun n => (log10 n.lamb, coeffOf n f))))) := by
    rw [hmm]
    refine mapM_of_forall (fun f _ => ?_)
    rw [C68_extract log10 nodes f h]
    rfl
  unfold plotPath
  rw [e, List.getLast?_eq_some_getLast hnodes, List.head?_eq_some_head hnodes]
  rfl

/-- C79: the largest feature of a path never has a line. -/
theorem C79_last_missing {K β : Type} [Zero K] (log10 : K → β) (nodes : List (LassoLarsNode K))
    (lines : List (Nat × List (β × K))) (a b : β) (h : plotPath log10 nodes = some (lines, a, b)) (v : Nat)
    (hmax : ∀ w ∈ pathFeatures nodes, w ≤ v) (xy : List (β × K)) : (v, xy) ∉ lines := by
  intro hv
  unfold plotPath at h
  cases hm : (List.range (maxMinFeatNo nodes).2.toNat).mapM (fun featNo =>
      (extractPath log10 nodes featNo).map (fun xy => (featNo, xy))) with
  | none => rw [hm] at h; cases h
  | some l =>
    rw [hm] at h
    cases h1 : nodes.getLast? with
    | none => rw [h1] at h; cases h
    | some x =>
      cases h2 : nodes.head? with
      | none => rw [h1, h2] at h; cases h
      | some z =>
        rw [h1, h2] at h
        have hl : l = lines := by
          have := Option.some.inj h
          exact congrArg Prod.fst this
        subst hl
        obtain ⟨i, hi, e⟩ := List.mem_iff_getElem.1 hv
        have hlen := mapM_length hm
        have hi' : i < (List.range (maxMinFeatNo nodes).2.toNat).length := by omega
        have := mapM_getElem hm i hi'
        rw [e] at this
        obtain ⟨q, -, hq⟩ := Option.map_eq_some_iff.1 this
        have hiv : i = v := by
          have := congrArg Prod.fst hq
          simpa using this
        subst hiv
        have hle := ((maxMinFeatNo_spec nodes).1 i).2 ⟨by omega, fun w hw => by exact_mod_cast hmax w hw⟩
        rw [List.length_range] at hi'
        omega

theorem C79_refuted : ¬ Spec.EveryFeatureDrawn ℚ := by
  intro hall
  obtain ⟨xy, h⟩ := hall (fun x => x) [⟨[5], 1, [1]⟩] [(0, [(1, 0)])] 1 1 (by decide +kernel) 1 (by decide)
  simp at h

example : plotPath (fun x => x) ([⟨[5], 2, [1]⟩, ⟨[6, 7], 1, [0, 1]⟩] : List (LassoLarsNode ℚ)) =
    some ([(0, [(2, 0), (1, 6)])], 1, 2) := by decide +kernel

/-! ### C80 -/

section
variable {β : Type} [LinearOrder β]

/-- State of the entrance loop after the pairs `seen` of features and regularisations. -/
def EntranceInv (minFeat : Int) (lowest : β) (num : Nat) (seen : List (Nat × β)) (st : List β × List Bool) : Prop :=
  st.1.length = num ∧ st.2.length = num ∧ ∀ i, i < num →
    (st.2.getD i false = false ∧ st.1.getD i lowest = lowest ∧ ∀ p ∈ seen, (p.1 : Int) ≠ i + minFeat) ∨
    (st.2.getD i false = true ∧ (∃ p ∈ seen, (p.1 : Int) = i + minFeat ∧ p.2 = st.1.getD i lowest) ∧
      ∀ p ∈ seen, (p.1 : Int) = i + minFeat → p.2 ≤ st.1.getD i lowest)

theorem entranceStep_inv {minFeat : Int} {lowest : β} {num : Nat} {seen : List (Nat × β)}
    {st : List β × List Bool} (h : EntranceInv minFeat lowest num seen st) (feat : Nat) (l : β)
    (hl : lowest < l) (h1 : minFeat ≤ feat) (h2 : (feat : Int) < minFeat + num) :
    ∃ st', entranceStep minFeat l st feat = some st' ∧
      EntranceInv minFeat lowest num (seen ++ [(feat, l)]) st' := by
  obtain ⟨ha, hb, hc⟩ := h
  obtain ⟨k, hk⟩ : ∃ k : Nat, (feat : Int) = k + minFeat := ⟨((feat : Int) - minFeat).toNat, by omega⟩
  have hkn : k < num := by omega
  have hidx : ((feat : Int) - minFeat).toNat = k := by omega
  have hget : st.1[k]? = some (st.1.getD k lowest) := by
    rw [List.getD_eq_getElem?_getD, List.getElem?_eq_getElem (by omega)]
    rfl
  unfold entranceStep
  rw [hidx, hget]
  simp only
  by_cases hlt : l > st.1.getD k lowest
  · rw [if_pos hlt]
    refine ⟨_, rfl, by simpa using ha, by simpa using hb, fun i hi => ?_⟩
    by_cases hik : i = k
    · subst hik
      right
      have e1 : (st.1.set i l).getD i lowest = l := by
        rw [List.getD_eq_getElem?_getD, List.getElem?_set_self (by omega)]; rfl
      have e2 : (st.2.set i true).getD i false = true := by
        rw [List.getD_eq_getElem?_getD, List.getElem?_set_self (by omega)]; rfl
      refine ⟨e2, ⟨(feat, l), by simp, hk, e1.symm⟩, fun p hp hpi => ?_⟩
      show p.2 ≤ (st.1.set i l).getD i lowest
      rw [e1]
      rcases List.mem_append.1 hp with hp | hp
      · rcases hc i hi with ⟨-, -, h3⟩ | ⟨-, -, h3⟩
        · exact absurd hpi (h3 p hp)
        · exact (h3 p hp hpi).trans hlt.le
      · rw [List.mem_singleton] at hp
        rw [hp]
    · have e1 : (st.1.set k l).getD i lowest = st.1.getD i lowest := by
        rw [List.getD_eq_getElem?_getD, List.getElem?_set_ne (Ne.symm hik), List.getD_eq_getElem?_getD]
      have e2 : (st.2.set k true).getD i false = st.2.getD i false := by
        rw [List.getD_eq_getElem?_getD, List.getElem?_set_ne (Ne.symm hik), List.getD_eq_getElem?_getD]
      simp only [e1, e2]
      rcases hc i hi with ⟨h3, h4, h5⟩ | ⟨h3, ⟨p, hp, hp2⟩, h5⟩
      · refine .inl ⟨h3, h4, fun p hp => ?_⟩
        rcases List.mem_append.1 hp with hp | hp
        · exact h5 p hp
        · rw [List.mem_singleton] at hp
          subst hp
          simp only
          omega
      · refine .inr ⟨h3, ⟨p, by simp [hp], hp2⟩, fun q hq hqi => ?_⟩
        rcases List.mem_append.1 hq with hq | hq
        · exact h5 q hq hqi
        · rw [List.mem_singleton] at hq
          subst hq
          simp only at hqi
          omega
  · rw [if_neg hlt]
    refine ⟨st, rfl, ha, hb, fun i hi => ?_⟩
    by_cases hik : i = k
    · subst hik
      rcases hc i hi with ⟨h3, h4, h5⟩ | ⟨h3, ⟨p, hp, hp2⟩, h5⟩
      · exact absurd (by rw [h4]; exact hl) hlt
      · refine .inr ⟨h3, ⟨p, by simp [hp], hp2⟩, fun q hq hqi => ?_⟩
        rcases List.mem_append.1 hq with hq | hq
        · exact h5 q hq hqi
        · rw [List.mem_singleton] at hq
          subst hq
          exact not_lt.1 hlt
    · rcases hc i hi with ⟨h3, h4, h5⟩ | ⟨h3, ⟨p, hp, hp2⟩, h5⟩
      · refine .inl ⟨h3, h4, fun p hp => ?_⟩
        rcases List.mem_append.1 hp with hp | hp
        · exact h5 p hp
        · rw [List.mem_singleton] at hp
          subst hp
          simp only
          omega
      · refine .inr ⟨h3, ⟨p, by simp [hp], hp2⟩, fun q hq hqi => ?_⟩
        rcases List.mem_append.1 hq with hq | hq
        · exact h5 q hq hqi
        · rw [List.mem_singleton] at hq
          subst hq
          simp only at hqi
          omega

theorem entranceNode_inv {minFeat : Int} {lowest : β} {num : Nat} (sel : List Nat) {seen : List (Nat × β)}
    {st : List β × List Bool} (h : EntranceInv minFeat lowest num seen st) (l : β)
    (hl : lowest < l) (hr : ∀ f ∈ sel, minFeat ≤ (f : Int) ∧ (f : Int) < minFeat + num) :
    ∃ st', sel.foldlM (entranceStep minFeat l) st = some st' ∧
      EntranceInv minFeat lowest num (seen ++ sel.map (fun f => (f, l))) st' := by
  induction sel generalizing seen st with
  | nil => exact ⟨st, rfl, by simpa using h⟩
  | cons f sel ih =>
    obtain ⟨st1, e1, h1⟩ := entranceStep_inv h f l hl (hr f (by simp)).1 (hr f (by simp)).2
    obtain ⟨st2, e2, h2⟩ := ih h1 (fun g hg => hr g (by simp [hg]))
    refine ⟨st2, ?_, by simpa using h2⟩
    rw [List.foldlM_cons, e1]
    exact e2

/-- The pairs of a selected feature and the regularisation of the node. -/
def Spec.entrances {K : Type} (log10 : K → β) (nodes : List (LassoLarsNode K)) : List (Nat × β) :=
  nodes.flatMap (fun n => n.selection.map (fun f => (f, log10 n.lamb)))

theorem entranceLoop_inv {K : Type} {minFeat : Int} {lowest : β} {num : Nat} (log10 : K → β)
    (nodes : List (LassoLarsNode K)) {seen : List (Nat × β)}
    {st : List β × List Bool} (h : EntranceInv minFeat lowest num seen st)
    (hl : ∀ n ∈ nodes, lowest < log10 n.lamb)
    (hr : ∀ f ∈ pathFeatures nodes, minFeat ≤ (f : Int) ∧ (f : Int) < minFeat + num) :
    ∃ st', nodes.foldlM (fun st n => n.selection.foldlM (entranceStep minFeat (log10 n.lamb)) st) st = some st' ∧
      EntranceInv minFeat lowest num (seen ++ entrances log10 nodes) st' := by
  induction nodes generalizing seen st with
  | nil => exact ⟨st, rfl, by simpa [entrances] using h⟩
  | cons n nodes ih =>
    have hr' : ∀ f, (f ∈ n.selection ∨ f ∈ pathFeatures nodes) → minFeat ≤ (f : Int) ∧ (f : Int) < minFeat + num :=
      fun f hf => hr f (by simpa [pathFeatures] using hf)
    obtain ⟨st1, e1, h1⟩ := entranceNode_inv n.selection h (log10 n.lamb) (hl n (by simp))
      (fun f hf => hr' f (.inl hf))
    obtain ⟨st2, e2, h2⟩ := ih h1 (fun m hm => hl m (by simp [hm])) (fun f hf => hr' f (.inr hf))
    refine ⟨st2, ?_, by simpa [entrances] using h2⟩
    rw [List.foldlM_cons, e1]
    exact e2

/-- C80: the line of `PlotEntranceTimes` has exactly one point for every feature of the path, at the largest
regularisation where the feature is selected, in ascending order of the features. -/
theorem C80_entrances {K : Type} (log10 : K → β) (lowest : β) (nodes : List (LassoLarsNode K))
    (hne : pathFeatures nodes ≠ []) (hb : ∀ v ∈ pathFeatures nodes, v ≤ 2147483647)
    (hl : ∀ n ∈ nodes, lowest < log10 n.lamb) :
    ∃ pts, firstEntrances log10 lowest nodes = some pts ∧
      pts.Pairwise (fun p q => p.1 < q.1) ∧
      (∀ v : Nat, (v : Int) ∈ pts.map (·.1) ↔ v ∈ pathFeatures nodes) ∧
      ∀ p ∈ pts, ∃ v : Nat, p.1 = v ∧ (v, p.2) ∈ entrances log10 nodes ∧
        ∀ q ∈ entrances log10 nodes, q.1 = v → q.2 ≤ p.2 := by
  obtain ⟨a, ha, b, hb1, hmm, hbd⟩ := C80_range nodes hne hb
  have hab := (hbd a ha).2
  obtain ⟨st, e, h1, h2, h3⟩ := entranceLoop_inv (minFeat := (a : Int)) (lowest := lowest) (num := b - a + 1)
    (seen := []) (st := (List.replicate (b - a + 1) lowest, List.replicate (b - a + 1) false)) log10 nodes
    ⟨by simp, by simp, fun i hi => .inl ⟨by simp [List.getD_eq_getElem?_getD, hi],
      by simp [List.getD_eq_getElem?_getD, hi], by simp⟩⟩
    hl (fun f hf => by have := hbd f hf; omega)
  rw [List.nil_append] at h3
  have hnum : ((b : Int) - a + 1).toNat = b - a + 1 := by omega
  have hpts : firstEntrances log10 lowest nodes = some ((List.range (b - a + 1)).filterMap (fun i =>
      if st.2.getD i false then some ((i : Int) + a, st.1.getD i lowest) else none)) := by
    unfold firstEntrances
    rw [hmm]
    simp only
    rw [if_neg (by omega), hnum, e]
  have hmem : ∀ p : Int × β, (p ∈ (List.range (b - a + 1)).filterMap (fun i =>
      if st.2.getD i false then some ((i : Int) + a, st.1.getD i lowest) else none)) ↔
      ∃ i, i < b - a + 1 ∧ st.2.getD i false = true ∧ p = ((i : Int) + a, st.1.getD i lowest) := by
    intro p
    rw [List.mem_filterMap]
    constructor
    · rintro ⟨i, hi, hp⟩
      rw [List.mem_range] at hi
      split at hp
      · rename_i hf
        exact ⟨i, hi, hf, (Option.some.inj hp).symm⟩
      · cases hp
    · rintro ⟨i, hi, hf, rfl⟩
      exact ⟨i, List.mem_range.2 hi, by rw [if_pos hf]⟩
  have hent : ∀ v, v ∈ pathFeatures nodes ↔ ∃ q ∈ entrances log10 nodes, q.1 = v := by
    intro v
    unfold pathFeatures entrances
    simp only [List.mem_flatMap, List.mem_map]
    constructor
    · rintro ⟨n, hn, hv⟩
      exact ⟨(v, log10 n.lamb), ⟨n, hn, v, hv, rfl⟩, rfl⟩
    · rintro ⟨q, ⟨n, hn, w, hw, rfl⟩, rfl⟩
      exact ⟨n, hn, hw⟩
  refine ⟨_, hpts, ?_, fun v => ?_, fun p hp => ?_⟩
  · rw [List.pairwise_filterMap]
    refine List.pairwise_lt_range.imp (fun {i j} hij p hp q hq => ?_)
    split at hp
    · split at hq
      · rw [Option.some.injEq] at hp hq
        rw [← hp, ← hq]
        simp only
        omega
      · cases hq
    · cases hp
  · rw [List.mem_map]
    constructor
    · rintro ⟨p, hp, hpv⟩
      obtain ⟨i, hi, hf, rfl⟩ := (hmem p).1 hp
      rcases h3 i hi with ⟨h4, -, -⟩ | ⟨-, ⟨q, hq, hqi, -⟩, -⟩
      · rw [h4] at hf; cases hf
      · refine (hent v).2 ⟨q, hq, ?_⟩
        simp only at hpv
        omega
    · intro hv
      have hr := hbd v hv
      obtain ⟨q, hq, hqv⟩ := (hent v).1 hv
      refine ⟨(((v - a : Nat) : Int) + a, st.1.getD (v - a) lowest), (hmem _).2 ⟨v - a, by omega, ?_, rfl⟩, ?_⟩
      · rcases h3 (v - a) (by omega) with ⟨-, -, h4⟩ | ⟨h4, -, -⟩
        · exact absurd (by omega) (h4 q hq)
        · exact h4
      · simp only
        omega
  · obtain ⟨i, hi, hf, rfl⟩ := (hmem p).1 hp
    rcases h3 i hi with ⟨h4, -, -⟩ | ⟨-, ⟨q, hq, hqi, hq2⟩, h5⟩
    · rw [h4] at hf; cases hf
    · refine ⟨q.1, hqi.symm, ?_, fun r hr hrq => ?_⟩
      · simp only
        rw [← hq2]
        exact hq
      · exact h5 r hr (by omega)

end

/-- C80: a path without features panics. -/
theorem C80_panic {K β : Type} [LT β] [DecidableLT β] (log10 : K → β) (lowest : β)
    (nodes : List (LassoLarsNode K)) (h : pathFeatures nodes = []) : firstEntrances log10 lowest nodes = none := by
  obtain ⟨h1, h2⟩ := maxMinFeatNo_spec nodes
  rw [h] at h1 h2
  have e1 := (h1 0).2 ⟨le_refl _, by simp⟩
  have e2 := (h2 2147483647).2 ⟨le_refl _, by simp⟩
  unfold firstEntrances
  rw [if_pos (by omega)]

example : firstEntrances (fun x => x) (-100)
    ([⟨[5], 2, [4]⟩, ⟨[6, 7], 3, [1, 4]⟩, ⟨[6, 7], 1, [1, 5]⟩] : List (LassoLarsNode ℚ)) =
    some [(1, 3), (4, 3), (5, 1)] := by decide +kernel

end GoSelect
