import Verif.Proofs.LarsPath

/-! C83: the LARS path solves the lasso problem. -/

namespace GoSelect

open Finset Spec

section
variable {K : Type} [Field K] [LinearOrder K]

/-- The states that the loop of `LassoLars` reaches. -/
inductive LarsReach (X : Mat K) (y : Nat → K) (tol lambMin : K)
    (est : Nat → List Nat → List K → Option (List K × List K)) : LarsState K → Prop
  | init {s : LarsState K} (h : larsInit X y = some s) : LarsReach X y tol lambMin est s
  | step {s s' : LarsState K} (h : LarsReach X y tol lambMin est s) (hb : larsBody X y tol lambMin est s = .next s') :
      LarsReach X y tol lambMin est s'

variable [IsStrictOrderedRing K]

theorem larsEq_signs {X : Mat K} {y : Nat → K} {E : List Nat} {sgn : Nat → K} {c d : List K} (hn : E.Nodup)
    (hr : ∀ i ∈ E, i < X.nc) (h : SolvesNormal X y E (E.map sgn) c d) :
    LarsEq X y E sgn (spread E c) (spread E d) := by
  have := larsEq_of_solves hn hr h
  exact ⟨this.suppC, this.suppD, this.eqC, fun i hi => by rw [this.eqD i hi, spread_signs sgn hi]⟩

theorem joinFeatSign_eq {X : Mat K} {y : Nat → K} {E : List Nat} (hn : E.Nodup) (hr : ∀ i ∈ E, i < X.nc) (j : Nat)
    (v : List K) : joinFeatSign X y j E v = if correlation X y (spread E v) j > 0 then 1 else -1 := by
  unfold joinFeatSign correlation Spec.residual
  simp only [larsFit_eq hn hr]

/-- An iteration from a good state. -/
theorem lars_move {X : Mat K} {y : Nat → K} {tol : K} {s : LarsState K} {E : List Nat} {c d jts : List K}
    (hn : E.Nodup) (hr : ∀ i ∈ E, i < X.nc) (htol : 0 < tol) (htol' : tol < 10) (hl : 0 < s.lamb) (hne : E ≠ [])
    (hsgn : ∀ i ∈ E, s.allSigns i = 1 ∨ s.allSigns i = -1) (hsol : SolvesNormal X y E (E.map s.allSigns) c d)
    (hreg : LarsRegular X y tol s.lamb E (spread E c) (spread E d))
    (hg : LarsGood X y s.lamb E s.allSigns s.last (spread E c) (spread E d))
    (hj : tJoin X y tol s.lamb E c d s.last = some jts) :
    ∃ s', larsMove X y s E c d (maxJoinTime jts E) (maxTime (tCross tol s.lamb c d)) = .next s' ∧
      0 ≤ s'.lamb ∧ s'.lamb < s.lamb ∧ s'.res = s.res ++ [⟨betaLARS c d s.lamb, s.lamb, E⟩] ∧
      (∀ i ∈ s'.activeSet, s'.allSigns i = 1 ∨ s'.allSigns i = -1) ∧
      (∀ m, 0 ≤ m → s'.lamb ≤ m → m ≤ s.lamb → IsLassoMin X y m (fun i => spread E c i - m * spread E d i)) ∧
      (0 < s'.lamb → ∀ E' C' D', (∀ i, i ∈ E' ↔ i ∈ s'.activeSet) → Independent X E' →
        LarsEq X y E' s'.allSigns C' D' → LarsGood X y s'.lamb E' s'.allSigns s'.last C' D' ∧
          ∀ i, C' i - s'.lamb * D' i = spread E c i - s'.lamb * spread E d i) := by
  have heq := larsEq_signs hn hr hsol
  obtain ⟨ht, hlt, hev⟩ := lars_times hn hr htol htol' hl hsol.lenC hreg hg hj
  have hlen : jts.length = X.nc := by simpa using mapM_length hj
  obtain ⟨j0, j1, -⟩ := maxJoinTime_spec jts E
  obtain ⟨c0, c1, -⟩ := maxTime_spec (tCross tol s.lamb c d)
  have hctk : (maxTime (tCross tol s.lamb c d)).2 < E.length := by
    rw [← hsol.lenC]
    apply cross_index
    intro h
    exact hne (List.eq_nil_of_length_eq_zero (by rw [← hsol.lenC, h]; rfl))
  generalize hjt : maxJoinTime jts E = jt at *
  generalize hct : maxTime (tCross tol s.lamb c d) = ct at *
  have hbetween : ∀ m, 0 ≤ m → max jt.1 ct.1 ≤ m → m ≤ s.lamb →
      IsLassoMin X y m (fun i => spread E c i - m * spread E d i) :=
    fun m h0 h1 h2 => lars_between hsgn heq hg ht hl h0 h1 h2
  unfold larsMove
  simp only
  by_cases hcase : jt.1 > ct.1
  · have hmax : max jt.1 ct.1 = jt.1 := max_eq_left (le_of_lt hcase)
    rw [hmax] at ht hlt hbetween
    rw [if_pos hcase, if_neg (not_lt.2 (le_of_lt hlt))]
    have hpos : 0 < jt.1 := lt_of_le_of_lt c0 hcase
    obtain ⟨hjE, hjget⟩ := j1 hpos
    have hjn : jt.2 < X.nc := by rw [← hlen]; exact (List.getElem?_eq_some_iff.1 hjget).1
    have htj : jts.getD jt.2 0 = jt.1 := by rw [List.getD_eq_getElem?_getD, hjget]; rfl
    have hevj : LarsEvent X y E (spread E c) (spread E d) jt.2 jt.1 := by
      have := (hev jt.2 hjn hjE).2
      rwa [htj] at this
    have hcorr : |correlation X y (fun i => spread E c i - jt.1 * spread E d i) jt.2| = jt.1 := by
      rcases hevj.2 with ⟨-, h⟩ | ⟨h, -⟩
      · exact h
      · exact absurd h hjE
    have hsgnj : joinFeatSign X y jt.2 E (betaLARS c d jt.1) =
        if correlation X y (fun i => spread E c i - jt.1 * spread E d i) jt.2 > 0 then 1 else -1 := by
      rw [joinFeatSign_eq hn hr, corr_congr (spread_beta hsol.lenC jt.1)]
    have hcj : correlation X y (fun i => spread E c i - jt.1 * spread E d i) jt.2 =
        joinFeatSign X y jt.2 E (betaLARS c d jt.1) * jt.1 := by
      rw [hsgnj]
      split
      · rename_i h
        rw [abs_of_pos h] at hcorr
        rw [hcorr, one_mul]
      · rename_i h
        rw [abs_of_nonpos (not_lt.1 h)] at hcorr
        linarith
    refine ⟨_, rfl, j0, hlt, rfl, ?_, hbetween, fun _ E' C' D' hmem hind heq' => ?_⟩
    · intro i hi
      simp only
      split
      · unfold joinFeatSign; split <;> simp
      · rename_i hij
        rcases List.mem_append.1 hi with hi | hi
        · exact hsgn i hi
        · exact absurd (List.mem_singleton.1 hi) hij
    · have hE' : ∀ i, i ∈ E' ↔ i ∈ E ∨ i = jt.2 := by
        intro i
        rw [hmem]
        simp
      simp only at heq' ⊢
      have hs' : ∀ i ∈ E, (if i = jt.2 then joinFeatSign X y jt.2 E (betaLARS c d jt.1) else s.allSigns i) =
          s.allSigns i := by
        intro i hi
        exact if_neg (fun h : i = jt.2 => hjE (h ▸ hi))
      refine ⟨join_good hsgn heq hg ht hpos hlt hjn hjE htj ?_ ?_ hE' hind hs' ?_ ?_ heq',
        join_cont heq hE' hind hs' ?_ heq'⟩
      · intro i hi hiE hij
        refine lt_of_le_of_ne (ht.join i hi hiE).2.1 (fun he => hij ?_)
        have h1 := (hev i hi hiE).2
        rw [he] at h1
        exact hreg.ties i jt.2 jt.1 hpos hlt h1 hevj
      · intro i hi hd he
        have : i = jt.2 := hreg.ties i jt.2 jt.1 hpos hlt
          ⟨hr i hi, .inr ⟨hi, hd, by rw [← he, div_mul_cancel₀ _ hd]⟩⟩ hevj
        exact hjE (this ▸ hi)
      · simp only [if_true]
        unfold joinFeatSign
        split <;> simp
      · simp only [if_true]
        exact hcj
      · simp only [if_true]
        exact hcj
  · have hmax : max jt.1 ct.1 = ct.1 := max_eq_right (not_lt.1 hcase)
    rw [hmax] at ht hlt hbetween
    rw [if_neg hcase, if_neg (not_lt.2 (le_of_lt hlt))]
    have hperm := dropped_sub hctk
    refine ⟨_, rfl, c0, hlt, rfl, ?_, hbetween, fun hpos E' C' D' hmem hind heq' => ?_⟩
    · intro i hi
      exact hsgn i ((List.eraseIdx_sublist _ _).subset (hperm.mem_iff.1 hi))
    · simp only at hpos heq' ⊢
      have hcross : ∃ h : ct.2 < E.length, d.getD ct.2 0 ≠ 0 ∧ ct.1 = c.getD ct.2 0 / d.getD ct.2 0 := by
        refine ⟨hctk, ?_⟩
        rcases c1 with ⟨h, -⟩ | ⟨-, h⟩
        · exact absurd h (ne_of_gt hpos)
        · unfold tCross at h
          rw [List.getElem?_map, Option.map_eq_some_iff] at h
          obtain ⟨a, ha, h2⟩ := h
          have ha2 : a = ct.2 := by
            rw [List.getElem?_range (by rw [hsol.lenC]; exact hctk)] at ha
            simpa using ha.symm
          subst ha2
          rcases crossTime_some h2 with h3 | ⟨h3, h4, -⟩
          · exact absurd h3 (ne_of_gt hpos)
          · exact ⟨h3, h4⟩
      obtain ⟨-, hd0, hcd⟩ := hcross
      have hjget : E.getD ct.2 0 = E[ct.2] := by
        rw [List.getD_eq_getElem?_getD, List.getElem?_eq_getElem hctk]; rfl
      have hjE : E.getD ct.2 0 ∈ E := by rw [hjget]; exact List.getElem_mem hctk
      have hidx : E.idxOf (E.getD ct.2 0) = ct.2 := by rw [hjget]; exact hn.idxOf_getElem _ hctk
      have hC : spread E c (E.getD ct.2 0) = c.getD ct.2 0 := by unfold spread; rw [if_pos hjE, hidx]
      have hD : spread E d (E.getD ct.2 0) = d.getD ct.2 0 := by unfold spread; rw [if_pos hjE, hidx]
      have hb : (betaLARS c d s.lamb).getD ct.2 0 =
          spread E c (E.getD ct.2 0) - s.lamb * spread E d (E.getD ct.2 0) := by
        rw [hC, hD]
        unfold betaLARS
        rw [getD_map_range, if_pos (by rw [hsol.lenC]; exact hctk)]
      rw [hb]
      generalize E.getD ct.2 0 = j at *
      have hE' : ∀ i, i ∈ E' ↔ i ∈ E ∧ i ≠ j := by
        intro i
        rw [hmem]
        simp only
        rw [hperm.mem_iff, List.mem_eraseIdx_iff_getElem]
        constructor
        · rintro ⟨k, hk, hne', rfl⟩
          refine ⟨List.getElem_mem hk, fun h => hne' ?_⟩
          rw [hjget] at h
          exact (hn.getElem_inj_iff).1 h
        · rintro ⟨h1, h2⟩
          obtain ⟨k, hk, rfl⟩ := List.getElem_of_mem h1
          refine ⟨k, hk, fun h => h2 ?_, rfl⟩
          subst h
          exact hjget.symm
      have hdj : spread E d j ≠ 0 := by rw [hD]; exact hd0
      have hq : spread E c j / spread E d j = ct.1 := by rw [hC, hD, hcd]
      have hevj : LarsEvent X y E (spread E c) (spread E d) j ct.1 :=
        ⟨hr j hjE, .inr ⟨hjE, hdj, by rw [← hq, div_mul_cancel₀ _ hdj]⟩⟩
      refine ⟨cross_good hsgn heq hg ht hpos hlt (hr j hjE) hjE hdj hq ?_ ?_ hE' hreg.indep heq',
        cross_cont heq hdj hq hE' hreg.indep heq'⟩
      · intro i hi hiE
        refine lt_of_le_of_ne (ht.join i hi hiE).2.1 (fun he => hiE ?_)
        have h1 := (hev i hi hiE).2
        rw [he] at h1
        rw [hreg.ties i j ct.1 hpos hlt h1 hevj]
        exact hjE
      · intro i hi hij hd he
        exact hij (hreg.ties i j ct.1 hpos hlt
          ⟨hr i hi, .inr ⟨hi, hd, by rw [← he, div_mul_cancel₀ _ hd]⟩⟩ hevj)

/-- The largest correlation is attained once. -/
def Spec.UniqueMax (X : Mat K) (y : Nat → K) : Prop :=
  ∀ i < X.nc, ∀ j < X.nc, i ≠ j → |larsXy X y i| = |larsXy X y j| → ∃ k < X.nc, |larsXy X y i| < |larsXy X y k|

/-- The first state is good. -/
theorem init_good {X : Mat K} {y : Nat → K} {s : LarsState K} (h : larsInit X y = some s) (hu : Spec.UniqueMax X y)
    (hl : 0 < s.lamb) {E : List Nat} (hmem : ∀ i, i ∈ E ↔ i ∈ s.activeSet) {C D : Nat → K}
    (heq : LarsEq X y E s.allSigns C D) :
    LarsGood X y s.lamb E s.allSigns s.last C D := by
  unfold larsInit at h
  split at h
  · cases h
  · simp only [Option.some.injEq] at h
    obtain ⟨m0, m1, m2⟩ := maxTime_spec ((List.range X.nc).map (fun i => some |larsXy X y i|))
    generalize maxTime ((List.range X.nc).map (fun i => some |larsXy X y i|)) = m at *
    subst h
    simp only at hl heq hmem ⊢
    have hmem' : ∀ i, i ∈ E ↔ i = m.2 := fun i => by rw [hmem]; simp
    have hget : m.2 < X.nc ∧ |larsXy X y m.2| = m.1 := by
      rcases m1 with ⟨h, -⟩ | ⟨-, h⟩
      · rw [h] at hl; exact absurd hl (lt_irrefl _)
      · rw [List.getElem?_map, Option.map_eq_some_iff] at h
        obtain ⟨a, ha, hb⟩ := h
        have hlt : m.2 < X.nc := by
          have := (List.getElem?_eq_some_iff.1 ha).1
          simpa using this
        rw [List.getElem?_range hlt] at ha
        simp only [Option.some.injEq] at ha hb
        subst ha
        exact ⟨hlt, hb⟩
    obtain ⟨hjn, hjm⟩ := hget
    have hmax : ∀ i < X.nc, |larsXy X y i| ≤ m.1 := by
      intro i hi
      apply m2
      rw [List.mem_map]
      exact ⟨i, List.mem_range.2 hi, rfl⟩
    generalize hj : m.2 = j at *
    have hjE : j ∈ E := (hmem' j).2 rfl
    set q := ∑ r ∈ range X.nr, X.get r j ^ 2 with hq
    have hgram : ∀ b : Nat → K, (∀ i, i ∉ E → b i = 0) → ∀ i, gram X b i =
        (∑ r ∈ range X.nr, X.get r i * X.get r j) * b j := by
      intro b hb i
      unfold gram
      rw [Finset.sum_mul]
      refine Finset.sum_congr rfl fun r _ => ?_
      rw [Finset.sum_eq_single j]
      · ring
      · intro k _ hk
        rw [hb k (fun h => hk ((hmem' k).1 h)), mul_zero]
      · intro h
        exact absurd (mem_range.2 hjn) h
    have hqq : ∑ r ∈ range X.nr, X.get r j * X.get r j = q := Finset.sum_congr rfl (fun r _ => by ring)
    have e1 := heq.eqC j hjE
    have e2 := heq.eqD j hjE
    rw [hgram C heq.suppC, hqq] at e1
    rw [hgram D heq.suppD, hqq, if_pos rfl] at e2
    have hq0 : 0 ≤ q := Finset.sum_nonneg fun _ _ => sq_nonneg _
    set sg : K := if larsXy X y j < 0 then -1 else 1 with hsg
    have hss : sg = 1 ∨ sg = -1 := by rw [hsg]; split <;> simp
    have hsx : sg * m.1 = larsXy X y j := by
      rw [← hjm, hsg]
      split
      · rename_i h; rw [abs_of_neg h]; ring
      · rename_i h; rw [abs_of_nonneg (not_lt.1 h)]; ring
    have hqpos : 0 < q := by
      refine lt_of_le_of_ne hq0 (fun h => ?_)
      rw [← h, zero_mul] at e2
      rcases hss with h' | h' <;> rw [h'] at e2 <;> simp at e2
    have hz : C j - m.1 * D j = 0 := by
      have : q * (C j - m.1 * D j) = 0 := by
        calc q * (C j - m.1 * D j) = q * C j - m.1 * (q * D j) := by ring
          _ = 0 := by rw [e1, e2, ← hsx]; ring
      rcases mul_eq_zero.1 this with h | h
      · exact absurd h (ne_of_gt hqpos)
      · exact h
    refine ⟨fun i hi => ?_, fun i hi hiE => .inl ⟨?_, by simp⟩, by simp⟩
    · have := (hmem' i).1 hi
      subst this
      right
      refine ⟨hz, ?_⟩
      rw [if_pos rfl]
      have : q * (sg * D i) = 1 := by
        have h1 := sq_sign hss
        calc q * (sg * D i) = sg * (q * D i) := by ring
          _ = 1 := by rw [e2, h1]
      by_contra hc
      have := mul_nonpos_of_nonneg_of_nonpos hq0 (not_lt.1 hc)
      linarith
    · have hij : i ≠ j := fun h => hiE ((hmem' i).2 h)
      have : (larsXy X y i - gram X C i) + m.1 * gram X D i = larsXy X y i := by
        rw [hgram C heq.suppC, hgram D heq.suppD]
        have : ∀ g : K, larsXy X y i - g * C j + m.1 * (g * D j) = larsXy X y i - g * (C j - m.1 * D j) :=
          fun g => by ring
        rw [this, hz]
        ring
      rw [this]
      refine lt_of_le_of_ne (hmax i hi) (fun he => ?_)
      obtain ⟨k, hk, hlt⟩ := hu i hi j hjn hij (by rw [he, hjm])
      rw [he] at hlt
      exact absurd (hmax k hk) (not_le.2 hlt)

/-- Invariant of the loop. -/
structure LarsSound (X : Mat K) (y : Nat → K) (s : LarsState K) : Prop where
  sgn : ∀ i ∈ s.activeSet, s.allSigns i = 1 ∨ s.allSigns i = -1
  good : 0 < s.lamb → ∀ E C D, (∀ i, i ∈ E ↔ i ∈ s.activeSet) → Independent X E → LarsEq X y E s.allSigns C D →
    LarsGood X y s.lamb E s.allSigns s.last C D
  nodes : ∀ n ∈ s.res, IsLassoMin X y n.lamb (spread n.selection n.coeff)
  between : ∀ k n n', s.res[k]? = some n → s.res[k + 1]? = some n' → ∀ u, 0 ≤ u → u ≤ 1 →
    IsLassoMin X y ((1 - u) * n.lamb + u * n'.lamb)
      (fun i => (1 - u) * spread n.selection n.coeff i + u * spread n'.selection n'.coeff i)
  link : ∀ n, s.res.getLast? = some n → s.lamb ≤ n.lamb ∧ ∃ C D : Nat → K,
    (∀ i, spread n.selection n.coeff i = C i - n.lamb * D i) ∧
    (∀ m, 0 ≤ m → s.lamb ≤ m → m ≤ n.lamb → IsLassoMin X y m (fun i => C i - m * D i)) ∧
    (0 < s.lamb → ∀ E C' D', (∀ i, i ∈ E ↔ i ∈ s.activeSet) → Independent X E → LarsEq X y E s.allSigns C' D' →
      ∀ i, C' i - s.lamb * D' i = C i - s.lamb * D i)

theorem init_sound {X : Mat K} {y : Nat → K} {s : LarsState K} (h : larsInit X y = some s)
    (hu : Spec.UniqueMax X y) : LarsSound X y s := by
  have hres : s.res = [] := by
    unfold larsInit at h
    split at h
    · cases h
    · simp only [Option.some.injEq] at h
      subst h; rfl
  refine ⟨?_, fun hl E C D hmem _ heq => init_good h hu hl hmem heq, by simp [hres], by simp [hres], by simp [hres]⟩
  unfold larsInit at h
  split at h
  · cases h
  · simp only [Option.some.injEq] at h
    subst h
    intro i hi
    rw [List.mem_singleton.1 hi]
    simp only [if_true]
    split
    · right; rfl
    · left; rfl

/-- What the hypotheses say about one iteration. -/
def LarsStepOk (X : Mat K) (y : Nat → K) (tol lambMin : K)
    (est : Nat → List Nat → List K → Option (List K × List K)) (s : LarsState K) : Prop :=
  lambMin < s.lamb → ∀ c d, est s.res.length (s.activeSet.insertionSort (· ≤ ·))
      ((s.activeSet.insertionSort (· ≤ ·)).map s.allSigns) = some (c, d) →
    SolvesNormal X y (s.activeSet.insertionSort (· ≤ ·)) ((s.activeSet.insertionSort (· ≤ ·)).map s.allSigns) c d ∧
    LarsRegular X y tol s.lamb (s.activeSet.insertionSort (· ≤ ·))
      (spread (s.activeSet.insertionSort (· ≤ ·)) c) (spread (s.activeSet.insertionSort (· ≤ ·)) d)

theorem step_sound {X : Mat K} {y : Nat → K} {tol lambMin : K}
    {est : Nat → List Nat → List K → Option (List K × List K)} {s : LarsState K} (htol : 0 < tol) (htol' : tol < 10)
    (hmin : 0 ≤ lambMin) (hi : LarsInv X.nc lambMin s) (hs : LarsSound X y s) (hok : LarsStepOk X y tol lambMin est s) :
    larsBody X y tol lambMin est s = .panic ∨ (s.lamb ≤ lambMin ∧ larsBody X y tol lambMin est s = .ret s.res) ∨
      ∃ s', larsBody X y tol lambMin est s = .next s' ∧ LarsSound X y s' := by
  rcases larsBody_cases (X := X) (y := y) (tol := tol) (lambMin := lambMin) (est := est) (s := s) with h | ⟨h0, h⟩ |
    ⟨hl, hne, c, d, jts, he, -, -, hj, h⟩
  · exact .inl h
  · exact .inr (.inl ⟨not_lt.1 h0, h⟩)
  · right; right
    obtain ⟨hsol, hreg⟩ := hok hl c d he
    have hperm := List.perm_insertionSort (· ≤ ·) s.activeSet
    have hpos : 0 < s.lamb := lt_of_le_of_lt hmin hl
    generalize s.activeSet.insertionSort (· ≤ ·) = E at *
    have hn : E.Nodup := hperm.nodup_iff.2 hi.nodup
    have hr : ∀ i ∈ E, i < X.nc := fun i hE => hi.range i (hperm.mem_iff.1 hE)
    have hneE : E ≠ [] := by
      intro h0
      rw [h0] at hperm
      exact hne hperm.symm.eq_nil
    have hmem : ∀ i, i ∈ E ↔ i ∈ s.activeSet := fun i => hperm.mem_iff
    have heq := larsEq_signs hn hr hsol
    have hg := hs.good hpos E _ _ hmem hreg.indep heq
    obtain ⟨s', hm, hl0, hlt, hres, hsgn', hbet, hgood'⟩ := lars_move hn hr htol htol' hpos hneE
      (fun i hE => hs.sgn i (hperm.mem_iff.1 hE)) hsol hreg hg hj
    refine ⟨s', by rw [h, hm], hsgn', fun hl' E' C' D' hmem' hind heq' => (hgood' hl' E' C' D' hmem' hind heq').1,
      ?_, ?_, ?_⟩
    · intro n hn'
      rw [hres] at hn'
      rcases List.mem_append.1 hn' with hn' | hn'
      · exact hs.nodes n hn'
      · rw [List.mem_singleton.1 hn']
        rw [show spread E (betaLARS c d s.lamb) = fun i => spread E c i - s.lamb * spread E d i from
          funext (spread_beta hsol.lenC s.lamb)]
        exact hbet s.lamb (le_of_lt hpos) (le_of_lt hlt) (le_refl _)
    · intro k n n' h1 h2 u hu0 hu1
      rw [hres] at h1 h2
      rcases Nat.lt_or_ge (k + 1) s.res.length with hk | hk
      · rw [List.getElem?_append_left hk] at h2
        rw [List.getElem?_append_left (by omega)] at h1
        exact hs.between k n n' h1 h2 u hu0 hu1
      · have hk2 : k + 1 = s.res.length := by
          have := (List.getElem?_eq_some_iff.1 h2).1
          simp only [List.length_append, List.length_singleton] at this
          omega
        rw [List.getElem?_append_left (by omega)] at h1
        rw [hk2, List.getElem?_append_right (le_refl _)] at h2
        simp only [Nat.sub_self, List.getElem?_cons_zero, Option.some.injEq] at h2
        subst h2
        have hlast : s.res.getLast? = some n := by
          rw [List.getLast?_eq_getElem?, ← h1]
          congr 1
          omega
        obtain ⟨hle, C, D, hC, hB, hL⟩ := hs.link n hlast
        have hcont := hL hpos E _ _ hmem hreg.indep heq
        have hfun : (fun i => (1 - u) * spread n.selection n.coeff i + u * spread E (betaLARS c d s.lamb) i) =
            fun i => C i - ((1 - u) * n.lamb + u * s.lamb) * D i := by
          funext i
          rw [hC, spread_beta hsol.lenC, hcont]
          ring
        simp only
        rw [hfun]
        have h1u : 0 ≤ 1 - u := by linarith
        apply hB
        · have := mul_nonneg h1u (le_trans (le_of_lt hpos) hle)
          have := mul_nonneg hu0 (le_of_lt hpos)
          linarith
        · nlinarith
        · nlinarith
    · intro n hn'
      rw [hres, List.getLast?_append] at hn'
      simp only [List.getLast?_singleton, Option.some_or, Option.some.injEq] at hn'
      subst hn'
      refine ⟨le_of_lt hlt, spread E c, spread E d, fun i => spread_beta hsol.lenC s.lamb i, hbet, ?_⟩
      intro hl' E' C' D' hmem' hind heq'
      exact (hgood' hl' E' C' D' hmem' hind heq').2

theorem step_progress {X : Mat K} {y : Nat → K} {tol lambMin : K}
    {est : Nat → List Nat → List K → Option (List K × List K)} {s : LarsState K} (htol : 0 < tol)
    (hmin : 0 ≤ lambMin) (hi : LarsInv X.nc lambMin s) (hs : LarsSound X y s) (hok : LarsStepOk X y tol lambMin est s)
    (htot : lambMin < s.lamb → (est s.res.length (s.activeSet.insertionSort (· ≤ ·))
      ((s.activeSet.insertionSort (· ≤ ·)).map s.allSigns)).isSome)
    (hne : s.activeSet = [] → ∃ j < X.nc, s.lamb < |larsXy X y j|) :
    larsBody X y tol lambMin est s ≠ .panic := by
  unfold larsBody
  by_cases hl : ¬ s.lamb > lambMin
  · rw [if_pos hl]; simp
  rw [if_neg hl]
  have hl' : lambMin < s.lamb := not_not.1 hl
  have hpos : 0 < s.lamb := lt_of_le_of_lt hmin hl'
  have hnil : s.activeSet ≠ [] := by
    intro h0
    obtain ⟨j, hj, hlt⟩ := hne h0
    have heq : LarsEq X y [] s.allSigns (fun _ => 0) (fun _ => 0) :=
      ⟨fun _ _ => rfl, fun _ _ => rfl, by simp, by simp⟩
    have hg := hs.good hpos [] _ _ (by simp [h0]) (fun w hw _ i => hw i (by simp)) heq
    have hz : gram X (fun _ => (0 : K)) j = 0 := by unfold gram; simp
    rcases hg.inact j hj (by simp) with ⟨h1, -⟩ | ⟨-, sg, -, h2, -, h3, -⟩
    · rw [hz] at h1
      simp only [sub_zero, mul_zero, add_zero] at h1
      exact absurd h1 (not_lt.2 (le_of_lt hlt))
    · rw [hz] at h3
      simp only [sub_zero, mul_zero, add_zero] at h3
      rw [h3, abs_mul, abs_of_pos hpos] at hlt
      rcases h2 with rfl | rfl <;> simp at hlt
  rw [if_neg hnil]
  simp only
  have hperm := List.perm_insertionSort (· ≤ ·) s.activeSet
  obtain ⟨⟨c, d⟩, he⟩ := Option.isSome_iff_exists.1 (htot hl')
  obtain ⟨hsol, hreg⟩ := hok hl' c d he
  rw [he]
  simp only
  rw [if_neg (by rw [hsol.lenC, hsol.lenD]; simp)]
  generalize s.activeSet.insertionSort (· ≤ ·) = E at *
  have hn : E.Nodup := hperm.nodup_iff.2 hi.nodup
  have hr : ∀ i ∈ E, i < X.nc := fun i hE => hi.range i (hperm.mem_iff.1 hE)
  have heq := larsEq_signs hn hr hsol
  have hg := hs.good hpos E _ _ (fun i => hperm.mem_iff) hreg.indep heq
  have hj : ∃ jts, tJoin X y tol s.lamb E c d s.last = some jts := by
    unfold tJoin
    apply mapM_isSome
    intro i hi'
    have := good_joinTime (le_of_lt htol) hpos (fun i hE => hs.sgn i (hperm.mem_iff.1 hE)) heq hg
      (List.mem_range.1 hi')
    rw [larsXX_eq hn hr, larsXX_eq hn hr]
    exact Option.isSome_iff_exists.1 this
  obtain ⟨jts, hj⟩ := hj
  rw [hj]
  simp only
  unfold larsMove
  simp only
  split <;> split <;> simp

/-- **C83 (partial).** Without degenerate iterations `LassoLars` does not panic: it returns a path.  Missing:
degenerate iterations. -/
theorem C83_returns_partial [FloorSemiring K] (X : Mat K) (y : Nat → K) (tol lambMin : K) (htol : 0 < tol)
    (htol' : tol < 10) (hmin : 0 ≤ lambMin) (hnr : 0 < X.nr) (hnc : 0 < X.nc)
    (est : Nat → List Nat → List K → Option (List K × List K))
    (hu : Spec.UniqueMax X y) (hok : ∀ s, LarsReach X y tol lambMin est s → LarsStepOk X y tol lambMin est s)
    (htot : ∀ s, LarsReach X y tol lambMin est s → lambMin < s.lamb →
      (est s.res.length (s.activeSet.insertionSort (· ≤ ·))
        ((s.activeSet.insertionSort (· ≤ ·)).map s.allSigns)).isSome) :
    ∃ path, LarsReturns X y tol lambMin est path := by
  have hinit : ∃ s, larsInit X y = some s := by
    unfold larsInit
    rw [if_neg (by omega)]
    exact ⟨_, rfl⟩
  obtain ⟨s, hs⟩ := hinit
  have hstart : ∃ j < X.nc, s.lamb ≤ |larsXy X y j| ∧ (s.activeSet = [] → s.lamb < |larsXy X y j|) := by
    have hs' := hs
    unfold larsInit at hs'
    rw [if_neg (by omega)] at hs'
    simp only [Option.some.injEq] at hs'
    obtain ⟨-, m1, -⟩ := maxTime_spec ((List.range X.nc).map (fun i => some |larsXy X y i|))
    subst hs'
    rcases m1 with ⟨h, -⟩ | ⟨-, h⟩
    · exact ⟨0, hnc, by simp only [h]; exact abs_nonneg _, by simp⟩
    · rw [List.getElem?_map, Option.map_eq_some_iff] at h
      obtain ⟨a, ha, hb⟩ := h
      simp only [Option.some.injEq] at hb
      exact ⟨a, List.mem_range.1 (List.mem_of_getElem? ha), by simp only [hb]; exact le_refl _, by simp⟩
  have hr := runs_of_progress (body := larsBody X y tol lambMin est)
    (fun s => LarsReach X y tol lambMin est s ∧ LarsInv X.nc lambMin s ∧ LarsSound X y s ∧
      ∃ j < X.nc, s.lamb ≤ |larsXy X y j| ∧ (s.activeSet = [] → s.lamb < |larsXy X y j|)) (s := s)
    ⟨.init hs, larsInit_inv hs, init_sound hs hu, hstart⟩ ?_ ?_ ?_
  · obtain ⟨r, hr⟩ := hr
    exact ⟨r, s, hs, hr⟩
  · rintro s ⟨h1, h2, h3, j, hj, -, h4⟩
    exact step_progress htol hmin h2 h3 (hok s h1) (htot s h1) (fun h0 => ⟨j, hj, h4 h0⟩)
  · rintro s s' ⟨h1, h2, h3, j, hj, hle, -⟩ hb
    have hsound : LarsSound X y s' := by
      rcases step_sound htol htol' hmin h2 h3 (hok s h1) with h | ⟨-, h⟩ | ⟨s'', h, h'⟩
      · rw [h] at hb; cases hb
      · rw [h] at hb; cases hb
      · rw [h] at hb
        simp only [Outcome.next.injEq] at hb
        subst hb
        exact h'
    refine ⟨.step h1 hb, (larsBody_inv h2).2 _ hb, hsound, j, hj, ?_⟩
    obtain ⟨hl, hcase⟩ := larsBody_next htol hb
    have hpos : 0 < s.lamb := lt_of_le_of_lt hmin hl
    rcases hcase with ⟨h4, h5⟩ | ⟨h4, -⟩
    · refine ⟨le_trans h4 hle, fun h0 => ?_⟩
      rw [h0] at h5
      simp at h5
    · have : s'.lamb < s.lamb := by
        rcases h4 with h4 | h4
        · rw [h4]; exact hpos
        · linarith
      exact ⟨le_trans (le_of_lt this) hle, fun _ => lt_of_lt_of_le this hle⟩
  · intro run h0 hrun
    exact C63_terminates X y tol lambMin htol hmin est run (by rw [h0]; exact hs) hrun

/-- **C83 (partial).** If the estimator solves the normal equations and no iteration is degenerate, every node of
the path minimises the lasso objective at its regularisation, and so does every interpolation between two
consecutive nodes.  Missing: degenerate iterations, see `C83_refuted`. -/
theorem C83_optimal_partial (X : Mat K) (y : Nat → K) (tol lambMin : K) (htol : 0 < tol) (htol' : tol < 10)
    (hmin : 0 ≤ lambMin) (est : Nat → List Nat → List K → Option (List K × List K)) (path : List (LassoLarsNode K))
    (hu : Spec.UniqueMax X y) (hok : ∀ s, LarsReach X y tol lambMin est s → LarsStepOk X y tol lambMin est s)
    (h : LarsReturns X y tol lambMin est path) :
    (∀ n ∈ path, IsLassoMin X y n.lamb (spread n.selection n.coeff)) ∧
    ∀ k n n', path[k]? = some n → path[k + 1]? = some n' → ∀ u, 0 ≤ u → u ≤ 1 →
      IsLassoMin X y ((1 - u) * n.lamb + u * n'.lamb)
        (fun i => (1 - u) * spread n.selection n.coeff i + u * spread n'.selection n'.coeff i) := by
  obtain ⟨s, hs, hr⟩ := h
  have hi : LarsInv X.nc lambMin s := larsInit_inv hs
  have hsound := init_sound hs hu
  have hreach : LarsReach X y tol lambMin est s := .init hs
  clear hs
  induction hr with
  | @ret s r hb =>
    rcases step_sound htol htol' hmin hi hsound (hok s hreach) with h | ⟨-, h⟩ | ⟨s', h, -⟩
    · rw [h] at hb; cases hb
    · rw [h] at hb
      simp only [Outcome.ret.injEq] at hb
      subst hb
      exact ⟨hsound.nodes, hsound.between⟩
    · rw [h] at hb; cases hb
  | @next s s' r hb _ ih =>
    refine ih ((larsBody_inv hi).2 _ hb) ?_ (.step hreach hb)
    rcases step_sound htol htol' hmin hi hsound (hok s hreach) with h | ⟨-, h⟩ | ⟨s'', h, h'⟩
    · rw [h] at hb; cases hb
    · rw [h] at hb; cases hb
    · rw [h] at hb
      simp only [Outcome.next.injEq] at hb
      subst hb
      exact h'

/-- **C84 (partial).** If no iteration is degenerate, the path is complete: for every regularisation from
`lambMin` to that of the last node there is a solution that uses only features of the last node, and an empty path
means that 0 is a solution at `lambMin`.  Missing: degenerate iterations, see `C84_refuted`. -/
theorem C84_complete_partial (X : Mat K) (y : Nat → K) (tol lambMin : K) (htol : 0 < tol) (htol' : tol < 10)
    (hmin : 0 ≤ lambMin) (est : Nat → List Nat → List K → Option (List K × List K)) (path : List (LassoLarsNode K))
    (hu : Spec.UniqueMax X y) (hok : ∀ s, LarsReach X y tol lambMin est s → LarsStepOk X y tol lambMin est s)
    (h : LarsReturns X y tol lambMin est path) :
    (∀ n, path.getLast? = some n → ∀ m, lambMin ≤ m → m ≤ n.lamb →
      ∃ b, IsLassoMin X y m b ∧ ∀ i, i ∉ n.selection → b i = 0) ∧
    (path = [] → ∀ m, lambMin ≤ m → IsLassoMin X y m (fun _ => 0)) := by
  obtain ⟨s, hs, hr⟩ := h
  have hi : LarsInv X.nc lambMin s := larsInit_inv hs
  have hsound := init_sound hs hu
  have hreach : LarsReach X y tol lambMin est s := .init hs
  have hsupp : ∀ n, s.res.getLast? = some n → ∃ C D : Nat → K, (∀ i, i ∉ n.selection → C i = 0 ∧ D i = 0) ∧
      ∀ m, 0 ≤ m → s.lamb ≤ m → m ≤ n.lamb → IsLassoMin X y m (fun i => C i - m * D i) := by
    have : s.res = [] := by
      unfold larsInit at hs
      split at hs
      · cases hs
      · simp only [Option.some.injEq] at hs
        subst hs; rfl
    simp [this]
  have hempty : s.res = [] → ∀ i < X.nc, |larsXy X y i| ≤ s.lamb := by
    intro _ i hin
    unfold larsInit at hs
    split at hs
    · cases hs
    · simp only [Option.some.injEq] at hs
      subst hs
      obtain ⟨-, -, m2⟩ := maxTime_spec ((List.range X.nc).map (fun i => some |larsXy X y i|))
      apply m2
      rw [List.mem_map]
      exact ⟨i, List.mem_range.2 hin, rfl⟩
  clear hs
  induction hr with
  | @ret s r hb =>
    rcases step_sound htol htol' hmin hi hsound (hok s hreach) with h | ⟨hle, h⟩ | ⟨s', h, -⟩
    · rw [h] at hb; cases hb
    · rw [h] at hb
      simp only [Outcome.ret.injEq] at hb
      subst hb
      refine ⟨fun n hn m h1 h2 => ?_, fun he m h1 => ?_⟩
      · obtain ⟨C, D, hz, hB⟩ := hsupp n hn
        refine ⟨_, hB m (le_trans hmin h1) (le_trans hle h1) h2, fun i hi => ?_⟩
        simp only [(hz i hi).1, (hz i hi).2]
        ring
      · apply lasso_min_of_kkt
        intro i hi
        have hc : correlation X y (fun _ => 0) i = larsXy X y i := by
          rw [correlation_eq]; unfold gram; simp
        rw [hc]
        exact ⟨le_trans (hempty he i hi) (le_trans hle h1), by simp⟩
    · rw [h] at hb; cases hb
  | @next s s' r hb _ ih =>
    have hs' : LarsSound X y s' := by
      rcases step_sound htol htol' hmin hi hsound (hok s hreach) with h | ⟨-, h⟩ | ⟨s'', h, h'⟩
      · rw [h] at hb; cases hb
      · rw [h] at hb; cases hb
      · rw [h] at hb
        simp only [Outcome.next.injEq] at hb
        subst hb
        exact h'
    rcases larsBody_cases (X := X) (y := y) (tol := tol) (lambMin := lambMin) (est := est) (s := s) with h | ⟨-, h⟩ |
      ⟨hl, hne, c, d, jts, he, hlc, -, hj, h⟩
    · rw [h] at hb; cases hb
    · rw [h] at hb; cases hb
    · obtain ⟨hsol, hreg⟩ := hok s hreach hl c d he
      have hperm := List.perm_insertionSort (· ≤ ·) s.activeSet
      have hpos : 0 < s.lamb := lt_of_le_of_lt hmin hl
      have hn : (s.activeSet.insertionSort (· ≤ ·)).Nodup := hperm.nodup_iff.2 hi.nodup
      have hr : ∀ i ∈ s.activeSet.insertionSort (· ≤ ·), i < X.nc := fun i hE => hi.range i (hperm.mem_iff.1 hE)
      have hneE : s.activeSet.insertionSort (· ≤ ·) ≠ [] := by
        intro h0
        rw [h0] at hperm
        exact hne hperm.symm.eq_nil
      have heq := larsEq_signs hn hr hsol
      have hg := hsound.good hpos _ _ _ (fun i => hperm.mem_iff) hreg.indep heq
      obtain ⟨s'', hm, -, -, hres, -, hbet, -⟩ := lars_move hn hr htol htol' hpos hneE
        (fun i hE => hsound.sgn i (hperm.mem_iff.1 hE)) hsol hreg hg hj
      have hss : s'' = s' := by
        rw [h, hm] at hb
        simpa using hb
      subst hss
      refine ih ((larsBody_inv hi).2 _ hb) hs' (.step hreach hb) ?_ ?_
      · intro n hn'
        rw [hres, List.getLast?_append] at hn'
        simp only [List.getLast?_singleton, Option.some_or, Option.some.injEq] at hn'
        subst hn'
        exact ⟨_, _, fun i hi => ⟨if_neg hi, if_neg hi⟩, hbet⟩
      · rw [hres]
        simp

end

/-! ### Counterexamples -/

/-- Columns and response have mean 0 and standard deviation 1. -/
def Spec.IsNormalized (X : Mat ℚ) (y : Nat → ℚ) : Prop :=
  (∀ j < X.nc, ∑ r ∈ range X.nr, X.get r j = 0 ∧ ∑ r ∈ range X.nr, X.get r j ^ 2 = X.nr - 1) ∧
  ∑ r ∈ range X.nr, y r = 0 ∧ ∑ r ∈ range X.nr, y r ^ 2 = X.nr - 1

/-- `c` and `d` from the inverse of the Gram matrix. -/
def invEst (X : Mat ℚ) (y : Nat → ℚ) (inv : List Nat → Nat → Nat → ℚ) (E : List Nat) (signs : List ℚ) :
    List ℚ × List ℚ :=
  ((List.range E.length).map (fun k => ∑ m ∈ range E.length, inv E k m * larsXy X y (E.getD m 0)),
   (List.range E.length).map (fun k => ∑ m ∈ range E.length, inv E k m * signs.getD m 0))

theorem solves_of_inverse {X : Mat ℚ} {y : Nat → ℚ} {inv : List Nat → Nat → Nat → ℚ} {E : List Nat}
    {signs : List ℚ} (h : ∀ k < E.length, ∀ m < E.length, ∑ l ∈ range E.length,
      (∑ r ∈ range X.nr, X.get r (E.getD k 0) * X.get r (E.getD l 0)) * inv E l m = if k = m then 1 else 0) :
    SolvesNormal X y E signs (invEst X y inv E signs).1 (invEst X y inv E signs).2 := by
  have key : ∀ v : Nat → ℚ, ∀ k < E.length, ∑ l ∈ range E.length,
      (∑ r ∈ range X.nr, X.get r (E.getD k 0) * X.get r (E.getD l 0)) *
        ((List.range E.length).map (fun k => ∑ m ∈ range E.length, inv E k m * v m)).getD l 0 = v k := by
    intro v k hk
    have e : ∀ l ∈ range E.length, (∑ r ∈ range X.nr, X.get r (E.getD k 0) * X.get r (E.getD l 0)) *
        ((List.range E.length).map (fun k => ∑ m ∈ range E.length, inv E k m * v m)).getD l 0 =
        ∑ m ∈ range E.length, ((∑ r ∈ range X.nr, X.get r (E.getD k 0) * X.get r (E.getD l 0)) * inv E l m) * v m := by
      intro l hl
      rw [getD_map_range, if_pos (mem_range.1 hl), Finset.mul_sum]
      exact Finset.sum_congr rfl (fun m _ => by ring)
    rw [Finset.sum_congr rfl e, Finset.sum_comm]
    rw [Finset.sum_congr rfl (fun m hm => by rw [← Finset.sum_mul, h k hk m (mem_range.1 hm)])]
    simp only [ite_mul, one_mul, zero_mul]
    rw [Finset.sum_ite_eq, if_pos (mem_range.2 hk)]
  refine ⟨by simp [invEst], by simp [invEst], fun k hk => ?_, fun k hk => ?_⟩
  · exact key (fun m => larsXy X y (E.getD m 0)) k hk
  · exact key (fun m => signs.getD m 0) k hk

/-- Orthogonal directions with mean 0 in 9 rows. -/
def dir (j r : Nat) : ℚ := if r = 2 * j then 2 else if r = 2 * j + 1 then -2 else 0

/-- Four features; the third is correlated with the first two. -/
def nearTieX (nc : Nat) : Mat ℚ :=
  ⟨9, nc, fun r j => if j = 2 then 2 / 3 * dir 0 r + 2 / 3 * dir 1 r + 1 / 3 * dir 2 r else dir j r⟩

/-- A response with coordinates on the unit sphere; `eta` separates two joining times. -/
def nearTieY (eta w : ℚ) (r : Nat) : ℚ :=
  let u := 1 / 4
  let v := -(1 / 4) - eta
  let S := u * u + v * v + w * w
  (1 - S) / (1 + S) * dir 0 r + 2 * u / (1 + S) * dir 1 r + 2 * v / (1 + S) * dir 2 r + 2 * w / (1 + S) * dir 3 r

/-- Inverses of the Gram matrices of `nearTieX`. -/
def nearTieInv (E : List Nat) (k m : Nat) : ℚ :=
  if E = [0, 2] then (if k = m then 9 / 40 else -(3 / 20))
  else if E = [0, 1, 2] ∨ E = [0, 1, 2, 3] then
    (if k = 3 ∨ m = 3 then (if k = m then 1 / 8 else 0)
    else if k = 2 ∧ m = 2 then 9 / 8 else if k = 2 ∨ m = 2 then -(3 / 4) else if k = m then 5 / 8 else 1 / 2)
  else if k = m then 1 / 8 else 0

/-- The estimator that solves the normal equations of `nearTieX`. -/
def nearTieEst (X : Mat ℚ) (y : Nat → ℚ) (_ : Nat) (E : List Nat) (signs : List ℚ) : Option (List ℚ × List ℚ) :=
  if E ∈ [[0], [0, 1], [0, 2], [0, 1, 2], [0, 1, 2, 3]] then some (invEst X y nearTieInv E signs) else none

theorem nearTieEst_solves (nc : Nat) (y : Nat → ℚ) (k : Nat) (E : List Nat) (signs c d : List ℚ)
    (h : nearTieEst (nearTieX nc) y k E signs = some (c, d)) : SolvesNormal (nearTieX nc) y E signs c d := by
  unfold nearTieEst at h
  split at h
  · rename_i hE
    simp only [Option.some.injEq] at h
    have hc : c = (invEst (nearTieX nc) y nearTieInv E signs).1 := by rw [h]
    have hd : d = (invEst (nearTieX nc) y nearTieInv E signs).2 := by rw [h]
    rw [hc, hd]
    apply solves_of_inverse
    simp only [nearTieX]
    clear hc hd h
    revert E
    decide +kernel
  · cases h

/-- **C83 is false.** The data are normalised and the estimator solves the normal equations, but two joining times
differ by less than `lassoTol`.  The coefficient of the first of the two features changes sign right after the
second has joined; `tCross` ignores that because the crossing is within the tolerance of the current
regularisation.  All later nodes have a coefficient with the wrong sign. -/
theorem C83_refuted : ∃ (X : Mat ℚ) (y : Nat → ℚ) (lambMin : ℚ)
    (est : Nat → List Nat → List ℚ → Option (List ℚ × List ℚ)) (path : List (LassoLarsNode ℚ)) (n : LassoLarsNode ℚ),
    Spec.IsNormalized X y ∧ 0 < lambMin ∧
    (∀ k E signs c d, est k E signs = some (c, d) → SolvesNormal X y E signs c d) ∧
    LarsReturns X y lassoTol lambMin est path ∧ n ∈ path ∧ ¬ IsLassoMin X y n.lamb (spread n.selection n.coeff) := by
  refine ⟨nearTieX 4, nearTieY (-(1 / 20000000)) (1 / 16), 1 / 10,
    nearTieEst (nearTieX 4) (nearTieY (-(1 / 20000000)) (1 / 16)), [
      ⟨[0], 2787500079999992 / 451562490000001, [0]⟩,
      ⟨[148437469999999 / 451562490000001, 0], 1600000320000000 / 451562490000001, [0, 2]⟩,
      ⟨[148437509999999 / 451562490000001, 0, 40000000 / 451562490000001], 4799999360000000 / 1354687470000003,
        [0, 1, 2]⟩,
      ⟨[598437429999999 / 451562490000001, 449999920000000 / 451562490000001, -449999880000000 / 451562490000001, 0],
        400000000000000 / 451562490000001, [0, 1, 2, 3]⟩],
    ⟨[598437429999999 / 451562490000001, 449999920000000 / 451562490000001, -449999880000000 / 451562490000001, 0],
        400000000000000 / 451562490000001, [0, 1, 2, 3]⟩, ?_, by norm_num,
    nearTieEst_solves 4 _, ?_, by simp, ?_⟩
  · unfold Spec.IsNormalized
    decide +kernel
  · refine ⟨_, rfl, runs_of_runFuel (n := 8) ?_⟩
    decide +kernel
  · intro h
    refine absurd (h (fun i => if i = 0 then 2 / 3 else if i = 1 then 1 / 3 else 0)) (not_le.2 ?_)
    decide +kernel

/-- **C84 is false.** Again two joining times differ by less than `lassoTol`.  After the first of the two features has
joined, the correlation of the second moves away from its bound, but `tJoin` accepts a time that is larger than the
current regularisation; `LassoLars` then stops, far above `lambMin`. -/
theorem C84_refuted : ∃ (X : Mat ℚ) (y : Nat → ℚ) (lambMin : ℚ)
    (est : Nat → List Nat → List ℚ → Option (List ℚ × List ℚ)) (path : List (LassoLarsNode ℚ)) (n : LassoLarsNode ℚ),
    Spec.IsNormalized X y ∧ 0 < lambMin ∧
    (∀ k E signs c d, est k E signs = some (c, d) → SolvesNormal X y E signs c d) ∧
    LarsReturns X y lassoTol lambMin est path ∧ path.getLast? = some n ∧ lambMin + 3 < n.lamb ∧
    ∀ b, (∀ i, i ∉ n.selection → b i = 0) → ¬ IsLassoMin X y lambMin b := by
  refine ⟨nearTieX 3, nearTieY (1 / 20000000) 0, 1 / 10,
    nearTieEst (nearTieX 3) (nearTieY (1 / 20000000) 0), [
      ⟨[0], 2799999919999992 / 450000010000001, [0]⟩,
      ⟨[149999989999999 / 450000010000001, 0], 1600000000000000 / 450000010000001, [0, 1]⟩],
    ⟨[149999989999999 / 450000010000001, 0], 1600000000000000 / 450000010000001, [0, 1]⟩, ?_, by norm_num,
    nearTieEst_solves 3 _, ?_, rfl, by norm_num, ?_⟩
  · unfold Spec.IsNormalized
    decide +kernel
  · refine ⟨_, rfl, runs_of_runFuel (n := 8) ?_⟩
    decide +kernel
  · intro b hb hmin
    have h2 : b 2 = 0 := hb 2 (by simp)
    -- the best coefficients of the first two features
    let a : Nat → ℚ := fun i => if i = 0 then larsXy (nearTieX 3) (nearTieY (1 / 20000000) 0) 0 / 8 - 1 / 80
      else if i = 1 then larsXy (nearTieX 3) (nearTieY (1 / 20000000) 0) 1 / 8 - 1 / 80 else 0
    have ha : IsLassoMin (nearTieX 2) (nearTieY (1 / 20000000) 0) (1 / 10) a := by
      apply lasso_min_of_kkt
      decide +kernel
    have hr : lassoRisk (nearTieX 3) (nearTieY (1 / 20000000) 0) (1 / 10) b =
        lassoRisk (nearTieX 2) (nearTieY (1 / 20000000) 0) (1 / 10) b := by
      unfold lassoRisk Spec.residual nearTieX
      simp only [Finset.sum_range_succ _ 2, h2, abs_zero, mul_zero, add_zero]
    have h1 := hmin (fun i => if i = 0 then 1 else if i = 1 then 2 / 3 else -1 / 2)
    rw [hr] at h1
    have h3 := le_trans (ha b) h1
    revert h3
    decide +kernel

/-! ### Example: a path without degenerate iterations -/

namespace LarsExample

def X : Mat ℚ := ⟨2, 2, fun i j => if i = j then 1 else 0⟩
def y (i : Nat) : ℚ := if i = 0 then 1 else -3
abbrev body := larsBody X y lassoTol (1 / 2) (larsToyEst y)

def nextOf (s : LarsState ℚ) : LarsState ℚ :=
  match body s with
  | .next s' => s'
  | _ => s

def isNext (s : LarsState ℚ) : Bool :=
  match body s with
  | .next _ => true
  | _ => false

theorem body_next {s : LarsState ℚ} (h : isNext s = true) : body s = .next (nextOf s) := by
  unfold isNext at h
  unfold nextOf
  split at h
  · rename_i s' hs; rw [hs]
  · cases h

def s0 : LarsState ℚ := (larsInit X y).getD ⟨0, [], fun _ => 0, none, []⟩
def s1 : LarsState ℚ := nextOf s0
def s2 : LarsState ℚ := nextOf s1

theorem reach {s : LarsState ℚ} (h : LarsReach X y lassoTol (1 / 2) (larsToyEst y) s) : s = s0 ∨ s = s1 ∨ s = s2 := by
  induction h with
  | init h => left; unfold s0; rw [h]; rfl
  | step _ hb ih =>
    rcases ih with rfl | rfl | rfl
    · have := body_next (s := s0) (by decide +kernel)
      rw [show larsBody X y lassoTol (1 / 2) (larsToyEst y) s0 = .next (nextOf s0) from this] at hb
      simp only [Outcome.next.injEq] at hb
      exact .inr (.inl hb.symm)
    · have := body_next (s := s1) (by decide +kernel)
      rw [show larsBody X y lassoTol (1 / 2) (larsToyEst y) s1 = .next (nextOf s1) from this] at hb
      simp only [Outcome.next.injEq] at hb
      exact .inr (.inr hb.symm)
    · exfalso
      have h0 : s2.lamb = 0 := by decide +kernel
      unfold larsBody at hb
      rw [if_pos (by rw [h0]; norm_num)] at hb
      cases hb

theorem gram_X (b : Nat → ℚ) : gram X b 0 = b 0 ∧ gram X b 1 = b 1 := by
  unfold gram X
  simp [Finset.sum_range_succ]

theorem xy_X : larsXy X y 0 = 1 ∧ larsXy X y 1 = -3 := by decide +kernel

theorem indep_X (E : List Nat) (h : ∀ i ∈ E, i < 2) : Independent X E := by
  intro w hw h0 i
  by_cases hi : i ∈ E
  · have := h i hi
    have h1 := h0 i (by simpa [X] using this)
    unfold X at h1
    simp only at h1
    have : i = 0 ∨ i = 1 := by omega
    rcases this with rfl | rfl
    · simpa [Finset.sum_range_succ] using h1
    · simpa [Finset.sum_range_succ] using h1
  · exact hw i hi

theorem ok0 : LarsStepOk X y lassoTol (1 / 2) (larsToyEst y) s0 := by
  intro _ c d he
  have hE : s0.activeSet.insertionSort (· ≤ ·) = [1] := by decide +kernel
  have hs : s0.allSigns 1 = -1 := by decide +kernel
  have hl : s0.lamb = 3 := by decide +kernel
  rw [hE] at he ⊢
  simp only [List.map_cons, List.map_nil, hs, larsToyEst, Option.some.injEq, Prod.mk.injEq] at he ⊢
  obtain ⟨rfl, rfl⟩ := he
  rw [hl]
  constructor
  · constructor <;> decide +kernel
  · have hC : ∀ t i, (spread [1] [y 1] i - t * spread [1] [-1] i : ℚ) = if i = 1 then -3 + t else 0 := by
      intro t i
      unfold spread y
      by_cases h : i = 1
      · subst h; simp
      · simp [h]
    have hcorr : ∀ t, correlation X y (fun j => spread [1] [y 1] j - t * spread [1] [-1] j) 0 = 1 := by
      intro t
      rw [correlation_eq, (gram_X _).1, xy_X.1]
      simp only [hC]
      simp
    have hC1 : (spread [1] [y 1] 1 : ℚ) = -3 := by decide +kernel
    have hD1 : (spread [1] [(-1 : ℚ)] 1 : ℚ) = -1 := by decide +kernel
    refine ⟨indep_X _ (by simp), ?_, ?_, ?_⟩
    · intro i hi hiE s t hs' hc h1 h2
      have : i = 0 := by
        simp only [X] at hi
        simp only [List.mem_singleton] at hiE
        omega
      subst this
      rw [hcorr] at hc
      rcases hs' with rfl | rfl
      · constructor <;> linarith
      · unfold lassoTol at h1
        norm_num at h1
        linarith
    · intro i hi t hd hc h1
      rw [List.mem_singleton.1 hi, hC1, hD1] at hc
      linarith
    · intro i j t h0 h1 hi hj
      have hev : ∀ i, LarsEvent X y [1] (spread [1] [y 1]) (spread [1] [-1]) i t → i = 0 := by
        rintro i ⟨hin, ⟨hiE, -⟩ | ⟨hiE, -, hc⟩⟩
        · simp only [X] at hin
          simp only [List.mem_singleton] at hiE
          omega
        · rw [List.mem_singleton.1 hiE, hC1, hD1] at hc
          linarith
      rw [hev i hi, hev j hj]

theorem ok1 : LarsStepOk X y lassoTol (1 / 2) (larsToyEst y) s1 := by
  intro _ c d he
  have hE : s1.activeSet.insertionSort (· ≤ ·) = [0, 1] := by decide +kernel
  have hs : s1.allSigns 1 = -1 := by decide +kernel
  have hs0 : s1.allSigns 0 = 1 := by decide +kernel
  have hl : s1.lamb = 1 := by decide +kernel
  rw [hE] at he ⊢
  simp only [List.map_cons, List.map_nil, hs, hs0, larsToyEst, Option.some.injEq, Prod.mk.injEq] at he ⊢
  obtain ⟨rfl, rfl⟩ := he
  rw [hl]
  constructor
  · constructor <;> decide +kernel
  · have hC0 : (spread [0, 1] [y 0, y 1] 0 : ℚ) = 1 := by decide +kernel
    have hD0 : (spread [0, 1] [(1 : ℚ), -1] 0 : ℚ) = 1 := by decide +kernel
    have hC1 : (spread [0, 1] [y 0, y 1] 1 : ℚ) = -3 := by decide +kernel
    have hD1 : (spread [0, 1] [(1 : ℚ), -1] 1 : ℚ) = -1 := by decide +kernel
    have hin : ∀ i < X.nc, i ∈ [0, 1] := by
      intro i hi
      simp only [X] at hi
      simp only [List.mem_cons, List.not_mem_nil, or_false]
      omega
    have hcross : ∀ i ∈ [0, 1], ∀ t : ℚ, spread [0, 1] [y 0, y 1] i = t * spread [0, 1] [1, -1] i → 1 ≤ t := by
      intro i hi t hc
      simp only [List.mem_cons, List.not_mem_nil, or_false] at hi
      rcases hi with rfl | rfl
      · rw [hC0, hD0] at hc; linarith
      · rw [hC1, hD1] at hc; linarith
    refine ⟨indep_X _ (by simp), fun i hi hiE => absurd (hin i hi) hiE, fun i hi t _ hc _ => hcross i hi t hc, ?_⟩
    intro i j t h0 h1 hi _
    exfalso
    rcases hi.2 with ⟨hiE, -⟩ | ⟨hiE, -, hc⟩
    · exact hiE (hin i hi.1)
    · linarith [hcross i hiE t hc]

theorem ok (s : LarsState ℚ) (h : LarsReach X y lassoTol (1 / 2) (larsToyEst y) s) :
    LarsStepOk X y lassoTol (1 / 2) (larsToyEst y) s := by
  rcases reach h with rfl | rfl | rfl
  · exact ok0
  · exact ok1
  · intro hl
    have h0 : s2.lamb = 0 := by decide +kernel
    rw [h0] at hl
    norm_num at hl

theorem unique : Spec.UniqueMax X y := by
  intro i hi j hj hij he
  simp only [X] at hi hj
  have hi' : i = 0 ∨ i = 1 := by omega
  have hj' : j = 0 ∨ j = 1 := by omega
  exfalso
  rcases hi' with rfl | rfl <;> rcases hj' with rfl | rfl
  · exact hij rfl
  · rw [xy_X.1, xy_X.2] at he; norm_num at he
  · rw [xy_X.1, xy_X.2] at he; norm_num at he
  · exact hij rfl

example : ∃ path, LarsReturns X y lassoTol (1 / 2) (larsToyEst y) path ∧
    (∀ n ∈ path, IsLassoMin X y n.lamb (spread n.selection n.coeff)) ∧ path.length = 2 := by
  have hp : LarsReturns X y lassoTol (1 / 2) (larsToyEst y) [⟨[0], 3, [1]⟩, ⟨[0, -2], 1, [0, 1]⟩] := by
    refine ⟨_, rfl, runs_of_runFuel (n := 3) ?_⟩
    decide +kernel
  exact ⟨_, hp, (C83_optimal_partial X y lassoTol (1 / 2) (by norm_num [lassoTol]) (by norm_num [lassoTol])
    (by norm_num) _ _ unique ok hp).1, rfl⟩

/-- The solution at the end of the path. -/
example : ∃ b, IsLassoMin X y (1 / 2) b ∧ ∀ i, i ∉ [0, 1] → b i = 0 := by
  have hp : LarsReturns X y lassoTol (1 / 2) (larsToyEst y) [⟨[0], 3, [1]⟩, ⟨[0, -2], 1, [0, 1]⟩] := by
    refine ⟨_, rfl, runs_of_runFuel (n := 3) ?_⟩
    decide +kernel
  exact (C84_complete_partial X y lassoTol (1 / 2) (by norm_num [lassoTol]) (by norm_num [lassoTol])
    (by norm_num) _ _ unique ok hp).1 _ rfl (1 / 2) (by norm_num) (by norm_num)

example : ∃ path, LarsReturns X y lassoTol (1 / 2) (larsToyEst y) path :=
  C83_returns_partial X y lassoTol (1 / 2) (by norm_num [lassoTol]) (by norm_num [lassoTol]) (by norm_num)
    (by decide) (by decide) _ unique ok (fun _ _ _ => rfl)

end LarsExample

end GoSelect
