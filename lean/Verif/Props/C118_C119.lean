import Verif.Props.C12_regression
import Verif.Props.C06_C07
import Verif.Props.C17_C19

/-! C118: which models the list of `SelectModel` contains; C119: agreement with `BruteForceSelect`. -/

namespace GoSelect

open Spec
open scoped List

variable {α : Type} [LinearOrder α] [Zero α] [Neg α] [NegReverses α]

/-- A node made by the search is the node at its level on the way to every model it covers. -/
theorem made_way {S : Search α} {c : Node α} (hc : Made S c) (hroot : S.root.length = S.ncols) {m : List Bool}
    (hm : m ∈ covSelf S c) :
    c.lower = wayBound S m c.level ∧ 0 < c.level ∧ ∃ i, c.level ≤ i + 1 ∧ m[i]? ≠ S.root[i]? := by
  have hpre := mem_covSelf hc hm
  have hlv := hc.level
  have hlen := hc.length
  have heq : c.model = m.take c.level ++ S.root.drop c.level := by
    apply List.ext_getElem?
    intro i
    have hml : (m.take c.level).length = c.level := by
      rw [List.length_take]
      have := hpre.1
      omega
    by_cases hi : i < c.level
    · rw [List.getElem?_append_left (by omega), List.getElem?_take_of_lt hi]
      exact hpre.2 i hi
    · rw [List.getElem?_append_right (by omega), hml, List.getElem?_drop, Nat.add_sub_cancel' (by omega)]
      exact hc.suffix i (by omega)
  obtain ⟨p, f, hp, hb⟩ := hc
  obtain ⟨h1, h2, h3, -, h5⟩ := boundedChild_some hp hb
  refine ⟨?_, hlv.1, ?_⟩
  · rw [h5, wayBound, ← heq, numFeatures_eq_card]
  · rcases List.mem_append.1 hm with h | h
    · split at h
      · rename_i hnew
        have hf : f = true := by
          rw [isNewNode, h3] at hnew
          simpa [h2] using hnew
        rw [List.mem_singleton] at h
        subst h hf
        refine ⟨p.level, by omega, ?_⟩
        rw [h1, if_pos rfl, ← hp.suffix _ le_rfl, flipAt_getElem?, if_pos rfl]
        have hl : p.level < p.model.length := by rw [hp.len]; exact hp.lvl
        rw [List.getElem?_eq_getElem hl]
        simp
      · simp at h
    · obtain ⟨hs, hne⟩ := (mem_descend (by omega)).1 h
      by_contra hno
      push Not at hno
      apply hne
      apply List.ext_getElem?
      intro i
      by_cases hi : i < c.level
      · exact (hs.2 i hi).symm
      · rw [hno i (by omega)]
        exact (Made.suffix ⟨p, f, hp, hb⟩ i (by omega)).symm

/-- The full claim is that the list of `SelectModel` contains the best models, as many as it can hold.
Proved: a model no bound on the way to which exceeds the best criterion value is in the list with its own fit and score,
unless the list is full of models that are at least as good. -/
theorem C118_listed_partial (S : Search α) (M : Int) (hM : 2 ≤ M) (pre : List (Node α)) (hr : RowSafe S)
    (s : SState α) (h : SelectReaches S M pre s) (hd : s.main = .done) (ht : s.torn = false) (ho : s.overflows = 0)
    (m : List Bool) (hm : Candidate S m) (hroot : m ≠ S.root)
    (hway : ∀ l, 0 < l → l ≤ S.ncols → (∃ i, l ≤ i + 1 ∧ m[i]? ≠ S.root[i]?) → wayBound S m l ≤ -s.hs.bestScore) :
    (∃ n ∈ s.hs.items, n.model = m ∧ n.score = -aiccOf S m ∧ n.coeff = S.fit m) ∨
      (M - 1 ≤ s.hs.len ∧ ∀ n ∈ s.hs.items, -aiccOf S m ≤ n.score) := by
  have hi := SInv.reach (by omega : M ≠ 1) h
  rcases all_found hM hr h hd ht ho m hm hroot with ⟨n, hn, rfl⟩ | ⟨-, c, h2, h3, h4⟩
  · obtain ⟨a, b⟩ := hi.logOk n hn
    obtain ⟨-, -, h3, -⟩ := madeScored_spec a b
    obtain ⟨h5, h6⟩ := h3 hm.2.1
    have hmem : n ∈ pre ++ s.log := List.mem_append_right _ hn
    by_cases hin : n ∈ s.hs.items
    · exact Or.inl ⟨n, hin, rfl, h5, h6⟩
    · right
      refine ⟨?_, fun x hx => ?_⟩
      · apply (C09_top_scores M _ s.hs hi.hist).2
        by_contra hge
        have hsub := C09_order M _ s.hs hi.hist
        have hle := hsub.length_le
        rw [ranking_length] at hle
        have := hsub.eq_of_length (by rw [ranking_length]; unfold Highscore.len at hge; omega)
        rw [this] at hin
        exact hin (mem_ranking.2 hmem)
      · have := C09_dropped_not_better M _ s.hs hi.hist n x hmem hin hx
        rw [h5] at this
        exact this
  · exfalso
    obtain ⟨h5, h6, h7⟩ := made_way h2 hi.rootLen h3
    have := hway c.level h6 h2.level.2 h7
    rw [h5] at h4
    exact absurd this (not_le.2 h4)

/-- All bounds of `exSearch` are 1, so every model is listed. -/
example : ∃ s, SelectReaches exSearch 20 [] s ∧ s.main = .done ∧
    ∀ m, Candidate exSearch m → ∃ n ∈ s.hs.items, n.model = m ∧ n.score = -aiccOf exSearch m := by
  obtain ⟨s, h1, h2⟩ := sstart_ex (S := exSearch) (M := 20) exSchedule
    (fun s => decide (s.main = .done ∧ s.torn = false ∧ s.overflows = 0 ∧ s.hs.bestScore = -1 ∧ s.hs.len = 7))
    (by decide +kernel)
  obtain ⟨a, b, c, d, e⟩ := of_decide_eq_true h2
  refine ⟨s, h1, a, fun m hm => ?_⟩
  rcases C118_listed_partial exSearch 20 (by decide) [] (Or.inl rfl) s h1 a b c m hm (by
    rintro rfl
    exact absurd hm.2.1 (by decide)) (fun l _ _ _ => by
      rw [d]
      unfold wayBound
      split
      · exact le_rfl
      · decide) with ⟨n, h3, h4, h5, -⟩ | ⟨h3, -⟩
  · exact ⟨n, h3, h4, h5⟩
  · rw [e] at h3
    exact absurd h3 (by decide)

/-- The bound of a complete model is its criterion. -/
theorem boundsAICC_complete (svd : Mat ℝ → SVD ℝ) (X : Mat ℝ) (y : List ℝ) (hy : y.length = X.nr) {m : List Bool}
    (hlen : m.length = X.nc) (hpos : 0 < card m) (hrows : card m < X.nr) :
    ∃ c r, fitModel svd X y m = some (c, r) ∧
      boundsAICC svd m m.length X y = some (aicc (card m) X.nr r, aicc (card m) X.nr r) := by
  obtain ⟨c, hc, -⟩ := fitModel_eq_some (svd := svd) hy hpos hlen.le
  refine ⟨c, _, hc, ?_⟩
  obtain ⟨g, hg, hg1, -⟩ := C01_gcs_greatest m m.length le_rfl
  obtain ⟨l, hl, hl1, -⟩ := C01_lcs_least m m.length le_rfl
  have same : ∀ x, SamePrefix m.length m x → x = m := by
    intro x hx
    apply List.ext_getElem?
    intro i
    by_cases hi : i < m.length
    · exact (hx.2 i hi).symm
    · rw [List.getElem?_eq_none (by have := hx.1; omega), List.getElem?_eq_none (by omega)]
  rw [same g hg1] at hg
  rw [same l hl1] at hl
  simp [boundsAICC, bounds, hg, hl, boundsRssLcs, boundsRssGcs, numFeatures_eq_card, hpos, hrows, hc, hy]

/-- Why models are missing: with a non-empty list a model that differs from its parent in the last column is dropped
exactly if its own AICc exceeds the best one, however short the list is. -/
theorem C118_last_column (svd : Mat ℝ → SVD ℝ) (X : Mat ℝ) (y : List ℝ) (hy : y.length = X.nr) (root : List Bool)
    (maxQueue : Int) (cutoff : ℝ) (p : Node ℝ) (hlen : p.model.length = X.nc) (hlev : p.level + 1 = X.nc)
    (h : Highscore ℝ) (hne : 0 < h.len)
    (hpos : 0 < card (p.model.set p.level (!p.model[p.level])))
    (hrows : card (p.model.set p.level (!p.model[p.level])) < X.nr) :
    createChild (regressionSearch svd X y root maxQueue cutoff) p true h = some none ↔
      -h.bestScore < aiccOf (regressionSearch svd X y root maxQueue cutoff) (p.model.set p.level (!p.model[p.level])) := by
  have hrule := C18_prune_rule_partial (regressionSearch svd X y root maxQueue cutoff) p true h (by omega)
  simp only [if_true] at hrule
  rw [hrule]
  have hl : (p.model.set p.level (!p.model[p.level])).length = X.nc := by rw [List.length_set]; exact hlen
  obtain ⟨c, r, hf, hb⟩ := boundsAICC_complete svd X y hy hl hpos hrows
  rw [hl, ← hlev] at hb
  have e1 : (regressionSearch svd X y root maxQueue cutoff).bounds (p.model.set p.level (!p.model[p.level])) (p.level + 1) =
      (aicc (card (p.model.set p.level (!p.model[p.level]))) X.nr r,
        aicc (card (p.model.set p.level (!p.model[p.level]))) X.nr r) := by
    simp [regressionSearch, hb]
  have e2 : aiccOf (regressionSearch svd X y root maxQueue cutoff) (p.model.set p.level (!p.model[p.level])) =
      aicc (card (p.model.set p.level (!p.model[p.level]))) X.nr r := by
    simp [aiccOf, regressionSearch, regressionProblem, hf]
  rw [if_pos hpos, e1, e2]
  have : ¬ (regressionSearch svd X y root maxQueue cutoff).nrows ≤ card (p.model.set p.level (!p.model[p.level])) :=
    not_le.2 hrows
  simp [this, hne]

/-- 3 columns: `[false, true, false]` has criterion 1, `[false, false, true]` has 2, all other models have 5; the bounds are
exact for complete models and loose for all others. -/
def secondSearch : Search Int := { exSearch with
  rss := fun m => if m = [false, true, false] then 1 else if m = [false, false, true] then 2 else 5
  bounds := fun m l => if l = 3 then
      (if m = [false, true, false] then 1 else if m = [false, false, true] then 2 else 5,
        if m = [false, true, false] then 1 else if m = [false, false, true] then 2 else 5)
    else (-100, 100) }

theorem secondSearch_crit (m : List Bool) : 1 ≤ aiccOf secondSearch m := by
  simp only [aiccOf, secondSearch, exSearch]
  split
  · decide
  · split <;> decide

theorem secondSearch_bounds : ValidBounds secondSearch := by
  refine ⟨fun p l m hp _ _ hs hm => ?_, fun m _ => ?_⟩
  · by_cases hl : l = 3
    · have hp' : p.length = 3 := hp
      have : p = m := by
        apply List.ext_getElem?
        intro i
        by_cases hi : i < 3
        · exact hs.2 i (by omega)
        · rw [List.getElem?_eq_none (by omega), List.getElem?_eq_none (by have := hs.1; omega)]
      subst this hl
      simp [secondSearch, aiccOf, exSearch]
    · have : (secondSearch.bounds p l).1 = -100 := by simp [secondSearch, hl]
      rw [this]
      have := secondSearch_crit m
      omega
  · have h1 := secondSearch_crit m
    have h2 : secondSearch.huge = 100 := rfl
    omega

/-- The full claim is false: the second best model is missing from a list with room for it, which contains worse models. -/
theorem C118_refuted : ValidBounds secondSearch ∧ RowSafe secondSearch ∧
    (∀ m, m.length = 3 → (secondSearch.bounds m 3).1 = aiccOf secondSearch m) ∧
    ∃ s, SelectReaches secondSearch 20 [] s ∧ s.main = .done ∧ s.torn = false ∧ s.overflows = 0 ∧
      s.hs.items.map (·.model) = [[false, true, false], [true, false, false], [true, true, false]] ∧
      s.hs.scores = [-1, -5, -5] ∧ Candidate secondSearch [false, false, true] ∧
      aiccOf secondSearch [false, false, true] = 2 := by
  refine ⟨secondSearch_bounds, Or.inl rfl, fun m _ => ?_, ?_⟩
  · simp [secondSearch, aiccOf, exSearch]
  obtain ⟨s, h1, h2⟩ := sstart_ex (S := secondSearch) (M := 20)
    (match sinit secondSearch (newHighscore 20) with
      | some s => greedy secondSearch s 200
      | none => [])
    (fun s => decide (s.main = .done ∧ s.torn = false ∧ s.overflows = 0 ∧
      s.hs.items.map (·.model) = [[false, true, false], [true, false, false], [true, true, false]] ∧
      s.hs.scores = [-1, -5, -5])) (by decide +kernel)
  obtain ⟨a, b, c, d, e⟩ := of_decide_eq_true h2
  exact ⟨s, h1, a, b, c, d, e, by unfold Candidate; decide, by decide⟩

/-- The last column of three: the model with columns 0 and 2, whose parent has column 0 only, is dropped if and only if its
AICc exceeds the best one. -/
example (h : Highscore ℝ) (hne : 0 < h.len) :
    createChild (regressionSearch orthSvd (unitX 5 3) [1, 2, 3, 4, 5] [false, false, false] 10 0)
      (Node.mk [true, false, false] [] 2 0 0 0 false) true h = some none ↔
    -h.bestScore < aiccOf (regressionSearch orthSvd (unitX 5 3) [1, 2, 3, 4, 5] [false, false, false] 10 0)
      [true, false, true] :=
  C118_last_column orthSvd (unitX 5 3) [1, 2, 3, 4, 5] rfl _ _ _ (Node.mk [true, false, false] [] 2 0 0 0 false) rfl rfl h
    hne (show 0 < card [true, false, true] by decide) (show card [true, false, true] < 5 by decide)

section

theorem eq_replicate_of_card {m : List Bool} {n : Nat} (hl : m.length = n) (h0 : card m = 0) :
    m = List.replicate n false := by
  rw [List.eq_replicate_iff]
  refine ⟨hl, fun b hb => ?_⟩
  cases b with
  | false => rfl
  | true =>
    rw [card_eq_count, List.count_eq_zero] at h0
    exact absurd hb h0

/-- With more rows than columns, started from the empty model and an empty list, `SelectModel` and `BruteForceSelect` end
with the same best score. -/
theorem C119_best_score (S : Search α) (hroot : S.root = List.replicate S.ncols false) (hrows : S.ncols < S.nrows)
    (hv : ValidBounds S) (M : Int) (hM : 2 ≤ M) (s : SState α) (h : SelectReaches S M [] s) (hd : s.main = .done)
    (ht : s.torn = false) (ho : s.overflows = 0) (hb : Highscore α) (hbf : BruteForceReturns S.toProblem hb) :
    0 < s.hs.len ∧ s.hs.bestScore = hb.bestScore := by
  have hi := SInv.reach (by omega : M ≠ 1) h
  have hc : 3 ≤ S.ncols := by
    obtain ⟨hs, s₀, -, h2, -⟩ := h
    unfold sinit at h2
    split at h2
    · cases h2
    · omega
  obtain ⟨⟨m, h1, h2, h3⟩, h4⟩ := C07_best S.toProblem (by omega) hb hbf
  have hcard : ∀ m : List Bool, m.length = S.ncols → card m < S.nrows := by
    intro m hm
    have : card m ≤ m.length := by rw [card_eq_count]; exact List.count_le_length
    omega
  have hnr : ∀ m : List Bool, 0 < card m → m ≠ S.root := by
    rintro m h0 rfl
    rw [hroot] at h0
    have : card (List.replicate S.ncols false) = 0 := by
      rw [card_eq_count, List.count_eq_zero]
      intro hb
      exact absurd (List.eq_of_mem_replicate hb) (by decide)
    omega
  obtain ⟨h5, h6⟩ := all_beaten hM (hv.safe []).upTo (Or.inl hroot) h hd ht ho m ⟨h1, h2, hcard m h1⟩ (hnr m h2)
  have hlen : 0 < s.hs.len := List.length_pos_of_ne_nil h5
  refine ⟨hlen, le_antisymm ?_ ?_⟩
  · rcases C12_best_is_real S M hM [] s h hlen with ⟨n, hn, -⟩ | ⟨m', h7, h8, -, h9⟩
    · simp at hn
    · rcases h9 with ⟨h9, h10⟩ | ⟨h9, -⟩
      · rw [h10]
        exact h4 m' h7 h9
      · exact absurd ((eq_replicate_of_card h7 h9).trans hroot.symm) h8
  · rw [h3]
    exact h6

/-- If moreover no two models have the same AICc, the two lists begin with the same model, fit and score. -/
theorem C119_best_model (S : Search α) (hroot : S.root = List.replicate S.ncols false) (hrows : S.ncols < S.nrows)
    (hv : ValidBounds S) (M : Int) (hM : 2 ≤ M) (s : SState α) (h : SelectReaches S M [] s) (hd : s.main = .done)
    (ht : s.torn = false) (ho : s.overflows = 0) (hb : Highscore α) (hbf : BruteForceReturns S.toProblem hb)
    (hinj : ∀ m m', Candidate S m → Candidate S m' → -aiccOf S m = -aiccOf S m' → m = m') :
    ∃ a b, s.hs.items.head? = some a ∧ hb.items.head? = some b ∧ a.model = b.model ∧ a.coeff = b.coeff ∧
      a.score = b.score := by
  obtain ⟨hlen, he⟩ := C119_best_score S hroot hrows hv M hM s h hd ht ho hb hbf
  have hcard : ∀ m : List Bool, m.length = S.ncols → card m < S.nrows := by
    intro m hm
    have : card m ≤ m.length := by rw [card_eq_count]; exact List.count_le_length
    omega
  cases ha : s.hs.items with
  | nil => simp [Highscore.len, ha] at hlen
  | cons a as =>
    cases hbi : hb.items with
    | nil =>
      obtain ⟨h', hr', -, -, h1⟩ := C06_every_model_once S.toProblem
      cases hbf.unique hr'
      rw [Highscore.len, hbi] at h1
      have hc : S.ncols = 0 := by
        by_contra hne
        have := Nat.pow_le_pow_right (n := 2) (by omega) (show 1 ≤ S.ncols by omega)
        simp at h1
        omega
      obtain ⟨hs, s₀, -, h2, -⟩ := h
      unfold sinit at h2
      rw [if_pos (by omega)] at h2
      cases h2
    | cons b bs =>
      have e1 : s.hs.bestScore = a.score := by simp [Highscore.bestScore, ha]
      have e2 : hb.bestScore = b.score := by simp [Highscore.bestScore, hbi]
      have ha' : a ∈ s.hs.items := by simp [ha]
      have hb' : b ∈ hb.items := by simp [hbi]
      obtain ⟨l1, l2, l3⟩ := (C13_each_model_once S M (by omega) s h).2 a ha'
      have hap : 0 < card a.model := by
        rcases Nat.eq_zero_or_pos (card a.model) with h0 | h0
        · exact absurd ((eq_replicate_of_card l1 h0).trans hroot.symm) l2
        · exact h0
      obtain ⟨p1, p2⟩ := (C13_own_score S M (by omega) s h a ha').1 hap
      obtain ⟨q1, q2⟩ := C06_own_score S.toProblem hb hbf b hb'
      obtain ⟨h', hr', -, h1, -⟩ := C06_every_model_once S.toProblem
      cases hbf.unique hr'
      obtain ⟨b1, b2⟩ := (h1 b.model).1 (List.mem_map_of_mem hb')
      have hab : a.model = b.model := by
        refine hinj _ _ ⟨l1, hap, l3⟩ ⟨b1, b2, hcard _ b1⟩ ?_
        have : a.score = b.score := by rw [← e1, ← e2]; exact he
        rw [p1, q2] at this
        exact this
      exact ⟨a, b, rfl, rfl, hab, by rw [p2, q1, hab], by rw [← e1, ← e2]; exact he⟩

/-- The same for data: `SelectModel` and `BruteForceSelect` on the same `X` and `y`. -/
theorem C119_regression (svd : Mat ℝ → SVD ℝ) (X : Mat ℝ) (y : List ℝ) (hdata : GoodData svd X y) (hrows : X.nc < X.nr)
    (maxQueue : Int) (cutoff : ℝ) (M : Int) (hM : 2 ≤ M) (s : SState ℝ)
    (h : SelectReaches (regressionSearch svd X y (List.replicate X.nc false) maxQueue cutoff) M [] s)
    (hd : s.main = .done) (ht : s.torn = false) (ho : s.overflows = 0) (hb : Highscore ℝ)
    (hbf : BruteForceReturns (regressionProblem svd X y) hb) : 0 < s.hs.len ∧ s.hs.bestScore = hb.bestScore :=
  C119_best_score (regressionSearch svd X y (List.replicate X.nc false) maxQueue cutoff) rfl hrows
    (hdata.validBounds _ _ _) M hM s h hd ht ho hb hbf

/-- Both searches find the model `[false, true, false]` of `exSearch`. -/
example : ∃ s hb, SelectReaches exSearch 20 [] s ∧ s.main = .done ∧ BruteForceReturns exSearch.toProblem hb ∧
    s.hs.bestScore = hb.bestScore ∧ s.hs.bestScore = -1 := by
  obtain ⟨s, h1, h2⟩ := sstart_ex (S := exSearch) (M := 20) exSchedule
    (fun s => decide (s.main = .done ∧ s.torn = false ∧ s.overflows = 0 ∧ s.hs.bestScore = -1)) (by decide +kernel)
  obtain ⟨a, b, c, d⟩ := of_decide_eq_true h2
  obtain ⟨hb, hr, -⟩ := C06_every_model_once exSearch.toProblem
  exact ⟨s, hb, h1, a, hr, (C119_best_score exSearch rfl (by decide) exSearch_bounds 20 (by decide) s h1 a b c hb hr).2, d⟩

/-- Seven different values of the criterion. -/
def binarySearch : Search Int := { exSearch with
  rss := fun m => if m.getD 0 false then (if m.getD 1 false then (if m.getD 2 false then 4 else 3) else
      (if m.getD 2 false then 7 else 2)) else (if m.getD 1 false then (if m.getD 2 false then 6 else 1) else 5)
  bounds := fun _ _ => (1, 7) }

theorem binarySearch_bounds : ValidBounds binarySearch := by
  have h : ∀ m, 1 ≤ aiccOf binarySearch m := by
    intro m
    simp only [aiccOf, binarySearch, exSearch]
    generalize m.getD 0 false = a
    generalize m.getD 1 false = b
    generalize m.getD 2 false = c
    cases a <;> cases b <;> cases c <;> decide
  refine ⟨fun p l m _ _ _ _ _ => h m, fun m _ => ?_⟩
  have h1 := h m
  have h2 : binarySearch.huge = 100 := rfl
  omega

theorem binarySearch_inj (m m' : List Bool) (hm : Candidate binarySearch m) (hm' : Candidate binarySearch m')
    (h : -aiccOf binarySearch m = -aiccOf binarySearch m') : m = m' := by
  have key : ∀ m : List Bool, m.length = 3 → ∃ a b c, m = [a, b, c] := by
    intro m hl
    rcases m with _ | ⟨a, _ | ⟨b, _ | ⟨c, _ | ⟨d, m⟩⟩⟩⟩
    · simp at hl
    · simp at hl
    · simp at hl
    · exact ⟨a, b, c, rfl⟩
    · simp at hl
  obtain ⟨a, b, c, rfl⟩ := key m hm.1
  obtain ⟨a', b', c', rfl⟩ := key m' hm'.1
  have h1 := hm.2.1
  have h2 := hm'.2.1
  clear hm hm'
  revert h h1 h2
  revert a b c a' b' c'
  decide

/-- The lists of both searches begin with the same node. -/
example : ∃ s hb a b, SelectReaches binarySearch 20 [] s ∧ s.main = .done ∧ BruteForceReturns binarySearch.toProblem hb ∧
    s.hs.items.head? = some a ∧ hb.items.head? = some b ∧ a.model = b.model ∧ a.coeff = b.coeff ∧ a.score = b.score := by
  obtain ⟨s, h1, h2⟩ := sstart_ex (S := binarySearch) (M := 20)
    (match sinit binarySearch (newHighscore 20) with
      | some s => greedy binarySearch s 200
      | none => [])
    (fun s => decide (s.main = .done ∧ s.torn = false ∧ s.overflows = 0)) (by decide +kernel)
  obtain ⟨a, b, c⟩ := of_decide_eq_true h2
  obtain ⟨hb, hr, -⟩ := C06_every_model_once binarySearch.toProblem
  obtain ⟨x, y, h⟩ := C119_best_model binarySearch rfl (by decide) binarySearch_bounds 20 (by decide) s h1 a b c hb hr
    binarySearch_inj
  exact ⟨s, hb, x, y, h1, a, hr, h⟩

end

end GoSelect
