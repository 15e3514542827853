import Verif.Model.Equality
import Verif.Proofs.MapM
import Mathlib.Tactic.NormNum
import Mathlib.Tactic.Positivity
import Mathlib.Tactic.Linarith
import Mathlib.Algebra.Order.Ring.Rat
import Mathlib.Algebra.Order.Ring.Abs
import Mathlib.Data.Rat.Lemmas
import Mathlib.Algebra.Order.Field.Rat

/-!
C47: equality tests.

Reflexivity, symmetry and the absence of panics hold.  Soundness holds for the fields that are
compared, but `WasFlipped` and the column names are not among them (`C47_refuted_flip`,
`C47_refuted_names`), and a NaN score equals every score (`C47_refuted_nan`).
-/

namespace GoSelect

variable {K : Type} [Field K] [LinearOrder K] [IsStrictOrderedRing K]

/-- Two numbers that agree within `tol`, absolutely or relative to the larger one. -/
def Close (tol : K) (a b : K) : Prop := |a - b| ≤ tol ∨ |a - b| ≤ tol * max |a| |b|

theorem eqTol_pos : (0 : K) < eqTol := by unfold eqTol; positivity

omit [IsStrictOrderedRing K] in
theorem absDiffGt_symm (tol : K) (a b : Fl K) : absDiffGt tol a b = absDiffGt tol b a := by
  cases a <;> cases b <;> simp [absDiffGt, abs_sub_comm]

omit [IsStrictOrderedRing K] in
theorem eqWithin_symm (tol : K) (a b : Fl K) : eqWithin tol a b = eqWithin tol b a := by
  cases a <;> cases b <;> simp [eqWithin, abs_sub_comm, max_comm, eq_comm]

theorem absDiffGt_refl (a : Fl K) : absDiffGt eqTol a a = false := by
  cases a <;> simp [absDiffGt, eqTol_pos.le]

omit [IsStrictOrderedRing K] in
theorem eqWithin_refl (tol : K) (a : Fl K) (h : a ≠ .nan) : eqWithin tol a a = true := by
  cases a <;> simp_all [eqWithin]

theorem absDiffGt_false {tol a b : K} : absDiffGt tol (.fin a) (.fin b) = false ↔ |a - b| ≤ tol := by
  simp [absDiffGt]

theorem eqWithin_close {a b : K} (h : eqWithin eqTol (.fin a) (.fin b) = true) : Close eqTol a b := by
  simp only [eqWithin, Bool.or_eq_true, decide_eq_true_eq] at h
  rcases h with (h | h) | h
  · left; rw [h, sub_self, abs_zero]; exact eqTol_pos.le
  · exact .inl h
  · rcases eq_or_lt_of_le (show 0 ≤ max |a| |b| from le_max_of_le_left (abs_nonneg a)) with h0 | h0
    · left
      have ha : a = 0 := by
        have := le_max_left |a| |b|
        rw [← h0] at this
        exact abs_nonpos_iff.1 this
      have hb : b = 0 := by
        have := le_max_right |a| |b|
        rw [← h0] at this
        exact abs_nonpos_iff.1 this
      rw [ha, hb, sub_zero, abs_zero]; exact eqTol_pos.le
    · exact .inr ((div_le_iff₀ h0).1 h)

theorem close_eqWithin {a b : K} (h : Close eqTol a b) : eqWithin eqTol (.fin a) (.fin b) = true := by
  simp only [eqWithin, Bool.or_eq_true, decide_eq_true_eq]
  rcases h with h | h
  · exact .inl (.inr h)
  · by_cases h0 : 0 < max |a| |b|
    · exact .inr ((div_le_iff₀ h0).2 h)
    · left; right
      have : max |a| |b| ≤ 0 := not_lt.1 h0
      have h2 : eqTol * max |a| |b| ≤ 0 := mul_nonpos_of_nonneg_of_nonpos eqTol_pos.le this
      exact (h.trans h2).trans eqTol_pos.le

omit [IsStrictOrderedRing K] in
theorem equalApprox_iff (tol : K) (s1 s2 : List (Fl K)) : equalApprox tol s1 s2 = true ↔
    s1.length = s2.length ∧ ∀ i < s1.length, eqWithin tol (s1.getD i (.fin 0)) (s2.getD i (.fin 0)) = true := by
  unfold equalApprox
  by_cases h : s1.length = s2.length <;> simp [h]

omit [IsStrictOrderedRing K] in
theorem equalApprox_symm (tol : K) (s1 s2 : List (Fl K)) : equalApprox tol s1 s2 = equalApprox tol s2 s1 := by
  rw [Bool.eq_iff_iff, equalApprox_iff, equalApprox_iff]
  constructor
  · rintro ⟨h1, h2⟩
    exact ⟨h1.symm, fun i hi => by rw [eqWithin_symm]; exact h2 i (by omega)⟩
  · rintro ⟨h1, h2⟩
    exact ⟨h1.symm, fun i hi => by rw [eqWithin_symm]; exact h2 i (by omega)⟩

omit [IsStrictOrderedRing K] in
theorem equalApprox_refl (tol : K) (s : List (Fl K)) (h : Fl.nan ∉ s) : equalApprox tol s s = true := by
  rw [equalApprox_iff]
  refine ⟨rfl, fun i hi => eqWithin_refl _ _ ?_⟩
  rw [List.getD_eq_getElem?_getD, List.getElem?_eq_getElem hi]
  intro e
  exact h (e ▸ List.getElem_mem hi)

omit [IsStrictOrderedRing K] in
theorem nodesEqual_iff (a b : Node (Fl K)) : nodesEqual a b = true ↔
    a.model = b.model ∧ a.level = b.level ∧ absDiffGt eqTol a.lower b.lower = false ∧
    absDiffGt eqTol a.upper b.upper = false ∧ absDiffGt eqTol a.score b.score = false ∧
    equalApprox eqTol a.coeff b.coeff = true := by
  unfold nodesEqual
  by_cases hl : a.model.length = b.model.length
  · by_cases hv : a.level = b.level
    · have key : ((List.range a.model.length).any (fun i =>
          a.model.getD i false != b.model.getD i false)) = false ↔ a.model = b.model := by
        rw [List.any_eq_false]
        constructor
        · intro h
          apply List.ext_getElem hl
          intro i h1 h2
          have := h i (List.mem_range.2 h1)
          simpa [List.getElem?_eq_getElem h1, List.getElem?_eq_getElem h2] using this
        · intro h i _
          simp [h]
      by_cases hm : a.model = b.model
      · rw [if_neg (by simp [hl]), if_neg (by simp [hv]), key.2 hm]
        simp only [Bool.false_eq_true, if_false, hm, hv, true_and]
        by_cases hd : (absDiffGt eqTol a.lower b.lower || absDiffGt eqTol a.upper b.upper ||
            absDiffGt eqTol a.score b.score) = true
        · rw [if_pos hd]
          simp only [Bool.or_eq_true] at hd
          constructor
          · intro h; exact absurd h (by simp)
          · rintro ⟨h1, h2, h3, -⟩
            rw [h1, h2, h3] at hd
            simp at hd
        · rw [if_neg hd]
          simp only [Bool.or_eq_true, not_or, Bool.not_eq_true] at hd
          cases hc : equalApprox eqTol a.coeff b.coeff <;> simp [hd]
      · rw [if_neg (by simp [hl]), if_neg (by simp [hv]), if_pos]
        · simp [hm]
        · rw [← Bool.not_eq_false, key]; exact hm
    · simp [hl, hv]
  · have : a.model ≠ b.model := fun h => hl (by rw [h])
    simp [hl, this]

/-- **C47 (nodes, reflexive).** Every node without NaN coefficients equals itself. -/
theorem C47_nodes_refl (a : Node (Fl K)) (h : Fl.nan ∉ a.coeff) : nodesEqual a a = true := by
  rw [nodesEqual_iff]
  exact ⟨rfl, rfl, absDiffGt_refl _, absDiffGt_refl _, absDiffGt_refl _, equalApprox_refl _ _ h⟩

/-- **C47 (nodes, symmetric).** -/
theorem C47_nodes_symm (a b : Node (Fl K)) : nodesEqual a b = nodesEqual b a := by
  rw [Bool.eq_iff_iff, nodesEqual_iff, nodesEqual_iff, absDiffGt_symm, absDiffGt_symm _ a.upper,
    absDiffGt_symm _ a.score, equalApprox_symm, @eq_comm _ a.model, @eq_comm _ a.level]

/-- The node with all numbers finite. -/
def finNode (a : Node K) : Node (Fl K) :=
  ⟨a.model, a.coeff.map .fin, a.level, .fin a.lower, .fin a.upper, .fin a.score, a.wasFlipped⟩

/-- **C47 (nodes, sound; partial).** For finite numbers equality means: same model, same level,
bounds and score within `1e-10`, as many coefficients, and these within `1e-10` absolutely or
relatively.  Missing: `WasFlipped`, which is not compared. -/
theorem C47_nodes_sound_partial (a b : Node K) : nodesEqual (finNode a) (finNode b) = true ↔
    a.model = b.model ∧ a.level = b.level ∧ |a.lower - b.lower| ≤ 1 / 10 ^ 10 ∧
    |a.upper - b.upper| ≤ 1 / 10 ^ 10 ∧ |a.score - b.score| ≤ 1 / 10 ^ 10 ∧
    a.coeff.length = b.coeff.length ∧
    ∀ (i : Nat) (x y : K), a.coeff[i]? = some x → b.coeff[i]? = some y → Close (1 / 10 ^ 10) x y := by
  rw [nodesEqual_iff]
  simp only [finNode, absDiffGt_false, equalApprox_iff, List.length_map]
  change _ ∧ _ ∧ |a.lower - b.lower| ≤ eqTol ∧ |a.upper - b.upper| ≤ eqTol ∧ |a.score - b.score| ≤ eqTol ∧ _ ↔ _
  have key : ∀ hl : a.coeff.length = b.coeff.length,
      (∀ i < a.coeff.length, eqWithin eqTol ((a.coeff.map Fl.fin).getD i (.fin 0))
        ((b.coeff.map Fl.fin).getD i (.fin 0)) = true) ↔
      ∀ (i : Nat) (x y : K), a.coeff[i]? = some x → b.coeff[i]? = some y → Close eqTol x y := by
    intro hl
    constructor
    · intro h i x y hx hy
      obtain ⟨h1, -⟩ := List.getElem?_eq_some_iff.1 hx
      have := h i h1
      rw [List.getD_eq_getElem?_getD, List.getD_eq_getElem?_getD, List.getElem?_map, List.getElem?_map,
        hx, hy] at this
      exact eqWithin_close this
    · intro h i hi
      have h1 := List.getElem?_eq_getElem hi
      have h2 := List.getElem?_eq_getElem (hl ▸ hi : i < b.coeff.length)
      rw [List.getD_eq_getElem?_getD, List.getD_eq_getElem?_getD, List.getElem?_map, List.getElem?_map,
        h1, h2]
      exact close_eqWithin (h i _ _ h1 h2)
  constructor
  · rintro ⟨h1, h2, h3, h4, h5, h6, h7⟩
    exact ⟨h1, h2, h3, h4, h5, h6, (key h6).1 h7⟩
  · rintro ⟨h1, h2, h3, h4, h5, h6, h7⟩
    exact ⟨h1, h2, h3, h4, h5, h6, (key h6).2 h7⟩

omit [IsStrictOrderedRing K] in
theorem highscoreEqualLoop_some (l1 l2 : List (Node (Fl K))) (h : l1.length = l2.length) :
    ∃ v, highscoreEqualLoop l1 l2 = some v ∧
      (v = true ↔ ∀ (i : Nat) (a b : Node (Fl K)), l1[i]? = some a → l2[i]? = some b → nodesEqual a b = true) := by
  induction l1 generalizing l2 with
  | nil => exact ⟨true, rfl, by simp⟩
  | cons a l1 ih =>
    cases l2 with
    | nil => simp at h
    | cons b l2 =>
      rw [highscoreEqualLoop]
      by_cases hab : nodesEqual a b = true
      · rw [if_neg (by simp [hab])]
        obtain ⟨v, h1, h2⟩ := ih l2 (by simpa using h)
        refine ⟨v, h1, ?_⟩
        rw [h2]
        constructor
        · intro hh i x y hx hy
          cases i with
          | zero =>
            simp only [List.getElem?_cons_zero, Option.some.injEq] at hx hy
            rw [← hx, ← hy]; exact hab
          | succ i => exact hh i x y (by simpa using hx) (by simpa using hy)
        · intro hh i x y hx hy
          exact hh (i + 1) x y (by simpa using hx) (by simpa using hy)
      · rw [if_pos (by simpa using hab)]
        refine ⟨false, rfl, ?_⟩
        simp only [Bool.false_eq_true, false_iff]
        intro hh
        exact hab (hh 0 a b rfl rfl)

/-- **C47 (lists).** `Highscore.Equal` never panics and accepts exactly lists with the same capacity
and length whose nodes are pairwise equal. -/
theorem C47_list_sound (h h2 : Highscore (Fl K)) : ∃ v, highscoreEqual h h2 = some v ∧
    (v = true ↔ h.maxItems = h2.maxItems ∧ h.items.length = h2.items.length ∧
      ∀ (i : Nat) (a b : Node (Fl K)), h.items[i]? = some a → h2.items[i]? = some b →
        nodesEqual a b = true) := by
  unfold highscoreEqual
  by_cases hc : h.maxItems ≠ h2.maxItems ∨ h.len ≠ h2.len
  · rw [if_pos hc]
    refine ⟨false, rfl, ?_⟩
    simp only [Bool.false_eq_true, false_iff]
    rintro ⟨h1, h2, -⟩
    rcases hc with hc | hc
    · exact hc h1
    · exact hc h2
  · rw [if_neg hc]
    simp only [not_or, not_not] at hc
    obtain ⟨v, h1, h2⟩ := highscoreEqualLoop_some _ _ hc.2
    exact ⟨v, h1, by rw [h2]; have := hc.2; simp only [Highscore.len] at this; simp [hc.1, this]⟩

/-- **C47 (lists, reflexive and symmetric).** -/
theorem C47_list_refl_symm (h h2 : Highscore (Fl K)) :
    ((∀ a ∈ h.items, Fl.nan ∉ a.coeff) → highscoreEqual h h = some true) ∧
    highscoreEqual h h2 = highscoreEqual h2 h := by
  constructor
  · intro hn
    obtain ⟨v, h1, h2⟩ := C47_list_sound h h
    rw [h1, Option.some.injEq, h2]
    refine ⟨rfl, rfl, ?_⟩
    intro i a b ha hb
    rw [ha, Option.some.injEq] at hb
    rw [← hb]
    exact C47_nodes_refl a (hn a (List.mem_of_getElem? ha))
  · obtain ⟨v, h1, h3⟩ := C47_list_sound h h2
    obtain ⟨w, g1, g3⟩ := C47_list_sound h2 h
    rw [h1, g1, Option.some.injEq, Bool.eq_iff_iff, h3, g3]
    constructor
    · rintro ⟨e1, e2, e3⟩
      exact ⟨e1.symm, e2.symm, fun i a b ha hb => by rw [C47_nodes_symm]; exact e3 i b a hb ha⟩
    · rintro ⟨e1, e2, e3⟩
      exact ⟨e1.symm, e2.symm, fun i a b ha hb => by rw [C47_nodes_symm]; exact e3 i b a hb ha⟩

omit [IsStrictOrderedRing K] in
theorem isEqual_iff (d o : Dataset (Fl K)) : isEqual d o = true ↔
    (d.X.nr = o.X.nr ∧ d.X.nc = o.X.nc ∧ d.Y.length = o.Y.length ∧ d.names.length = o.names.length ∧
      d.targetCol = o.targetCol) ∧ equalApprox eqTol d.Y o.Y = true ∧
    ∀ r c, r < d.X.nr → c < d.X.nc → eqWithin eqTol (d.X.get r c) (o.X.get r c) = true := by
  unfold isEqual
  by_cases h : d.X.nr ≠ o.X.nr ∨ d.X.nc ≠ o.X.nc ∨ d.Y.length ≠ o.Y.length ∨
      d.names.length ≠ o.names.length ∨ d.targetCol ≠ o.targetCol
  · rw [if_pos h]
    simp only [Bool.false_eq_true, false_iff]
    rintro ⟨⟨h1, h2, h3, h4, h5⟩, -⟩
    rcases h with h | h | h | h | h
    exacts [h h1, h h2, h h3, h h4, h h5]
  · rw [if_neg h]
    simp only [not_or, not_not] at h
    simp only [h, true_and, and_true]
    by_cases hy : equalApprox eqTol d.Y o.Y = true
    · simp only [hy, Bool.not_true, Bool.false_eq_true, if_false, true_and]
      by_cases hx : ((List.range o.X.nr).all (fun r => (List.range o.X.nc).all (fun c =>
          eqWithin eqTol (d.X.get r c) (o.X.get r c)))) = true
      · simp only [hx, Bool.not_true, Bool.false_eq_true, if_false, true_iff]
        simp only [List.all_eq_true, List.mem_range] at hx
        exact fun r c hr hc => hx r hr c hc
      · rw [if_pos (by simpa using hx)]
        simp only [Bool.false_eq_true, false_iff]
        intro hh
        apply hx
        simp only [List.all_eq_true, List.mem_range]
        exact fun r hr c hc => hh r c hr hc
    · rw [if_pos (by simpa using hy)]
      simp [hy]

/-- **C47 (data sets, reflexive and symmetric).** -/
theorem C47_data_refl_symm (d o : Dataset (Fl K)) :
    (Fl.nan ∉ d.Y → (∀ r c, r < d.X.nr → c < d.X.nc → d.X.get r c ≠ .nan) → isEqual d d = true) ∧
    isEqual d o = isEqual o d := by
  constructor
  · intro h1 h2
    rw [isEqual_iff]
    exact ⟨by simp, equalApprox_refl _ _ h1, fun r c hr hc => eqWithin_refl _ _ (h2 r c hr hc)⟩
  · rw [Bool.eq_iff_iff, isEqual_iff, isEqual_iff, equalApprox_symm]
    constructor
    · rintro ⟨⟨h1, h2, h3, h4, h5⟩, h6, h7⟩
      exact ⟨⟨h1.symm, h2.symm, h3.symm, h4.symm, h5.symm⟩, h6, fun r c hr hc => by
        rw [eqWithin_symm]; exact h7 r c (by omega) (by omega)⟩
    · rintro ⟨⟨h1, h2, h3, h4, h5⟩, h6, h7⟩
      exact ⟨⟨h1.symm, h2.symm, h3.symm, h4.symm, h5.symm⟩, h6, fun r c hr hc => by
        rw [eqWithin_symm]; exact h7 r c (by omega) (by omega)⟩

/-- **C47 (data sets, sound; partial).** An accepted pair of finite data sets agrees on dimensions,
target column, number of names, and on all numbers within `1e-10` (absolute or relative).  Missing:
the names themselves. -/
theorem C47_data_sound_partial (d o : Dataset (Fl K)) (h : isEqual d o = true) :
    d.X.nr = o.X.nr ∧ d.X.nc = o.X.nc ∧ d.targetCol = o.targetCol ∧ d.names.length = o.names.length ∧
    d.Y.length = o.Y.length ∧
    (∀ (i : Nat) (x y : K), d.Y[i]? = some (.fin x) → o.Y[i]? = some (.fin y) → Close (1 / 10 ^ 10) x y) ∧
    ∀ r c x y, r < d.X.nr → c < d.X.nc → d.X.get r c = .fin x → o.X.get r c = .fin y →
      Close (1 / 10 ^ 10) x y := by
  rw [isEqual_iff, equalApprox_iff] at h
  obtain ⟨⟨h1, h2, h3, h4, h5⟩, ⟨-, h6⟩, h7⟩ := h
  refine ⟨h1, h2, h5, h4, h3, ?_, ?_⟩
  · intro i x y hx hy
    obtain ⟨hi, -⟩ := List.getElem?_eq_some_iff.1 hx
    have := h6 i hi
    rw [List.getD_eq_getElem?_getD, List.getD_eq_getElem?_getD, hx, hy] at this
    exact eqWithin_close this
  · intro r c x y hr hc hx hy
    have := h7 r c hr hc
    rw [hx, hy] at this
    exact eqWithin_close this

/-- `WasFlipped` is not compared. -/
theorem C47_refuted_flip : ∃ a b : Node ℚ, nodesEqual (finNode a) (finNode b) = true ∧
    a.wasFlipped ≠ b.wasFlipped := by
  refine ⟨⟨[true, false], [2], 1, 0, 0, 3, true⟩, ⟨[true, false], [2], 1, 0, 0, 3, false⟩, ?_, by simp⟩
  rw [C47_nodes_sound_partial]
  refine ⟨rfl, rfl, by norm_num, by norm_num, by norm_num, rfl, ?_⟩
  intro i x y hx hy
  simp only at hx hy
  rw [hx, Option.some.injEq] at hy
  rw [hy]
  left
  norm_num

/-- Column names are not compared, only their number. -/
theorem C47_refuted_names : ∃ d o : Dataset (Fl ℚ), isEqual d o = true ∧ d.names ≠ o.names := by
  refine ⟨⟨⟨1, 1, fun _ _ => .fin 1⟩, [.fin 2], ["height", "weight"], 1⟩,
    ⟨⟨1, 1, fun _ _ => .fin 1⟩, [.fin 2], ["age", "income"], 1⟩, ?_, by decide⟩
  rw [isEqual_iff]
  refine ⟨by simp, equalApprox_refl _ _ (by simp), fun r c _ _ => eqWithin_refl _ _ (by simp)⟩

/-- A NaN score passes for equal to every score. -/
theorem C47_refuted_nan : ∃ a b : Node (Fl ℚ), nodesEqual a b = true ∧ a.score = .fin 3 ∧
    b.score = .nan := by
  refine ⟨⟨[true], [], 1, .fin 0, .fin 0, .fin 3, true⟩, ⟨[true], [], 1, .fin 0, .fin 0, .nan, true⟩,
    ?_, rfl, rfl⟩
  rw [nodesEqual_iff]
  exact ⟨rfl, rfl, absDiffGt_refl _, absDiffGt_refl _, rfl, rfl⟩

/-- The relation is not transitive: tolerances add up. -/
theorem C47_not_transitive : ∃ a b c : Node ℚ, nodesEqual (finNode a) (finNode b) = true ∧
    nodesEqual (finNode b) (finNode c) = true ∧ nodesEqual (finNode a) (finNode c) = false := by
  refine ⟨⟨[true], [], 1, 0, 0, 0, true⟩, ⟨[true], [], 1, 0, 0, 1 / 10 ^ 10, true⟩,
    ⟨[true], [], 1, 0, 0, 2 / 10 ^ 10, true⟩, ?_, ?_, ?_⟩
  · rw [C47_nodes_sound_partial]
    exact ⟨rfl, rfl, by norm_num, by norm_num, by norm_num, rfl, by simp⟩
  · rw [C47_nodes_sound_partial]
    refine ⟨rfl, rfl, by norm_num, by norm_num, ?_, rfl, by simp⟩
    simp only
    rw [abs_le]
    constructor <;> norm_num
  · rw [← Bool.not_eq_true, C47_nodes_sound_partial]
    rintro ⟨-, -, -, -, h, -⟩
    simp only at h
    rw [abs_le] at h
    norm_num at h

end GoSelect
