import Verif.Proofs.Redundant
import Verif.Proofs.SvdExists

/-!
# C156: redundant features are not selected
-/

namespace GoSelect

open Finset Spec

/-- **C156, criteria.** A model with at least two features, one of which is a linear combination of the others, has the
residual sum of squares of the model without that feature and larger values of all three criteria. -/
theorem C156_score (svd : Mat ℝ → SVD ℝ) (X : Mat ℝ) (y : List ℝ) (m : List Bool) (j : Nat) (hlen : m.length = X.nc)
    (hy : y.length = X.nr) (hred : Redundant X m j) (hcard : 1 < Spec.card m) (hex : ExactFit svd X m)
    (hex' : ExactFit svd X (m.set j false)) :
    ∃ c c' r, fitModel svd X y m = some (c, r) ∧ fitModel svd X y (m.set j false) = some (c', r) ∧
      aic (Spec.card (m.set j false)) X.nr r < aic (Spec.card m) X.nr r ∧
      aicc (Spec.card (m.set j false)) X.nr r < aicc (Spec.card m) X.nr r ∧
      (1 < X.nr → bic (Spec.card (m.set j false)) X.nr r < bic (Spec.card m) X.nr r) := by
  have hc := (without_feature hred.1).2
  obtain ⟨c, h1, -⟩ := fitModel_eq_some (svd := svd) (y := y) hy (show 0 < Spec.card m by omega) hlen.le
  obtain ⟨c', h2, -⟩ := fitModel_eq_some (svd := svd) (y := y) (m := m.set j false) hy (by omega) (by simpa using hlen.le)
  have hr := redundant_rss hlen hy hred hcard hex hex' h1 h2
  rw [hr] at h2
  have hk : Spec.card (m.set j false) < Spec.card m := by omega
  have hk' : (Spec.card (m.set j false) : ℝ) < Spec.card m := by exact_mod_cast hk
  refine ⟨c, c', _, h1, h2, ?_, aicc_strict hk _ _, fun hn => ?_⟩
  · unfold aic
    linarith
  · have : 0 < Real.log X.nr := Real.log_pos (by exact_mod_cast hn)
    unfold bic
    have := mul_lt_mul_of_pos_right hk' this
    linarith

/-- A redundant feature makes the score of a model worse than that of the model without it. -/
theorem redundant_score {svd : Mat ℝ → SVD ℝ} {X : Mat ℝ} {y : List ℝ} (hdata : GoodData svd X y) {m : List Bool} {j : Nat}
    (hlen : m.length = X.nc) (hred : Redundant X m j) (hcard : 1 < Spec.card m) (hrows : Spec.card m < X.nr) :
    -aicc (Spec.card m) X.nr ((regressionProblem svd X y).rss m) <
      -aicc (Spec.card (m.set j false)) X.nr ((regressionProblem svd X y).rss (m.set j false)) := by
  have hc := (without_feature hred.1).2
  obtain ⟨c, c', r, h1, h2, -, h3, -⟩ := C156_score svd X y m j hlen hdata.rows hred hcard
    (hdata.exact m hlen (by omega) hrows) (hdata.exact _ (by simpa using hlen) (by omega) (by omega))
  simp only [regressionProblem, h1, h2, Option.map_some, Option.getD_some]
  exact neg_lt_neg h3

/-- **C156, branch and bound.** The first model of the list that `SelectModel` returns has no feature that is a linear
combination of its other features, unless it has only one feature (a column of zeros is a combination of none). -/
theorem C156_select (svd : Mat ℝ → SVD ℝ) (X : Mat ℝ) (y : List ℝ) (hdata : GoodData svd X y)
    (maxQueue : Int) (cutoff : ℝ) (M : Int) (hM : 2 ≤ M) (s : SState ℝ)
    (h : SelectReaches (regressionSearch svd X y (List.replicate X.nc false) maxQueue cutoff) M [] s)
    (hd : s.main = .done) (ht : s.torn = false) (ho : s.overflows = 0) (n : Node ℝ) (hn : s.hs.items.head? = some n)
    (j : Nat) (hred : Redundant X n.model j) : Spec.card n.model = 1 := by
  obtain ⟨rest, hitems⟩ : ∃ rest, s.hs.items = n :: rest := by
    cases hi : s.hs.items with
    | nil => rw [hi] at hn; cases hn
    | cons a as =>
      rw [hi] at hn
      simp only [List.head?_cons, Option.some.injEq] at hn
      exact ⟨as, by rw [hn]⟩
  have hmem : n ∈ s.hs.items := by rw [hitems]; exact List.mem_cons_self
  obtain ⟨l1, -, l3⟩ := (C13_each_model_once _ M (by omega) s h).2 n hmem
  have hc := (without_feature hred.1).2
  by_contra hne
  have hcard : 1 < Spec.card n.model := by omega
  have hs := ((C13_own_score _ M (by omega) s h n hmem).1 (by omega)).1
  have hlt := redundant_score hdata l1 hred hcard l3
  have hbest : s.hs.bestScore = n.score := by simp [Highscore.bestScore, hitems]
  have h2 := (C12_no_better_model _ M hM [] (hdata.validBounds _ _ _)
    (by left; rfl) s h hd ht ho (n.model.set j false) (by simpa using l1) (by omega)
    (by show Spec.card (n.model.set j false) < X.nr; have : Spec.card n.model < X.nr := l3; omega) (by
      intro heq
      have h0 : Spec.card (n.model.set j false) = 0 := by
        rw [heq]
        show Spec.card (List.replicate X.nc false) = 0
        rw [card_eq_count]
        exact List.count_eq_zero.2 (by simp)
      omega)).2
  rw [hbest, hs] at h2
  exact absurd h2 (not_le.2 hlt)

/-- **C156, brute force.** The same for `BruteForceSelect`. -/
theorem C156_brute (svd : Mat ℝ → SVD ℝ) (X : Mat ℝ) (y : List ℝ) (hdata : GoodData svd X y) (hrows : X.nc < X.nr)
    (hb : Highscore ℝ) (hbf : BruteForceReturns (regressionProblem svd X y) hb) (n : Node ℝ)
    (hn : hb.items.head? = some n) (j : Nat) (hred : Redundant X n.model j) : Spec.card n.model = 1 := by
  obtain ⟨rest, hitems⟩ : ∃ rest, hb.items = n :: rest := by
    cases hi : hb.items with
    | nil => rw [hi] at hn; cases hn
    | cons a as =>
      rw [hi] at hn
      simp only [List.head?_cons, Option.some.injEq] at hn
      exact ⟨as, by rw [hn]⟩
  have hmem : n ∈ hb.items := by rw [hitems]; exact List.mem_cons_self
  obtain ⟨h', hr', -, h1, -⟩ := C06_every_model_once (regressionProblem svd X y)
  cases hbf.unique hr'
  obtain ⟨hlen, hpos⟩ := (h1 n.model).1 (List.mem_map_of_mem hmem)
  have hlen' : n.model.length = X.nc := hlen
  have hc := (without_feature hred.1).2
  by_contra hne
  have hcard : 1 < Spec.card n.model := by omega
  have hle : Spec.card n.model ≤ n.model.length := by rw [card_eq_count]; exact List.count_le_length
  have hs := (C06_own_score _ hb hbf n hmem).2
  have hlt := redundant_score hdata hlen' hred hcard (by omega)
  have hbest : hb.bestScore = n.score := by simp [Highscore.bestScore, hitems]
  have hjl : j < X.nc := by rw [← hlen']; exact (List.getElem?_eq_some_iff.1 hred.1).1
  have h2 := (C07_best (regressionProblem svd X y) (show 0 < X.nc by omega) hb hbf).2 (n.model.set j false)
    (by simpa using hlen) (by omega)
  rw [hbest, hs] at h2
  exact absurd h2 (not_le.2 hlt)

/-! ### Two proportional columns -/

namespace Proportional

/-- Columns (3, 0, 0) and (4, 0, 0). -/
def X : Mat ℝ := ⟨3, 2, fun r j => if r = 0 then (if j = 0 then 3 else 4) else 0⟩

def y : List ℝ := [1, 1, 1]

/-- A decomposition of the designs. -/
noncomputable def svd (Z : Mat ℝ) : SVD ℝ :=
  if Z.nc = 2 then
    ⟨2, fun i k => if i = k then 1 else 0, fun k => if k = 0 then 5 else 0,
      fun j k => if j = 0 then (if k = 0 then 3 / 5 else -4 / 5) else (if k = 0 then 4 / 5 else 3 / 5)⟩
  else ⟨1, fun i k => if i = k then 1 else 0, fun _ => Z.get 0 0, fun _ _ => 1⟩

theorem models {m : List Bool} (hm : m.length = 2) (h : 0 < Spec.card m) :
    m = [true, false] ∨ m = [false, true] ∨ m = [true, true] := by
  obtain ⟨a, b, rfl⟩ := List.length_eq_two.1 hm
  cases a <;> cases b <;> simp_all (decide := true)

theorem exact {m : List Bool} (hm : m.length = 2) (h : 0 < Spec.card m) : ExactFit svd X m := by
  have f1 : features [true, false] = [0] := by decide
  have f2 : features [false, true] = [1] := by decide
  have f3 : features [true, true] = [0, 1] := by decide
  rcases models hm h with rfl | rfl | rfl
  · constructor
    · constructor <;> simp [svd, designOf, X, Spec.card, f1, Finset.sum_range_succ]
    · simp [svd, designOf, X, Spec.card, f1]; norm_num
  · constructor
    · constructor <;> simp [svd, designOf, X, Spec.card, f2, Finset.sum_range_succ]
    · simp [svd, designOf, X, Spec.card, f2]; norm_num
  · constructor
    · constructor
      · simp [svd, designOf, X, Spec.card, f3]
      · intro i j hi hj
        have hi' : i < 3 := hi
        have hj' : j < 2 := hj
        interval_cases i <;> interval_cases j <;> norm_num [svd, designOf, X, Spec.card, f3, Finset.sum_range_succ]
      · intro k l hk hl
        have hk' : k < 2 := hk
        have hl' : l < 2 := hl
        interval_cases k <;> interval_cases l <;> simp [svd, designOf, X, Spec.card, f3, Finset.sum_range_succ]
      · intro k l hk hl
        have hk' : k < 2 := hk
        have hl' : l < 2 := hl
        interval_cases k <;> interval_cases l <;> norm_num [svd, designOf, X, Spec.card, f3, Finset.sum_range_succ]
      · intro k hk
        have hk' : k < 2 := hk
        interval_cases k <;> simp [svd, designOf, X, Spec.card, f3]
      · intro k l hkl hl
        have hl' : l < 2 := hl
        interval_cases l <;> interval_cases k <;> simp [svd, designOf, X, Spec.card, f3]
    · intro k hk
      have hk' : k < 2 := hk
      interval_cases k
      · right; norm_num [svd, designOf, X, Spec.card, f3]
      · left; simp [svd, designOf, X, Spec.card, f3]

theorem good : GoodData svd X y := by
  refine ⟨rfl, by norm_num [X], fun m hm h _ => exact hm h, ?_, fun h => absurd h (by decide)⟩
  intro m c r hm hpos _ hf
  obtain ⟨⟨b, -, hb⟩, -⟩ := fitModel_support (svd := svd) (X := X) (y := y) hm rfl hpos (exact hm hpos) hf
  have h2 : 1 ≤ sse X b (vec y) := by
    unfold sse
    have h0 := sq_nonneg (lin X b 0 - vec y 0)
    simp [X, lin, Finset.sum_range_succ, vec, y] at h0 ⊢
    nlinarith
  rw [hb] at h2
  refine le_trans ?_ h2
  refine smallestFloat_le_tol.trans ?_
  unfold rssTol
  norm_num

theorem redundant : Redundant X [true, true] 1 := by
  refine ⟨rfl, fun i => if i = 0 then 4 / 3 else 0, fun i hi => ?_, fun r hr => ?_⟩
  · by_cases h : i = 0
    · subst h
      exact absurd ⟨rfl, by decide⟩ hi
    · exact if_neg h
  · have e : (3 : ℝ) * (4 / 3) = 4 := by norm_num
    simp [X, Finset.sum_range_succ, e]

/-- Both columns together are worse than the first. -/
example : ∃ c c' r, fitModel svd X y [true, true] = some (c, r) ∧ fitModel svd X y [true, false] = some (c', r) ∧
    aicc (Spec.card [true, false]) 3 r < aicc (Spec.card [true, true]) 3 r := by
  obtain ⟨c, c', r, h1, h2, -, h3, -⟩ := C156_score svd X y [true, true] 1 rfl rfl redundant (by decide)
    (exact rfl (by decide)) (exact rfl (by decide))
  exact ⟨c, c', r, h1, h2, h3⟩

/-- `BruteForceSelect` does not recommend both columns. -/
example : ∃ hb n, BruteForceReturns (regressionProblem svd X y) hb ∧ hb.items.head? = some n ∧
    n.model ≠ [true, true] := by
  obtain ⟨hb, hbf, -, -, hlen⟩ := C06_every_model_once (regressionProblem svd X y)
  cases hi : hb.items with
  | nil =>
    simp [Highscore.len, hi, regressionProblem, X] at hlen
  | cons n rest =>
    refine ⟨hb, n, hbf, by simp [hi], fun hm => ?_⟩
    have := C156_brute svd X y good (by decide) hb hbf n (by simp [hi]) 1 (by rw [hm]; exact redundant)
    rw [hm] at this
    revert this
    decide

/-- Nor does `SelectModel`. -/
example (maxQueue : Int) (cutoff : ℝ) (s : SState ℝ)
    (h : SelectReaches (regressionSearch svd X y (List.replicate X.nc false) maxQueue cutoff) 20 [] s)
    (hd : s.main = .done) (ht : s.torn = false) (ho : s.overflows = 0) (n : Node ℝ) (hn : s.hs.items.head? = some n) :
    n.model ≠ [true, true] := by
  intro hm
  have := C156_select svd X y good maxQueue cutoff 20 (by decide) s h hd ht ho n hn 1 (by rw [hm]; exact redundant)
  rw [hm] at this
  revert this
  decide

end Proportional

/-! ### Orthogonal matching pursuit -/

/-- **C156, orthogonal matching pursuit.** Without zero columns and with exact fits a feature that is a linear
combination of those selected before it is selected only in one case: the features selected before it already fit as
well as all features together do.  Then it is the first column, and nothing is selected after it. -/
theorem C156_omp_partial (svd : Mat ℝ → SVD ℝ) (X : Mat ℝ) (y : List ℝ) (tol : ℝ) (res : OmpResult)
    (h : omp svd X y tol = some res)
    (hex : ∀ m n, m.length = X.nc → 0 < n → (∀ i : Nat, HasFeature m i ↔ (i : Int) ∈ res.order.take n) → ExactFit svd X m)
    (hcol : ∀ i, i < X.nc → ∃ r < X.nr, X.get r i ≠ 0) (j x : Nat) (hj : 0 < j)
    (hx : res.order[j]? = some (x : Int)) (hspan : InSpan X (fun i => (i : Int) ∈ res.order.take j) x) :
    x = 0 ∧ res.order.length = j + 1 ∧
      ∃ b : Nat → ℝ, (∀ i : Nat, (i : Int) ∉ res.order.take j → b i = 0) ∧ IsLeastSquares X b (vec y) :=
  omp_redundant h hex (fun i hi => colNorm_ne_zero (hcol i hi)) hj hx hspan

/-! ### The exception occurs -/

namespace Superfluous

/-- Two unit vectors as features 1 and 2, and a combination of them as feature 0. -/
noncomputable def X : Mat ℝ :=
  ⟨3, 3, fun r j => if r = 0 then (if j = 0 then 4 / 5 else if j = 1 then 1 else 0)
    else if r = 1 then (if j = 0 then 16 / 15 else if j = 1 then 0 else 1) else 0⟩

noncomputable def y : List ℝ := [3, 1, 1]

/-- A decomposition of `X`. -/
noncomputable def svdX : SVD ℝ :=
  ⟨3, fun i k => if k = 0 then (if i = 0 then 3 / 5 else if i = 1 then 4 / 5 else 0)
      else if k = 1 then (if i = 0 then -4 / 5 else if i = 1 then 3 / 5 else 0) else (if i = 2 then 1 else 0),
    fun k => if k = 0 then 5 / 3 else if k = 1 then 1 else 0,
    fun j k => if k = 0 then (if j = 0 then 4 / 5 else if j = 1 then 9 / 25 else 12 / 25)
      else if k = 1 then (if j = 0 then 0 else if j = 1 then -4 / 5 else 3 / 5)
      else (if j = 0 then 3 / 5 else if j = 1 then -12 / 25 else -16 / 25)⟩

theorem svdX_exact : ExactFit (fun _ => svdX) X [true, true, true] := by
  have f3 : features [true, true, true] = [0, 1, 2] := by decide
  constructor
  · constructor
    · simp [svdX, designOf, X, Spec.card, f3]
    · intro i j hi hj
      have hi' : i < 3 := hi
      have hj' : j < 3 := hj
      interval_cases i <;> interval_cases j <;>
        norm_num [svdX, designOf, X, Spec.card, f3, Finset.sum_range_succ]
    · intro k l hk hl
      have hk' : k < 3 := hk
      have hl' : l < 3 := hl
      interval_cases k <;> interval_cases l <;>
        norm_num [svdX, designOf, X, Spec.card, f3, Finset.sum_range_succ]
    · intro k l hk hl
      have hk' : k < 3 := hk
      have hl' : l < 3 := hl
      interval_cases k <;> interval_cases l <;>
        norm_num [svdX, designOf, X, Spec.card, f3, Finset.sum_range_succ]
    · intro k hk
      have hk' : k < 3 := hk
      interval_cases k <;> norm_num [svdX]
    · intro k l hkl hl
      have hl' : l < 3 := hl
      interval_cases l <;> interval_cases k <;> norm_num [svdX]
  · intro k hk
    have hk' : k < 3 := hk
    interval_cases k
    · right; norm_num [svdX]
    · right; norm_num [svdX]
    · left; simp [svdX]

theorem units_exact (m : List Bool) (hm : m.length = 3) (h : ∀ i, HasFeature m i → i = 1 ∨ i = 2) :
    ExactFit orthSvd X m := by
  have hc : Spec.card m ≤ 3 := by
    rw [card_eq_count]
    exact List.count_le_length.trans hm.le
  refine orthSvd_untruncated hc fun a b ha hb => ?_
  have ha' : a < (features m).length := ha
  have hb' : b < (features m).length := hb
  have ea : (features m).getD a 0 = (features m)[a] := by simp [List.getD_eq_getElem?_getD, ha']
  have eb : (features m).getD b 0 = (features m)[b] := by simp [List.getD_eq_getElem?_getD, hb']
  have la := h _ ((mem_features _ _).1 (List.getElem_mem ha'))
  have lb := h _ ((mem_features _ _).1 (List.getElem_mem hb'))
  have key : a = b ↔ (features m)[a] = (features m)[b] := ((features_nodup m).getElem_inj_iff).symm
  simp only [designOf, ea, eb, key]
  generalize (features m)[a] = p at la
  generalize (features m)[b] = q at lb
  rcases la with rfl | rfl <;> rcases lb with rfl | rfl <;> simp [X, Finset.sum_range_succ]

/-- There is a decomposition of all matrices that is exact for the designs in question. -/
theorem decomposition : ∃ svd : Mat ℝ → SVD ℝ, (∀ Z, (svd Z).Of Z) ∧ ExactFit svd X [true, true, true] ∧
    ∀ m : List Bool, m.length = 3 → (∀ i, HasFeature m i → i = 1 ∨ i = 2) → ExactFit svd X m := by
  classical
  obtain ⟨g, hg⟩ := exists_svd_all
  let svd : Mat ℝ → SVD ℝ := fun Z =>
    if Untruncated (orthSvd Z) Z then orthSvd Z else if Untruncated svdX Z then svdX else g Z
  have h1 : ∀ Z, Untruncated (orthSvd Z) Z ∨ Untruncated svdX Z → Untruncated (svd Z) Z := by
    intro Z h
    by_cases ha : Untruncated (orthSvd Z) Z
    · rw [show svd Z = orthSvd Z from if_pos ha]; exact ha
    · have hb := h.resolve_left ha
      rw [show svd Z = svdX from (if_neg ha).trans (if_pos hb)]; exact hb
  refine ⟨svd, fun Z => ?_, h1 _ (.inr svdX_exact), fun m hm h => h1 _ (.inl (units_exact m hm h))⟩
  by_cases h : Untruncated (orthSvd Z) Z ∨ Untruncated svdX Z
  · exact (h1 Z h).1
  · rw [not_or] at h
    rw [show svd Z = g Z from (if_neg h.1).trans (if_neg h.2)]
    exact hg Z

theorem col (i : Nat) (hi : i < X.nc) : ∃ r < X.nr, X.get r i ≠ 0 := by
  have hi' : i < 3 := hi
  interval_cases i
  · exact ⟨0, by decide, by norm_num [X]⟩
  · exact ⟨0, by decide, by norm_num [X]⟩
  · exact ⟨1, by decide, by norm_num [X]⟩

theorem spanned (S : Nat → Prop) (h1 : S 1) (h2 : S 2) : InSpan X S 0 := by
  refine ⟨fun i => if i = 1 then 4 / 5 else if i = 2 then 16 / 15 else 0, fun i hi => ?_, fun r hr => ?_⟩
  · have a : i ≠ 1 := fun e => hi (e ▸ h1)
    have b : i ≠ 2 := fun e => hi (e ▸ h2)
    simp [a, b]
  · have hr' : r < 3 := hr
    interval_cases r <;> simp [X, Finset.sum_range_succ]

/-- A column chosen for the residuals `r`. -/
theorem chosen {r : List ℝ} {a b c : ℝ} (ha : r.getD 0 0 = a) (hb : r.getD 1 0 = b) (hc : r.getD 2 0 = c) (h0 : c ≠ 0)
    {x : Nat} (h : argmax (ompProj X r) = some x) :
    (x = 0 ∧ a ^ 2 * (16 / 9) ≤ (4 / 5 * a + 16 / 15 * b) ^ 2 ∧ b ^ 2 * (16 / 9) ≤ (4 / 5 * a + 16 / 15 * b) ^ 2) ∨
    (x = 1 ∧ (4 / 5 * a + 16 / 15 * b) ^ 2 ≤ a ^ 2 * (16 / 9) ∧ b ^ 2 ≤ a ^ 2) ∨
    (x = 2 ∧ (4 / 5 * a + 16 / 15 * b) ^ 2 ≤ b ^ 2 * (16 / 9) ∧ a ^ 2 ≤ b ^ 2) := by
  have hn : norm2 r ≠ 0 := fun hz => h0 (by rw [← hc]; exact norm2_eq_zero r hz 2)
  obtain ⟨hx, hp⟩ := pick_sq hn (fun i hi => colNorm_ne_zero (col i hi)) h
  have hx' : x < 3 := hx
  have p0 := hp 0 (by decide)
  have p1 := hp 1 (by decide)
  have p2 := hp 2 (by decide)
  simp only [X, Finset.sum_range_succ, Finset.sum_range_zero, ha, hb, hc] at p0 p1 p2
  interval_cases x
  · left
    norm_num at p0 p1 p2 ⊢
    constructor <;> linarith
  · right; left
    norm_num at p0 p1 p2 ⊢
    constructor <;> linarith
  · right; right
    norm_num at p0 p1 p2 ⊢
    constructor <;> linarith

/-- The run of the pursuit. -/
theorem run {svd : Mat ℝ → SVD ℝ}
    (hex : ∀ m : List Bool, m.length = 3 → (∀ i, HasFeature m i → i = 1 ∨ i = 2) → ExactFit svd X m) :
    ∃ res, omp svd X y (1 / 10) = some res ∧ res.order = [1, 2, 0] := by
  have hy : X.nr = y.length := rfl
  obtain ⟨st, t, d, k, x, h1, h2, h3, ht, hd, -⟩ := omp_main svd X y (1 / 10) (by simp [y]) (by simp [X]) hy
  refine ⟨_, h1, ?_⟩
  have hrm : ¬ ompRmse svd X y st.model < 1 / 10 := by
    rw [ompRmse_eq svd X y hy h2 ht]
    unfold rmse
    rw [Real.sqrt_lt' (by norm_num)]
    have : 1 ≤ sse X (vec st.coeff) (vec y) := by
      unfold sse lin
      simp only [X, Finset.sum_range_succ, Finset.sum_range_zero, vec, y]
      norm_num
      positivity
    have e : ((X.nr : Nat) : ℝ) = 3 := by simp [X]
    rw [e, div_lt_iff₀ (by norm_num)]
    norm_num
    linarith
  have ht3 : t = 3 := h3.resolve_right hrm
  have hexl : ∀ l : List Nat, (∀ i ∈ l, i = 1 ∨ i = 2) → ExactFit svd X (modelOf X.nc l) := by
    intro l hl
    refine hex _ (by simp [modelOf, X]) (fun i hi => hl i ?_)
    exact (modelOf_feature _ _ (fun i hi => by rcases hl i hi with rfl | rfl <;> decide) i).1 hi
  have p0 : ∀ z, argmax (ompProj X (resAt svd X y [])) = some z → z = 1 := by
    intro z hz
    rw [resAt, if_pos rfl] at hz
    rcases chosen (r := y) (a := 3) (b := 1) (c := 1) rfl rfl rfl one_ne_zero hz with h | h | h
    · have := h.2.1
      norm_num at this
    · exact h.1
    · have := h.2.2
      norm_num at this
  have p1 : ∀ z, argmax (ompProj X (resAt svd X y [1])) = some z → z = 2 := by
    intro z hz
    obtain ⟨b, hb, hres, hbest⟩ := resAt_best hy (hexl [1] (by simp)) (by simp) (by simp [X])
    have hle := hbest (fun i => if i = 1 then 3 else 0) (fun i hi => if_neg (by simpa using hi))
    have b0 := hb 0 (by simp)
    have b2 := hb 2 (by simp)
    have r0 := hres 0 (by decide)
    have r1 := hres 1 (by decide)
    have r2 := hres 2 (by decide)
    unfold sse at hle
    simp only [lin, X, Finset.sum_range_succ, Finset.sum_range_zero, vec, y, b0, b2] at hle r0 r1 r2
    norm_num at hle r0 r1 r2
    have hb1 : b 1 = 3 := by nlinarith [sq_nonneg (b 1 - 3)]
    rw [hb1] at r0
    rcases chosen r0 r1 r2 (by norm_num) hz with h | h | h
    · have := h.2.2
      norm_num at this
    · have := h.2.2
      norm_num at this
    · exact h.1
  have p2 : ∀ z, argmax (ompProj X (resAt svd X y [1, 2])) = some z → z = 0 := by
    intro z hz
    obtain ⟨b, hb, hres, hbest⟩ := resAt_best hy (hexl [1, 2] (by simp)) (by simp) (by simp [X])
    have hle := hbest (fun i => if i = 1 then 3 else if i = 2 then 1 else 0) (fun i hi => by
      simp only [List.mem_cons, List.not_mem_nil, or_false, not_or] at hi
      simp [hi.1, hi.2])
    have b0 := hb 0 (by simp)
    unfold sse at hle
    simp only [lin, X, Finset.sum_range_succ, Finset.sum_range_zero, vec, y, b0] at hle
    norm_num at hle
    have hb1 : b 1 = 3 := by nlinarith [sq_nonneg (b 1 - 3), sq_nonneg (b 2 - 1)]
    have hb2 : b 2 = 1 := by nlinarith [sq_nonneg (b 1 - 3), sq_nonneg (b 2 - 1)]
    refine argmax_stuck (by simp [X]) (fun i hi => colNorm_ne_zero (col i hi)) (fun i _ => ?_) hz
    refine (Finset.sum_congr rfl (fun q hq => by rw [hres q (Finset.mem_range.1 hq)])).trans ?_
    simp only [lin, X, Finset.sum_range_succ, Finset.sum_range_zero, vec, y, b0, hb1, hb2]
    norm_num
  have hres := h2.res
  have hcount := h2.count
  rcases d with _ | ⟨a, d⟩
  · exact absurd rfl hd
  have ha : a = 1 := p0 _ (h2.pick 0 (by simp))
  subst ha
  rcases d with _ | ⟨b, d⟩
  · have hk : k ≠ 0 := by simp at hcount; omega
    have hst := h2.stall hk
    rw [hres] at hst
    have := p1 _ hst.2
    have h1' := hst.1
    simp at h1'
    omega
  have hb : b = 2 := p1 _ (h2.pick 1 (by simp))
  subst hb
  rcases d with _ | ⟨c, d⟩
  · have hk : k ≠ 0 := by simp at hcount; omega
    have hst := h2.stall hk
    rw [hres] at hst
    have := p2 _ hst.2
    have h1' := hst.1
    simp at h1'
    omega
  have hc : c = 0 := p2 _ (h2.pick 2 (by simp))
  subst hc
  have : d = [] := by
    apply List.eq_nil_of_length_eq_zero
    simp at hcount
    omega
  subst this
  rfl

theorem prefixes_exact {svd : Mat ℝ → SVD ℝ} (h2 : ExactFit svd X [true, true, true])
    (h3 : ∀ m : List Bool, m.length = 3 → (∀ i, HasFeature m i → i = 1 ∨ i = 2) → ExactFit svd X m)
    {res : OmpResult} (h5 : res.order = [1, 2, 0]) (m : List Bool) (n : Nat) (hm : m.length = X.nc) (hn : 0 < n)
    (hf : ∀ i : Nat, HasFeature m i ↔ (i : Int) ∈ res.order.take n) : ExactFit svd X m := by
  rw [h5] at hf
  have hm' : m.length = 3 := hm
  by_cases hn3 : n < 3
  · refine h3 m hm' (fun i hi => ?_)
    have := (hf i).1 hi
    have hn' : n = 1 ∨ n = 2 := by omega
    rcases hn' with rfl | rfl <;> simp at this <;> omega
  · have : m = [true, true, true] := by
      rw [List.take_of_length_le (by simp; omega)] at hf
      apply model_ext (by simp [hm'])
      intro i
      rw [hf]
      rcases i with _ | _ | _ | i <;> simp [HasFeature]
      omega
    rw [this]
    exact h2

end Superfluous

open Superfluous in
/-- **C156, refuted for the pursuit.** With an exact decomposition the pursuit selects features 1, 2 and then feature
0, which is a combination of features 1 and 2. -/
theorem C156_refuted : ∃ (svd : Mat ℝ → SVD ℝ) (X : Mat ℝ) (y : List ℝ) (res : OmpResult), (∀ Z, (svd Z).Of Z) ∧
    omp svd X y (1 / 10) = some res ∧ res.order = [1, 2, 0] ∧ InSpan X (fun i => i = 1 ∨ i = 2) 0 ∧
    ∀ m n, m.length = X.nc → 0 < n → (∀ i : Nat, HasFeature m i ↔ (i : Int) ∈ res.order.take n) →
      ExactFit svd X m := by
  obtain ⟨svd, h1, h2, h3⟩ := decomposition
  obtain ⟨res, h4, h5⟩ := Superfluous.run h3
  exact ⟨svd, X, y, res, h1, h4, h5, spanned _ (.inl rfl) (.inr rfl), prefixes_exact h2 h3 h5⟩

open Superfluous in
/-- The hypotheses of `C156_omp_partial` are met with a superfluous feature. -/
example : ∃ (svd : Mat ℝ → SVD ℝ) (res : OmpResult), omp svd X y (1 / 10) = some res ∧ res.order.length = 3 ∧
    ∃ b : Nat → ℝ, b 0 = 0 ∧ IsLeastSquares X b (vec y) := by
  obtain ⟨svd, h1, h2, h3⟩ := decomposition
  obtain ⟨res, h4, h5⟩ := Superfluous.run h3
  obtain ⟨-, h6, b, h7, h8⟩ := C156_omp_partial svd X y (1 / 10) res h4 (prefixes_exact h2 h3 h5) col 2 0 (by decide)
    (by rw [h5]; rfl) (spanned _ (by rw [h5]; simp) (by rw [h5]; simp))
  exact ⟨svd, res, h4, h6, b, h7 0 (by rw [h5]; simp), h8⟩

end GoSelect
