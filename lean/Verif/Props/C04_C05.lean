import Verif.Proofs.FitModel
import Verif.Proofs.Orthonormal

/-! C04, C05: `Fit` is least squares, and larger models fit better. -/

namespace GoSelect

open Finset Spec

section
variable {K : Type} [Field K] [LinearOrder K]

/-- `Fit` panics exactly when the number of rows differs from `len(y)`. -/
theorem C04_panic_iff (d : SVD K) (X : Mat K) (y : List K) :
    fit d X y = none ↔ X.nr ≠ y.length := by
  by_cases h : X.nr = y.length
  · rw [fit_eq_some h]; simp [h]
  · simp [fit, h]

/-- `Fit` returns one coefficient per column. -/
theorem C04_length (d : SVD K) (X : Mat K) (y c : List K) (h : fit d X y = some c) :
    c.length = X.nc := by
  have hn : X.nr = y.length := by
    by_contra hn
    rw [(C04_panic_iff d X y).2 hn] at h
    cases h
  rw [fit_eq_some hn, Option.some.injEq] at h
  simp [← h]

variable [IsStrictOrderedRing K]

/-- If `d` is a singular value decomposition of `X` whose singular values are 0 or above `1e-6`,
no coefficient vector has a smaller `Rss` than the one `Fit` returns. -/
theorem C04_least_squares (d : SVD K) (X : Mat K) (y c : List K) (h : Untruncated d X)
    (hf : fit d X y = some c) (b : List K) (hb : b.length = X.nc) :
    ∃ rc rb, rss X c y = some rc ∧ rss X b y = some rb ∧ rc ≤ rb := by
  have hn : y.length = X.nr := by
    by_contra hn
    rw [(C04_panic_iff d X y).2 (Ne.symm hn)] at hf
    cases hf
  exact ⟨_, _, rss_eq_some (C04_length d X y c hf) hn, rss_eq_some hb hn,
    fit_leastSquares h hf (vec b)⟩

/-- The RSS is the sum of squared differences between target and prediction. -/
theorem C04_rss (X : Mat K) (c y : List K) (hc : c.length = X.nc) (hy : y.length = X.nr) :
    rss X c y = some (∑ i ∈ range X.nr, (∑ j ∈ range X.nc, X.get i j * c.getD j 0 - y.getD i 0) ^ 2) :=
  rss_eq_some hc hy

/-- If model `b` contains model `a` and the fit of `b` is exact, the RSS of `b` is not larger. -/
theorem C05_nested (svd : Mat K → SVD K) (X : Mat K) (y : List K) (a b : List Bool)
    (hla : a.length ≤ X.nc) (hlb : b.length ≤ X.nc) (hy : y.length = X.nr)
    (hsub : ContainedIn a b) (ha : 0 < card a) (hb : ExactFit svd X b) :
    ∃ ca cb ra rb, fitModel svd X y a = some (ca, ra) ∧ fitModel svd X y b = some (cb, rb) ∧
      rb ≤ ra := by
  obtain ⟨ca, h1, -⟩ := fitModel_eq_some (svd := svd) hy ha hla
  obtain ⟨cb, h2, -⟩ :=
    fitModel_eq_some (svd := svd) hy (lt_of_lt_of_le ha (card_le_of_contained hsub)) hlb
  exact ⟨ca, cb, _, _, h1, h2, fitModel_nested hla hlb hy hsub ha hb h1 h2⟩

end

/-! ### Concrete cases -/

/-- A 2 x 1 matrix with its decomposition. -/
def exCol : Mat ℚ := ⟨2, 1, fun i _ => if i = 0 then 3 else 4⟩
def exColSvd : SVD ℚ := ⟨1, fun i _ => if i = 0 then 3 / 5 else 4 / 5, fun _ => 5, fun _ _ => 1⟩

theorem exCol_untruncated : Untruncated exColSvd exCol := by
  refine ⟨⟨rfl, ?_, ?_, ?_, ?_, ?_⟩, ?_⟩
  · intro i j hi hj
    simp only [exColSvd, exCol, sum_range_one] at *
    split <;> norm_num
  · intro k l hk hl
    have : k = 0 := Nat.lt_one_iff.1 hk
    have : l = 0 := Nat.lt_one_iff.1 hl
    subst k l
    simp [exColSvd, exCol, sum_range_succ]
    norm_num
  · intro k l hk hl
    have : k = 0 := Nat.lt_one_iff.1 hk
    have : l = 0 := Nat.lt_one_iff.1 hl
    subst k l
    simp [exColSvd, exCol]
  · intro k _; simp [exColSvd]
  · intro k l _ _; simp [exColSvd]
  · intro k _; right; simp only [exColSvd]; norm_num

example : Untruncated exColSvd exCol ∧ fit exColSvd exCol [1, 2] = some [11 / 25] :=
  ⟨exCol_untruncated, by
    simp [fit, exCol, exColSvd, invSigma, sum_range_succ, abs_of_pos]
    norm_num⟩

example : ExactFit orthSvd (unitX 4 3 : Mat ℚ) [true, false, true] ∧
    ContainedIn [true, false, false] [true, false, true] := by
  refine ⟨unitX_exact (by omega) rfl, fun i hi => ?_⟩
  match i, hi with
  | 0, _ => rfl
  | 1, hi => simp [HasFeature] at hi
  | 2, hi => rfl
  | n + 3, hi => simp [HasFeature] at hi

/-- The truncation at `1e-6` breaks the monotonicity.  `X` has the columns `(12, 5) t` and
`(-16, 15/4) t` with `t = 1.6e-7`; its singular values are `3.2e-6` and `1e-6`, the latter is
truncated. -/
def truncX : Mat ℚ := ⟨2, 2, fun i j =>
  if i = 0 then (if j = 0 then 12 else -16) * (16 / 10 ^ 8)
  else (if j = 0 then 5 else 15 / 4) * (16 / 10 ^ 8)⟩

/-- Decompositions of `truncX` and of its first column. -/
def truncSvd (M : Mat ℚ) : SVD ℚ :=
  if M.nc = 1 then
    ⟨1, fun i _ => if i = 0 then 12 / 13 else 5 / 13, fun _ => 13 * (16 / 10 ^ 8), fun _ _ => 1⟩
  else
    ⟨2, fun i k => if i = k then 1 else 0,
      fun k => if k = 0 then 20 * (16 / 10 ^ 8) else 25 / 4 * (16 / 10 ^ 8),
      fun j k => if j = 0 then (if k = 0 then 3 / 5 else 4 / 5)
        else (if k = 0 then -4 / 5 else 3 / 5)⟩

theorem truncSvd_of (m : List Bool) (h : m = [true, false] ∨ m = [true, true]) :
    (truncSvd (designOf truncX m)).Of (designOf truncX m) := by
  rcases h with rfl | rfl
  · have e : designOf truncX [true, false] = ⟨2, 1, fun j k => truncX.get j ([0].getD k 0)⟩ := rfl
    rw [e]
    refine ⟨rfl, ?_, ?_, ?_, ?_, ?_⟩
    · intro i j hi hj
      simp only [truncSvd] at *
      have : j = 0 := by omega
      have : i = 0 ∨ i = 1 := by omega
      subst j
      rcases this with rfl | rfl <;> simp [truncX] <;> norm_num
    · intro k l hk hl
      simp only [truncSvd] at *
      have : k = 0 := Nat.lt_one_iff.1 hk
      have : l = 0 := Nat.lt_one_iff.1 hl
      subst k l
      simp [sum_range_succ]; norm_num
    · intro k l hk hl
      simp only [truncSvd] at *
      have : k = 0 := Nat.lt_one_iff.1 hk
      have : l = 0 := Nat.lt_one_iff.1 hl
      subst k l
      simp
    · intro k _; simp [truncSvd]; norm_num
    · intro k l _ _; simp [truncSvd]
  · have e : designOf truncX [true, true] = ⟨2, 2, fun j k => truncX.get j ([0, 1].getD k 0)⟩ := rfl
    rw [e]
    have two : ∀ k, k < 2 → k = 0 ∨ k = 1 := by omega
    refine ⟨rfl, ?_, ?_, ?_, ?_, ?_⟩
    · intro i j hi hj
      rcases two i hi with rfl | rfl <;> rcases two j hj with rfl | rfl <;>
        simp [truncSvd, truncX, sum_range_succ] <;> norm_num
    · intro k l hk hl
      rcases two k hk with rfl | rfl <;> rcases two l hl with rfl | rfl <;>
        simp [truncSvd, sum_range_succ]
    · intro k l hk hl
      rcases two k hk with rfl | rfl <;> rcases two l hl with rfl | rfl <;>
        simp [truncSvd, sum_range_succ] <;> norm_num
    · intro k hk
      rcases two k hk with rfl | rfl <;> simp [truncSvd] <;> norm_num
    · intro k l hkl hl
      rcases two l hl with rfl | rfl
      · rw [Nat.le_zero.1 hkl]
      · rcases two k (by omega) with rfl | rfl
        · simp [truncSvd]; norm_num
        · exact le_refl _

/-- With correct decompositions and the target `(12, 5)`: the model with the first column alone
has RSS 0, the model with both columns has RSS 25. -/
theorem C05_truncation_refutes :
    (∀ m, m = [true, false] ∨ m = [true, true] →
      (truncSvd (designOf truncX m)).Of (designOf truncX m)) ∧
    ContainedIn [true, false] [true, true] ∧
    (∃ c, fitModel truncSvd truncX [12, 5] [true, false] = some (c, 0)) ∧
    (∃ c, fitModel truncSvd truncX [12, 5] [true, true] = some (c, 25)) := by
  refine ⟨truncSvd_of, ?_, ?_, ?_⟩
  · intro i hi
    match i, hi with
    | 0, _ => rfl
    | 1, hi => rfl
    | n + 2, hi => simp [HasFeature] at hi
  · obtain ⟨c, h1, h2, -⟩ := fitModel_eq_some (svd := truncSvd) (X := truncX) (y := [12, 5])
      (m := [true, false]) rfl (by decide) (by decide)
    refine ⟨c, ?_⟩
    rw [h1]
    have e : designOf truncX [true, false] = ⟨2, 1, fun j k => truncX.get j ([0].getD k 0)⟩ := rfl
    rw [e] at h2 ⊢
    simp [fit, truncSvd, invSigma, sum_range_succ] at h2
    rw [if_pos (by rw [abs_of_pos] <;> norm_num)] at h2
    rw [← h2]
    simp [sse, lin, sum_range_succ, vec, truncX]
    norm_num
  · obtain ⟨c, h1, h2, -⟩ := fitModel_eq_some (svd := truncSvd) (X := truncX) (y := [12, 5])
      (m := [true, true]) rfl (by decide) (by decide)
    refine ⟨c, ?_⟩
    rw [h1]
    have e : designOf truncX [true, true] = ⟨2, 2, fun j k => truncX.get j ([0, 1].getD k 0)⟩ := rfl
    rw [e] at h2 ⊢
    simp [fit, truncSvd, invSigma, sum_range_succ, List.range_succ] at h2
    rw [if_pos (by rw [abs_of_pos] <;> norm_num), if_neg (by rw [abs_of_pos] <;> norm_num)] at h2
    rw [← h2]
    simp [sse, lin, sum_range_succ, vec, truncX]
    norm_num

end GoSelect
