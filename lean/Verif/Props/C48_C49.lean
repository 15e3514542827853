import Verif.Model.Normalize
import Verif.Spec.Statistics
import Verif.Proofs.MapM
import Mathlib.Tactic.Linarith
import Mathlib.Tactic.Ring
import Mathlib.Tactic.FieldSimp
import Mathlib.Tactic.NormNum
import Mathlib.Tactic.Positivity
import Mathlib.Algebra.Order.BigOperators.Group.List

/-! C48: normalisation.  C49: un-normalised coefficients. -/

namespace GoSelect

open Spec

theorem foldl_add_eq (v : List ℝ) (s : ℝ) : v.foldl (fun mu x => mu + x) s = s + v.sum := by
  induction v generalizing s with
  | nil => simp
  | cons x v ih => rw [List.foldl_cons, ih, List.sum_cons]; ring

theorem foldl_add_map {β : Type} (f : β → ℝ) (v : List β) (s : ℝ) :
    v.foldl (fun a x => a + f x) s = s + (v.map f).sum := by
  induction v generalizing s with
  | nil => simp
  | cons x v ih => rw [List.foldl_cons, ih, List.map_cons, List.sum_cons]; ring

theorem goMean_eq (v : List ℝ) : goMean v = mean v := by
  unfold goMean mean; rw [foldl_add_eq, zero_add]

theorem goStd_eq (v : List ℝ) (h : 2 ≤ v.length) : goStd v = Real.sqrt (variance v) := by
  unfold goStd variance
  rw [if_neg (by omega)]
  simp only [goMean_eq]
  rw [foldl_add_map (fun x => (x - mean v) * (x - mean v)), zero_add]
  congr 3
  apply List.map_congr_left
  intro x _
  ring

theorem variance_nonneg (v : List ℝ) (h : 2 ≤ v.length) : 0 ≤ variance v := by
  unfold variance
  apply div_nonneg
  · apply List.sum_nonneg
    intro x hx
    obtain ⟨y, -, rfl⟩ := List.mem_map.1 hx
    positivity
  · have : (2 : ℝ) ≤ v.length := by exact_mod_cast h
    linarith

theorem sum_map_affine (v : List ℝ) (m s : ℝ) :
    (v.map (fun x => (x - m) / s)).sum = (v.sum - v.length * m) / s := by
  induction v with
  | nil => simp
  | cons x v ih =>
    simp only [List.map_cons, List.sum_cons, ih, List.length_cons]
    push_cast
    ring

theorem mean_affine (v : List ℝ) (s : ℝ) (h : v ≠ []) : mean (v.map (fun x => (x - mean v) / s)) = 0 := by
  have hl : (v.length : ℝ) ≠ 0 := by
    have := List.length_pos_iff.2 h
    positivity
  unfold mean
  rw [sum_map_affine]
  have : v.sum - v.length * (v.sum / v.length) = 0 := by field_simp; ring
  rw [this]
  simp

theorem variance_affine (v : List ℝ) (s : ℝ) (h : v ≠ []) :
    variance (v.map (fun x => (x - mean v) / s)) = variance v / s ^ 2 := by
  unfold variance
  rw [mean_affine v s h, List.map_map, List.length_map]
  have : (v.map ((fun x => (x - 0) ^ 2) ∘ fun x => (x - mean v) / s)).sum =
      (v.map (fun x => (x - mean v) ^ 2)).sum / s ^ 2 := by
    generalize mean v = m
    induction v with
    | nil => simp
    | cons x v ih =>
      by_cases hv : v = []
      · subst hv; simp [div_pow]
      · simp only [List.map_cons, List.sum_cons, ih hv, Function.comp]
        ring
  rw [this]
  ring

/-- The variance vanishes exactly for constant data. -/
theorem variance_eq_zero (v : List ℝ) (h : 2 ≤ v.length) : variance v = 0 ↔ Constant v := by
  have hl : (0 : ℝ) < v.length - 1 := by
    have : (2 : ℝ) ≤ v.length := by exact_mod_cast h
    linarith
  have hl' : (v.length : ℝ) ≠ 0 := by
    have : (2 : ℝ) ≤ v.length := by exact_mod_cast h
    linarith
  constructor
  · intro h0
    unfold variance at h0
    rw [div_eq_zero_iff] at h0
    have h1 : (v.map (fun x => (x - mean v) ^ 2)).sum = 0 := by
      rcases h0 with h0 | h0
      · exact h0
      · linarith
    have h2 : ∀ x ∈ v, x = mean v := by
      intro x hx
      have := List.single_le_sum (l := v.map (fun x => (x - mean v) ^ 2)) (by
        intro y hy
        obtain ⟨z, -, rfl⟩ := List.mem_map.1 hy
        positivity) ((x - mean v) ^ 2) (List.mem_map.2 ⟨x, hx, rfl⟩)
      rw [h1] at this
      have : (x - mean v) ^ 2 = 0 := le_antisymm this (by positivity)
      have := pow_eq_zero_iff (n := 2) (by norm_num) |>.1 this
      linarith
    intro x hx y hy
    rw [h2 x hx, h2 y hy]
  · intro hc
    obtain ⟨x, hx⟩ := List.exists_mem_of_ne_nil v (by rintro rfl; simp at h)
    have hrep : v = List.replicate v.length x := List.eq_replicate_iff.2 ⟨rfl, fun y hy => hc y hy x hx⟩
    have hm : mean v = x := by
      have : v.sum = v.length * x := by
        conv_lhs => rw [hrep]
        simp
      unfold mean; rw [this]; field_simp
    unfold variance
    rw [hm]
    have : v.map (fun y => (y - x) ^ 2) = v.map (fun _ => 0) := by
      apply List.map_congr_left
      intro y hy
      rw [hc y hy x hx]; ring
    rw [this]
    simp

theorem goStd_ne_zero (v : List ℝ) (h : 2 ≤ v.length) (hc : ¬ Constant v) : 0 < goStd v := by
  rw [goStd_eq v h]
  apply Real.sqrt_pos.2
  exact lt_of_le_of_ne (variance_nonneg v h) (fun e => hc ((variance_eq_zero v h).1 e.symm))

theorem goStd_constant (v : List ℝ) (hc : Constant v) : goStd v = 0 := by
  by_cases h : 2 ≤ v.length
  · rw [goStd_eq v h, (variance_eq_zero v h).2 hc, Real.sqrt_zero]
  · unfold goStd; rw [if_pos (by omega)]

/-- Normalised values. -/
theorem normalized_stats (v : List ℝ) (h : 2 ≤ v.length) (hs : 0 < goStd v) :
    mean (v.map (fun x => (x - goMean v) / goStd v)) = 0 ∧
    variance (v.map (fun x => (x - goMean v) / goStd v)) = 1 := by
  have hne : v ≠ [] := by rintro rfl; simp at h
  rw [goMean_eq]
  refine ⟨mean_affine v _ hne, ?_⟩
  rw [variance_affine v _ hne]
  have h1 : goStd v ^ 2 = variance v := by
    rw [goStd_eq v h, Real.sq_sqrt (variance_nonneg v h)]
  rw [← h1]
  exact div_self (by positivity)

/-- **C48 (arrays).** `NormalizeArray` gives mean 0 and variance 1 for every non-constant slice. -/
theorem C48_array (v : List ℝ) (h : 2 ≤ v.length) (hc : ¬ Constant v) :
    ∃ w : List ℝ, normalizeArray v = w.map .fin ∧ w.length = v.length ∧ mean w = 0 ∧ variance w = 1 := by
  have hs := goStd_ne_zero v h hc
  refine ⟨v.map (fun x => (x - goMean v) / goStd v), ?_, by simp, normalized_stats v h hs⟩
  unfold normalizeArray
  rw [List.map_map]
  apply List.map_congr_left
  intro x _
  simp [Fl.divFin, hs.ne']

/-- Data with mean 0 and variance 1 is left alone. -/
theorem normalizeArray_fix (w : List ℝ) (h : 2 ≤ w.length) (hm : mean w = 0) (hv : variance w = 1) :
    normalizeArray w = w.map .fin := by
  have hs : goStd w = 1 := by rw [goStd_eq w h, hv, Real.sqrt_one]
  unfold normalizeArray
  simp [Fl.divFin, hs, goMean_eq, hm]

/-- **C48 (twice).** Normalising twice changes nothing. -/
theorem C48_twice (v : List ℝ) (h : 2 ≤ v.length) (hc : ¬ Constant v) :
    ∃ w : List ℝ, normalizeArray v = w.map .fin ∧ normalizeArray w = normalizeArray v := by
  obtain ⟨w, h1, h2, h3, h4⟩ := C48_array v h hc
  exact ⟨w, h1, by rw [h1]; exact normalizeArray_fix w (by omega) h3 h4⟩

/-- A constant slice becomes all NaN. -/
theorem C48_constant_array (v : List ℝ) (hc : Constant v) (hne : v ≠ []) :
    normalizeArray v = v.map (fun _ => .nan) := by
  unfold normalizeArray
  apply List.map_congr_left
  intro x hx
  have hm : goMean v = x := by
    have hrep : v = List.replicate v.length x := List.eq_replicate_iff.2 ⟨rfl, fun y hy => hc y hy x hx⟩
    have hl : (v.length : ℝ) ≠ 0 := by
      have := List.length_pos_iff.2 hne
      positivity
    have : v.sum = v.length * x := by
      conv_lhs => rw [hrep]
      simp
    rw [goMean_eq]; unfold mean; rw [this]; field_simp
  simp [Fl.divFin, goStd_constant v hc, hm]

theorem normalizeCols_get (X : Mat ℝ) (n : Nat) (r c : Nat) :
    ((List.range n).foldl (fun (M : Mat (Fl ℝ)) col =>
      let tmp := normalizeArray (colOf X col)
      ⟨M.nr, M.nc, fun r c => if c = col ∧ r < X.nr then tmp.getD r .nan else M.get r c⟩)
      ⟨X.nr, X.nc, fun r c => .fin (X.get r c)⟩).get r c =
    if c < n ∧ r < X.nr then (normalizeArray (colOf X c)).getD r .nan else .fin (X.get r c) := by
  induction n with
  | zero => simp
  | succ n ih =>
    rw [List.range_succ, List.foldl_append, List.foldl_cons, List.foldl_nil]
    simp only
    by_cases hc : c = n ∧ r < X.nr
    · rw [if_pos hc, if_pos ⟨by omega, hc.2⟩, hc.1]
    · rw [if_neg hc, ih]
      by_cases h : c < n ∧ r < X.nr
      · rw [if_pos h, if_pos ⟨by omega, h.2⟩]
      · rw [if_neg h, if_neg (by omega)]

/-- **C48 (columns).** `NormalizeCols` normalises every column. -/
theorem C48_cols (X : Mat ℝ) (c : Nat) (hc : c < X.nc) :
    colOf (normalizeCols X) c = normalizeArray (colOf X c) := by
  have hnr : (normalizeCols X).nr = X.nr := by
    have key : ∀ (l : List Nat) (M : Mat (Fl ℝ)), (l.foldl (fun (M : Mat (Fl ℝ)) col =>
        let tmp := normalizeArray (colOf X col)
        ⟨M.nr, M.nc, fun r c => if c = col ∧ r < X.nr then tmp.getD r .nan else M.get r c⟩) M).nr = M.nr := by
      intro l
      induction l with
      | nil => intro M; rfl
      | cons a l ih => intro M; rw [List.foldl_cons, ih]
    exact key _ _
  apply List.ext_getElem
  · simp [colOf, normalizeArray, hnr]
  · intro r h1 h2
    simp only [colOf, List.length_map, List.length_range, hnr] at h1
    simp only [colOf, List.getElem_map, List.getElem_range]
    unfold normalizeCols
    rw [normalizeCols_get, if_pos ⟨hc, h1⟩, List.getD_eq_getElem?_getD, List.getElem?_eq_getElem h2]
    rfl

/-! ### NewNormalizedData -/

/-- State of the column loop after `n` columns. -/
structure NormInv (X : Mat ℝ) (d : NormalizedData) (n : Nat) : Prop where
  nr : d.X.nr = X.nr
  nc : d.X.nc = X.nc
  todo : ∀ r c, n ≤ c → d.X.get r c = X.get r c
  std : ∀ c < n, d.std[c]? = some (goStd (colOf X c))
  mu : ∀ c < n, d.mu[c]? = some (goMean (colOf X c))
  stdLen : d.std.length = X.nc
  muLen : d.mu.length = X.nc
  done : ∀ r c, c < n → r < X.nr → d.X.get r c = (X.get r c - goMean (colOf X c)) /
    (if goStd (colOf X c) < 1 / 10 ^ 10 then 1 else goStd (colOf X c))
  later : ∀ c < n, c ≠ 0 → 1 / 10 ^ 10 ≤ goStd (colOf X c)
  bias : d.hasBias = true ↔ 0 < n ∧ goStd (colOf X 0) < 1 / 10 ^ 10

theorem colOf_congr {K : Type} {X Z : Mat K} {c : Nat} (h : X.nr = Z.nr) (hg : ∀ r, X.get r c = Z.get r c) :
    colOf X c = colOf Z c := by
  unfold colOf; rw [h]; apply List.map_congr_left; intro r _; exact hg r

theorem normColumn_step (X : Mat ℝ) (d : NormalizedData) (n : Nat) (hn : n < X.nc) (h : NormInv X d n) :
    (goStd (colOf X n) < 1 / 10 ^ 10 ∧ n ≠ 0 ∧ normColumn d n = none) ∨
    ∃ d', normColumn d n = some d' ∧ NormInv X d' (n + 1) ∧ d'.y = d.y ∧ d'.stdY = d.stdY ∧ d'.muY = d.muY := by
  have hcol : colOf d.X n = colOf X n := colOf_congr h.nr (fun r => h.todo r n (Nat.le_refl n))
  unfold normColumn
  simp only [hcol]
  by_cases hp : goStd (colOf X n) < 1 / 10 ^ 10 ∧ n ≠ 0
  · left; exact ⟨hp.1, hp.2, if_pos hp⟩
  · right
    rw [if_neg hp]
    refine ⟨_, rfl, ?_, rfl, rfl, rfl⟩
    refine ⟨h.nr, h.nc, ?_, ?_, ?_, by simp [h.stdLen], by simp [h.muLen], ?_, ?_, ?_⟩
    · intro r c hc
      simp only
      rw [if_neg (by omega)]
      exact h.todo r c (by omega)
    · intro c hc
      simp only
      rw [List.getElem?_set]
      by_cases hcn : n = c
      · rw [if_pos hcn, if_pos (by rw [h.stdLen]; exact hn), hcn]
      · rw [if_neg hcn]; exact h.std c (by omega)
    · intro c hc
      simp only
      rw [List.getElem?_set]
      by_cases hcn : n = c
      · rw [if_pos hcn, if_pos (by rw [h.muLen]; exact hn), hcn]
      · rw [if_neg hcn]; exact h.mu c (by omega)
    · intro r c hc hr
      simp only
      by_cases hcn : c = n
      · rw [if_pos ⟨hcn, by rw [h.nr]; exact hr⟩, hcn]
        congr 2
        simp [colOf, List.getElem?_range hr]
      · rw [if_neg (by tauto)]; exact h.done r c (by omega) hr
    · intro c hc h0
      by_cases hcn : c = n
      · rw [hcn]; rw [hcn] at h0
        by_contra hlt
        exact hp ⟨not_le.1 hlt, h0⟩
      · exact h.later c (by omega) h0
    · simp only
      by_cases hn0 : n = 0
      · subst hn0
        by_cases hs : goStd (colOf X 0) < 1 / 10 ^ 10
        · rw [if_pos hs]; exact ⟨fun _ => ⟨by omega, hs⟩, fun _ => rfl⟩
        · rw [if_neg hs]
          rw [h.bias]
          simp only [Nat.lt_irrefl, false_and, false_iff, not_and]
          exact fun _ => hs
      · rw [if_neg (fun hs => hp ⟨hs, hn0⟩), h.bias]
        constructor
        · rintro ⟨-, hs⟩; exact ⟨by omega, hs⟩
        · rintro ⟨-, hs⟩; exact ⟨by omega, hs⟩

theorem normLoop_inv (X : Mat ℝ) (d0 : NormalizedData) (h0 : NormInv X d0 0) (n : Nat) (hn : n ≤ X.nc) :
    ((∃ c < n, c ≠ 0 ∧ goStd (colOf X c) < 1 / 10 ^ 10) ∧ (List.range n).foldlM normColumn d0 = none) ∨
    ∃ d, (List.range n).foldlM normColumn d0 = some d ∧ NormInv X d n ∧ d.y = d0.y ∧ d.stdY = d0.stdY ∧
      d.muY = d0.muY := by
  induction n with
  | zero => right; exact ⟨d0, rfl, h0, rfl, rfl, rfl⟩
  | succ n ih =>
    rw [List.range_succ, List.foldlM_append]
    rcases ih (by omega) with ⟨⟨c, hc, hs⟩, h1⟩ | ⟨d, h1, h2, h3, h4, h5⟩
    · left; rw [h1]; exact ⟨⟨c, by omega, hs⟩, rfl⟩
    · rw [h1]
      simp only [List.foldlM_cons, List.foldlM_nil, bind_pure, Option.bind_eq_bind, Option.bind_some]
      rcases normColumn_step X d n (by omega) h2 with ⟨g1, g2, g3⟩ | ⟨d', g1, g2, g3, g4, g5⟩
      · left; exact ⟨⟨n, by omega, g2, g1⟩, g3⟩
      · right; exact ⟨d', g1, g2, by rw [g3, h3], by rw [g4, h4], by rw [g5, h5]⟩

theorem newNormalizedData_inv (X : Mat ℝ) (y : List ℝ) :
    ((∃ c < X.nc, c ≠ 0 ∧ goStd (colOf X c) < 1 / 10 ^ 10) ∧ newNormalizedData X y = none) ∨
    ∃ d, newNormalizedData X y = some d ∧ NormInv X d X.nc ∧ d.y = normalizeArray y ∧ d.stdY = goStd y ∧
      d.muY = goMean y := by
  have h0 : NormInv X {
      X := X
      y := y.map (fun v => Fl.divFin (v - goMean y) (goStd y))
      std := List.replicate X.nc 0
      mu := List.replicate X.nc 0
      stdY := goStd y
      muY := goMean y
      hasBias := false } 0 :=
    ⟨rfl, rfl, fun _ _ _ => rfl, by simp, by simp, by simp, by simp, by simp, by simp, by simp⟩
  exact normLoop_inv X _ h0 X.nc (Nat.le_refl _)

/-- **C48 (panic).** `NewNormalizedData` panics exactly when a column other than the first is
constant (standard deviation below `1e-10`). -/
theorem C48_panic (X : Mat ℝ) (y : List ℝ) : newNormalizedData X y = none ↔
    ∃ c < X.nc, c ≠ 0 ∧ goStd (colOf X c) < 1 / 10 ^ 10 := by
  constructor
  · intro h
    rcases newNormalizedData_inv X y with ⟨h1, -⟩ | ⟨d, h1, -⟩
    · exact h1
    · rw [h] at h1; simp at h1
  · rintro ⟨c, hc, h0, hs⟩
    rcases newNormalizedData_inv X y with ⟨-, h1⟩ | ⟨d, -, h2, -⟩
    · exact h1
    · exact absurd (h2.later c hc h0) (not_le.2 hs)

/-- **C48 (constant columns).** In particular a constant later column panics. -/
theorem C48_constant_column (X : Mat ℝ) (y : List ℝ) (c : Nat) (hc : c < X.nc) (h0 : c ≠ 0)
    (hk : Constant (colOf X c)) : newNormalizedData X y = none := by
  rw [C48_panic]
  exact ⟨c, hc, h0, by rw [goStd_constant _ hk]; norm_num⟩

/-- **C48 (columns and target).** The columns with standard deviation at least `1e-10` get mean 0 and
variance 1; so does `y` unless it is constant. -/
theorem C48_dataset (X : Mat ℝ) (y : List ℝ) (hnr : 2 ≤ X.nr) (d : NormalizedData)
    (h : newNormalizedData X y = some d) :
    d.X.nr = X.nr ∧ d.X.nc = X.nc ∧
    (∀ c < X.nc, 1 / 10 ^ 10 ≤ goStd (colOf X c) → mean (colOf d.X c) = 0 ∧ variance (colOf d.X c) = 1) ∧
    (∀ c < X.nc, c ≠ 0 → mean (colOf d.X c) = 0 ∧ variance (colOf d.X c) = 1) ∧
    (2 ≤ y.length → ¬ Constant y → ∃ w : List ℝ, d.y = w.map .fin ∧ mean w = 0 ∧ variance w = 1) := by
  rcases newNormalizedData_inv X y with ⟨-, h1⟩ | ⟨d', h1, h2, h3, h4, h5⟩
  · rw [h] at h1; simp at h1
  rw [h, Option.some.injEq] at h1
  subst h1
  have key : ∀ c < X.nc, 1 / 10 ^ 10 ≤ goStd (colOf X c) → mean (colOf d.X c) = 0 ∧ variance (colOf d.X c) = 1 := by
    intro c hc hs
    have hcol : colOf d.X c = (colOf X c).map (fun x => (x - goMean (colOf X c)) / goStd (colOf X c)) := by
      unfold colOf
      rw [List.map_map, h2.nr]
      apply List.map_congr_left
      intro r hr
      rw [h2.done r c hc (List.mem_range.1 hr), if_neg (not_lt.2 hs)]
      rfl
    rw [hcol]
    exact normalized_stats _ (by simp [colOf]; exact hnr) (lt_of_lt_of_le (by norm_num) hs)
  refine ⟨h2.nr, h2.nc, key, fun c hc h0 => key c hc (h2.later c hc h0), ?_⟩
  intro hy hyc
  obtain ⟨w, g1, -, g3, g4⟩ := C48_array y hy hyc
  exact ⟨w, by rw [h3, g1], g3, g4⟩

/-- **C48 (bias).** A constant first column becomes 0 and sets `HasBias`; `HasBias` is set only for a
first column with standard deviation below `1e-10`. -/
theorem C48_bias (X : Mat ℝ) (y : List ℝ) (hnc : 0 < X.nc) (d : NormalizedData)
    (h : newNormalizedData X y = some d) :
    (d.hasBias = true ↔ goStd (colOf X 0) < 1 / 10 ^ 10) ∧
    (Constant (colOf X 0) → d.hasBias = true ∧ ∀ r < X.nr, d.X.get r 0 = 0) := by
  rcases newNormalizedData_inv X y with ⟨-, h1⟩ | ⟨d', h1, h2, -⟩
  · rw [h] at h1; simp at h1
  rw [h, Option.some.injEq] at h1
  subst h1
  have hb : d.hasBias = true ↔ goStd (colOf X 0) < 1 / 10 ^ 10 := by
    rw [h2.bias]; simp [hnc]
  refine ⟨hb, ?_⟩
  intro hc
  have hs : goStd (colOf X 0) < 1 / 10 ^ 10 := by rw [goStd_constant _ hc]; norm_num
  refine ⟨hb.2 hs, ?_⟩
  intro r hr
  have hmem : ∀ r < X.nr, X.get r 0 ∈ colOf X 0 := fun r hr =>
    List.mem_map.2 ⟨r, List.mem_range.2 hr, rfl⟩
  have hm : goMean (colOf X 0) = X.get r 0 := by
    have hrep : colOf X 0 = List.replicate (colOf X 0).length (X.get r 0) :=
      List.eq_replicate_iff.2 ⟨rfl, fun z hz => hc z hz _ (hmem r hr)⟩
    have hl : ((colOf X 0).length : ℝ) ≠ 0 := by
      have : 0 < (colOf X 0).length := by simp [colOf]; omega
      positivity
    have hsum : (colOf X 0).sum = (colOf X 0).length * X.get r 0 := by
      conv_lhs => rw [hrep]
      simp
    rw [goMean_eq]; unfold mean; rw [hsum]; field_simp
  rw [h2.done r 0 hnc hr, if_pos hs, hm]
  simp

/-- **C48 (twice, data sets).** Normalising a normalised data set again changes no entry, keeps
`HasBias`, and records mean 0. -/
theorem C48_dataset_twice (X : Mat ℝ) (y : List ℝ) (hnr : 2 ≤ X.nr) (d : NormalizedData)
    (h : newNormalizedData X y = some d) (w : List ℝ) :
    ∃ d', newNormalizedData d.X w = some d' ∧ d'.hasBias = d.hasBias ∧
      ∀ r c, r < X.nr → c < X.nc → d'.X.get r c = d.X.get r c := by
  have hds := C48_dataset X y hnr d h
  rcases newNormalizedData_inv X y with ⟨-, h1⟩ | ⟨d', h1, h2, -⟩
  · rw [h] at h1; simp at h1
  rw [h, Option.some.injEq] at h1
  subst h1
  -- mean and standard deviation of the normalised columns
  have hlen : ∀ c, 2 ≤ (colOf d.X c).length := by intro c; simp [colOf, h2.nr, hnr]
  have hcolne : ∀ c, colOf X c ≠ [] := by
    intro c e
    have : (colOf X c).length = 0 := by rw [e]; rfl
    simp [colOf] at this
    omega
  have hcol : ∀ c < X.nc, colOf d.X c = (colOf X c).map (fun x => (x - mean (colOf X c)) /
      (if goStd (colOf X c) < 1 / 10 ^ 10 then 1 else goStd (colOf X c))) := by
    intro c hc
    conv_lhs => unfold colOf
    conv_rhs => rw [colOf]
    rw [List.map_map, h2.nr]
    apply List.map_congr_left
    intro r hr
    rw [h2.done r c hc (List.mem_range.1 hr), goMean_eq]
    rfl
  have hmean : ∀ c < X.nc, goMean (colOf d.X c) = 0 := by
    intro c hc
    rw [goMean_eq, hcol c hc]
    exact mean_affine _ _ (hcolne c)
  have hstd1 : ∀ c < X.nc, 1 / 10 ^ 10 ≤ goStd (colOf X c) → goStd (colOf d.X c) = 1 := by
    intro c hc hs
    rw [goStd_eq _ (hlen c), (hds.2.2.1 c hc hs).2, Real.sqrt_one]
  have hstd0 : ∀ c < X.nc, goStd (colOf X c) < 1 / 10 ^ 10 → goStd (colOf d.X c) < 1 / 10 ^ 10 := by
    intro c hc hs
    rw [goStd_eq _ (hlen c), hcol c hc, variance_affine _ _ (hcolne c), if_pos hs]
    rw [goStd_eq _ (by simp [colOf]; exact hnr)] at hs
    simpa using hs
  rcases newNormalizedData_inv d.X w with ⟨⟨c, hc, h0, hs⟩, -⟩ | ⟨d', g1, g2, -⟩
  · exfalso
    rw [h2.nc] at hc
    rw [hstd1 c hc (h2.later c hc h0)] at hs
    norm_num at hs
  · refine ⟨d', g1, ?_, ?_⟩
    · rw [Bool.eq_iff_iff, g2.bias, h2.bias, h2.nc]
      constructor
      · rintro ⟨hn, hs⟩
        refine ⟨hn, ?_⟩
        by_contra hge
        rw [hstd1 0 hn (not_lt.1 hge)] at hs
        norm_num at hs
      · rintro ⟨hn, hs⟩
        exact ⟨hn, hstd0 0 hn hs⟩
    · intro r c hr hc
      rw [g2.done r c (by rw [h2.nc]; exact hc) (by rw [h2.nr]; exact hr), hmean c hc, sub_zero]
      by_cases hs : goStd (colOf X c) < 1 / 10 ^ 10
      · rw [if_pos (hstd0 c hc hs), div_one]
      · rw [hstd1 c hc (not_lt.1 hs), if_neg (by norm_num), div_one]

/-! ### C49 -/

/-- Sum of `c * mu / s` over a selection. -/
noncomputable def shiftSum (n : NormalizedData) (sel : List Nat) (coeff : List ℝ) : ℝ :=
  (List.zipWith (fun s c => c * n.mu.getD s 0 / n.std.getD s 0) sel coeff).sum

theorem biasLoop_some (n : NormalizedData) (coeff : List ℝ) (sel : List Nat) (i : Nat) (sum b : ℝ)
    (h : biasLoop n coeff sel i sum = some b) :
    sel.length ≤ (coeff.drop i).length ∧ b = sum + shiftSum n sel (coeff.drop i) ∧
      ∀ v ∈ sel, v < n.mu.length ∧ v < n.std.length := by
  induction sel generalizing i sum with
  | nil =>
    simp only [biasLoop, Option.some.injEq] at h
    simp [shiftSum, h]
  | cons v sel ih =>
    rw [biasLoop] at h
    split at h
    · rename_i c mu s hc hmu hs
      obtain ⟨h1, h2, h3⟩ := ih _ _ h
      obtain ⟨hi, hci⟩ := List.getElem?_eq_some_iff.1 hc
      have hdrop : coeff.drop i = c :: coeff.drop (i + 1) := by rw [List.drop_eq_getElem_cons hi, hci]
      rw [hdrop]
      refine ⟨by simp only [List.length_cons]; omega, ?_, ?_⟩
      · rw [h2]
        simp only [shiftSum, List.zipWith_cons_cons, List.sum_cons, List.getD_eq_getElem?_getD, hmu, hs,
          Option.getD_some]
        ring
      · intro w hw
        rcases List.mem_cons.1 hw with rfl | hw
        · exact ⟨(List.getElem?_eq_some_iff.1 hmu).1, (List.getElem?_eq_some_iff.1 hs).1⟩
        · exact h3 w hw
    · simp at h

theorem unnormLoop_some (n : NormalizedData) (sel : List Nat) (i : Nat) (pre suf out : List ℝ)
    (hi : pre.length = i) (h : unnormLoop n sel i (pre ++ suf) = some out) (hl : sel.length ≤ suf.length) :
    out = pre ++ (List.zipWith (fun s c => c * n.stdY / n.std.getD s 0) sel suf ++ suf.drop sel.length) ∧
      ∀ v ∈ sel, ¬ (v = 0 ∧ n.hasBias = true) := by
  induction sel generalizing i pre suf with
  | nil =>
    simp only [unnormLoop, Option.some.injEq] at h
    simp [h]
  | cons v sel ih =>
    cases suf with
    | nil => simp at hl
    | cons c suf =>
      rw [unnormLoop, List.getElem?_append_right (by omega), hi, Nat.sub_self] at h
      simp only [List.getElem?_cons_zero] at h
      unfold linearNormalizationTransformation at h
      by_cases hb : v = 0 ∧ n.hasBias = true
      · rw [if_pos hb] at h; simp at h
      rw [if_neg hb] at h
      cases hs : n.std[v]? with
      | none => rw [hs] at h; simp at h
      | some s =>
        rw [hs] at h
        simp only at h
        have hset : (pre ++ c :: suf).set i (c * n.stdY / s) = (pre ++ [c * n.stdY / s]) ++ suf := by
          rw [List.set_append_right _ _ (by omega), hi, Nat.sub_self]; simp
        rw [hset] at h
        obtain ⟨h1, h2⟩ := ih (i + 1) (pre ++ [c * n.stdY / s]) suf (by simp [hi]) h (by simpa using hl)
        refine ⟨?_, ?_⟩
        · rw [h1]; simp [List.getD_eq_getElem?_getD, hs]
        · intro w hw
          rcases List.mem_cons.1 hw with rfl | hw
          · exact hb
          · exact h2 w hw

/-- Core identity: un-normalised minus normalised prediction. -/
theorem predict_identity (n : NormalizedData) (X : Mat ℝ) (r : Nat) (sel : List Nat) (coeff : List ℝ)
    (hg : ∀ v ∈ sel, n.X.get r v = (X.get r v - n.mu.getD v 0) / n.std.getD v 0) :
    sparsePredict (X.get r) sel (List.zipWith (fun s c => c * n.stdY / n.std.getD s 0) sel coeff) =
      n.stdY * sparsePredict (n.X.get r) sel coeff + n.stdY * shiftSum n sel coeff := by
  induction sel generalizing coeff with
  | nil => simp [sparsePredict, shiftSum]
  | cons v sel ih =>
    cases coeff with
    | nil => simp [sparsePredict, shiftSum]
    | cons c coeff =>
      have := ih coeff (fun w hw => hg w (by simp [hw]))
      simp only [sparsePredict, shiftSum, List.zipWith_cons_cons, List.sum_cons] at this ⊢
      rw [this, hg v (by simp)]
      ring

/-- What the transformed node predicts. -/
theorem unnormalize_predict (X : Mat ℝ) (y : List ℝ) (n : NormalizedData)
    (hn : newNormalizedData X y = some n) (node node' : LassoLarsNode ℝ)
    (hl : node.coeff.length = node.selection.length) (hsel : ∀ v ∈ node.selection, v < X.nc)
    (hu : unnormalizeNode n node = some node') (r : Nat) (hr : r < X.nr) :
    ∃ bias, linearTransformationBias n node.selection node.coeff = some bias ∧
    sparsePredict (X.get r) node'.selection node'.coeff =
      n.muY + n.stdY * sparsePredict (n.X.get r) node.selection node.coeff +
        (if n.hasBias then bias * (X.get r 0 - 1) else -bias) := by
  rcases newNormalizedData_inv X y with ⟨-, h1⟩ | ⟨d', h1, h2, -⟩
  · rw [hn] at h1; simp at h1
  rw [hn, Option.some.injEq] at h1
  subst h1
  unfold unnormalizeNode at hu
  cases hb : linearTransformationBias n node.selection node.coeff with
  | none => rw [hb] at hu; simp at hu
  | some bias =>
    refine ⟨bias, rfl, ?_⟩
    rw [hb] at hu
    simp only at hu
    unfold linearTransformationBias at hb
    cases hbl : biasLoop n node.coeff node.selection 0 0 with
    | none => rw [hbl] at hb; simp at hb
    | some sh =>
      rw [hbl] at hb
      simp only [Option.some.injEq] at hb
      obtain ⟨-, hsh, -⟩ := biasLoop_some _ _ _ _ _ _ hbl
      rw [List.drop_zero, zero_add] at hsh
      cases hul : unnormLoop n node.selection 0 node.coeff with
      | none => rw [hul] at hu; simp at hu
      | some out =>
        rw [hul] at hu
        simp only at hu
        obtain ⟨ho, hz⟩ := unnormLoop_some n node.selection 0 [] node.coeff out rfl (by simpa using hul) (by omega)
        rw [List.nil_append, List.drop_of_length_le (by omega), List.append_nil] at ho
        have hg : ∀ v ∈ node.selection, n.X.get r v = (X.get r v - n.mu.getD v 0) / n.std.getD v 0 := by
          intro v hv
          have hv' := hsel v hv
          rw [h2.done r v hv' hr, List.getD_eq_getElem?_getD, List.getD_eq_getElem?_getD, h2.mu v hv',
            h2.std v hv', Option.getD_some, Option.getD_some, if_neg]
          intro hlt
          by_cases h0 : v = 0
          · subst h0
            exact hz 0 hv ⟨rfl, h2.bias.2 ⟨by omega, hlt⟩⟩
          · exact absurd (h2.later v hv' h0) (not_le.2 hlt)
        have hp := predict_identity n X r node.selection node.coeff hg
        rw [← ho, ← hsh] at hp
        by_cases hbias : n.hasBias = true
        · rw [if_pos hbias] at hu ⊢
          rw [Option.some.injEq] at hu
          subst hu
          simp only [sparsePredict, List.zipWith_cons_cons, List.sum_cons] at hp ⊢
          rw [hp, ← hb]
          ring
        · rw [if_neg hbias] at hu ⊢
          rw [Option.some.injEq] at hu
          subst hu
          simp only
          rw [hp, ← hb]
          ring

/-- **C49 (partial).** If the first column is all ones, the un-normalised coefficients predict
`muY + stdY * (normalised prediction)` in every row.  Missing: data sets without such a column, where
the claim is false. -/
theorem C49_predict_partial (X : Mat ℝ) (y : List ℝ) (n : NormalizedData)
    (hn : newNormalizedData X y = some n) (hones : ∀ r < X.nr, X.get r 0 = 1) (hnc : 0 < X.nc)
    (path path' : List (LassoLarsNode ℝ)) (hp : path2Unnormalized n path = some path')
    (hl : ∀ node ∈ path, node.coeff.length = node.selection.length ∧ ∀ v ∈ node.selection, v < X.nc)
    (k : Nat) (node node' : LassoLarsNode ℝ) (h1 : path[k]? = some node) (h2 : path'[k]? = some node')
    (r : Nat) (hr : r < X.nr) :
    sparsePredict (X.get r) node'.selection node'.coeff =
      n.muY + n.stdY * sparsePredict (n.X.get r) node.selection node.coeff := by
  have hu : unnormalizeNode n node = some node' := by
    unfold path2Unnormalized at hp
    obtain ⟨hk, e1⟩ := List.getElem?_eq_some_iff.1 h1
    obtain ⟨hk', e2⟩ := List.getElem?_eq_some_iff.1 h2
    rw [← e1, ← e2]
    exact mapM_getElem hp k hk
  have hm := List.mem_of_getElem? h1
  obtain ⟨bias, -, h⟩ := unnormalize_predict X y n hn node node' (hl node hm).1 (hl node hm).2 hu r hr
  have hb : n.hasBias = true := by
    refine ((C48_bias X y hnc n hn).2 ?_).1
    intro a ha b hb
    obtain ⟨i, hi, rfl⟩ := List.mem_map.1 ha
    obtain ⟨j, hj, rfl⟩ := List.mem_map.1 hb
    rw [hones i (List.mem_range.1 hi), hones j (List.mem_range.1 hj)]
  rw [h, if_pos hb, hones r hr]
  ring

/-- **C49 (what happens otherwise).** Without a constant column the constant term is dropped; with a
constant column of value `c` it is multiplied by `c`. -/
theorem C49_otherwise (X : Mat ℝ) (y : List ℝ) (n : NormalizedData)
    (hn : newNormalizedData X y = some n) (node node' : LassoLarsNode ℝ)
    (hl : node.coeff.length = node.selection.length) (hsel : ∀ v ∈ node.selection, v < X.nc)
    (hu : unnormalizeNode n node = some node') (r : Nat) (hr : r < X.nr) :
    ∃ bias, linearTransformationBias n node.selection node.coeff = some bias ∧
    sparsePredict (X.get r) node'.selection node'.coeff =
      n.muY + n.stdY * sparsePredict (n.X.get r) node.selection node.coeff +
        (if n.hasBias then bias * (X.get r 0 - 1) else -bias) :=
  unnormalize_predict X y n hn node node' hl hsel hu r hr

/-- The zero model predicts 0 instead of the mean of `y` when there is no constant column. -/
theorem C49_refuted : ∃ (X : Mat ℝ) (y : List ℝ) (n : NormalizedData) (node node' : LassoLarsNode ℝ),
    newNormalizedData X y = some n ∧ unnormalizeNode n node = some node' ∧
    sparsePredict (X.get 0) node'.selection node'.coeff ≠
      n.muY + n.stdY * sparsePredict (n.X.get 0) node.selection node.coeff := by
  let X : Mat ℝ := ⟨2, 1, fun r _ => r⟩
  have hcol : colOf X 0 = [0, 1] := by simp [colOf, X, List.range_succ]
  have hstd : ¬ goStd (colOf X 0) < 1 / 10 ^ 10 := by
    rw [hcol, goStd_eq _ (by simp)]
    have hv : variance [0, 1] = 1 / 2 := by norm_num [variance, mean]
    rw [hv, not_lt]
    apply Real.le_sqrt_of_sq_le
    norm_num
  rcases newNormalizedData_inv X [1, 3] with ⟨⟨c, hc, h0, -⟩, -⟩ | ⟨d, h1, h2, -, h4, h5⟩
  · simp only [X] at hc; omega
  have hb : d.hasBias = false := by
    rw [← Bool.not_eq_true, h2.bias]
    exact fun h => hstd h.2
  refine ⟨X, [1, 3], d, ⟨[], 0, []⟩, ⟨[], 0, []⟩, h1, ?_, ?_⟩
  · simp [unnormalizeNode, linearTransformationBias, biasLoop, unnormLoop, hb]
  · simp only [sparsePredict, List.zipWith_nil_left, List.sum_nil, mul_zero, add_zero]
    rw [h5]
    norm_num [goMean]

/-- A data set to which the partial theorem applies. -/
example : ∃ n, newNormalizedData ⟨2, 2, fun r c => if c = 0 then 1 else r⟩ [1, 3] = some n := by
  rcases newNormalizedData_inv ⟨2, 2, fun r c => if c = 0 then 1 else r⟩ [1, 3] with
    ⟨⟨c, hc, h0, hs⟩, -⟩ | ⟨d, h1, -⟩
  · exfalso
    simp only at hc
    have : c = 1 := by omega
    subst this
    have hcol : colOf (⟨2, 2, fun r c => if c = 0 then 1 else (r : ℝ)⟩ : Mat ℝ) 1 = [0, 1] := by
      simp [colOf, List.range_succ]
    rw [hcol, goStd_eq _ (by simp)] at hs
    have hv : variance [0, 1] = 1 / 2 := by norm_num [variance, mean]
    rw [hv] at hs
    refine absurd hs (not_lt.2 ?_)
    apply Real.le_sqrt_of_sq_le
    norm_num
  · exact ⟨d, h1⟩

end GoSelect
