import Verif.Model.Lars
import Verif.Spec.Lasso
import Verif.Proofs.CrdDesc
import Mathlib.Algebra.BigOperators.Ring.Finset
import Mathlib.Algebra.Order.BigOperators.Ring.Finset
import Mathlib.Tactic.Linarith
import Mathlib.Tactic.LinearCombination
import Mathlib.Tactic.Ring
import Mathlib.Tactic.FieldSimp
import Mathlib.Tactic.Positivity

/-! Mathematics of the LARS path: normal equations, the lasso optimality conditions and how they move with the
regularisation. -/

namespace GoSelect

open Finset Spec

namespace Spec

section
variable {K : Type} [Field K] [LinearOrder K]

/-- `1/2 ‖y - X b‖² + λ ‖b‖₁`. -/
def lassoRisk (X : Mat K) (y : Nat → K) (lamb : K) (b : Nat → K) : K :=
  (1 / 2) * ∑ r ∈ range X.nr, residual X y b r ^ 2 + lamb * ∑ j ∈ range X.nc, |b j|

/-- `b` is a solution of the lasso problem. -/
def IsLassoMin (X : Mat K) (y : Nat → K) (lamb : K) (b : Nat → K) : Prop :=
  ∀ b', lassoRisk X y lamb b ≤ lassoRisk X y lamb b'

/-- The columns in `E` are linearly independent. -/
def Independent (X : Mat K) (E : List Nat) : Prop :=
  ∀ w : Nat → K, (∀ i, i ∉ E → w i = 0) → (∀ r < X.nr, ∑ j ∈ range X.nc, X.get r j * w j = 0) → ∀ i, w i = 0

/-- `x_iᵀ (y - X b)`. -/
def correlation (X : Mat K) (y b : Nat → K) (i : Nat) : K := ∑ r ∈ range X.nr, X.get r i * residual X y b r

/-- The coefficients of a sparse solution as a function of the feature. -/
def spread (E : List Nat) (v : List K) (i : Nat) : K := if i ∈ E then v.getD (E.idxOf i) 0 else 0

end

end Spec

section
variable {K : Type} [Field K] [LinearOrder K]

/-- `x_iᵀ X b`. -/
def gram (X : Mat K) (b : Nat → K) (i : Nat) : K :=
  ∑ r ∈ range X.nr, X.get r i * ∑ j ∈ range X.nc, X.get r j * b j

theorem gram_lin (X : Mat K) (a b : Nat → K) (s : K) (i : Nat) :
    gram X (fun j => a j - s * b j) i = gram X a i - s * gram X b i := by
  unfold gram
  rw [Finset.mul_sum, ← Finset.sum_sub_distrib]
  apply Finset.sum_congr rfl
  intro r _
  have : ∑ j ∈ range X.nc, X.get r j * (a j - s * b j) =
      ∑ j ∈ range X.nc, X.get r j * a j - s * ∑ j ∈ range X.nc, X.get r j * b j := by
    rw [Finset.mul_sum, ← Finset.sum_sub_distrib]
    apply Finset.sum_congr rfl
    intro j _
    ring
  rw [this]
  ring

theorem gram_sub (X : Mat K) (a b : Nat → K) (i : Nat) :
    gram X (fun j => a j - b j) i = gram X a i - gram X b i := by
  have := gram_lin X a b 1 i
  simpa using this

theorem correlation_eq (X : Mat K) (y b : Nat → K) (i : Nat) :
    correlation X y b i = larsXy X y i - gram X b i := by
  unfold correlation larsXy gram Spec.residual
  rw [← Finset.sum_sub_distrib]
  apply Finset.sum_congr rfl
  intro r _
  ring

/-- `wᵀ XᵀX w = ‖X w‖²`. -/
theorem gram_quad (X : Mat K) (w : Nat → K) :
    ∑ i ∈ range X.nc, w i * gram X w i = ∑ r ∈ range X.nr, (∑ j ∈ range X.nc, X.get r j * w j) ^ 2 := by
  unfold gram
  simp only [Finset.mul_sum]
  rw [Finset.sum_comm]
  apply Finset.sum_congr rfl
  intro r _
  rw [sq, Finset.sum_mul_sum]
  apply Finset.sum_congr rfl
  intro i _
  apply Finset.sum_congr rfl
  intro j _
  ring

variable [IsStrictOrderedRing K]

/-- If the quadratic form of `w` is not positive, independent columns force `w = 0`. -/
theorem indep_zero {X : Mat K} {E : List Nat} (h : Independent X E) {w : Nat → K} (hs : ∀ i, i ∉ E → w i = 0)
    (hq : ∑ i ∈ range X.nc, w i * gram X w i ≤ 0) : ∀ i, w i = 0 := by
  rw [gram_quad] at hq
  apply h w hs
  intro r hr
  have h0 : ∑ r ∈ range X.nr, (∑ j ∈ range X.nc, X.get r j * w j) ^ 2 = 0 :=
    le_antisymm hq (Finset.sum_nonneg (fun r _ => sq_nonneg _))
  rw [Finset.sum_eq_zero_iff_of_nonneg (fun r _ => sq_nonneg _)] at h0
  exact pow_eq_zero_iff (two_ne_zero) |>.1 (h0 r (mem_range.2 hr))

/-- Uniqueness of the normal equations. -/
theorem indep_unique {X : Mat K} {E : List Nat} (h : Independent X E) {w : Nat → K} (hs : ∀ i, i ∉ E → w i = 0)
    (hg : ∀ i ∈ E, gram X w i = 0) : ∀ i, w i = 0 := by
  apply indep_zero h hs
  apply le_of_eq
  apply Finset.sum_eq_zero
  intro i _
  by_cases hi : i ∈ E
  · rw [hg i hi, mul_zero]
  · rw [hs i hi, zero_mul]

theorem lassoRisk_objective (X : Mat K) (y : Nat → K) (lamb : K) (b : Nat → K) (hr : 0 < X.nr) :
    lassoRisk X y lamb b = X.nr * lassoObjective X y (lamb / X.nr) b := by
  have hn : (X.nr : K) ≠ 0 := by positivity
  unfold lassoRisk lassoObjective
  field_simp

/-- The optimality conditions suffice. -/
theorem lasso_min_of_kkt {X : Mat K} {y : Nat → K} {lamb : K} {b : Nat → K}
    (h : ∀ i < X.nc, |correlation X y b i| ≤ lamb ∧ correlation X y b i * b i = lamb * |b i|) :
    IsLassoMin X y lamb b := by
  intro b'
  rcases Nat.eq_zero_or_pos X.nr with h0 | hr
  · have hc : ∀ i, correlation X y b i = 0 := fun i => by simp [correlation, h0]
    unfold lassoRisk
    simp only [h0, Finset.range_zero, Finset.sum_empty, mul_zero, zero_add]
    have h1 : lamb * ∑ j ∈ range X.nc, |b j| = 0 := by
      rw [Finset.mul_sum]
      apply Finset.sum_eq_zero
      intro i hi
      have := (h i (mem_range.1 hi)).2
      rw [hc, zero_mul] at this
      exact this.symm
    rw [h1, Finset.mul_sum]
    apply Finset.sum_nonneg
    intro i hi
    have := (h i (mem_range.1 hi)).1
    rw [hc, abs_zero] at this
    positivity
  · have hn : (0 : K) < X.nr := by positivity
    rw [lassoRisk_objective X y lamb b hr, lassoRisk_objective X y lamb b' hr]
    apply mul_le_mul_of_nonneg_left _ (le_of_lt hn)
    refine le_trans ?_ (objective_convex X y (lamb / X.nr) b b' hr)
    have hg : ∀ j, gradient X y b j = correlation X y b j / X.nr := by
      intro j
      unfold gradient correlation
      field_simp
    have : ∑ j ∈ range X.nc, gradient X y b j * (b' j - b j) ≤
        lamb / X.nr * (∑ j ∈ range X.nc, |b' j| - ∑ j ∈ range X.nc, |b j|) := by
      rw [← Finset.sum_sub_distrib, Finset.mul_sum]
      apply Finset.sum_le_sum
      intro j hj
      obtain ⟨h1, h2⟩ := h j (mem_range.1 hj)
      rw [hg]
      have h3 : correlation X y b j * b' j ≤ lamb * |b' j| := by
        calc correlation X y b j * b' j ≤ |correlation X y b j * b' j| := le_abs_self _
          _ = |correlation X y b j| * |b' j| := abs_mul _ _
          _ ≤ lamb * |b' j| := mul_le_mul_of_nonneg_right h1 (abs_nonneg _)
      rw [div_mul_eq_mul_div, div_mul_eq_mul_div]
      apply div_le_div_of_nonneg_right _ (le_of_lt hn)
      linarith
    linarith

/-- A linear function that is in the cone `|f μ| ≤ μ` at `l` and meets the border at `t ≤ l` stays in the cone
between. -/
theorem cone_between {a b t l s : K} (hs : s = 1 ∨ s = -1) (ht : 0 ≤ t) (ha : a = t * (s - b))
    (hl : |a + l * b| ≤ l) {m : K} (h1 : t ≤ m) (h2 : m ≤ l) : |a + m * b| ≤ m := by
  rw [abs_le] at hl ⊢
  subst ha
  rcases eq_or_lt_of_le (le_trans h1 h2) with h | h
  · have : m = t := le_antisymm (by rw [h]; exact h2) h1
    subst this
    rcases hs with rfl | rfl
    · constructor <;> nlinarith
    · constructor <;> nlinarith
  · rcases hs with rfl | rfl
    · have hb : b ≤ 1 := by nlinarith
      constructor
      · by_contra hc
        nlinarith [mul_nonneg (sub_nonneg.2 h1) (sub_nonneg.2 h2)]
      · nlinarith
    · have hb : -1 ≤ b := by nlinarith
      constructor
      · nlinarith
      · by_contra hc
        nlinarith [mul_nonneg (sub_nonneg.2 h1) (sub_nonneg.2 h2)]

/-- Strictly between, the function is strictly inside; at `l` it is inside or leaves there at the other border. -/
theorem cone_open {a b t l s : K} (hs : s = 1 ∨ s = -1) (ht : 0 ≤ t) (hl0 : 0 < l) (ha : a = t * (s - b))
    (hl : |a + l * b| < l ∨ (a + l * b = -s * l ∧ 1 < -s * b)) {m : K} (h1 : t < m) (h2 : m < l) :
    |a + m * b| < m := by
  subst ha
  have htl : t < l := lt_trans h1 h2
  rw [abs_lt]
  rcases hl with hl | ⟨hl, hb⟩
  · rw [abs_lt] at hl
    rcases hs with rfl | rfl
    · have hb : b < 1 := by nlinarith
      constructor
      · by_contra hc
        nlinarith [mul_pos (sub_pos.2 h1) (sub_pos.2 h2)]
      · nlinarith
    · have hb : -1 < b := by nlinarith
      constructor
      · nlinarith
      · by_contra hc
        nlinarith [mul_pos (sub_pos.2 h1) (sub_pos.2 h2)]
  · rcases hs with rfl | rfl
    · constructor
      · nlinarith
      · nlinarith
    · constructor
      · nlinarith
      · nlinarith

/-- Closed version of `cone_open`. -/
theorem cone_closed {a b t l s : K} (hs : s = 1 ∨ s = -1) (ht : 0 ≤ t) (hl0 : 0 < l) (ha : a = t * (s - b))
    (hl : |a + l * b| < l ∨ (a + l * b = -s * l ∧ 1 < -s * b)) {m : K} (h1 : t ≤ m) (h2 : m ≤ l) :
    |a + m * b| ≤ m := by
  refine cone_between hs ht ha ?_ h1 h2
  rcases hl with hl | ⟨hl, -⟩
  · exact le_of_lt hl
  · rw [hl]
    rcases hs with rfl | rfl
    · rw [abs_le]; constructor <;> linarith
    · rw [abs_le]; constructor <;> linarith

/-- The event time itself is on the border. -/
theorem cone_border {a b t s : K} (ha : a = t * (s - b)) : a + t * b = s * t := by
  subst ha; ring

/-- The coefficient of an active feature keeps its sign down to its crossing time. -/
theorem active_sign {c d l s m : K} (hs : s = 1 ∨ s = -1)
    (hA : 0 < s * (c - l * d) ∨ (c - l * d = 0 ∧ 0 < s * d))
    (hr : d ≠ 0 → c / d ≤ m ∨ l ≤ c / d) (hm : m ≤ l) : 0 ≤ s * (c - m * d) := by
  by_cases hd : d = 0
  · subst hd
    rcases hA with h | ⟨-, h⟩
    · simp only [mul_zero, sub_zero] at h ⊢
      exact le_of_lt h
    · simp at h
  · have hcd : c = (c / d) * d := (div_mul_cancel₀ c hd).symm
    set q := c / d
    have hsd : s * d < 0 ∨ 0 < s * d := by
      apply lt_or_gt_of_ne
      rcases hs with rfl | rfl
      · simpa using hd
      · simpa using hd
    have e1 : s * (c - l * d) = (s * d) * (q - l) := by rw [hcd]; ring
    have e2 : s * (c - m * d) = (s * d) * (q - m) := by rw [hcd]; ring
    rw [e2]
    rcases hr hd with h | h
    · rcases hA with hA | ⟨hA, hA'⟩
      · rw [e1] at hA
        have : s * d ≤ 0 := by
          rcases hsd with h' | h'
          · exact le_of_lt h'
          · nlinarith
        nlinarith
      · have hA2 : s * (c - l * d) = 0 := by rw [hA, mul_zero]
        rw [e1] at hA2
        have : q = l := by
          rcases mul_eq_zero.1 hA2 with h3 | h3
          · exact absurd h3 (ne_of_gt hA')
          · linarith
        have : q = m := le_antisymm h (by rw [this]; exact hm)
        rw [this]; simp
    · rcases hA with hA | ⟨-, hA'⟩
      · rw [e1] at hA
        have : 0 ≤ s * d := by
          rcases hsd with h' | h'
          · nlinarith
          · exact le_of_lt h'
        nlinarith
      · nlinarith

/-- Strict version: the coefficient is not zero away from its crossing time. -/
theorem active_sign_strict {c d l s m : K} (hs : s = 1 ∨ s = -1)
    (hA : 0 < s * (c - l * d) ∨ (c - l * d = 0 ∧ 0 < s * d))
    (hr : d ≠ 0 → c / d < m ∨ l ≤ c / d) (hm : m < l) : 0 < s * (c - m * d) := by
  have h0 := active_sign hs hA (fun h => (hr h).imp le_of_lt id) (le_of_lt hm)
  refine lt_of_le_of_ne h0 (fun he => ?_)
  have hz : c - m * d = 0 := by
    rcases hs with rfl | rfl <;> linarith
  by_cases hd : d = 0
  · subst hd
    simp only [mul_zero, sub_zero] at hz
    subst hz
    rcases hA with h | ⟨-, h⟩ <;> simp at h
  · have : c / d = m := by rw [div_eq_iff hd]; linarith
    rcases hr hd with h | h
    · exact absurd this (ne_of_lt h)
    · rw [this] at h
      exact absurd hm (not_lt.2 h)

/-- The normal equations of an active set `E` with signs `sgn`. -/
structure LarsEq (X : Mat K) (y : Nat → K) (E : List Nat) (sgn C D : Nat → K) : Prop where
  suppC : ∀ i, i ∉ E → C i = 0
  suppD : ∀ i, i ∉ E → D i = 0
  eqC : ∀ i ∈ E, gram X C i = larsXy X y i
  eqD : ∀ i ∈ E, gram X D i = sgn i

theorem LarsEq.corr_active {X : Mat K} {y : Nat → K} {E : List Nat} {sgn C D : Nat → K} (h : LarsEq X y E sgn C D)
    (m : K) {i : Nat} (hi : i ∈ E) : correlation X y (fun j => C j - m * D j) i = m * sgn i := by
  rw [correlation_eq, gram_lin, h.eqC i hi, h.eqD i hi]
  ring

theorem corr_linear (X : Mat K) (y : Nat → K) (C D : Nat → K) (m : K) (i : Nat) :
    correlation X y (fun j => C j - m * D j) i = (larsXy X y i - gram X C i) + m * gram X D i := by
  rw [correlation_eq, gram_lin]
  ring

/-- State of the path at regularisation `l`: coefficients of active features have the signs `sgn` or are about to
get them; inactive features are strictly inside the cone, except the one that has just left. -/
structure LarsGood (X : Mat K) (y : Nat → K) (l : K) (E : List Nat) (sgn : Nat → K) (last : Option (Nat × K))
    (C D : Nat → K) : Prop where
  act : ∀ i ∈ E, 0 < sgn i * (C i - l * D i) ∨ (C i - l * D i = 0 ∧ 0 < sgn i * D i)
  inact : ∀ i < X.nc, i ∉ E →
    (|(larsXy X y i - gram X C i) + l * gram X D i| < l ∧ ∀ coeff, last ≠ some (i, coeff)) ∨
    ∃ coeff s, last = some (i, coeff) ∧ (s = 1 ∨ s = -1) ∧ 0 < s * coeff ∧
      (larsXy X y i - gram X C i) + l * gram X D i = s * l ∧ 1 < s * gram X D i
  out : ∀ i coeff, last = some (i, coeff) → i ∉ E

/-- The event times of an iteration at regularisation `l`, next event at `l'`. -/
structure LarsTimes (X : Mat K) (y : Nat → K) (l l' : K) (E : List Nat) (last : Option (Nat × K))
    (C D : Nat → K) (t : Nat → K) : Prop where
  le : l' ≤ l
  /-- the time of inactive feature `i` -/
  join : ∀ i < X.nc, i ∉ E → 0 ≤ t i ∧ t i ≤ l' ∧ ∃ s, (s = 1 ∨ s = -1) ∧
    larsXy X y i - gram X C i = t i * (s - gram X D i) ∧
    ∀ coeff, last = some (i, coeff) → s * coeff ≤ 0
  cross : ∀ i ∈ E, D i ≠ 0 → C i / D i ≤ l' ∨ l ≤ C i / D i

theorem good_cone {X : Mat K} {y : Nat → K} {l : K} {E : List Nat} {sgn : Nat → K} {last : Option (Nat × K)}
    {C D : Nat → K} (h : LarsGood X y l E sgn last C D) {i : Nat} (hi : i < X.nc) (hE : i ∉ E) {s : K}
    (hs : s = 1 ∨ s = -1) (hlast : ∀ coeff, last = some (i, coeff) → s * coeff ≤ 0) :
    |(larsXy X y i - gram X C i) + l * gram X D i| < l ∨
      ((larsXy X y i - gram X C i) + l * gram X D i = -s * l ∧ 1 < -s * gram X D i) := by
  rcases h.inact i hi hE with ⟨h, -⟩ | ⟨coeff, s', h1, h2, h3, h4, h5⟩
  · exact .inl h
  · right
    have : s' = -s := by
      have h6 := hlast coeff h1
      rcases hs with rfl | rfl <;> rcases h2 with rfl | rfl
      · linarith
      · rfl
      · simp
      · linarith
    rw [← this]
    exact ⟨h4, h5⟩

/-- **Between two events the coefficients solve the lasso problem.** -/
theorem lars_between {X : Mat K} {y : Nat → K} {l l' : K} {E : List Nat} {sgn : Nat → K} {last : Option (Nat × K)}
    {C D t : Nat → K} (hsgn : ∀ i ∈ E, sgn i = 1 ∨ sgn i = -1) (heq : LarsEq X y E sgn C D)
    (hg : LarsGood X y l E sgn last C D) (ht : LarsTimes X y l l' E last C D t) (hl : 0 < l)
    {m : K} (h0 : 0 ≤ m) (h1 : l' ≤ m) (h2 : m ≤ l) : IsLassoMin X y m (fun i => C i - m * D i) := by
  apply lasso_min_of_kkt
  intro i hi
  by_cases hE : i ∈ E
  · rw [heq.corr_active m hE]
    have hnn := active_sign (m := m) (hsgn i hE) (hg.act i hE)
      (fun hd => (ht.cross i hE hd).imp (fun h => le_trans h h1) id) h2
    rcases hsgn i hE with hs | hs
    · rw [hs] at hnn ⊢
      rw [one_mul] at hnn
      refine ⟨by rw [mul_one, abs_of_nonneg h0], by rw [mul_one, abs_of_nonneg hnn]⟩
    · rw [hs] at hnn ⊢
      have hnp : C i - m * D i ≤ 0 := by linarith
      refine ⟨by rw [mul_neg, mul_one, abs_neg, abs_of_nonneg h0], ?_⟩
      rw [abs_of_nonpos hnp]
      ring
  · have hz : C i - m * D i = 0 := by rw [heq.suppC i hE, heq.suppD i hE]; ring
    rw [hz, abs_zero, mul_zero, mul_zero]
    refine ⟨?_, rfl⟩
    obtain ⟨t0, t1, s, hs, ha, hlast⟩ := ht.join i hi hE
    rw [corr_linear]
    exact cone_closed hs t0 hl ha (good_cone hg hi hE hs hlast) (le_trans t1 h1) h2

theorem corr_congr {X : Mat K} {y a b : Nat → K} (h : ∀ i, a i = b i) (i : Nat) :
    correlation X y a i = correlation X y b i := by
  rw [show a = b from funext h]

theorem sq_sign {s : K} (hs : s = 1 ∨ s = -1) : s * s = 1 := by
  rcases hs with rfl | rfl <;> ring

/-- The coefficients are continuous when a feature joins. -/
theorem join_cont {X : Mat K} {y : Nat → K} {l' : K} {E E' : List Nat} {sgn sgn' : Nat → K}
    {C D C' D' : Nat → K} {j : Nat} (heq : LarsEq X y E sgn C D)
    (hE' : ∀ i, i ∈ E' ↔ i ∈ E ∨ i = j) (hind : Independent X E') (hs' : ∀ i ∈ E, sgn' i = sgn i)
    (hcj : correlation X y (fun i => C i - l' * D i) j = sgn' j * l')
    (heq' : LarsEq X y E' sgn' C' D') (i : Nat) : C' i - l' * D' i = C i - l' * D i := by
  have := indep_unique hind (w := fun i => (C' i - l' * D' i) - (C i - l' * D i)) ?_ ?_ i
  · linarith
  · intro i hi
    have h1 : i ∉ E := fun h => hi ((hE' i).2 (.inl h))
    rw [heq'.suppC i hi, heq'.suppD i hi, heq.suppC i h1, heq.suppD i h1]
    ring
  · intro i hi
    rw [gram_sub]
    have e1 := heq'.corr_active l' hi
    rw [correlation_eq] at e1
    rcases (hE' i).1 hi with h | h
    · have e2 := heq.corr_active l' h
      rw [correlation_eq] at e2
      rw [hs' i h] at e1
      linarith
    · subst h
      rw [correlation_eq] at hcj
      linarith

/-- The coefficients are continuous when a feature leaves. -/
theorem cross_cont {X : Mat K} {y : Nat → K} {l' : K} {E E' : List Nat} {sgn : Nat → K}
    {C D C' D' : Nat → K} {j : Nat} (heq : LarsEq X y E sgn C D) (hdj : D j ≠ 0) (hcd : C j / D j = l')
    (hE' : ∀ i, i ∈ E' ↔ i ∈ E ∧ i ≠ j) (hind : Independent X E)
    (heq' : LarsEq X y E' sgn C' D') (i : Nat) : C' i - l' * D' i = C i - l' * D i := by
  have hCj : C j = l' * D j := by rw [← hcd, div_mul_cancel₀ _ hdj]
  have := indep_zero hind (w := fun i => (C' i - l' * D' i) - (C i - l' * D i)) ?_ ?_ i
  · linarith
  · intro i hi
    have h1 : i ∉ E' := fun h => hi ((hE' i).1 h).1
    rw [heq'.suppC i h1, heq'.suppD i h1, heq.suppC i hi, heq.suppD i hi]
    ring
  · apply le_of_eq
    apply Finset.sum_eq_zero
    intro i _
    by_cases hi : i ∈ E'
    · have e1 := heq'.corr_active l' hi
      have e2 := heq.corr_active l' ((hE' i).1 hi).1
      rw [correlation_eq] at e1 e2
      rw [gram_sub]
      have : gram X (fun j => C' j - l' * D' j) i - gram X (fun j => C j - l' * D j) i = 0 := by linarith
      rw [this, mul_zero]
    · rw [heq'.suppC i hi, heq'.suppD i hi]
      by_cases hi2 : i ∈ E
      · have : i = j := by
          by_contra hne
          exact hi ((hE' i).2 ⟨hi2, hne⟩)
        subst this
        rw [hCj]
        ring
      · rw [heq.suppC i hi2, heq.suppD i hi2]
        ring

/-- A feature joins. -/
theorem join_good {X : Mat K} {y : Nat → K} {l l' : K} {E E' : List Nat} {sgn sgn' : Nat → K}
    {last : Option (Nat × K)} {C D C' D' t : Nat → K} {j : Nat}
    (hsgn : ∀ i ∈ E, sgn i = 1 ∨ sgn i = -1) (heq : LarsEq X y E sgn C D)
    (hg : LarsGood X y l E sgn last C D) (ht : LarsTimes X y l l' E last C D t) (h0 : 0 < l') (hlt : l' < l)
    (hj : j < X.nc) (hjE : j ∉ E) (htj : t j = l')
    (huj : ∀ i < X.nc, i ∉ E → i ≠ j → t i < l') (huc : ∀ i ∈ E, D i ≠ 0 → C i / D i ≠ l')
    (hE' : ∀ i, i ∈ E' ↔ i ∈ E ∨ i = j) (hind : Independent X E')
    (hs' : ∀ i ∈ E, sgn' i = sgn i) (hsj : sgn' j = 1 ∨ sgn' j = -1)
    (hcj : correlation X y (fun i => C i - l' * D i) j = sgn' j * l')
    (heq' : LarsEq X y E' sgn' C' D') : LarsGood X y l' E' sgn' none C' D' := by
  have hl : 0 < l := lt_trans h0 hlt
  have hA := join_cont heq hE' hind hs' hcj heq'
  have hcorr : ∀ i, (larsXy X y i - gram X C' i) + l' * gram X D' i =
      (larsXy X y i - gram X C i) + l' * gram X D i := by
    intro i
    rw [← corr_linear, ← corr_linear]
    exact corr_congr hA i
  refine ⟨fun i hi => ?_, fun i hi hiE => .inl ⟨?_, by simp⟩, by simp⟩
  · rw [hA]
    rcases (hE' i).1 hi with h | h
    · left
      rw [hs' i h]
      refine active_sign_strict (hsgn i h) (hg.act i h) (fun hd => ?_) hlt
      exact (ht.cross i h hd).imp (fun h1 => lt_of_le_of_ne h1 (huc i h hd)) id
    · subst h
      right
      refine ⟨by rw [heq.suppC i hjE, heq.suppD i hjE]; ring, ?_⟩
      obtain ⟨t0, -, s, hs, ha, hlast⟩ := ht.join i hj hjE
      rw [htj] at ha
      have hss : s = sgn' i := by
        have e := cone_border ha
        rw [← corr_linear, hcj] at e
        exact (mul_right_cancel₀ (ne_of_gt h0) e).symm
      rw [← hss]
      have hcone := good_cone hg hj hjE hs hlast
      have hsb : s * gram X D i < 1 := by
        rw [ha] at hcone
        rcases hcone with h | ⟨-, h⟩
        · rw [abs_lt] at h
          rcases hs with rfl | rfl <;> nlinarith
        · linarith
      by_contra hc
      have hgw : ∀ k ∈ E, gram X (fun i => D' i - D i) k = 0 := by
        intro k hk
        rw [gram_sub, heq'.eqD k ((hE' k).2 (.inl hk)), heq.eqD k hk, hs' k hk, sub_self]
      have hgj : gram X (fun i => D' i - D i) i = s - gram X D i := by
        rw [gram_sub, heq'.eqD i hi, hss]
      have hw := indep_zero hind (w := fun i => D' i - D i) ?_ ?_
      · have : gram X (fun i => D' i - D i) i = 0 := by
          unfold gram
          simp [hw]
        rw [hgj] at this
        have h1 := sq_sign hs
        have h2 : s * gram X D i = 1 := by rw [show gram X D i = s by linarith]; exact h1
        linarith
      · intro k hk
        have h1 : k ∉ E := fun h => hk ((hE' k).2 (.inl h))
        rw [heq'.suppD k hk, heq.suppD k h1, sub_self]
      · rw [Finset.sum_eq_single i]
        · rw [hgj, heq.suppD i hjE, sub_zero]
          have h1 := sq_sign hs
          have e : D' i * (s - gram X D i) = (s * D' i) * (1 - s * gram X D i) := by
            linear_combination (D' i * gram X D i) * h1
          rw [e]
          exact mul_nonpos_of_nonpos_of_nonneg (not_lt.1 hc) (by linarith)
        · intro k _ hki
          by_cases hk : k ∈ E
          · rw [hgw k hk, mul_zero]
          · have h1 : k ∉ E' := fun h => (hE' k).1 h |>.elim hk hki
            rw [heq'.suppD k h1, heq.suppD k hk, sub_self, zero_mul]
        · intro h
          exact absurd (mem_range.2 hj) h
  · have h1 : i ∉ E := fun h => hiE ((hE' i).2 (.inl h))
    have h2 : i ≠ j := fun h => hiE ((hE' i).2 (.inr h))
    rw [hcorr]
    obtain ⟨t0, -, s, hs, ha, hlast⟩ := ht.join i hi h1
    exact cone_open hs t0 hl ha (good_cone hg hi h1 hs hlast) (huj i hi h1 h2) hlt

/-- A feature leaves. -/
theorem cross_good {X : Mat K} {y : Nat → K} {l l' : K} {E E' : List Nat} {sgn : Nat → K}
    {last : Option (Nat × K)} {C D C' D' t : Nat → K} {j : Nat}
    (hsgn : ∀ i ∈ E, sgn i = 1 ∨ sgn i = -1) (heq : LarsEq X y E sgn C D)
    (hg : LarsGood X y l E sgn last C D) (ht : LarsTimes X y l l' E last C D t) (h0 : 0 < l') (hlt : l' < l)
    (hjn : j < X.nc) (hj : j ∈ E) (hdj : D j ≠ 0) (hcd : C j / D j = l')
    (huj : ∀ i < X.nc, i ∉ E → t i < l') (huc : ∀ i ∈ E, i ≠ j → D i ≠ 0 → C i / D i ≠ l')
    (hE' : ∀ i, i ∈ E' ↔ i ∈ E ∧ i ≠ j) (hind : Independent X E)
    (heq' : LarsEq X y E' sgn C' D') : LarsGood X y l' E' sgn (some (j, C j - l * D j)) C' D' := by
  have hl : 0 < l := lt_trans h0 hlt
  have hCj : C j = l' * D j := by rw [← hcd, div_mul_cancel₀ _ hdj]
  have hjE' : j ∉ E' := fun h => ((hE' j).1 h).2 rfl
  have hA := cross_cont heq hdj hcd hE' hind heq'
  have hcorr : ∀ i, (larsXy X y i - gram X C' i) + l' * gram X D' i =
      (larsXy X y i - gram X C i) + l' * gram X D i := by
    intro i
    rw [← corr_linear, ← corr_linear]
    exact corr_congr hA i
  refine ⟨fun i hi => .inl ?_, fun i hi hiE => ?_, ?_⟩
  · obtain ⟨h1, h2⟩ := (hE' i).1 hi
    rw [hA]
    refine active_sign_strict (hsgn i h1) (hg.act i h1) (fun hd => ?_) hlt
    exact (ht.cross i h1 hd).imp (fun h3 => lt_of_le_of_ne h3 (huc i h1 h2 hd)) id
  · by_cases hij : i = j
    · subst hij
      right
      have hs := hsgn i hj
      have hpos : 0 < sgn i * (C i - l * D i) := by
        rcases hg.act i hj with h | ⟨h, -⟩
        · exact h
        · exfalso
          have : C i / D i = l := by rw [div_eq_iff hdj]; linarith
          rw [hcd] at this
          exact absurd this (ne_of_lt hlt)
      refine ⟨C i - l * D i, sgn i, rfl, hs, hpos, ?_, ?_⟩
      · rw [hcorr, ← corr_linear, heq.corr_active l' hj, mul_comm]
      · have hsd : sgn i * D i < 0 := by
          rw [hCj] at hpos
          have : sgn i * D i * (l' - l) > 0 := by linarith
          by_contra hc
          nlinarith
        by_contra hc
        have hgi : gram X (fun k => D k - D' k) i = sgn i - gram X D' i := by
          rw [gram_sub, heq.eqD i hj]
        have hw := indep_zero hind (w := fun k => D k - D' k) ?_ ?_ i
        · rw [heq'.suppD i hjE', sub_zero] at hw
          exact hdj hw
        · intro k hk
          have h1 : k ∉ E' := fun h => hk ((hE' k).1 h).1
          rw [heq.suppD k hk, heq'.suppD k h1, sub_self]
        · rw [Finset.sum_eq_single i]
          · rw [hgi, heq'.suppD i hjE', sub_zero]
            have h1 := sq_sign hs
            have e : D i * (sgn i - gram X D' i) = (sgn i * D i) * (1 - sgn i * gram X D' i) := by
              linear_combination (D i * gram X D' i) * h1
            rw [e]
            exact mul_nonpos_of_nonpos_of_nonneg (le_of_lt hsd) (by linarith [not_lt.1 hc])
          · intro k _ hki
            by_cases hk : k ∈ E
            · have hk' : k ∈ E' := (hE' k).2 ⟨hk, hki⟩
              rw [gram_sub, heq.eqD k hk, heq'.eqD k hk', sub_self, mul_zero]
            · have h1 : k ∉ E' := fun h => hk ((hE' k).1 h).1
              rw [heq'.suppD k h1, heq.suppD k hk, sub_self, zero_mul]
          · intro h
            exact absurd (mem_range.2 hjn) h
    · left
      have h1 : i ∉ E := fun h => hiE ((hE' i).2 ⟨h, hij⟩)
      refine ⟨?_, fun coeff h => ?_⟩
      · rw [hcorr]
        obtain ⟨t0, -, s, hs, ha, hlast⟩ := ht.join i hi h1
        exact cone_open hs t0 hl ha (good_cone hg hi h1 hs hlast) (huj i hi h1) hlt
      · simp only [Option.some.injEq, Prod.mk.injEq] at h
        exact hij h.1.symm
  · intro i coeff h
    simp only [Option.some.injEq, Prod.mk.injEq] at h
    rw [← h.1]
    exact hjE'

end

end GoSelect
