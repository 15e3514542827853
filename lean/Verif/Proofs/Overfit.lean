import Verif.Proofs.GaussianNoise

/-! What a superfluous column takes away from the residual sum of squares. -/

namespace GoSelect

open Finset Spec

namespace Spec

/-- Column `j` is not in the model `t`, and it is no linear combination of the columns of `t`. -/
structure NewColumn (X : Mat ℝ) (t : List Bool) (j : Nat) : Prop where
  lt : j < X.nc
  out : ¬ HasFeature t j
  new : ∀ b, ∃ i < X.nr, lin (designOf X t) b i ≠ X.get i j

/-- Some model with all features of `t` and more has a smaller AICc than `t`. -/
def Overfits (X : Mat ℝ) (y : List ℝ) (t : List Bool) : Prop :=
  ∃ m r rT, m.length = X.nc ∧ ContainedIn t m ∧ m ≠ t ∧ HasRss X y m r ∧ HasRss X y t rT ∧
    aiccExt (card m) X.nr r < aiccExt (card t) X.nr rT

end Spec

theorem hasFeature_insert {t : List Bool} {j : Nat} (hj : j < t.length) (i : Nat) :
    HasFeature (t.set j true) i ↔ i = j ∨ HasFeature t i := by
  unfold HasFeature
  rw [List.getElem?_set]
  by_cases h : j = i
  · subst h; simp [hj]
  · simp [h, Ne.symm h]

theorem card_set_new {t : List Bool} {j : Nat} (hj : j < t.length) (hout : ¬ HasFeature t j) :
    Spec.card (t.set j true) = Spec.card t + 1 := by
  have h : t[j] = false := by
    cases hb : t[j]
    · rfl
    · exact absurd (by unfold HasFeature; rw [List.getElem?_eq_getElem hj, hb]) hout
  rw [card_eq_count, card_eq_count, List.count_set hj, h]
  simp

/-- A least squares fit of a signal in `t` and noise: one more column, with the part `z` outside of `t`, takes away the square of the
product with the noise. -/
theorem superfluous_gain {X : Mat ℝ} {t : List Bool} {β : Nat → ℝ} {j : Nat} (hlen : t.length = X.nc) (hexp : Expresses X t β)
    (hj : j < X.nc) {c : Nat → ℝ} (hc : IsLeastSquares (designOf X t) c (fun i => X.get i j)) {Ω : Type} {e : Nat → Ω → ℝ} {ω : Ω}
    {r rT : ℝ} (hr : HasRss X (noisy X.nr (lin X β) e ω) (t.set j true) r) (hrT : HasRss X (noisy X.nr (lin X β) e ω) t rT)
    (hz : 0 < ∑ i ∈ range X.nr, (lin (designOf X t) c i - X.get i j) ^ 2) :
    (∑ i ∈ range X.nr, (lin (designOf X t) c i - X.get i j) * e i ω) ^ 2 ≤
      (rT - r) * ∑ i ∈ range X.nr, (lin (designOf X t) c i - X.get i j) ^ 2 := by
  set z : Nat → ℝ := fun i => lin (designOf X t) c i - X.get i j with hzdef
  set Z := ∑ i ∈ range X.nr, z i ^ 2 with hZ
  set q := ∑ i ∈ range X.nr, z i * e i ω with hq
  obtain ⟨cT, hcT, rfl⟩ := hrT
  obtain ⟨cM, hcM, rfl⟩ := hr
  set y := noisy X.nr (lin X β) e ω with hy
  have hlt : ∀ i ∈ features t, i < X.nc := fun i hi => hlen ▸ features_lt hi
  -- predictions of `t` as predictions of all columns
  have hext : ∀ (b : Nat → ℝ) i, lin (designOf X t) b i = lin X (extend (features t) b) i := fun b i => by
    rw [designOf_eq, lin_cols (features_nodup t) hlt]
  have horth : ∀ b, ∑ i ∈ range X.nr, z i * lin (designOf X t) b i = 0 := fun b =>
    orthogonal_of_isLeastSquares (designOf X t) c _ hc b
  -- the competitor
  set s := q / Z with hs
  set γ : Nat → ℝ := fun k => extend (features t) cT k + s * (extend (features t) c k - if k = j then 1 else 0) with hγ
  have hγe : Expresses X (t.set j true) γ := by
    intro k _ hk
    rw [hasFeature_insert (by omega)]
    by_contra hn
    rw [not_or] at hn
    have h0 : ∀ b : Nat → ℝ, extend (features t) b k = 0 := fun b => if_neg fun hm => hn.2 ((mem_features t k).1 hm)
    exact hk (by simp only [hγ]; rw [h0, h0, if_neg hn.1]; ring)
  have hlin : ∀ i, lin X γ i = lin (designOf X t) cT i + s * z i := by
    intro i
    have e1 : lin X (fun k => if k = j then (1 : ℝ) else 0) i = X.get i j := by
      unfold lin
      rw [sum_eq_single j]
      · simp
      · intro k _ hk; simp [hk]
      · intro h; exact absurd (mem_range.2 hj) h
    simp only [hzdef]
    rw [hext, hext c, ← e1]
    simp only [hγ]
    unfold lin
    rw [← sum_sub_distrib, mul_sum, ← sum_add_distrib]
    exact sum_congr rfl fun k _ => by ring
  have hle := hcM (fun k => γ ((features (t.set j true)).getD k 0))
  have hsse : sse (designOf X (t.set j true)) (fun k => γ ((features (t.set j true)).getD k 0)) (vec y) =
      sse (designOf X t) cT (vec y) - 2 * s * q + s ^ 2 * Z := by
    have h1 : ∑ i ∈ range X.nr, z i * (lin (designOf X t) cT i - vec y i) = -q := by
      have h2 : ∀ i ∈ range X.nr, z i * (lin (designOf X t) cT i - vec y i) =
          z i * lin (designOf X t) cT i - z i * lin (designOf X t) (fun k => β ((features t).getD k 0)) i - z i * e i ω := by
        intro i hi
        rw [hy, vec_noisy _ _ _ _ (mem_range.1 hi), expresses_lin hlen hexp]
        ring
      rw [sum_congr rfl h2, sum_sub_distrib, sum_sub_distrib, horth, horth]
      simp [hq]
    have h3 : sse (designOf X (t.set j true)) (fun k => γ ((features (t.set j true)).getD k 0)) (vec y) =
        ∑ i ∈ range X.nr, ((lin (designOf X t) cT i - vec y i) ^ 2 +
          2 * s * (z i * (lin (designOf X t) cT i - vec y i)) + s ^ 2 * z i ^ 2) := by
      unfold sse
      refine sum_congr rfl fun i _ => ?_
      rw [expresses_lin (by rw [List.length_set]; exact hlen) hγe, hlin]
      ring
    rw [h3, sum_add_distrib, sum_add_distrib, ← mul_sum, ← mul_sum, h1]
    change sse (designOf X t) cT (vec y) + _ + _ = _
    ring
  rw [hsse] at hle
  have hsZ : s * Z = q := div_mul_cancel₀ q hz.ne'
  have h4 : q ^ 2 = (2 * s * q - s ^ 2 * Z) * Z := by
    rw [← hsZ]; ring
  rw [h4]
  exact mul_le_mul_of_nonneg_right (by linarith) hz.le

/-- The penalties of `Aicc` differ by little more than 2. -/
theorem aicc_step {k n : Nat} (hn : 5 * (k + 1) * (k + 2) + k + 2 ≤ n) : aicc (k + 1) n 1 - aicc k n 1 ≤ 12 / 5 := by
  have h1 : ¬ (((k + 1 : Nat) : Int) ≥ (n : Int) - 1) := by
    have : 5 * 1 * 1 ≤ 5 * (k + 1) * (k + 2) := Nat.mul_le_mul (Nat.mul_le_mul le_rfl (by omega)) (by omega)
    omega
  have h2 : ¬ ((k : Int) ≥ (n : Int) - 1) := by omega
  unfold aicc aic
  simp only [Real.log_one, mul_zero, add_zero]
  rw [if_neg h1, if_neg h2]
  have hn' : (5 * (k + 1) * (k + 2) + k + 2 : ℝ) ≤ n := by exact_mod_cast hn
  push_cast
  have hd : (0 : ℝ) < n - (k + 1) - 1 := by nlinarith
  have hd' : (0 : ℝ) < n - k - 1 := by linarith
  have h3 : (2 * (k + 1) * (k + 1) + 2 * (k + 1) : ℝ) / (n - (k + 1) - 1) ≤ 2 / 5 := by
    rw [div_le_iff₀ hd]; nlinarith
  have h4 : (0 : ℝ) ≤ (2 * k * k + 2 * k) / (n - k - 1) := by positivity
  linarith

/-- A column that takes away more than 12/5 of the mean square has a smaller criterion. -/
theorem gain_better {pen pen' : ℝ} {n : Nat} {r rT g v : ℝ} (hn : 0 < n) (hv : 0 < v) (hpen : pen' - pen ≤ 12 / 5) (hr : 0 ≤ r)
    (hg : 121 / 25 * v ≤ g) (hgain : g ≤ rT - r) (hT : rT ≤ 2 * (n * v)) : critExt pen' n r < critExt pen n rT := by
  have hT0 : 0 < rT := by nlinarith
  have hn' : (0 : ℝ) < n := by exact_mod_cast hn
  refine critExt_lt hT0 (fun h0 => ?_) hr
  have h1 : Real.log (r / rT) ≤ r / rT - 1 := Real.log_le_sub_one_of_pos (by positivity)
  rw [Real.log_div h0.ne' hT0.ne'] at h1
  have h2 : r / rT - 1 = -((rT - r) / rT) := by field_simp; ring
  have h3 : 121 / 50 ≤ n * ((rT - r) / rT) := by
    rw [← mul_div_assoc, le_div_iff₀ hT0]
    have : n * (121 / 25 * v) ≤ n * (rT - r) := mul_le_mul_of_nonneg_left (hg.trans hgain) hn'.le
    linarith
  have h4 : n * (Real.log r - Real.log rT) ≤ n * (-((rT - r) / rT)) := mul_le_mul_of_nonneg_left (h1.trans h2.le) hn'.le
  linarith

end GoSelect
