import Verif.Props.C120
import Mathlib.MeasureTheory.Integral.Bochner.Set
import Mathlib.MeasureTheory.Integral.Bochner.Basic

/-!
# C124: orthogonal matching pursuit in the presence of noise
-/

namespace GoSelect

open Finset Spec

namespace Spec

/-- The target is a combination of the columns in `S`, with the coefficients `b`, plus noise of length at most `η`. -/
structure NoisySparse (X : Mat ℝ) (y : List ℝ) (S : Finset Nat) (b : Nat → ℝ) (η : ℝ) : Prop where
  lt : ∀ i ∈ S, i < X.nc
  zero : ∀ i, i ∉ S → b i = 0
  noise : ∑ r ∈ range X.nr, (vec y r - lin X b r) ^ 2 ≤ η ^ 2
  nonneg : 0 ≤ η
  nonempty : S.Nonempty

end Spec

variable {X : Mat ℝ} {μ : ℝ} {S : Finset Nat}

theorem colLen_pow (X : Mat ℝ) (i : Nat) : colLen X i ^ 2 = ∑ r ∈ range X.nr, X.get r i ^ 2 := by
  rw [sq, colLen_sq]
  exact Finset.sum_congr rfl (fun _ _ => (sq _).symm)

/-- A column correlates with a vector at most as much as the lengths allow. -/
theorem col_dot_le (X : Mat ℝ) (i : Nat) (w : Nat → ℝ) {η : ℝ} (h0 : 0 ≤ η) (hw : ∑ r ∈ range X.nr, w r ^ 2 ≤ η ^ 2) :
    |∑ r ∈ range X.nr, X.get r i * w r| ≤ η * colLen X i := by
  have h1 := Finset.sum_mul_sq_le_sq_mul_sq (range X.nr) (fun r => X.get r i) w
  rw [← colLen_pow] at h1
  refine abs_le_of_sq_le_sq ?_ (mul_nonneg h0 (colLen_nonneg X i))
  rw [mul_pow, mul_comm]
  exact h1.trans (mul_le_mul_of_nonneg_left hw (sq_nonneg _))

/-- The column that is closest to a combination of few columns plus a little noise is one of them. -/
theorem noise_pick (hμ : Coherence X μ) (h0 : 0 ≤ μ) (hk : (2 * S.card - 1) * μ < 1)
    (hS : ∀ i ∈ S, i < X.nc) (hcol : ∀ i, i < X.nc → 0 < colLen X i) {a : Nat → ℝ}
    (ha : ∀ i, i ∉ S → a i = 0) {w : Nat → ℝ} {η : ℝ}
    (hw : ∀ i, |∑ r ∈ range X.nr, X.get r i * w r| ≤ η * colLen X i) {n : Nat} (hn : n ∈ S)
    (hbig : 2 * η < (1 - (2 * S.card - 1) * μ) * (|a n| * colLen X n)) {j : Nat} (hj : j < X.nc)
    (hmax : ∀ i, i < X.nc → |∑ r ∈ range X.nr, X.get r i * (lin X a r + w r)| / colLen X i ≤
      |∑ r ∈ range X.nr, X.get r j * (lin X a r + w r)| / colLen X j) :
    j ∈ S ∧ (1 - (S.card - 1) * μ) * (|a n| * colLen X n) - η ≤
      |∑ r ∈ range X.nr, X.get r j * (lin X a r + w r)| / colLen X j := by
  have hSne : S.Nonempty := ⟨n, hn⟩
  have hsplit : ∀ i, ∑ r ∈ range X.nr, X.get r i * (lin X a r + w r) =
      ∑ r ∈ range X.nr, X.get r i * lin X a r + ∑ r ∈ range X.nr, X.get r i * w r := by
    intro i
    rw [← Finset.sum_add_distrib]
    exact Finset.sum_congr rfl (fun _ _ => by ring)
  set u : Nat → ℝ := fun i => |a i| * colLen X i with hu
  obtain ⟨m, hm, hmx⟩ := Finset.exists_max_image S u hSne
  have hcard : (1 : ℝ) ≤ S.card := by
    have := Finset.card_pos.2 hSne
    exact_mod_cast this
  have hdot : ∀ i l, i < X.nc → l ∈ S → i ≠ l → |a l * colProd X i l| ≤ (μ * u m) * colLen X i := by
    intro i l hi hl hil
    rw [abs_mul]
    have h1 := hμ i l hi (hS l hl) hil
    have h2 := hmx l hl
    have h3 := colLen_nonneg X i
    calc |a l| * |colProd X i l| ≤ |a l| * (μ * (colLen X i * colLen X l)) := by gcongr
      _ = (μ * u l) * colLen X i := by simp only [hu]; ring
      _ ≤ _ := by gcongr
  have hmL := hcol m (hS m hm)
  have hlow : (1 - (S.card - 1) * μ) * u m * colLen X m ≤ |∑ r ∈ range X.nr, X.get r m * lin X a r| := by
    rw [dot_lin hS ha, ← Finset.add_sum_erase S _ hm]
    have e1 : |a m * colProd X m m| = u m * colLen X m := by
      rw [← colLen_sq, abs_mul, abs_of_nonneg (mul_nonneg hmL.le hmL.le)]
      simp only [hu]; ring
    have h1 : |∑ i ∈ S.erase m, a i * colProd X m i| ≤ (S.card - 1) * ((μ * u m) * colLen X m) := by
      refine (Finset.abs_sum_le_sum_abs _ _).trans ?_
      have := Finset.sum_le_card_nsmul (S.erase m) (fun i => |a i * colProd X m i|) ((μ * u m) * colLen X m)
        (fun i hi => hdot m i (hS m hm) (Finset.mem_of_mem_erase hi)
          (fun h => (Finset.ne_of_mem_erase hi) h.symm))
      rw [Finset.card_erase_of_mem hm, nsmul_eq_mul, Nat.cast_sub (Finset.card_pos.2 hSne)] at this
      simpa using this
    have h2 := abs_sub_abs_le_abs_add (a m * colProd X m m) (∑ i ∈ S.erase m, a i * colProd X m i)
    rw [e1] at h2
    nlinarith
  have hlow' : (1 - (S.card - 1) * μ) * u m - η ≤
      |∑ r ∈ range X.nr, X.get r m * (lin X a r + w r)| / colLen X m := by
    rw [le_div_iff₀ hmL, hsplit]
    have h1 := abs_sub_abs_le_abs_add (∑ r ∈ range X.nr, X.get r m * lin X a r) (∑ r ∈ range X.nr, X.get r m * w r)
    have h2 := hw m
    nlinarith
  have hge := hlow'.trans (hmax m (hS m hm))
  have hjL := hcol j hj
  have hp1 : 0 < 1 - (S.card - 1) * μ := by nlinarith
  have hnm := hmx n hn
  refine ⟨?_, le_trans ?_ hge⟩
  · by_contra hjS
    have h1 : |∑ r ∈ range X.nr, X.get r j * lin X a r| ≤ S.card * ((μ * u m) * colLen X j) := by
      rw [dot_lin hS ha]
      refine (Finset.abs_sum_le_sum_abs _ _).trans ?_
      have := Finset.sum_le_card_nsmul S (fun i => |a i * colProd X j i|) ((μ * u m) * colLen X j)
        (fun i hi => hdot j i hj hi (fun h => hjS (h ▸ hi)))
      rwa [nsmul_eq_mul] at this
    have h2 : |∑ r ∈ range X.nr, X.get r j * (lin X a r + w r)| / colLen X j ≤ S.card * (μ * u m) + η := by
      rw [div_le_iff₀ hjL, hsplit]
      have h3 := abs_add_le (∑ r ∈ range X.nr, X.get r j * lin X a r) (∑ r ∈ range X.nr, X.get r j * w r)
      have h4 := hw j
      nlinarith
    have h3 := hge.trans h2
    have h4 : (1 - (2 * S.card - 1) * μ) * u n ≤ (1 - (2 * S.card - 1) * μ) * u m :=
      mul_le_mul_of_nonneg_left hnm (by linarith)
    have h5 : 2 * η < (1 - (2 * S.card - 1) * μ) * u n := hbig
    linarith
  · have := mul_le_mul_of_nonneg_left hnm hp1.le
    change (1 - (S.card - 1) * μ) * u n - η ≤ _
    linarith

theorem norm2_nonneg (r : List ℝ) : 0 ≤ norm2 r := Real.sqrt_nonneg _

theorem norm2_sq {r : List ℝ} {n : Nat} (h : r.length = n) : norm2 r ^ 2 = ∑ i ∈ range n, r.getD i 0 ^ 2 := by
  unfold norm2
  rw [Real.sq_sqrt (Finset.sum_nonneg fun _ _ => sq_nonneg _), h]

/-- Residuals that contain a strong column are long. -/
theorem noise_norm (hd : Distinguishable X S μ) (hS : ∀ i ∈ S, i < X.nc) {a : Nat → ℝ}
    (ha : ∀ i, i ∉ S → a i = 0) {w : Nat → ℝ} {η : ℝ} (hη : 0 ≤ η) (hw : ∑ r ∈ range X.nr, w r ^ 2 ≤ η ^ 2)
    {r : List ℝ} (hlen : r.length = X.nr) (hr : ∀ q, q < X.nr → r.getD q 0 = lin X a q + w q)
    {n : Nat} (hn : n ∈ S) (hbig : 2 * η < (1 - (2 * S.card - 1) * μ) * (|a n| * colLen X n)) :
    (1 - (S.card - 1) * μ) * (|a n| * colLen X n) - η ≤ norm2 r ∧ 0 < norm2 r := by
  have hw' := fun i => col_dot_le X i w hη hw
  obtain ⟨j, hj, hjm⟩ := Finset.exists_max_image (range X.nc)
    (fun i => |∑ q ∈ range X.nr, X.get q i * (lin X a q + w q)| / colLen X i) ⟨n, mem_range.2 (hS n hn)⟩
  have hj' := mem_range.1 hj
  have h1 := (noise_pick hd.coh hd.nonneg hd.small hS hd.pos ha hw' hn hbig hj'
    (fun i hi => hjm i (mem_range.2 hi))).2
  have h2 : |∑ q ∈ range X.nr, X.get q j * (lin X a q + w q)| / colLen X j ≤ norm2 r := by
    rw [div_le_iff₀ (hd.pos j hj')]
    refine col_dot_le X j _ (norm2_nonneg r) ?_
    rw [norm2_sq hlen]
    exact le_of_eq (Finset.sum_congr rfl (fun q hq => by rw [hr q (mem_range.1 hq)]))
  refine ⟨h1.trans h2, lt_of_lt_of_le ?_ (h1.trans h2)⟩
  have hc : (0 : ℝ) ≤ S.card := Nat.cast_nonneg _
  have hu : 0 ≤ |a n| * colLen X n := mul_nonneg (abs_nonneg _) (colLen_nonneg _ _)
  have h3 : 0 ≤ S.card * μ * (|a n| * colLen X n) := mul_nonneg (mul_nonneg hc hd.nonneg) hu
  nlinarith

/-- The pursuit chooses a column of `S` as long as a strong one is missing. -/
theorem omp_pick_noise (hd : Distinguishable X S μ) (hS : ∀ i ∈ S, i < X.nc) {a : Nat → ℝ}
    (ha : ∀ i, i ∉ S → a i = 0) {w : Nat → ℝ} {η : ℝ} (hη : 0 ≤ η) (hw : ∑ r ∈ range X.nr, w r ^ 2 ≤ η ^ 2)
    {r : List ℝ} (hlen : r.length = X.nr) (hr : ∀ q, q < X.nr → r.getD q 0 = lin X a q + w q)
    {n : Nat} (hn : n ∈ S) (hbig : 2 * η < (1 - (2 * S.card - 1) * μ) * (|a n| * colLen X n)) {j : Nat}
    (h : argmax (ompProj X r) = some j) :
    j ∈ S ∧ ∑ q ∈ range X.nr, X.get q j * r.getD q 0 ≠ 0 := by
  classical
  have hcol : ∀ i, i < X.nc → colNorm X i ≠ 0 := fun i hi => (hd.pos i hi).ne'
  obtain ⟨hlow, hnpos⟩ := noise_norm hd hS ha hη hw hlen hr hn hbig
  rw [ompProj_fin X _ hnpos.ne' hcol, argmax_map_fin] at h
  obtain ⟨v, hv1, hv2, -⟩ := (C36_argmax _).2 _ h
  have hj : j < X.nc := by
    by_contra hj
    rw [List.getElem?_eq_none (by simpa using hj)] at hv1
    cases hv1
  have hsum : ∀ i, ∑ q ∈ range X.nr, X.get q i * r.getD q 0 = ∑ q ∈ range X.nr, X.get q i * (lin X a q + w q) :=
    fun i => Finset.sum_congr rfl (fun q hq => by rw [hr q (mem_range.1 hq)])
  simp only [List.getElem?_map, List.getElem?_range hj, Option.map_some, Option.some.injEq] at hv1
  rw [hsum]
  have hp := noise_pick hd.coh hd.nonneg hd.small hS hd.pos ha (fun i => col_dot_le X i w hη hw) hn hbig hj (by
    intro i hi
    have h1 := hv2 _ (List.mem_map.2 ⟨i, List.mem_range.2 hi, rfl⟩)
    rw [← hv1] at h1
    simp only [hsum, abs_div, abs_mul, abs_of_pos hnpos, colNorm_eq, abs_of_pos (hd.pos i hi),
      abs_of_pos (hd.pos j hj)] at h1
    rw [mul_comm, ← div_div, mul_comm (norm2 r), ← div_div, div_le_div_iff_of_pos_right hnpos] at h1
    exact h1)
  refine ⟨hp.1, fun hz => ?_⟩
  have h2 := hp.2
  rw [hz, abs_zero, zero_div] at h2
  have hc : (0 : ℝ) ≤ S.card := Nat.cast_nonneg _
  have hu : 0 ≤ |a n| * colLen X n := mul_nonneg (abs_nonneg _) (colLen_nonneg _ _)
  have h3 : 0 ≤ S.card * μ * (|a n| * colLen X n) := mul_nonneg (mul_nonneg hc hd.nonneg) hu
  nlinarith

variable (svd : Mat ℝ → SVD ℝ) {y : List ℝ} {b : Nat → ℝ} {η tol : ℝ}

/-- The residuals of features in `S` are a combination of the columns in `S` plus the noise; the columns that are not
chosen have their coefficients. -/
theorem resAt_noise (hs : NoisySparse X y S b η) (hy : X.nr = y.length) {l : List Nat} (hl : ∀ i ∈ l, i ∈ S) :
    (resAt svd X y l).length = X.nr ∧ ∃ a w : Nat → ℝ, (∀ i, i ∉ S → a i = 0) ∧ (∀ i, i ∉ l → |a i| = |b i|) ∧
      ∑ r ∈ range X.nr, w r ^ 2 ≤ η ^ 2 ∧ ∀ q, q < X.nr → (resAt svd X y l).getD q 0 = lin X a q + w q := by
  unfold resAt
  split
  · refine ⟨hy.symm, b, fun r => vec y r - lin X b r, hs.zero, fun _ _ => rfl, hs.noise, fun q _ => ?_⟩
    unfold vec
    ring
  · set m := modelOf X.nc l with hm
    have hmlen : m.length = X.nc := by simp [hm, modelOf]
    have hlt : ∀ i ∈ l, i < X.nc := fun i hi => hs.lt i (hl i hi)
    refine ⟨by simp [ompRes, ompPred, hy], fun i => extend (features m) (vec (ompFit svd X y m)) i - b i,
      fun r => -(vec y r - lin X b r), ?_, ?_, ?_, ?_⟩
    · intro i hi
      have : i ∉ features m := fun h => hi (hl i ((modelOf_feature _ _ hlt i).1 ((mem_features _ _).1 h)))
      simp only [hs.zero i hi, extend, if_neg this, sub_zero]
    · intro i hi
      have : i ∉ features m := fun h => hi ((modelOf_feature _ _ hlt i).1 ((mem_features _ _).1 h))
      simp only [extend, if_neg this, zero_sub, abs_neg]
    · simpa only [neg_sq] using hs.noise
    · intro q hq
      have hqy : q < y.length := hy ▸ hq
      rw [lin_sub, ← lin_cols (features_nodup _) (fun j hj => hmlen ▸ features_lt hj), ← designOf_eq]
      unfold ompRes ompPred vec
      simp [List.getD_eq_getElem?_getD, List.getElem?_zipWith, hq, hqy]

/-- The error of a model in terms of its residuals. -/
theorem ompRmse_norm (hy : X.nr = y.length) (m : List Bool) :
    ompRmse svd X y m = norm2 (ompRes svd X y m) / Real.sqrt X.nr := by
  unfold ompRmse norm2
  rw [← hy, ← Real.sqrt_div (Finset.sum_nonneg fun _ _ => sq_nonneg _)]
  have hl : (ompRes svd X y m).length = X.nr := by simp [ompRes, ompPred, hy]
  rw [hl]
  congr 2
  refine Finset.sum_congr rfl (fun i hi => ?_)
  have hi' : i < X.nr := mem_range.1 hi
  have hiy : i < y.length := hy ▸ hi'
  have h2 : (ompRes svd X y m).getD i 0 = (ompPred svd X y m).getD i 0 - y.getD i 0 := by
    unfold ompRes ompPred
    simp [List.getD_eq_getElem?_getD, List.getElem?_zipWith, hi', hiy]
  rw [h2]
  ring

/-- A model with all the columns of `S` leaves at most the noise. -/
theorem ompRes_noise (hs : NoisySparse X y S b η) (hy : X.nr = y.length) {m : List Bool} (hm : m.length = X.nc)
    (hSm : ∀ i ∈ S, HasFeature m i) (hex : ExactFit svd X m) : norm2 (ompRes svd X y m) ≤ η := by
  have hls := fit_leastSquares hex (ompFit_fit svd X y hy m)
  have h8 := hls (fun q => b ((features m).getD q 0))
  refine le_of_sq_le_sq ?_ hs.nonneg
  rw [norm2_sq (n := X.nr) (by simp [ompRes, ompPred, hy])]
  refine le_trans ?_ (h8.trans ?_)
  · refine le_of_eq (Finset.sum_congr rfl (fun i hi => ?_))
    have hi' : i < X.nr := mem_range.1 hi
    have hiy : i < y.length := hy ▸ hi'
    congr 1
    unfold ompRes ompPred vec
    simp [List.getD_eq_getElem?_getD, List.getElem?_zipWith, hi', hiy]
  · refine le_trans (le_of_eq (Finset.sum_congr rfl (fun i hi => ?_))) hs.noise
    rw [designOf_eq, lin_restrict (features_nodup _) (fun j hj => hm ▸ features_lt hj) b ?_ i]
    · ring
    · intro j hj
      exact hs.zero j (fun hjS => hj ((mem_features _ _).2 (hSm j hjS)))

/-- What the run establishes. -/
theorem omp_noisy (h0 : y.length ≠ 0) (hc : X.nc ≠ 0) (hy : X.nr = y.length)
    (hs : NoisySparse X y S b η) (hd : Distinguishable X S μ)
    (hex : ∀ m, m.length = X.nc → (∀ i, HasFeature m i → i ∈ S) → ExactFit svd X m)
    (htol : η < Real.sqrt X.nr * tol)
    (hweak : ∀ i ∈ S, Real.sqrt X.nr * tol + η ≤ (1 - (S.card - 1) * μ) * (|b i| * colLen X i))
    (hpick : ∀ i ∈ S, 2 * η < (1 - (2 * S.card - 1) * μ) * (|b i| * colLen X i)) :
    ∃ st t d k x, omp svd X y tol = some ⟨st.coeff, d.map Int.ofNat⟩ ∧ OmpInv svd X y t st d k x ∧ t ≠ 0 ∧
      (∀ i, i ∈ d ↔ i ∈ S) ∧ ompRmse svd X y st.model < tol := by
  obtain ⟨st, t, d, k, x, h1, h2, h3, ht, -, h6⟩ := omp_main svd X y tol h0 hc hy
  have hnr : 0 < Real.sqrt X.nr := by
    apply Real.sqrt_pos.2
    have : 0 < X.nr := by omega
    exact_mod_cast this
  -- a model with all the columns is good enough
  have hfull : ∀ m : List Bool, m.length = X.nc → (∀ i, HasFeature m i ↔ i ∈ S) → ompRmse svd X y m < tol := by
    intro m hm hi
    rw [ompRmse_norm svd hy, div_lt_iff₀ hnr, mul_comm]
    exact (ompRes_noise svd hs hy hm (fun i h => (hi i).2 h) (hex m hm (fun i h => (hi i).1 h))).trans_lt htol
  have hsub : ∀ j, j ≤ d.length → ∀ i ∈ d.take j, i ∈ S := by
    intro j
    induction j with
    | zero => intro _ i hi; simp at hi
    | succ j ih =>
      intro hj
      have ihj := ih (by omega)
      have hjl : j < d.length := by omega
      obtain ⟨n, hnS, hnl⟩ : ∃ n ∈ S, n ∉ d.take j := by
        by_contra hall
        push Not at hall
        rcases Nat.eq_zero_or_pos j with rfl | hp
        · obtain ⟨n, hn⟩ := hs.nonempty
          simpa using hall n hn
        · refine h6 j hp hjl (hfull _ (by simp [modelOf]) (fun i => ?_))
          rw [modelOf_feature _ _ (fun i hi => hs.lt i (ihj i hi))]
          exact ⟨ihj i, hall i⟩
      obtain ⟨e1, a, w, e2, e3, e4, e5⟩ := resAt_noise svd hs hy ihj
      have := (omp_pick_noise hd hs.lt e2 hs.nonneg e4 e1 e5 hnS (by rw [e3 n hnl]; exact hpick n hnS) (h2.pick j hjl)).1
      intro i hi
      rw [List.take_add_one, List.mem_append] at hi
      rcases hi with hi | hi
      · exact ihj i hi
      · rw [List.getElem?_eq_getElem hjl] at hi
        simp only [Option.toList_some, List.mem_singleton] at hi
        rw [hi]
        exact this
  have hdS : ∀ i ∈ d, i ∈ S := fun i hi => hsub d.length le_rfl i (by rwa [List.take_length])
  have hSd : ∀ n ∈ S, n ∈ d := by
    intro n hnS
    by_contra hnd
    obtain ⟨e1, a, w, e2, e3, e4, e5⟩ := resAt_noise svd hs hy hdS
    rw [← h2.res] at e1 e5
    have hbig : 2 * η < (1 - (2 * S.card - 1) * μ) * (|a n| * colLen X n) := by rw [e3 n hnd]; exact hpick n hnS
    have hres : st.residuals = ompRes svd X y st.model := (h2.fit ht).2
    rcases h3 with h3 | h3
    · by_cases hk : k = 0
      · have hdl : d.length = X.nc := by have := h2.count; omega
        have h7 : d.toFinset = range X.nc := by
          apply Finset.eq_of_subset_of_card_le
          · intro q hq
            exact mem_range.2 (h2.lt q (List.mem_toFinset.1 hq))
          · rw [List.toFinset_card_of_nodup h2.nodup, hdl, Finset.card_range]
        exact hnd (List.mem_toFinset.1 (h7 ▸ mem_range.2 (hs.lt n hnS)))
      · obtain ⟨hxd, hmax⟩ := h2.stall hk
        have hls := fit_leastSquares (hex st.model h2.len (fun i hi => hdS i ((h2.feat i).1 hi)))
          (ompFit_fit svd X y hy st.model)
        have hgd := ompRes_getD svd X y hy h2 ht
        apply (omp_pick_noise hd hs.lt e2 hs.nonneg e4 e1 e5 hnS hbig hmax).2
        have hxm : x ∈ features st.model := (mem_features _ _).2 ((h2.feat x).2 hxd)
        obtain ⟨q, hq, hqx⟩ := List.getElem_of_mem hxm
        have ho := orthogonal_of_leastSquares _ _ _ hls q hq
        refine Eq.trans ?_ ho
        refine Finset.sum_congr rfl (fun i hi => ?_)
        rw [hgd i (mem_range.1 hi), sse_state svd X y h2 ht]
        congr 1
        unfold designOf
        simp [List.getD_eq_getElem?_getD, hq, hqx]
    · have h4 := (noise_norm hd hs.lt e2 hs.nonneg e4 e1 e5 hnS hbig).1
      rw [e3 n hnd, hres] at h4
      rw [ompRmse_norm svd hy, div_lt_iff₀ hnr] at h3
      have := hweak n hnS
      linarith
  exact ⟨st, t, d, k, x, h1, h2, ht, fun i => ⟨hdS i, hSd i⟩,
    hfull st.model h2.len (fun i => (h2.feat i).trans ⟨hdS i, hSd i⟩)⟩

/-- C124: if the target is a combination of a few columns plus noise that is weak compared with the contribution of
each of these columns, and the tolerance lies between the two, `Omp` selects exactly these columns and stops. -/
theorem C124_columns {res : OmpResult} (h : omp svd X y tol = some res)
    (hs : NoisySparse X y S b η) (hd : Distinguishable X S μ)
    (hex : ∀ m, m.length = X.nc → (∀ i, HasFeature m i → i ∈ S) → ExactFit svd X m)
    (htol : η < Real.sqrt X.nr * tol)
    (hweak : ∀ i ∈ S, Real.sqrt X.nr * tol + η ≤ (1 - (S.card - 1) * μ) * (|b i| * colLen X i))
    (hpick : ∀ i ∈ S, 2 * η < (1 - (2 * S.card - 1) * μ) * (|b i| * colLen X i)) :
    (∀ v, v ∈ res.order ↔ ∃ i ∈ S, v = (i : Int)) ∧ res.order.length = S.card ∧ rmse X res.coeff y < tol := by
  have hn := (C62_order svd X y tol h).2.1
  obtain ⟨h0, hc, hy⟩ := omp_some svd X y tol h
  obtain ⟨st, t, d, k, x, h1, h2, ht, hdS, h3⟩ := omp_noisy svd h0 hc hy hs hd hex htol hweak hpick
  rw [h1] at h
  have hr := Option.some.inj h
  have hiff : ∀ v, v ∈ res.order ↔ ∃ i ∈ S, v = (i : Int) := by
    intro v
    rw [← hr]
    simp only [List.mem_map, hdS]
    exact ⟨fun ⟨i, hi, e⟩ => ⟨i, hi, e.symm⟩, fun ⟨i, hi, e⟩ => ⟨i, hi, e.symm⟩⟩
  refine ⟨hiff, ?_, ?_⟩
  · rw [← List.toFinset_card_of_nodup hn]
    have : res.order.toFinset = S.image (fun i : Nat => (i : Int)) := by
      ext v
      rw [List.mem_toFinset, hiff, Finset.mem_image]
      exact ⟨fun ⟨i, hi, e⟩ => ⟨i, hi, e.symm⟩, fun ⟨i, hi, e⟩ => ⟨i, hi, e.symm⟩⟩
    rw [this, Finset.card_image_of_injective _ Nat.cast_injective]
  · rw [← hr]
    change rmse X st.coeff y < tol
    rw [← ompRmse_eq svd X y hy h2 ht]
    exact h3

/-- C124: the errors of the coefficients are bounded by the noise. -/
theorem C124_error {res : OmpResult} (h : omp svd X y tol = some res)
    (hs : NoisySparse X y S b η) (hd : Distinguishable X S μ)
    (hex : ∀ m, m.length = X.nc → (∀ i, HasFeature m i → i ∈ S) → ExactFit svd X m)
    (htol : η < Real.sqrt X.nr * tol)
    (hweak : ∀ i ∈ S, Real.sqrt X.nr * tol + η ≤ (1 - (S.card - 1) * μ) * (|b i| * colLen X i))
    (hpick : ∀ i ∈ S, 2 * η < (1 - (2 * S.card - 1) * μ) * (|b i| * colLen X i)) :
    (1 - (S.card - 1) * μ) * ∑ i ∈ range X.nc, ((vec res.coeff i - b i) * colLen X i) ^ 2 ≤ η ^ 2 := by
  obtain ⟨hiff, -, -⟩ := C124_columns svd h hs hd hex htol hweak hpick
  obtain ⟨m, c, -, -, -, hlen, hzero, -⟩ := C62_coeff svd X y tol h
  obtain ⟨h0, hc, hy⟩ := omp_some svd X y tol h
  obtain ⟨st, t, d, k, x, h1, h2, ht, hdS, h3⟩ := omp_noisy svd h0 hc hy hs hd hex htol hweak hpick
  rw [h1] at h
  have hr := Option.some.inj h
  have hcz : ∀ i, i ∉ S → vec res.coeff i - b i = 0 := by
    intro i hi
    rw [hs.zero i hi, sub_zero]
    unfold vec
    rw [List.getD_eq_getElem?_getD]
    by_cases hlt : i < X.nc
    · rw [hzero i hlt]
      · rfl
      · intro hm
        obtain ⟨q, hq, e⟩ := (hiff _).1 hm
        have : i = q := by exact_mod_cast e
        exact hi (this ▸ hq)
    · rw [List.getElem?_eq_none (by omega)]
      rfl
  have h5 := coherence_lower hd.coh hd.nonneg hs.lt (a := fun i => vec res.coeff i - b i) hcz
  have e1 : ∑ i ∈ range X.nc, ((vec res.coeff i - b i) * colLen X i) ^ 2 =
      ∑ i ∈ S, (|vec res.coeff i - b i| * colLen X i) ^ 2 := by
    rw [← Finset.sum_subset (fun i hi => mem_range.2 (hs.lt i hi))]
    · exact Finset.sum_congr rfl (fun i _ => by rw [mul_pow, mul_pow, sq_abs])
    · intro i _ hi
      rw [hcz i hi]
      ring
  rw [e1]
  refine h5.trans ?_
  -- the residuals are orthogonal to the columns
  have hls := fit_leastSquares (hex st.model h2.len (fun i hi => (hdS i).1 ((h2.feat i).1 hi)))
    (ompFit_fit svd X y hy st.model)
  have horth : ∀ i ∈ S, ∑ r ∈ range X.nr, X.get r i * (lin X (vec res.coeff) r - vec y r) = 0 := by
    intro i hi
    have hxm : i ∈ features st.model := (mem_features _ _).2 ((h2.feat i).2 ((hdS i).2 hi))
    obtain ⟨q, hq, hqx⟩ := List.getElem_of_mem hxm
    have ho := orthogonal_of_leastSquares _ _ _ hls q hq
    refine Eq.trans ?_ ho
    refine Finset.sum_congr rfl (fun r hr' => ?_)
    rw [sse_state svd X y h2 ht, ← hr]
    congr 1
    unfold designOf
    simp [List.getD_eq_getElem?_getD, hq, hqx]
  have hdelta : ∑ r ∈ range X.nr, lin X (fun i => vec res.coeff i - b i) r * (lin X (vec res.coeff) r - vec y r) = 0 := by
    simp only [lin_support hs.lt hcz, Finset.sum_mul]
    rw [Finset.sum_comm]
    refine Finset.sum_eq_zero (fun i hi => ?_)
    have := horth i hi
    calc ∑ r ∈ range X.nr, X.get r i * (vec res.coeff i - b i) * (lin X (vec res.coeff) r - vec y r)
        = (vec res.coeff i - b i) * ∑ r ∈ range X.nr, X.get r i * (lin X (vec res.coeff) r - vec y r) := by
          rw [Finset.mul_sum]
          exact Finset.sum_congr rfl (fun r _ => by ring)
      _ = 0 := by rw [this, mul_zero]
  refine le_trans ?_ hs.noise
  have h7 : 0 ≤ ∑ r ∈ range X.nr, (lin X (vec res.coeff) r - vec y r) ^ 2 := Finset.sum_nonneg fun _ _ => sq_nonneg _
  have h8 : ∑ r ∈ range X.nr, (vec y r - lin X b r) ^ 2 =
      ∑ r ∈ range X.nr, lin X (fun i => vec res.coeff i - b i) r ^ 2 +
        ∑ r ∈ range X.nr, (lin X (vec res.coeff) r - vec y r) ^ 2 := by
    have : ∀ r, (vec y r - lin X b r) ^ 2 = lin X (fun i => vec res.coeff i - b i) r ^ 2 +
        (lin X (vec res.coeff) r - vec y r) ^ 2 -
        2 * (lin X (fun i => vec res.coeff i - b i) r * (lin X (vec res.coeff) r - vec y r)) := by
      intro r
      rw [lin_sub]
      ring
    simp only [this]
    rw [Finset.sum_sub_distrib, Finset.sum_add_distrib, ← Finset.mul_sum, hdelta]
    ring
  linarith

/-- C124: with random noise of mean square at most `σ²` in every row, the pursuit finds the columns except with
probability `nr * σ² / η²`, where `η` is the length of the noise that the tolerance and the columns admit. -/
theorem C124_random {Ω : Type} [MeasurableSpace Ω] (P : MeasureTheory.Measure Ω) [MeasureTheory.IsProbabilityMeasure P]
    (e : Nat → Ω → ℝ) (hint : ∀ r, r < X.nr → MeasureTheory.Integrable (fun ω => e r ω ^ 2) P) {σ : ℝ}
    (hσ : ∀ r, r < X.nr → ∫ ω, e r ω ^ 2 ∂P ≤ σ ^ 2)
    (hlt : ∀ i ∈ S, i < X.nc) (hzero : ∀ i, i ∉ S → b i = 0) (hne : S.Nonempty) (hη : 0 < η)
    (hd : Distinguishable X S μ)
    (hex : ∀ m, m.length = X.nc → (∀ i, HasFeature m i → i ∈ S) → ExactFit svd X m)
    (htol : η < Real.sqrt X.nr * tol)
    (hweak : ∀ i ∈ S, Real.sqrt X.nr * tol + η ≤ (1 - (S.card - 1) * μ) * (|b i| * colLen X i))
    (hpick : ∀ i ∈ S, 2 * η < (1 - (2 * S.card - 1) * μ) * (|b i| * colLen X i)) :
    P.real {ω | ¬ ∃ res, omp svd X ((List.range X.nr).map (fun r => lin X b r + e r ω)) tol = some res ∧
      ∀ v, v ∈ res.order ↔ ∃ i ∈ S, v = (i : Int)} ≤ X.nr * σ ^ 2 / η ^ 2 := by
  have hnr : X.nr ≠ 0 := by
    intro h0
    rw [h0, Nat.cast_zero, Real.sqrt_zero, zero_mul] at htol
    linarith
  have hnc : X.nc ≠ 0 := by
    obtain ⟨i, hi⟩ := hne
    have := hlt i hi
    omega
  have hintsum : MeasureTheory.Integrable (fun ω => ∑ r ∈ range X.nr, e r ω ^ 2) P :=
    MeasureTheory.integrable_finsetSum _ (fun r hr => hint r (mem_range.1 hr))
  have hmarkov := MeasureTheory.mul_meas_ge_le_integral_of_nonneg (μ := P)
    (f := fun ω => ∑ r ∈ range X.nr, e r ω ^ 2) (Filter.Eventually.of_forall fun ω => Finset.sum_nonneg fun _ _ => sq_nonneg _)
    hintsum (η ^ 2)
  rw [MeasureTheory.integral_finsetSum _ (fun r hr => hint r (mem_range.1 hr))] at hmarkov
  have hsum : ∑ r ∈ range X.nr, ∫ ω, e r ω ^ 2 ∂P ≤ X.nr * σ ^ 2 := by
    have := Finset.sum_le_card_nsmul (range X.nr) (fun r => ∫ ω, e r ω ^ 2 ∂P) (σ ^ 2) (fun r hr => hσ r (mem_range.1 hr))
    rwa [Finset.card_range, nsmul_eq_mul] at this
  rw [le_div_iff₀ (by positivity), mul_comm]
  refine le_trans ?_ (hmarkov.trans hsum)
  refine mul_le_mul_of_nonneg_left (MeasureTheory.measureReal_mono ?_) (by positivity)
  intro ω hω
  by_contra hsmall
  apply hω
  simp only [Set.mem_setOf_eq, not_le] at hsmall
  set y := (List.range X.nr).map (fun r => lin X b r + e r ω) with hy
  have hylen : y.length = X.nr := by simp [hy]
  rcases h : omp svd X y tol with _ | res
  · exfalso
    rw [C62_panic] at h
    omega
  refine ⟨res, rfl, (C124_columns svd h ⟨hlt, hzero, ?_, hη.le, hne⟩ hd hex htol hweak hpick).1⟩
  refine le_trans (le_of_eq (Finset.sum_congr rfl (fun r hr => ?_))) hsmall.le
  have : vec y r = lin X b r + e r ω := by
    simp [vec, hy, List.getD_eq_getElem?_getD, mem_range.1 hr]
  rw [this]
  ring

/-! ### Example -/

theorem slantX_noisy : NoisySparse slantX [1, 2, 1 / 100] {0, 1} (fun i => if i = 0 then 1 else if i = 1 then 2 else 0)
    (1 / 100) := by
  refine ⟨?_, ?_, ?_, by norm_num, ⟨0, by simp⟩⟩
  · intro i hi
    simp at hi
    change i < 3
    omega
  · intro i hi
    simp at hi
    simp [hi]
  · simp [lin, slantX, Finset.sum_range_succ, vec]

theorem slantX_margins : (1 / 100 : ℝ) < Real.sqrt slantX.nr * (1 / 10) ∧
    ∀ i ∈ ({0, 1} : Finset Nat), Real.sqrt slantX.nr * (1 / 10) + 1 / 100 ≤ (1 - ((({0, 1} : Finset Nat).card : ℝ) - 1) * (1 / 4)) *
      (|if i = 0 then (1 : ℝ) else if i = 1 then 2 else 0| * colLen slantX i) ∧
      2 * (1 / 100) < (1 - (2 * (({0, 1} : Finset Nat).card : ℝ) - 1) * (1 / 4)) *
      (|if i = 0 then (1 : ℝ) else if i = 1 then 2 else 0| * colLen slantX i) := by
  obtain ⟨l0, l1, -⟩ := slantX_len
  have e : (slantX.nr : ℝ) = 3 := by norm_num [slantX]
  have s1 : (1 : ℝ) ≤ Real.sqrt 3 := by rw [Real.le_sqrt' one_pos]; norm_num
  have s2 : Real.sqrt 3 ≤ 2 := by rw [Real.sqrt_le_left (by norm_num)]; norm_num
  rw [e]
  refine ⟨by linarith, fun i hi => ?_⟩
  simp at hi
  rcases hi with rfl | rfl
  · rw [l0]; norm_num; linarith
  · rw [l1]; norm_num; linarith

/-- All hypotheses are met: with a little noise in the last row the two columns are found. -/
example : ∃ res, omp orthSvd slantX [1, 2, 1 / 100] (1 / 10) = some res ∧
    ∀ v, v ∈ res.order ↔ ∃ i ∈ ({0, 1} : Finset Nat), v = (i : Int) := by
  rcases h : omp orthSvd slantX [1, 2, 1 / 100] (1 / 10) with _ | res
  · rw [C62_panic] at h
    simp [slantX] at h
  exact ⟨res, rfl, (C124_columns orthSvd h slantX_noisy slantX_distinguishable slantX_exact slantX_margins.1
    (fun i hi => (slantX_margins.2 i hi).1) (fun i hi => (slantX_margins.2 i hi).2)).1⟩

end GoSelect
