import Verif.Props.C62
import Verif.Proofs.Coherence

/-!
# C120: orthogonal matching pursuit finds sparse signals
-/

namespace GoSelect

open Finset Spec

namespace Spec

/-- The target is an exact combination of the columns in `S`, with the coefficients `b`. -/
structure Sparse (X : Mat ℝ) (y : List ℝ) (S : Finset Nat) (b : Nat → ℝ) : Prop where
  lt : ∀ i ∈ S, i < X.nc
  zero : ∀ i, i ∉ S → b i = 0
  eq : ∀ r, r < X.nr → lin X b r = vec y r
  ne : ∃ r, r < X.nr ∧ vec y r ≠ 0

/-- The columns are non-zero and so close to orthogonal that the columns in `S` can be told from the
others. -/
structure Distinguishable (X : Mat ℝ) (S : Finset Nat) (μ : ℝ) : Prop where
  pos : ∀ i, i < X.nc → 0 < colLen X i
  nonneg : 0 ≤ μ
  coh : Coherence X μ
  small : (2 * S.card - 1) * μ < 1

end Spec

variable (svd : Mat ℝ → SVD ℝ) (X : Mat ℝ) (y : List ℝ) (tol : ℝ) {S : Finset Nat} {μ : ℝ} {b : Nat → ℝ}

theorem colNorm_eq (i : Nat) : colNorm X i = colLen X i := rfl

variable {X y} in
/-- The pursuit chooses a column of `S` if the residuals are a combination of these columns. -/
theorem omp_pick (hd : Distinguishable X S μ) (hS : ∀ i ∈ S, i < X.nc) {a : Nat → ℝ}
    (ha : ∀ i, i ∉ S → a i = 0) {r : List ℝ} (hlen : r.length = X.nr)
    (hr : ∀ q, q < X.nr → r.getD q 0 = lin X a q) (hne : norm2 r ≠ 0) {j : Nat}
    (h : argmax (ompProj X r) = some j) :
    j ∈ S ∧ ∑ q ∈ range X.nr, X.get q j * r.getD q 0 ≠ 0 := by
  classical
  have hcol : ∀ i, i < X.nc → colNorm X i ≠ 0 := fun i hi => (hd.pos i hi).ne'
  rw [ompProj_fin X _ hne hcol, argmax_map_fin] at h
  obtain ⟨v, hv1, hv2, -⟩ := (C36_argmax _).2 _ h
  have hj : j < X.nc := by
    by_contra hj
    rw [List.getElem?_eq_none (by simpa using hj)] at hv1
    cases hv1
  have hsum : ∀ i, ∑ q ∈ range X.nr, X.get q i * r.getD q 0 = ∑ q ∈ range X.nr, X.get q i * lin X a q :=
    fun i => Finset.sum_congr rfl (fun q hq => by rw [hr q (mem_range.1 hq)])
  simp only [List.getElem?_map, List.getElem?_range hj, Option.map_some, Option.some.injEq] at hv1
  have hnpos : 0 < norm2 r := lt_of_le_of_ne (Real.sqrt_nonneg _) (Ne.symm hne)
  rw [hsum]
  refine coherence_pick hd.coh hd.nonneg hd.small hS hd.pos ha ?_ hj ?_
  · by_contra hz
    push Not at hz
    apply hne
    unfold norm2
    rw [Real.sqrt_eq_zero (Finset.sum_nonneg (fun _ _ => sq_nonneg _))]
    refine Finset.sum_eq_zero (fun q hq => ?_)
    have hq' : q < X.nr := hlen ▸ mem_range.1 hq
    rw [hr q hq', hz q hq']
    ring
  · intro i hi
    have h1 := hv2 _ (List.mem_map.2 ⟨i, List.mem_range.2 hi, rfl⟩)
    rw [← hv1] at h1
    simp only [hsum, abs_div, abs_mul, abs_of_pos hnpos, colNorm_eq, abs_of_pos (hd.pos i hi),
      abs_of_pos (hd.pos j hj)] at h1
    rw [mul_comm, ← div_div, mul_comm (norm2 r), ← div_div, div_le_div_iff_of_pos_right hnpos] at h1
    exact h1

variable {X y} in
/-- The residuals of features in `S` are a combination of the columns in `S`. -/
theorem resAt_lin (hs : Sparse X y S b) (hy : X.nr = y.length) {l : List Nat} (hl : ∀ i ∈ l, i ∈ S) :
    (resAt svd X y l).length = X.nr ∧ ∃ a : Nat → ℝ, (∀ i, i ∉ S → a i = 0) ∧
      ∀ q, q < X.nr → (resAt svd X y l).getD q 0 = lin X a q := by
  unfold resAt
  split
  · exact ⟨hy.symm, b, hs.zero, fun q hq => (hs.eq q hq).symm⟩
  · set m := modelOf X.nc l with hm
    have hmlen : m.length = X.nc := by simp [hm, modelOf]
    have hlt : ∀ i ∈ l, i < X.nc := fun i hi => hs.lt i (hl i hi)
    refine ⟨by simp [ompRes, ompPred, hy], fun i => extend (features m) (vec (ompFit svd X y m)) i - b i,
      ?_, ?_⟩
    · intro i hi
      have : i ∉ features m := fun h => hi (hl i ((modelOf_feature _ _ hlt i).1 ((mem_features _ _).1 h)))
      simp only [hs.zero i hi, extend, if_neg this, sub_zero]
    · intro q hq
      have hqy : q < y.length := hy ▸ hq
      rw [lin_sub, hs.eq q hq, ← lin_cols (features_nodup _) (fun j hj => hmlen ▸ features_lt hj),
        ← designOf_eq]
      unfold ompRes ompPred vec
      simp [List.getD_eq_getElem?_getD, List.getElem?_zipWith, hq, hqy]

variable {X y} in
/-- A model with features in `S` and an error below some tolerance or not; zero residuals have a zero
error. -/
theorem ompRmse_zero (hy : X.nr = y.length) (m : List Bool) (h : norm2 (ompRes svd X y m) = 0) :
    ompRmse svd X y m = 0 := by
  unfold ompRmse
  have : ∑ i ∈ range X.nr, (y.getD i 0 - (ompPred svd X y m).getD i 0) ^ 2 = 0 := by
    refine Finset.sum_eq_zero (fun i hi => ?_)
    have h1 := norm2_eq_zero _ h i
    have hi' : i < X.nr := mem_range.1 hi
    have hiy : i < y.length := hy ▸ hi'
    have h2 : (ompRes svd X y m).getD i 0 = (ompPred svd X y m).getD i 0 - y.getD i 0 := by
      unfold ompRes ompPred
      simp [List.getD_eq_getElem?_getD, List.getElem?_zipWith, hi', hiy]
    rw [h2] at h1
    have : y.getD i 0 - (ompPred svd X y m).getD i 0 = 0 := by linarith
    rw [this]
    ring
  rw [this, zero_div, Real.sqrt_zero]

variable {X y tol} in
/-- What the run establishes. -/
theorem omp_sparse {res : OmpResult} (h : omp svd X y tol = some res) (htol : 0 < tol)
    (hs : Sparse X y S b) (hd : Distinguishable X S μ)
    (hex : ∀ m, m.length = X.nc → (∀ i, HasFeature m i → i ∈ S) → ExactFit svd X m) :
    (∀ v ∈ res.order, ∃ i ∈ S, v = (i : Int)) ∧ rmse X res.coeff y < tol := by
  obtain ⟨h0, hc, hy⟩ := omp_some svd X y tol h
  obtain ⟨st, t, d, k, x, h1, h2, h3, ht, -, h6⟩ := omp_main svd X y tol h0 hc hy
  rw [h1] at h
  rw [← Option.some.inj h]
  have hsub : ∀ j, j ≤ d.length → ∀ i ∈ d.take j, i ∈ S := by
    intro j
    induction j with
    | zero => intro _ i hi; simp at hi
    | succ j ih =>
      intro hj
      have ihj := ih (by omega)
      have hjl : j < d.length := by omega
      obtain ⟨e1, a, e2, e3⟩ := resAt_lin svd hs hy ihj
      have hne : norm2 (resAt svd X y (d.take j)) ≠ 0 := by
        intro hz
        rcases Nat.eq_zero_or_pos j with rfl | hp
        · rw [List.take_zero, resAt, if_pos rfl] at hz
          obtain ⟨r, -, hr⟩ := hs.ne
          exact hr (norm2_eq_zero _ hz r)
        · have hnn : d.take j ≠ [] := by
            rw [← List.length_pos_iff, List.length_take]
            omega
          rw [resAt, if_neg hnn] at hz
          apply h6 j hp hjl
          rw [ompRmse_zero svd hy _ hz]
          exact htol
      have := (omp_pick hd hs.lt e2 e1 e3 hne (h2.pick j hjl)).1
      intro i hi
      rw [List.take_add_one, List.mem_append] at hi
      rcases hi with hi | hi
      · exact ihj i hi
      · rw [List.getElem?_eq_getElem hjl] at hi
        simp only [Option.toList_some, List.mem_singleton] at hi
        rw [hi]
        exact this
  have hdS : ∀ i ∈ d, i ∈ S := fun i hi => hsub d.length le_rfl i (by rwa [List.take_length])
  refine ⟨?_, ?_⟩
  · intro v hv
    obtain ⟨i, hi, rfl⟩ := List.mem_map.1 hv
    exact ⟨i, hdS i hi, rfl⟩
  change rmse X st.coeff y < tol
  rw [← ompRmse_eq svd X y hy h2 ht]
  rcases h3 with h3 | h3
  swap
  · exact h3
  have hres : st.residuals = ompRes svd X y st.model := (h2.fit ht).2
  by_cases hz : norm2 st.residuals = 0
  · rw [hres] at hz
    rw [ompRmse_zero svd hy _ hz]
    exact htol
  have hls := fit_leastSquares (hex st.model h2.len (fun i hi => hdS i ((h2.feat i).1 hi)))
    (ompFit_fit svd X y hy st.model)
  have hgd := ompRes_getD svd X y hy h2 ht
  by_cases hk : k = 0
  · -- every column was chosen
    exfalso
    apply hz
    have hdl : d.length = X.nc := by have := h2.count; omega
    have hall : ∀ i, i < X.nc → i ∈ d := by
      intro i hi
      have h7 : d.toFinset = range X.nc := by
        apply Finset.eq_of_subset_of_card_le
        · intro q hq
          exact mem_range.2 (h2.lt q (List.mem_toFinset.1 hq))
        · rw [List.toFinset_card_of_nodup h2.nodup, hdl, Finset.card_range]
      exact List.mem_toFinset.1 (h7 ▸ mem_range.2 hi)
    have h8 := hls (fun q => b ((features st.model).getD q 0))
    have e1 : sse (designOf X st.model) (vec (ompFit svd X y st.model)) (vec y) =
        ∑ i ∈ range X.nr, st.residuals.getD i 0 ^ 2 := by
      unfold sse
      refine Finset.sum_congr rfl (fun i hi => ?_)
      rw [sse_state svd X y h2 ht, hgd i (mem_range.1 hi)]
    have e2 : sse (designOf X st.model) (fun q => b ((features st.model).getD q 0)) (vec y) = 0 := by
      unfold sse
      refine Finset.sum_eq_zero (fun i hi => ?_)
      rw [designOf_eq, lin_restrict (features_nodup _) (fun j hj => h2.len ▸ features_lt hj) b ?_ i,
        hs.eq i (mem_range.1 hi)]
      · ring
      · intro j hj
        by_contra hb
        have hjS : j ∈ S := by
          by_contra hn
          exact hb (hs.zero j hn)
        exact hj ((mem_features _ _).2 ((h2.feat j).2 (hall j (hs.lt j hjS))))
    rw [e1, e2] at h8
    have hlen : st.residuals.length = X.nr := by rw [hres]; simp [ompRes, ompPred, hy]
    unfold norm2
    rw [hlen, le_antisymm h8 (Finset.sum_nonneg (fun _ _ => sq_nonneg _)), Real.sqrt_zero]
  · -- a column was chosen twice
    exfalso
    obtain ⟨hxd, hmax⟩ := h2.stall hk
    obtain ⟨e1, a, e2, e3⟩ := resAt_lin svd hs hy hdS
    rw [← h2.res] at e1 e3
    apply (omp_pick hd hs.lt e2 e1 e3 hz hmax).2
    have hxm : x ∈ features st.model := (mem_features _ _).2 ((h2.feat x).2 hxd)
    obtain ⟨q, hq, hqx⟩ := List.getElem_of_mem hxm
    have ho := orthogonal_of_leastSquares _ _ _ hls q hq
    refine Eq.trans ?_ ho
    refine Finset.sum_congr rfl (fun i hi => ?_)
    rw [hgd i (mem_range.1 hi), sse_state svd X y h2 ht]
    congr 1
    unfold designOf
    simp [List.getD_eq_getElem?_getD, hq, hqx]

variable {X y tol}

/-- C120: if the target is a combination of a few columns that are nearly orthogonal to the others, `Omp`
selects none but these columns and reaches every positive tolerance. -/
theorem C120_support {res : OmpResult} (h : omp svd X y tol = some res) (htol : 0 < tol)
    (hs : Sparse X y S b) (hd : Distinguishable X S μ)
    (hex : ∀ m, m.length = X.nc → (∀ i, HasFeature m i → i ∈ S) → ExactFit svd X m) :
    (∀ v ∈ res.order, ∃ i ∈ S, v = (i : Int)) ∧ res.order.length ≤ S.card ∧ rmse X res.coeff y < tol := by
  obtain ⟨h1, h2⟩ := omp_sparse svd h htol hs hd hex
  refine ⟨h1, ?_, h2⟩
  have hn := (C62_order svd X y tol h).2.1
  rw [← List.toFinset_card_of_nodup hn]
  have : res.order.toFinset ⊆ S.image (fun i : Nat => (i : Int)) := by
    intro v hv
    obtain ⟨i, hi, rfl⟩ := h1 v (List.mem_toFinset.1 hv)
    exact Finset.mem_image.2 ⟨i, hi, rfl⟩
  exact (Finset.card_le_card this).trans Finset.card_image_le

theorem distinguishable_pos (hs : Sparse X y S b) (hd : Distinguishable X S μ) :
    0 < 1 - (S.card - 1) * μ := by
  have hSne : S.Nonempty := by
    rw [Finset.nonempty_iff_ne_empty]
    rintro rfl
    obtain ⟨r, hr, hne⟩ := hs.ne
    rw [← hs.eq r hr, lin_support hs.lt hs.zero] at hne
    simp at hne
  have hcard : (1 : ℝ) ≤ S.card := by
    have := Finset.card_pos.2 hSne
    exact_mod_cast this
  have := hd.small
  have := hd.nonneg
  nlinarith

/-- C120: the coefficients of all the columns are close to those of the combination. -/
theorem C120_error {res : OmpResult} (h : omp svd X y tol = some res) (htol : 0 < tol)
    (hs : Sparse X y S b) (hd : Distinguishable X S μ)
    (hex : ∀ m, m.length = X.nc → (∀ i, HasFeature m i → i ∈ S) → ExactFit svd X m) :
    (1 - (S.card - 1) * μ) * ∑ i ∈ range X.nc, ((vec res.coeff i - b i) * colLen X i) ^ 2 < X.nr * tol ^ 2 := by
  obtain ⟨h1, h2⟩ := omp_sparse svd h htol hs hd hex
  obtain ⟨hy0, -, hy⟩ := omp_some svd X y tol h
  have hnr : (0 : ℝ) < X.nr := by
    have : 0 < X.nr := by omega
    exact_mod_cast this
  obtain ⟨m, c, -, -, -, hlen, hzero, -⟩ := C62_coeff svd X y tol h
  have hcz : ∀ i, i ∉ S → vec res.coeff i - b i = 0 := by
    intro i hi
    rw [hs.zero i hi, sub_zero]
    unfold vec
    rw [List.getD_eq_getElem?_getD]
    by_cases hlt : i < X.nc
    · rw [hzero i hlt]
      · rfl
      · intro hm
        obtain ⟨q, hq, e⟩ := h1 _ hm
        have : i = q := by exact_mod_cast e
        exact hi (this ▸ hq)
    · rw [List.getElem?_eq_none (by omega)]
      rfl
  have h3 := coherence_lower hd.coh hd.nonneg hs.lt (a := fun i => vec res.coeff i - b i) hcz
  have e1 : ∑ i ∈ range X.nc, ((vec res.coeff i - b i) * colLen X i) ^ 2 =
      ∑ i ∈ S, (|vec res.coeff i - b i| * colLen X i) ^ 2 := by
    rw [← Finset.sum_subset (fun i hi => mem_range.2 (hs.lt i hi))]
    · exact Finset.sum_congr rfl (fun i _ => by rw [mul_pow, mul_pow, sq_abs])
    · intro i _ hi
      rw [hcz i hi]
      ring
  rw [e1]
  refine h3.trans_lt ?_
  have e2 : ∑ r ∈ range X.nr, lin X (fun i => vec res.coeff i - b i) r ^ 2 = sse X (vec res.coeff) (vec y) := by
    refine Finset.sum_congr rfl (fun r hr => ?_)
    rw [lin_sub, hs.eq r (mem_range.1 hr)]
  rw [e2]
  unfold rmse at h2
  rw [Real.sqrt_lt' htol, div_lt_iff₀ hnr] at h2
  linarith

/-- C120: a tolerance below the contribution of every column gives exactly the columns and the
coefficients of the combination. -/
theorem C120_exact {res : OmpResult} (h : omp svd X y tol = some res) (htol : 0 < tol)
    (hs : Sparse X y S b) (hd : Distinguishable X S μ)
    (hex : ∀ m, m.length = X.nc → (∀ i, HasFeature m i → i ∈ S) → ExactFit svd X m)
    (hb : ∀ i ∈ S, X.nr * tol ^ 2 ≤ (1 - (S.card - 1) * μ) * (b i * colLen X i) ^ 2) :
    (∀ v, v ∈ res.order ↔ ∃ i ∈ S, v = (i : Int)) ∧ res.order.length = S.card ∧
      ∀ i, i < X.nc → res.coeff[i]? = some (b i) := by
  have hp := distinguishable_pos hs hd
  obtain ⟨h1, hle, -⟩ := C120_support svd h htol hs hd hex
  have herr := C120_error svd h htol hs hd hex
  obtain ⟨m, c, -, -, -, hlen, hzero, -⟩ := C62_coeff svd X y tol h
  have hmem : ∀ i ∈ S, (i : Int) ∈ res.order := by
    intro i hi
    by_contra hn
    have hz : vec res.coeff i = 0 := by
      unfold vec
      rw [List.getD_eq_getElem?_getD, hzero i (hs.lt i hi) hn]
      rfl
    have h4 : ((vec res.coeff i - b i) * colLen X i) ^ 2 ≤
        ∑ i ∈ range X.nc, ((vec res.coeff i - b i) * colLen X i) ^ 2 :=
      Finset.single_le_sum (f := fun i => ((vec res.coeff i - b i) * colLen X i) ^ 2)
        (fun _ _ => sq_nonneg _) (mem_range.2 (hs.lt i hi))
    rw [hz, zero_sub, neg_mul, neg_sq] at h4
    have := mul_le_mul_of_nonneg_left h4 hp.le
    have := hb i hi
    linarith
  have hiff : ∀ v, v ∈ res.order ↔ ∃ i ∈ S, v = (i : Int) :=
    fun v => ⟨h1 v, by rintro ⟨i, hi, rfl⟩; exact hmem i hi⟩
  refine ⟨hiff, ?_, ?_⟩
  · have hn := (C62_order svd X y tol h).2.1
    rw [← List.toFinset_card_of_nodup hn]
    have : res.order.toFinset = S.image (fun i : Nat => (i : Int)) := by
      ext v
      rw [List.mem_toFinset, hiff, Finset.mem_image]
      exact ⟨fun ⟨i, hi, e⟩ => ⟨i, hi, e.symm⟩, fun ⟨i, hi, e⟩ => ⟨i, hi, e.symm⟩⟩
    rw [this, Finset.card_image_of_injective _ Nat.cast_injective]
  · -- the least-squares solution has no error
    obtain ⟨hy0, hc0, hy⟩ := omp_some svd X y tol h
    obtain ⟨st, t, d, k, x, g1, g2, -, ht, -⟩ := omp_main svd X y tol hy0 hc0 hy
    rw [g1] at h
    have hr := Option.some.inj h
    have hdS : ∀ i, i ∈ d ↔ i ∈ S := by
      intro i
      have := hiff (i : Int)
      rw [← hr] at this
      simpa using this
    have hls := fit_leastSquares (hex st.model g2.len (fun i hi => (hdS i).1 ((g2.feat i).1 hi)))
      (ompFit_fit svd X y hy st.model)
    have h8 := hls (fun q => b ((features st.model).getD q 0))
    have e1 : sse (designOf X st.model) (vec (ompFit svd X y st.model)) (vec y) =
        sse X (vec res.coeff) (vec y) := by
      unfold sse
      refine Finset.sum_congr rfl (fun i hi => ?_)
      rw [sse_state svd X y g2 ht, ← hr]
    have e2 : sse (designOf X st.model) (fun q => b ((features st.model).getD q 0)) (vec y) = 0 := by
      unfold sse
      refine Finset.sum_eq_zero (fun i hi => ?_)
      rw [designOf_eq, lin_restrict (features_nodup _) (fun j hj => g2.len ▸ features_lt hj) b ?_ i,
        hs.eq i (mem_range.1 hi)]
      · ring
      · intro j hj
        exact hs.zero j (fun hjS => hj ((mem_features _ _).2 ((g2.feat j).2 ((hdS j).2 hjS))))
    rw [e1, e2] at h8
    have hz : ∀ i, i ∉ S → vec res.coeff i - b i = 0 := by
      intro i hi
      rw [hs.zero i hi, sub_zero]
      unfold vec
      rw [List.getD_eq_getElem?_getD]
      by_cases hlt : i < X.nc
      · rw [hzero i hlt (fun hm => by
          obtain ⟨q, hq, e⟩ := h1 _ hm
          have : i = q := by exact_mod_cast e
          exact hi (this ▸ hq))]
        rfl
      · rw [List.getElem?_eq_none (by omega)]
        rfl
    have h9 := coherence_lower hd.coh hd.nonneg hs.lt (a := fun i => vec res.coeff i - b i) hz
    have e3 : ∑ r ∈ range X.nr, lin X (fun i => vec res.coeff i - b i) r ^ 2 =
        sse X (vec res.coeff) (vec y) := by
      refine Finset.sum_congr rfl (fun r hr => ?_)
      rw [lin_sub, hs.eq r (mem_range.1 hr)]
    rw [e3] at h9
    have h10 : ∑ i ∈ S, (|vec res.coeff i - b i| * colLen X i) ^ 2 ≤ 0 := by
      by_contra hc
      have := mul_pos hp (not_le.1 hc)
      linarith
    have h11 := le_antisymm h10 (Finset.sum_nonneg (fun _ _ => sq_nonneg _))
    rw [Finset.sum_eq_zero_iff_of_nonneg (fun _ _ => sq_nonneg _)] at h11
    intro i hi
    have hv : vec res.coeff i = b i := by
      by_cases hiS : i ∈ S
      · have := pow_eq_zero_iff (two_ne_zero) |>.1 (h11 i hiS)
        rcases mul_eq_zero.1 this with h | h
        · exact sub_eq_zero.1 (abs_eq_zero.1 h)
        · exact absurd h (hd.pos i hi).ne'
      · exact sub_eq_zero.1 (hz i hiS)
    rw [← hv]
    unfold vec
    rw [List.getD_eq_getElem?_getD, List.getElem?_eq_getElem (by omega)]
    rfl

/-! ### Example -/

/-- Two unit vectors and a third column that is not orthogonal to them. -/
def slantX : Mat ℝ := ⟨3, 3, fun i j => if j = 2 then (if i = 2 then 4 else 1) else if i = j then 1 else 0⟩

theorem slantX_len : colLen slantX 0 = 1 ∧ colLen slantX 1 = 1 ∧ 4 ≤ colLen slantX 2 := by
  refine ⟨?_, ?_, ?_⟩
  · unfold colLen colProd; simp [slantX, Finset.sum_range_succ]
  · unfold colLen colProd; simp [slantX, Finset.sum_range_succ]
  · unfold colLen colProd
    rw [Real.le_sqrt' (by norm_num)]
    simp [slantX, Finset.sum_range_succ]
    norm_num

theorem slantX_exact (m : List Bool) (hm : m.length = slantX.nc) (h : ∀ i, HasFeature m i → i ∈ ({0, 1} : Finset Nat)) :
    ExactFit orthSvd slantX m := by
  have hlt : ∀ i ∈ features m, i < 2 := by
    intro i hi
    have := h i ((mem_features _ _).1 hi)
    simp at this
    omega
  have hc : card m ≤ 3 := by
    rw [card_eq_count]
    exact List.count_le_length.trans hm.le
  refine orthSvd_untruncated hc fun a b ha hb => ?_
  have ha' : a < (features m).length := ha
  have hb' : b < (features m).length := hb
  have ea : (features m).getD a 0 = (features m)[a] := by simp [List.getD_eq_getElem?_getD, ha']
  have eb : (features m).getD b 0 = (features m)[b] := by simp [List.getD_eq_getElem?_getD, hb']
  have la := hlt _ (List.getElem_mem ha')
  have lb := hlt _ (List.getElem_mem hb')
  have key : a = b ↔ (features m)[a] = (features m)[b] := ((features_nodup m).getElem_inj_iff).symm
  simp only [designOf, ea, eb, key]
  generalize (features m)[a] = p at la
  generalize (features m)[b] = q at lb
  have hp : p = 0 ∨ p = 1 := by omega
  have hq : q = 0 ∨ q = 1 := by omega
  rcases hp with rfl | rfl <;> rcases hq with rfl | rfl <;> simp [slantX, Finset.sum_range_succ]

theorem slantX_distinguishable : Distinguishable slantX ({0, 1} : Finset Nat) (1 / 4) := by
  obtain ⟨l0, l1, l2⟩ := slantX_len
  refine ⟨?_, by norm_num, ?_, by norm_num⟩
  · intro i hi
    have : i = 0 ∨ i = 1 ∨ i = 2 := by change i < 3 at hi; omega
    rcases this with rfl | rfl | rfl
    · rw [l0]; exact one_pos
    · rw [l1]; exact one_pos
    · linarith
  · intro i j hi hj hij
    have h1 : i = 0 ∨ i = 1 ∨ i = 2 := by change i < 3 at hi; omega
    have h2 : j = 0 ∨ j = 1 ∨ j = 2 := by change j < 3 at hj; omega
    have d01 : colProd slantX 0 1 = 0 := by unfold colProd; simp [slantX, Finset.sum_range_succ]
    have d02 : colProd slantX 0 2 = 1 := by unfold colProd; simp [slantX, Finset.sum_range_succ]
    have d12 : colProd slantX 1 2 = 1 := by unfold colProd; simp [slantX, Finset.sum_range_succ]
    rcases h1 with rfl | rfl | rfl <;> rcases h2 with rfl | rfl | rfl <;>
      first
      | exact absurd rfl hij
      | (simp only [d01, d02, d12, colProd_comm slantX 1 0, colProd_comm slantX 2 0, colProd_comm slantX 2 1,
          l0, l1, abs_zero, abs_one]; linarith)

theorem slantX_sparse : Sparse slantX [1, 2, 0] {0, 1} (fun i => if i = 0 then 1 else if i = 1 then 2 else 0) := by
  refine ⟨?_, ?_, ?_, 0, by decide, by simp [vec]⟩
  · intro i hi
    simp at hi
    change i < 3
    omega
  · intro i hi
    simp at hi
    simp [hi]
  · intro r hr
    have : r = 0 ∨ r = 1 ∨ r = 2 := by change r < 3 at hr; omega
    rcases this with rfl | rfl | rfl <;> simp [lin, slantX, Finset.sum_range_succ, vec]

/-- All hypotheses are met, and the pursuit returns the two columns and their coefficients. -/
example : ∃ res, omp orthSvd slantX [1, 2, 0] (1 / 10) = some res ∧
    (∀ v, v ∈ res.order ↔ ∃ i ∈ ({0, 1} : Finset Nat), v = (i : Int)) ∧ res.order.length = 2 ∧
      ∀ i, i < 3 → res.coeff[i]? = some (if i = 0 then 1 else if i = 1 then 2 else 0) := by
  rcases h : omp orthSvd slantX [1, 2, 0] (1 / 10) with _ | res
  · rw [C62_panic] at h
    simp [slantX] at h
  refine ⟨res, rfl, ?_⟩
  refine C120_exact orthSvd h (by norm_num) slantX_sparse slantX_distinguishable slantX_exact ?_
  obtain ⟨l0, l1, -⟩ := slantX_len
  have e : (slantX.nr : ℝ) = 3 := by norm_num [slantX]
  intro i hi
  simp at hi
  rcases hi with rfl | rfl
  · simp [l0, e]; norm_num
  · simp [l1, e]; norm_num

/-- Two unit vectors and a column close to their sum. -/
def closeX : Mat ℝ := ⟨3, 3, fun i j => if j = 2 then 1 else if i = j then 1 else 0⟩

/-- C120: the condition on the columns matters.  The target is the sum of the first two columns, but the
pursuit starts with the third one, whatever the decomposition and the tolerance. -/
theorem C120_coherent : ∃ res, omp svd closeX [1, 1, 0] tol = some res ∧ res.order.head? = some 2 ∧
    ∀ r, r < 3 → lin closeX (fun i => if i = 2 then 0 else 1) r = vec [1, 1, 0] r := by
  classical
  rcases h : omp svd closeX [1, 1, 0] tol with _ | res
  · rw [C62_panic] at h
    simp [closeX] at h
  refine ⟨res, rfl, ?_, ?_⟩
  · obtain ⟨d, hd, hpick⟩ := C62_greedy svd _ _ _ h
    have hne := (C62_order svd _ _ _ h).1
    have hdl : 0 < d.length := by
      rw [hd] at hne
      rw [List.length_pos_iff]
      rintro rfl
      simp at hne
    have hp := hpick 0 hdl
    rw [List.take_zero, resAt, if_pos rfl] at hp
    have s0 : ∑ q ∈ range closeX.nr, closeX.get q 0 * [(1 : ℝ), 1, 0].getD q 0 = 1 := by
      simp [closeX, Finset.sum_range_succ]
    have s1 : ∑ q ∈ range closeX.nr, closeX.get q 1 * [(1 : ℝ), 1, 0].getD q 0 = 1 := by
      simp [closeX, Finset.sum_range_succ]
    have s2 : ∑ q ∈ range closeX.nr, closeX.get q 2 * [(1 : ℝ), 1, 0].getD q 0 = 2 := by
      simp [closeX, Finset.sum_range_succ]; norm_num
    have n0 : colNorm closeX 0 = 1 := by unfold colNorm; simp [closeX, Finset.sum_range_succ]
    have n1 : colNorm closeX 1 = 1 := by unfold colNorm; simp [closeX, Finset.sum_range_succ]
    have n2 : 0 < colNorm closeX 2 ∧ colNorm closeX 2 < 2 := by
      unfold colNorm
      constructor
      · rw [Real.sqrt_pos]
        simp [closeX, Finset.sum_range_succ]
      · rw [Real.sqrt_lt' two_pos]
        simp [closeX, Finset.sum_range_succ]
        norm_num
    have ny : 0 < norm2 [1, 1, 0] := by
      unfold norm2
      rw [Real.sqrt_pos]
      simp [Finset.sum_range_succ]
    have hcol : ∀ i, i < closeX.nc → colNorm closeX i ≠ 0 := by
      intro i hi
      have : i = 0 ∨ i = 1 ∨ i = 2 := by change i < 3 at hi; omega
      rcases this with rfl | rfl | rfl
      · rw [n0]; exact one_ne_zero
      · rw [n1]; exact one_ne_zero
      · exact n2.1.ne'
    rw [ompProj_fin closeX _ ny.ne' hcol, argmax_map_fin] at hp
    obtain ⟨v, hv1, hv2, -⟩ := (C36_argmax _).2 _ hp
    have hlt : d[0] < 3 := by
      by_contra hj
      rw [List.getElem?_eq_none (by simpa [closeX] using hj)] at hv1
      cases hv1
    have h2 := hv2 _ (List.mem_map.2 ⟨2, List.mem_range.2 (by decide), rfl⟩)
    simp only [List.getElem?_map, List.getElem?_range (show d[0] < closeX.nc from hlt), Option.map_some,
      Option.some.injEq] at hv1
    rw [s2, ← hv1] at h2
    have big : 1 / norm2 [1, 1, 0] < |2 / (norm2 [1, 1, 0] * colNorm closeX 2)| := by
      rw [abs_of_pos (div_pos two_pos (mul_pos ny n2.1)), div_lt_div_iff₀ ny (mul_pos ny n2.1)]
      nlinarith [n2.2]
    have hd0 : d[0] = 0 ∨ d[0] = 1 ∨ d[0] = 2 := by omega
    have hhead : d[0] = 2 := by
      rcases hd0 with e | e | e
      · rw [e, s0, n0, mul_one, abs_of_pos (div_pos one_pos ny)] at h2
        linarith
      · rw [e, s1, n1, mul_one, abs_of_pos (div_pos one_pos ny)] at h2
        linarith
      · exact e
    rw [hd, List.head?_map, List.head?_eq_getElem?, List.getElem?_eq_getElem hdl, hhead]
    rfl
  · intro r hr
    have : r = 0 ∨ r = 1 ∨ r = 2 := by omega
    rcases this with rfl | rfl | rfl <;> simp [lin, closeX, Finset.sum_range_succ, vec]

end GoSelect
