import Verif.Props.C118_C119
import Verif.Props.C120
import Verif.Proofs.Overfit

/-!
# Redundant features

A feature that is a linear combination of other features of a model adds nothing to the fit.
-/

namespace GoSelect

open Finset Spec

/-- Column `j` is a linear combination of the columns in `S`. -/
def Spec.InSpan (X : Mat ℝ) (S : Nat → Prop) (j : Nat) : Prop :=
  ∃ w : Nat → ℝ, (∀ i, ¬ S i → w i = 0) ∧ ∀ r < X.nr, X.get r j = ∑ i ∈ range X.nc, X.get r i * w i

/-- Feature `j` of the model is a linear combination of the other features of the model. -/
def Spec.Redundant (X : Mat ℝ) (m : List Bool) (j : Nat) : Prop :=
  HasFeature m j ∧ InSpan X (fun i => HasFeature m i ∧ i ≠ j) j

variable {svd : Mat ℝ → SVD ℝ} {X : Mat ℝ} {y : List ℝ}

/-- The residual sum of squares of an exact fit is the least one of the coefficients that vanish outside the model. -/
theorem fitModel_support {m : List Bool} (hlen : m.length = X.nc) (hy : y.length = X.nr) (hpos : 0 < Spec.card m)
    (hex : ExactFit svd X m) {c : List ℝ} {r : ℝ} (hf : fitModel svd X y m = some (c, r)) :
    (∃ b : Nat → ℝ, (∀ i, ¬ HasFeature m i → b i = 0) ∧ sse X b (vec y) = r) ∧
      ∀ b : Nat → ℝ, (∀ i, ¬ HasFeature m i → b i = 0) → r ≤ sse X b (vec y) := by
  obtain ⟨c', h1, h2, -⟩ := fitModel_eq_some (svd := svd) (y := y) hy hpos hlen.le
  rw [h1, Option.some.injEq, Prod.mk.injEq] at hf
  obtain ⟨-, rfl⟩ := hf
  have hlt : ∀ j ∈ features m, j < X.nc := fun j hj => hlen ▸ features_lt hj
  constructor
  · refine ⟨extend (features m) (vec c'), fun i hi => ?_, ?_⟩
    · rw [extend, if_neg (fun h => hi ((mem_features _ _).1 h))]
    · unfold sse
      refine Finset.sum_congr rfl (fun i _ => ?_)
      rw [designOf_eq, lin_cols (features_nodup _) hlt]
  · intro b hb
    have := fit_leastSquares hex h2 (fun q => b ((features m).getD q 0))
    refine this.trans (le_of_eq ?_)
    unfold sse
    refine Finset.sum_congr rfl (fun i _ => ?_)
    rw [designOf_eq, lin_restrict (features_nodup _) hlt b (fun j hj => hb j (fun h => hj ((mem_features _ _).2 h)))]

/-- The model without feature `j`. -/
theorem without_feature {m : List Bool} {j : Nat} (hj : HasFeature m j) :
    (∀ i, HasFeature (m.set j false) i ↔ HasFeature m i ∧ i ≠ j) ∧ Spec.card (m.set j false) + 1 = Spec.card m := by
  have hjl : j < m.length := (List.getElem?_eq_some_iff.1 hj).1
  have h1 : ∀ i, HasFeature (m.set j false) i ↔ HasFeature m i ∧ i ≠ j := by
    intro i
    unfold HasFeature
    rw [List.getElem?_set]
    by_cases hij : j = i
    · subst hij
      simp [hjl]
    · rw [if_neg hij]
      exact ⟨fun h => ⟨h, fun h' => hij h'.symm⟩, fun h => h.1⟩
  refine ⟨h1, ?_⟩
  have h2 := card_set_new (t := m.set j false) (j := j) (by simpa using hjl) (fun h => ((h1 j).1 h).2 rfl)
  rw [List.set_set] at h2
  have h3 : m.set j true = m := by
    apply List.ext_getElem?
    intro i
    rw [List.getElem?_set]
    by_cases hij : j = i
    · subst hij
      rw [if_pos rfl, if_pos hjl]
      exact hj.symm
    · rw [if_neg hij]
  rw [h3] at h2
  omega

/-- Leaving a redundant feature out does not change the residual sum of squares. -/
theorem redundant_rss {m : List Bool} {j : Nat} (hlen : m.length = X.nc) (hy : y.length = X.nr)
    (hred : Redundant X m j) (hpos : 1 < Spec.card m) (hex : ExactFit svd X m) (hex' : ExactFit svd X (m.set j false))
    {c c' : List ℝ} {r r' : ℝ} (hf : fitModel svd X y m = some (c, r))
    (hf' : fitModel svd X y (m.set j false) = some (c', r')) : r' = r := by
  obtain ⟨hj, w, hw, hcol⟩ := hred
  obtain ⟨h1, h2⟩ := without_feature hj
  have hjl : j < X.nc := by rw [← hlen]; exact (List.getElem?_eq_some_iff.1 hj).1
  obtain ⟨⟨b, hb, hbr⟩, hmin⟩ := fitModel_support hlen hy (by omega) hex hf
  obtain ⟨⟨b', hb', hbr'⟩, hmin'⟩ := fitModel_support (by simpa using hlen) hy (by omega) hex' hf'
  apply le_antisymm
  · have := hmin' (fun i => if i = j then 0 else b i + b j * w i) ?_
    · refine this.trans (le_of_eq ?_)
      rw [← hbr]
      unfold sse
      refine Finset.sum_congr rfl (fun q hq => ?_)
      have e : lin X (fun i => if i = j then 0 else b i + b j * w i) q = lin X b q := by
        unfold lin
        have e1 : ∀ i ∈ range X.nc, X.get q i * (if i = j then 0 else b i + b j * w i) =
            X.get q i * b i + b j * (X.get q i * w i) - (if i = j then X.get q j * b j else 0) := by
          intro i _
          by_cases hij : i = j
          · subst hij
            rw [if_pos rfl, if_pos rfl, hw i (fun h => h.2 rfl)]
            ring
          · rw [if_neg hij, if_neg hij]
            ring
        rw [Finset.sum_congr rfl e1, Finset.sum_sub_distrib, Finset.sum_add_distrib, ← Finset.mul_sum,
          ← hcol q (mem_range.1 hq), Finset.sum_ite_eq' (range X.nc) j, if_pos (mem_range.2 hjl)]
        ring
      rw [e]
    · intro i hi
      by_cases hij : i = j
      · exact if_pos hij
      · simp only [if_neg hij]
        have hni : ¬ HasFeature m i := fun h => hi ((h1 i).2 ⟨h, hij⟩)
        rw [hb i hni, hw i (fun h => hni h.1)]
        ring
  · rw [← hbr']
    exact hmin b' (fun i hi => hb' i (fun h => hi ((h1 i).1 h).1))

/-- More features with the same residual sum of squares are worse. -/
theorem aicc_strict {k k' : Nat} (h : k < k') (n : Nat) (r : ℝ) : aicc k n r < aicc k' n r := by
  rw [aicc_eq, aicc_eq]
  refine add_lt_add_of_lt_of_le ?_ ?_
  · have : (k : ℝ) < k' := by exact_mod_cast h
    unfold aic
    linarith
  · have hd : 0 < (if n ≤ k' + 1 then 1 else n - k' - 1 : Nat) := by split <;> omega
    have hdd : (if n ≤ k' + 1 then 1 else n - k' - 1 : Nat) ≤ (if n ≤ k + 1 then 1 else n - k - 1 : Nat) := by
      split <;> split <;> omega
    have hn : 2 * k * k + 2 * k ≤ 2 * k' * k' + 2 * k' := by
      have := Nat.mul_le_mul h.le h.le
      nlinarith
    exact div_le_div₀ (Nat.cast_nonneg _) (by exact_mod_cast hn) (by exact_mod_cast hd) (by exact_mod_cast hdd)

/-! ### Orthogonal matching pursuit -/

/-- The residuals of the features `l` are those of the best coefficients that vanish outside `l`. -/
theorem resAt_best (hy : X.nr = y.length) {l : List Nat} (hex : ExactFit svd X (modelOf X.nc l)) (hne : l ≠ [])
    (hlt : ∀ i ∈ l, i < X.nc) : ∃ b : Nat → ℝ, (∀ i, i ∉ l → b i = 0) ∧
      (∀ q < X.nr, (resAt svd X y l).getD q 0 = lin X b q - vec y q) ∧
      ∀ b' : Nat → ℝ, (∀ i, i ∉ l → b' i = 0) → sse X b (vec y) ≤ sse X b' (vec y) := by
  unfold resAt
  rw [if_neg hne]
  set m := modelOf X.nc l with hm
  have hmlen : m.length = X.nc := by simp [hm, modelOf]
  have hf : ∀ i, i ∈ features m ↔ i ∈ l := fun i => (mem_features _ _).trans (modelOf_feature _ _ hlt i)
  have hmlt : ∀ j ∈ features m, j < X.nc := fun j hj => hmlen ▸ features_lt hj
  refine ⟨extend (features m) (vec (ompFit svd X y m)), ?_, ?_, ?_⟩
  · intro i hi
    rw [extend, if_neg (fun h => hi ((hf i).1 h))]
  · intro q hq
    have hqy : q < y.length := hy ▸ hq
    rw [← lin_cols (features_nodup _) hmlt, ← designOf_eq]
    unfold ompRes ompPred vec
    simp [List.getD_eq_getElem?_getD, List.getElem?_zipWith, hq, hqy]
  · intro b' hb'
    have := fit_leastSquares hex (ompFit_fit svd X y hy m) (fun q => b' ((features m).getD q 0))
    have e1 : sse (designOf X m) (vec (ompFit svd X y m)) (vec y) =
        sse X (extend (features m) (vec (ompFit svd X y m))) (vec y) := by
      unfold sse
      refine Finset.sum_congr rfl (fun i _ => ?_)
      rw [designOf_eq, lin_cols (features_nodup _) hmlt]
    have e2 : sse (designOf X m) (fun q => b' ((features m).getD q 0)) (vec y) = sse X b' (vec y) := by
      unfold sse
      refine Finset.sum_congr rfl (fun i _ => ?_)
      rw [designOf_eq, lin_restrict (features_nodup _) hmlt b' (fun j hj => hb' j (fun h => hj ((hf j).2 h)))]
    rw [e1, e2] at this
    exact this

/-- Best coefficients that vanish outside `l` have residuals orthogonal to the columns in `l`. -/
theorem best_orthogonal {l : List Nat} {b w : Nat → ℝ} (hb : ∀ i, i ∉ l → b i = 0)
    (hbest : ∀ b' : Nat → ℝ, (∀ i, i ∉ l → b' i = 0) → sse X b w ≤ sse X b' w) {k : Nat} (hk : k ∈ l) (hkn : k < X.nc) :
    ∑ q ∈ range X.nr, X.get q k * (lin X b q - w q) = 0 := by
  classical
  let Z : Mat ℝ := ⟨X.nr, X.nc, fun r i => if i ∈ l then X.get r i else 0⟩
  have hlin : ∀ c q, lin Z c q = lin X (fun i => if i ∈ l then c i else 0) q := by
    intro c q
    unfold lin
    refine Finset.sum_congr rfl (fun i _ => ?_)
    show (if i ∈ l then X.get q i else 0) * c i = X.get q i * if i ∈ l then c i else 0
    split <;> simp
  have hbz : ∀ q, lin Z b q = lin X b q := by
    intro q
    rw [hlin]
    congr 1
    funext i
    split
    · rfl
    · exact (hb i ‹_›).symm
  have hls : IsLeastSquares Z b w := by
    intro c
    have h1 : sse Z b w = sse X b w := Finset.sum_congr rfl (fun q _ => by rw [hbz])
    have h2 : sse Z c w = sse X (fun i => if i ∈ l then c i else 0) w :=
      Finset.sum_congr rfl (fun q _ => by rw [hlin])
    show sse Z b w ≤ sse Z c w
    rw [h1, h2]
    exact hbest _ (fun i hi => if_neg hi)
  have := orthogonal_of_leastSquares Z b w hls k hkn
  refine Eq.trans (Finset.sum_congr rfl (fun q _ => ?_)) this
  show _ = (if k ∈ l then X.get q k else 0) * _
  rw [if_pos hk, hbz]

theorem colNorm_ne_zero {i : Nat} (h : ∃ r < X.nr, X.get r i ≠ 0) : colNorm X i ≠ 0 := by
  obtain ⟨r, hr, hne⟩ := h
  unfold colNorm
  refine (Real.sqrt_pos.2 ?_).ne'
  refine Finset.sum_pos' (fun _ _ => mul_self_nonneg _) ⟨r, mem_range.2 hr, ?_⟩
  exact mul_self_pos.2 hne

/-- The chosen column has the largest normalised correlation, in a form without roots. -/
theorem pick_sq {r : List ℝ} (hr : norm2 r ≠ 0) (hcol : ∀ i, i < X.nc → colNorm X i ≠ 0) {x : Nat}
    (hx : argmax (ompProj X r) = some x) : x < X.nc ∧ ∀ i, i < X.nc →
      (∑ q ∈ range X.nr, X.get q i * r.getD q 0) ^ 2 * (∑ q ∈ range X.nr, X.get q x * X.get q x) ≤
      (∑ q ∈ range X.nr, X.get q x * r.getD q 0) ^ 2 * (∑ q ∈ range X.nr, X.get q i * X.get q i) := by
  classical
  rw [ompProj_fin X _ hr hcol, argmax_map_fin] at hx
  obtain ⟨v, hv1, hv2, -⟩ := (C36_argmax _).2 _ hx
  have hxlt : x < X.nc := by simpa using (List.getElem?_eq_some_iff.1 hv1).1
  refine ⟨hxlt, fun i hi => ?_⟩
  have h1 := hv2 _ (List.mem_map.2 ⟨i, List.mem_range.2 hi, rfl⟩)
  rw [List.getElem?_map, List.getElem?_range hxlt, Option.map_some, Option.some.injEq] at hv1
  rw [← hv1, abs_div, abs_div] at h1
  have hsq : ∀ k, colNorm X k ^ 2 = ∑ q ∈ range X.nr, X.get q k * X.get q k := by
    intro k
    unfold colNorm
    exact Real.sq_sqrt (Finset.sum_nonneg (fun _ _ => mul_self_nonneg _))
  have hni : 0 < |norm2 r * colNorm X i| := abs_pos.2 (mul_ne_zero hr (hcol i hi))
  have hnx : 0 < |norm2 r * colNorm X x| := abs_pos.2 (mul_ne_zero hr (hcol x hxlt))
  rw [div_le_div_iff₀ hni hnx, abs_mul, abs_mul] at h1
  have h2 := pow_le_pow_left₀ (by positivity) h1 2
  rw [mul_pow, mul_pow, mul_pow, mul_pow, sq_abs, sq_abs, sq_abs, sq_abs, sq_abs, hsq, hsq] at h2
  have hn : 0 < norm2 r ^ 2 := by positivity
  nlinarith

/-- If no column is correlated with the residuals the first one is chosen. -/
theorem argmax_stuck (hc : X.nc ≠ 0) (hcol : ∀ i, i < X.nc → colNorm X i ≠ 0) {r : List ℝ}
    (h : ∀ i, i < X.nc → ∑ q ∈ range X.nr, X.get q i * r.getD q 0 = 0) {x : Nat}
    (hx : argmax (ompProj X r) = some x) : x = 0 := by
  classical
  by_cases hr : norm2 r = 0
  · have : argmax (ompProj X r) = some 0 := by
      obtain ⟨n, hn⟩ : ∃ n, X.nc = n + 1 := ⟨X.nc - 1, by omega⟩
      unfold ompProj
      rw [hn, List.range_succ_eq_map, List.map_cons]
      simp only [hr, h 0 (by omega), zero_mul, Fl.divFin, if_true, flAbs]
      unfold argmax
      simp only
      rw [argmax_fold_nan _ 0 _ rfl]
    rw [this] at hx
    exact (Option.some.inj hx).symm
  · rw [ompProj_fin X _ hr hcol, argmax_map_fin] at hx
    obtain ⟨v, hv1, -, hv3⟩ := (C36_argmax _).2 _ hx
    have hxlt : x < X.nc := by simpa using (List.getElem?_eq_some_iff.1 hv1).1
    by_contra hx0
    have h0 := hv3 0 (by omega) 0 (by
      rw [List.getElem?_map, List.getElem?_range (by omega)]
      simp only [Option.map_some, h 0 (by omega), zero_div, abs_zero])
    rw [List.getElem?_map, List.getElem?_range hxlt] at hv1
    simp only [Option.map_some, h x hxlt, zero_div, abs_zero, Option.some.injEq] at hv1
    rw [← hv1] at h0
    exact lt_irrefl _ h0

/-- Best coefficients of all features have residuals orthogonal to all columns. -/
theorem orthogonal_all {b : Nat → ℝ} (hls : IsLeastSquares X b (vec y)) {r : List ℝ}
    (hr : ∀ q < X.nr, r.getD q 0 = lin X b q - vec y q) (i : Nat) (hi : i < X.nc) :
    ∑ q ∈ range X.nr, X.get q i * r.getD q 0 = 0 := by
  refine Eq.trans (Finset.sum_congr rfl (fun q hq => ?_)) (orthogonal_of_leastSquares X b (vec y) hls i hi)
  rw [hr q (mem_range.1 hq)]

/-- A feature in the span of those chosen before is chosen only if nothing improves the fit any more; it is the first
one, and the last to be chosen. -/
theorem omp_redundant {tol : ℝ} {res : OmpResult} (h : omp svd X y tol = some res)
    (hex : ∀ m n, m.length = X.nc → 0 < n → (∀ i : Nat, HasFeature m i ↔ (i : Int) ∈ res.order.take n) → ExactFit svd X m)
    (hcol : ∀ i, i < X.nc → colNorm X i ≠ 0) {j x : Nat} (hj : 0 < j)
    (hx : res.order[j]? = some (x : Int)) (hspan : InSpan X (fun i => (i : Int) ∈ res.order.take j) x) :
    x = 0 ∧ res.order.length = j + 1 ∧
      ∃ b : Nat → ℝ, (∀ i : Nat, (i : Int) ∉ res.order.take j → b i = 0) ∧ IsLeastSquares X b (vec y) := by
  obtain ⟨-, hc, hy⟩ := omp_some svd X y tol h
  obtain ⟨-, hnd, hrange⟩ := C62_order svd X y tol h
  obtain ⟨d, hd, hpick⟩ := C62_greedy svd X y tol h
  rw [hd] at hx hspan hnd hrange hex ⊢
  rw [List.getElem?_map] at hx
  have hjd : j < d.length := by
    by_contra hge
    rw [List.getElem?_eq_none (by omega)] at hx
    cases hx
  rw [List.getElem?_eq_getElem hjd, Option.map_some, Option.some.injEq] at hx
  have hxd : d[j] = x := by simpa using hx
  have hdn : d.Nodup := List.Nodup.of_map _ hnd
  have hmem : ∀ n (i : Nat), (i : Int) ∈ (d.map Int.ofNat).take n ↔ i ∈ d.take n := by
    intro n i
    rw [← List.map_take, List.mem_map]
    constructor
    · rintro ⟨a, ha, hai⟩
      have : a = i := by simpa using hai
      exact this ▸ ha
    · exact fun hi => ⟨i, hi, rfl⟩
  have hlt : ∀ i ∈ d, i < X.nc := by
    intro i hi
    have := (hrange (i : Int) (List.mem_map.2 ⟨i, hi, rfl⟩)).2
    exact_mod_cast this
  have htake : ∀ n, 0 < n → n ≤ d.length → d.take n ≠ [] := by
    intro n h1 h2 h0
    have := congrArg List.length h0
    rw [List.length_take, List.length_nil] at this
    omega
  have hex' : ∀ n, 0 < n → ExactFit svd X (modelOf X.nc (d.take n)) := by
    intro n hn
    refine hex _ n (by simp [modelOf]) hn (fun i => ?_)
    rw [modelOf_feature _ _ (fun i hi => hlt i (List.mem_of_mem_take hi)), hmem]
  obtain ⟨w, hw, hcolx⟩ := hspan
  obtain ⟨b, hb, hres, hbest⟩ := resAt_best hy (hex' j hj) (htake j hj hjd.le) (fun i hi => hlt i (List.mem_of_mem_take hi))
  have horth : ∀ i ∈ d.take j, ∑ q ∈ range X.nr, X.get q i * (resAt svd X y (d.take j)).getD q 0 = 0 := by
    intro i hi
    refine Eq.trans (Finset.sum_congr rfl (fun q hq => ?_))
      (best_orthogonal hb hbest hi (hlt i (List.mem_of_mem_take hi)))
    rw [hres q (mem_range.1 hq)]
  have hx0 : ∑ q ∈ range X.nr, X.get q x * (resAt svd X y (d.take j)).getD q 0 = 0 := by
    have e : ∀ q ∈ range X.nr, X.get q x * (resAt svd X y (d.take j)).getD q 0 =
        ∑ i ∈ range X.nc, w i * (X.get q i * (resAt svd X y (d.take j)).getD q 0) := by
      intro q hq
      rw [hcolx q (mem_range.1 hq), Finset.sum_mul]
      exact Finset.sum_congr rfl (fun i _ => by ring)
    rw [Finset.sum_congr rfl e, Finset.sum_comm]
    refine Finset.sum_eq_zero (fun i _ => ?_)
    rw [← Finset.mul_sum]
    by_cases hi : i ∈ d.take j
    · rw [horth i hi, mul_zero]
    · rw [hw i (fun h => hi ((hmem j i).1 h)), zero_mul]
  have hxlt : x < X.nc := by rw [← hxd]; exact hlt _ (List.getElem_mem hjd)
  have hall : ∀ i, i < X.nc → ∑ q ∈ range X.nr, X.get q i * (resAt svd X y (d.take j)).getD q 0 = 0 := by
    by_cases hr : norm2 (resAt svd X y (d.take j)) = 0
    · intro i _
      exact Finset.sum_eq_zero (fun q _ => by rw [norm2_eq_zero _ hr, mul_zero])
    · classical
      have hp := hpick j hjd
      rw [hxd, ompProj_fin X _ hr hcol, argmax_map_fin] at hp
      obtain ⟨v, hv1, hv2, -⟩ := (C36_argmax _).2 _ hp
      have hv0 : v = 0 := by
        simp only [List.getElem?_map, List.getElem?_range hxlt, Option.map_some, Option.some.injEq, hx0,
          zero_div, abs_zero] at hv1
        exact hv1.symm
      intro i hi
      have := hv2 _ (List.mem_map.2 ⟨i, List.mem_range.2 hi, rfl⟩)
      rw [hv0] at this
      have := abs_nonpos_iff.1 this
      rcases div_eq_zero_iff.1 this with h | h
      · exact h
      · exact absurd h (mul_ne_zero hr (hcol i hi))
  have hx00 : x = 0 := argmax_stuck hc hcol hall (hxd ▸ hpick j hjd)
  have hls : IsLeastSquares X b (vec y) := by
    apply isLeastSquares_of_orthogonal
    intro b'
    have e : ∀ i ∈ range X.nr, (lin X b i - vec y i) * lin X b' i =
        ∑ k ∈ range X.nc, b' k * (X.get i k * (resAt svd X y (d.take j)).getD i 0) := by
      intro i hi
      rw [← hres i (mem_range.1 hi)]
      unfold lin
      rw [Finset.mul_sum]
      exact Finset.sum_congr rfl (fun j _ => by ring)
    rw [Finset.sum_congr rfl e, Finset.sum_comm]
    refine Finset.sum_eq_zero (fun k hk => ?_)
    rw [← Finset.mul_sum, hall k (mem_range.1 hk), mul_zero]
  refine ⟨hx00, ?_, b, fun i hi => hb i (fun h => hi ((hmem j i).2 h)), hls⟩
  rw [List.length_map]
  by_contra hlen
  have hj1 : j + 1 < d.length := by omega
  obtain ⟨b1, -, hres1, hbest1⟩ := resAt_best hy (hex' (j + 1) (by omega)) (htake (j + 1) (by omega) hj1.le)
    (fun i hi => hlt i (List.mem_of_mem_take hi))
  have hls1 : IsLeastSquares X b1 (vec y) := by
    intro c
    refine (hbest1 b (fun i hi => hb i (fun h => hi ?_))).trans (hls c)
    rw [List.take_add_one]
    exact List.mem_append_left _ h
  have := argmax_stuck hc hcol (orthogonal_all hls1 hres1) (hpick (j + 1) hj1)
  have h2 := (hdn.getElem_inj_iff (hi := hj1) (hj := hjd)).1 (by rw [this, hxd, hx00])
  omega

end GoSelect
