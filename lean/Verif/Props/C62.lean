import Verif.Proofs.Omp
import Verif.Proofs.CrdDesc
import Verif.Props.C36
import Verif.Proofs.Orthonormal

/-!
# C62: orthogonal matching pursuit
-/

namespace GoSelect

open Finset Spec

variable (svd : Mat ℝ → SVD ℝ) (X : Mat ℝ) (y : List ℝ) (tol : ℝ)

/-- Root mean square error of coefficients. -/
noncomputable def Spec.rmse (X : Mat ℝ) (c y : List ℝ) : ℝ := Real.sqrt (sse X (vec c) (vec y) / X.nr)

/-- Everything that the loop and the trimming establish. -/
theorem omp_main (h0 : y.length ≠ 0) (hc : X.nc ≠ 0) (hy : X.nr = y.length) :
    ∃ st t d k x, omp svd X y tol = some ⟨st.coeff, d.map Int.ofNat⟩ ∧ OmpInv svd X y t st d k x ∧
      (t = X.nc ∨ ompRmse svd X y st.model < tol) ∧ t ≠ 0 ∧ d ≠ [] ∧
      ∀ j, 0 < j → j < d.length → ¬ ompRmse svd X y (modelOf X.nc (d.take j)) < tol := by
  obtain ⟨st, t, d, k, x, h1, h2, h3, -, h5, h6⟩ := ompLoop_inv svd X y hy tol X.nc 0 _ [] 0 0
    (ompInit_inv svd X y) rfl (by simp; omega)
  have hd : d ≠ [] := by
    rintro rfl
    have hk : k ≠ 0 := by have := h2.count; have := h5 hc; simp at *; omega
    exact absurd (h2.stall hk).1 (by simp)
  refine ⟨st, t, d, k, x, ?_, h2, h3, by have := h5 hc; omega, hd, h6⟩
  unfold omp
  rw [if_neg (by simp only [not_or, not_not]; exact ⟨h0, hc, hy⟩), h1]
  have hol : st.order.length = X.nc := by
    rw [h2.order]
    simp only [List.length_append, List.length_map, List.length_replicate]
    have := h2.count
    have := h2.le
    omega
  have := trimLoop_spec st.order X.nc [] d k x (X.nc - t) (List.replicate st.order.length false)
    (by rw [h2.order]; simp) (by simp [hol]) (by simpa using h2.lt) (by simpa using h2.nodup)
    (fun hk => by simpa using (h2.stall hk).1)
    (by intro i; simp [HasFeature, List.getElem?_replicate])
  simp only [List.length_nil, List.nil_append] at this
  rw [← h2.order] at this
  simp only [this]

/-- C62: `Omp` panics exactly for empty data or a wrong number of rows. -/
theorem C62_panic : omp svd X y tol = none ↔ y.length = 0 ∨ X.nc = 0 ∨ X.nr ≠ y.length := by
  by_cases h : y.length = 0 ∨ X.nc = 0 ∨ X.nr ≠ y.length
  · simp only [h, iff_true]
    unfold omp
    rw [if_pos h]
  · simp only [h, iff_false]
    simp only [not_or, not_not] at h
    obtain ⟨st, t, d, k, x, h1, -⟩ := omp_main svd X y tol h.1 h.2.1 h.2.2
    rw [h1]
    simp

theorem omp_some {res : OmpResult} (h : omp svd X y tol = some res) :
    y.length ≠ 0 ∧ X.nc ≠ 0 ∧ X.nr = y.length := by
  by_contra hc
  have : omp svd X y tol = none := (C62_panic svd X y tol).2 (by tauto)
  rw [this] at h
  simp at h

/-- C62: `Order` lists distinct features, at least one. -/
theorem C62_order {res : OmpResult} (h : omp svd X y tol = some res) :
    res.order ≠ [] ∧ res.order.Nodup ∧ ∀ v ∈ res.order, 0 ≤ v ∧ v < X.nc := by
  obtain ⟨h0, hc, hy⟩ := omp_some svd X y tol h
  obtain ⟨st, t, d, k, x, h1, h2, -, -, hd, -⟩ := omp_main svd X y tol h0 hc hy
  rw [h1] at h
  rw [← Option.some.inj h]
  refine ⟨by simpa using hd, h2.nodup.map (fun a b hab => by simpa using hab), ?_⟩
  intro v hv
  simp only [List.mem_map] at hv
  obtain ⟨i, hi, rfl⟩ := hv
  have := h2.lt i hi
  simp only [Int.ofNat_eq_natCast]
  omega

/-- C62: `Coeff` is zero outside `Order` and on `Order` is the fit of exactly those columns. -/
theorem C62_coeff {res : OmpResult} (h : omp svd X y tol = some res) :
    ∃ m c, m.length = X.nc ∧ (∀ i : Nat, HasFeature m i ↔ (i : Int) ∈ res.order) ∧
      fit (svd (designOf X m)) (designOf X m) y = some c ∧ res.coeff.length = X.nc ∧
      (∀ i : Nat, i < X.nc → (i : Int) ∉ res.order → res.coeff[i]? = some 0) ∧
      ∀ k, k < card m → res.coeff[(features m).getD k 0]? = c[k]? := by
  obtain ⟨h0, hc, hy⟩ := omp_some svd X y tol h
  obtain ⟨st, t, d, k, x, h1, h2, -, ht, -⟩ := omp_main svd X y tol h0 hc hy
  rw [h1] at h
  rw [← Option.some.inj h]
  obtain ⟨g1, g2, g3⟩ := (h2.fit ht).1
  have hm : ∀ i : Nat, HasFeature st.model i ↔ (i : Int) ∈ d.map Int.ofNat := by
    intro i
    rw [h2.feat]
    simp
  refine ⟨st.model, ompFit svd X y st.model, h2.len, hm, ompFit_fit svd X y hy _, g1, ?_, g3⟩
  intro i hi hn
  exact g2 i hi (fun hf => hn ((hm i).1 hf))

/-- The coefficients of the state as a function, in terms of the design matrix. -/
theorem sse_state {t : Nat} {st : OmpState} {d : List Nat} {k x : Nat} (h2 : OmpInv svd X y t st d k x)
    (ht : t ≠ 0) (i : Nat) :
    lin (designOf X st.model) (vec (ompFit svd X y st.model)) i = lin X (vec st.coeff) i := by
  obtain ⟨g1, g2, g3⟩ := (h2.fit ht).1
  rw [designOf_eq]
  rw [← lin_restrict (X := X) (L := features st.model) (features_nodup _)
    (fun j hj => h2.len ▸ features_lt hj) (vec st.coeff) ?_ i]
  · apply lin_congr
    intro q hq
    have := g3 q hq
    unfold vec
    rw [List.getD_eq_getElem?_getD, List.getD_eq_getElem?_getD, this]
  · intro j hj
    by_cases hlt : j < X.nc
    · have := g2 j hlt (fun hf => hj ((mem_features _ _).2 hf))
      unfold vec
      rw [List.getD_eq_getElem?_getD, this]
      rfl
    · unfold vec
      rw [List.getD_eq_getElem?_getD, List.getElem?_eq_none (by omega)]
      rfl

theorem ompRmse_eq (hy : X.nr = y.length) {t : Nat} {st : OmpState} {d : List Nat} {k x : Nat}
    (h2 : OmpInv svd X y t st d k x) (ht : t ≠ 0) :
    ompRmse svd X y st.model = rmse X st.coeff y := by
  unfold ompRmse rmse sse
  rw [hy]
  congr 2
  refine Finset.sum_congr rfl (fun i hi => ?_)
  have hi' : i < X.nr := by rw [hy]; exact mem_range.1 hi
  unfold ompPred
  rw [getD_map_range, if_pos hi', sse_state svd X y h2 ht]
  unfold vec
  ring

/-- C62: with exact fits `Coeff` is the least-squares solution among all coefficients that vanish outside
`Order`. -/
theorem C62_best_on_order {res : OmpResult} (h : omp svd X y tol = some res)
    (hex : ∀ m, m.length = X.nc → ExactFit svd X m) (b : Nat → ℝ)
    (hb : ∀ i : Nat, (i : Int) ∉ res.order → b i = 0) : sse X (vec res.coeff) (vec y) ≤ sse X b (vec y) := by
  obtain ⟨h0, hc, hy⟩ := omp_some svd X y tol h
  obtain ⟨st, t, d, k, x, h1, h2, -, ht, -⟩ := omp_main svd X y tol h0 hc hy
  rw [h1] at h
  rw [← Option.some.inj h] at hb ⊢
  have hls := fit_leastSquares (hex st.model h2.len) (ompFit_fit svd X y hy st.model)
  have := hls (fun q => b ((features st.model).getD q 0))
  have e1 : sse (designOf X st.model) (vec (ompFit svd X y st.model)) (vec y) = sse X (vec st.coeff) (vec y) := by
    unfold sse
    refine Finset.sum_congr rfl (fun i _ => ?_)
    rw [sse_state svd X y h2 ht]
  have e2 : sse (designOf X st.model) (fun q => b ((features st.model).getD q 0)) (vec y) = sse X b (vec y) := by
    unfold sse
    refine Finset.sum_congr rfl (fun i _ => ?_)
    rw [designOf_eq, lin_restrict (features_nodup _) (fun j hj => h2.len ▸ features_lt hj) b ?_ i]
    intro j hj
    apply hb
    simp only [List.mem_map, not_exists, not_and]
    intro a ha hja
    have : a = j := by simpa using hja
    subst this
    exact hj ((mem_features _ _).2 ((h2.feat a).2 ha))
  rw [e1, e2] at this
  exact this

/-- C62, greedy choice: entry `j` of `Order` is the feature with the largest normalised correlation with
the residuals of the first `j` features. -/
theorem C62_greedy {res : OmpResult} (h : omp svd X y tol = some res) :
    ∃ d : List Nat, res.order = d.map Int.ofNat ∧
      ∀ j (hj : j < d.length), argmax (ompProj X (resAt svd X y (d.take j))) = some d[j] := by
  obtain ⟨h0, hc, hy⟩ := omp_some svd X y tol h
  obtain ⟨st, t, d, k, x, h1, h2, -⟩ := omp_main svd X y tol h0 hc hy
  rw [h1] at h
  rw [← Option.some.inj h]
  exact ⟨d, rfl, h2.pick⟩

/-- C62: the run ends as soon as the tolerance is reached: the least-squares error of every proper initial
part of `Order` is not below the tolerance. -/
theorem C62_no_overrun {res : OmpResult} (h : omp svd X y tol = some res)
    (hex : ∀ m, m.length = X.nc → ExactFit svd X m) (j : Nat) (h0 : 0 < j) (hj : j < res.order.length)
    (b : Nat → ℝ) (hb : ∀ i : Nat, (i : Int) ∉ res.order.take j → b i = 0) :
    tol ≤ Real.sqrt (sse X b (vec y) / X.nr) := by
  obtain ⟨hl, hc, hy⟩ := omp_some svd X y tol h
  obtain ⟨st, t, d, k, x, h1, h2, -, -, -, h6⟩ := omp_main svd X y tol hl hc hy
  rw [h1] at h
  rw [← Option.some.inj h] at hj hb
  rw [List.length_map] at hj
  have hlt : ∀ i ∈ d.take j, i < X.nc := fun i hi => h2.lt i (List.mem_of_mem_take hi)
  have hm := h6 j h0 hj
  set m := modelOf X.nc (d.take j) with hmdef
  have hmlen : m.length = X.nc := by simp [hmdef, modelOf]
  have hls := fit_leastSquares (hex m hmlen) (ompFit_fit svd X y hy m)
    (fun q => b ((features m).getD q 0))
  have e2 : sse (designOf X m) (fun q => b ((features m).getD q 0)) (vec y) = sse X b (vec y) := by
    unfold sse
    refine Finset.sum_congr rfl (fun i _ => ?_)
    rw [designOf_eq, lin_restrict (features_nodup _) (fun j hj => hmlen ▸ features_lt hj) b ?_ i]
    intro q hq
    apply hb
    rw [← List.map_take]
    simp only [List.mem_map, not_exists, not_and]
    intro a ha hja
    have : a = q := by simpa using hja
    subst this
    exact hq ((mem_features _ _).2 ((modelOf_feature _ _ hlt a).2 ha))
  rw [e2] at hls
  refine (not_lt.1 hm).trans (Real.sqrt_le_sqrt ?_)
  rw [hy]
  refine div_le_div_of_nonneg_right ?_ (Nat.cast_nonneg _)
  refine le_trans (le_of_eq ?_) hls
  unfold sse
  refine Finset.sum_congr (by rw [← hy]; rfl) (fun i hi => ?_)
  have hi' : i < X.nr := mem_range.1 hi
  unfold ompPred
  rw [getD_map_range, if_pos hi']
  unfold vec
  ring

/-! ### When the run ends -/

/-- Least squares implies orthogonality of the residuals to every column. -/
theorem orthogonal_of_leastSquares (D : Mat ℝ) (c w : Nat → ℝ) (h : IsLeastSquares D c w) (k : Nat)
    (hk : k < D.nc) : ∑ i ∈ range D.nr, D.get i k * (lin D c i - w i) = 0 := by
  set s := ∑ i ∈ range D.nr, D.get i k * (lin D c i - w i) with hs
  set N := ∑ i ∈ range D.nr, D.get i k ^ 2 with hN
  have hN0 : 0 ≤ N := Finset.sum_nonneg (fun _ _ => sq_nonneg _)
  have key : ∀ t : ℝ, 0 ≤ 2 * t * s + t ^ 2 * N := by
    intro t
    have h1 := h (Function.update c k (c k + t))
    have h2 : sse D (Function.update c k (c k + t)) w = sse D c w + (2 * t * s + t ^ 2 * N) := by
      unfold sse
      rw [hs, hN, Finset.mul_sum, Finset.mul_sum, ← Finset.sum_add_distrib, ← Finset.sum_add_distrib]
      refine Finset.sum_congr rfl (fun i _ => ?_)
      unfold lin
      rw [sum_update _ _ hk]
      ring
    linarith
  by_contra hne
  have hspos : 0 < s ^ 2 := by positivity
  rcases eq_or_lt_of_le hN0 with h0 | hpos
  · have := key (-s)
    rw [← h0] at this
    nlinarith
  · have := key (-s / N)
    have e : 2 * (-s / N) * s + (-s / N) ^ 2 * N = -(s ^ 2 / N) := by field_simp; ring
    rw [e] at this
    have : 0 < s ^ 2 / N := by positivity
    linarith

theorem argmax_map_fin (l : List ℝ) [DecidableLT ℝ] : argmax (l.map Fl.fin) = argmax l := by
  have key : ∀ (l : List ℝ) (k : Nat) (s : Nat × ℝ),
      (((l.map Fl.fin).zipIdx k).foldl (fun s vi => if s.2 < vi.1 then (vi.2, vi.1) else s) (s.1, Fl.fin s.2)) =
      (((l.zipIdx k).foldl (fun s vi => if s.2 < vi.1 then (vi.2, vi.1) else s) s).1,
        Fl.fin ((l.zipIdx k).foldl (fun s vi => if s.2 < vi.1 then (vi.2, vi.1) else s) s).2) := by
    intro l
    induction l with
    | nil => intro k s; rfl
    | cons a l ih =>
      intro k s
      rw [List.map_cons, List.zipIdx_cons, List.zipIdx_cons, List.foldl_cons, List.foldl_cons]
      rw [← ih (k + 1)]
      congr 1
      have : (Fl.fin s.2 < Fl.fin a) ↔ s.2 < a := by
        change (Fl.ltB (Fl.fin s.2) (Fl.fin a) = true) ↔ _
        simp [Fl.ltB]
      by_cases hlt : s.2 < a
      · simp only [hlt, this.2 hlt, if_true]
      · simp only [hlt, mt this.1 hlt, if_false]
  cases l with
  | nil => rfl
  | cons a l =>
    have := key (a :: l) 0 (0, a)
    simp only [argmax, List.map_cons] at this ⊢
    rw [this]

/-- Projections on non-zero columns are finite unless the residuals vanish. -/
theorem ompProj_fin (r : List ℝ) (hr : norm2 r ≠ 0) (hcol : ∀ i, i < X.nc → colNorm X i ≠ 0) :
    ompProj X r = ((List.range X.nc).map (fun i =>
      |(∑ q ∈ range X.nr, X.get q i * r.getD q 0) / (norm2 r * colNorm X i)|)).map Fl.fin := by
  classical
  unfold ompProj
  rw [List.map_map]
  apply List.map_congr_left
  intro i hi
  have hi' := List.mem_range.1 hi
  simp only [Fl.divFin, if_neg (mul_ne_zero hr (hcol i hi')), flAbs, Function.comp_apply]

theorem norm2_eq_zero (r : List ℝ) (hr : norm2 r = 0) (i : Nat) : r.getD i 0 = 0 := by
  have h0 : 0 ≤ ∑ i ∈ range r.length, r.getD i 0 ^ 2 := Finset.sum_nonneg (fun _ _ => sq_nonneg _)
  have h1 := (Real.sqrt_eq_zero h0).1 hr
  rw [Finset.sum_eq_zero_iff_of_nonneg (fun _ _ => sq_nonneg _)] at h1
  by_cases hi : i < r.length
  · exact pow_eq_zero_iff (two_ne_zero) |>.1 (h1 i (mem_range.2 hi))
  · rw [List.getD_eq_getElem?_getD, List.getElem?_eq_none (by omega)]; rfl

theorem ompRes_getD {t : Nat} {st : OmpState} {d : List Nat} {k x : Nat} (hy : X.nr = y.length)
    (h2 : OmpInv svd X y t st d k x) (ht : t ≠ 0) (i : Nat) (hi : i < X.nr) :
    st.residuals.getD i 0 = lin X (vec st.coeff) i - vec y i := by
  rw [(h2.fit ht).2, ← sse_state svd X y h2 ht]
  unfold ompRes ompPred vec
  have hiy : i < y.length := hy ▸ hi
  simp [List.getD_eq_getElem?_getD, List.getElem?_zipWith, hi, hiy]

/-- C62, end of the run (complete pursuit): without zero columns and with exact fits a run that leaves
features out has reached the tolerance, or its coefficients cannot be improved by any choice of
coefficients of all the features. -/
theorem C62_stop_partial {res : OmpResult} (h : omp svd X y tol = some res)
    (hex : ∀ m, m.length = X.nc → ExactFit svd X m) (hcol : ∀ i, i < X.nc → colNorm X i ≠ 0)
    (hlen : res.order.length < X.nc) :
    rmse X res.coeff y < tol ∨ IsLeastSquares X (vec res.coeff) (vec y) := by
  classical
  obtain ⟨h0, hc, hy⟩ := omp_some svd X y tol h
  obtain ⟨st, t, d, k, x, h1, h2, h3, ht, -⟩ := omp_main svd X y tol h0 hc hy
  rw [h1] at h
  rw [← Option.some.inj h] at hlen ⊢
  rw [List.length_map] at hlen
  rcases h3 with h3 | h3
  swap
  · left
    rw [ompRmse_eq svd X y hy h2 ht] at h3
    exact h3
  right
  have hk : k ≠ 0 := by have := h2.count; omega
  obtain ⟨hxd, hmax⟩ := h2.stall hk
  have hres := ompRes_getD svd X y hy h2 ht
  by_cases hr : norm2 st.residuals = 0
  · intro b
    have : sse X (vec st.coeff) (vec y) = 0 := by
      unfold sse
      refine Finset.sum_eq_zero (fun i hi => ?_)
      rw [← hres i (mem_range.1 hi), norm2_eq_zero _ hr]
      ring
    change sse X (vec st.coeff) (vec y) ≤ _
    rw [this]
    exact Finset.sum_nonneg (fun _ _ => sq_nonneg _)
  · rw [ompProj_fin X _ hr hcol, argmax_map_fin] at hmax
    obtain ⟨v, hv1, hv2, -⟩ := (C36_argmax _).2 _ hmax
    have hxlt := h2.lt x hxd
    -- the chosen column is orthogonal to the residuals
    have hls := fit_leastSquares (hex st.model h2.len) (ompFit_fit svd X y hy st.model)
    have hxm : x ∈ features st.model := (mem_features _ _).2 ((h2.feat x).2 hxd)
    obtain ⟨q, hq, hqx⟩ := List.getElem_of_mem hxm
    have ho := orthogonal_of_leastSquares _ _ _ hls q hq
    have hx0 : ∑ i ∈ range X.nr, X.get i x * st.residuals.getD i 0 = 0 := by
      refine Eq.trans ?_ ho
      refine Finset.sum_congr rfl (fun i hi => ?_)
      rw [hres i (mem_range.1 hi), sse_state svd X y h2 ht]
      congr 1
      unfold designOf
      simp [List.getD_eq_getElem?_getD, hq, hqx]
    have hv0 : v = 0 := by
      simp only [List.getElem?_map, List.getElem?_range hxlt, Option.map_some, Option.some.injEq, hx0,
        zero_div, abs_zero] at hv1
      exact hv1.symm
    have hall : ∀ i, i < X.nc → ∑ q ∈ range X.nr, X.get q i * st.residuals.getD q 0 = 0 := by
      intro i hi
      have := hv2 _ (List.mem_map.2 ⟨i, List.mem_range.2 hi, rfl⟩)
      rw [hv0] at this
      have := abs_nonpos_iff.1 this
      rcases div_eq_zero_iff.1 this with h | h
      · exact h
      · exact absurd h (mul_ne_zero hr (hcol i hi))
    apply isLeastSquares_of_orthogonal
    intro b
    change ∑ i ∈ range X.nr, (lin X (vec st.coeff) i - vec y i) * lin X b i = 0
    have e : ∀ i ∈ range X.nr, (lin X (vec st.coeff) i - vec y i) * lin X b i =
        ∑ j ∈ range X.nc, b j * (X.get i j * st.residuals.getD i 0) := by
      intro i hi
      rw [← hres i (mem_range.1 hi)]
      unfold lin
      rw [Finset.mul_sum]
      exact Finset.sum_congr rfl (fun j _ => by ring)
    rw [Finset.sum_congr rfl e, Finset.sum_comm]
    refine Finset.sum_eq_zero (fun j hj => ?_)
    rw [← Finset.mul_sum, hall j (mem_range.1 hj), mul_zero]

/-! ### A zero column in front -/

theorem argmax_fold_nan (l : List (Fl ℝ)) [DecidableLT ℝ] (k : Nat) (s : Nat × Fl ℝ) (hs : s.2 = Fl.nan) :
    (l.zipIdx k).foldl (fun s vi => if s.2 < vi.1 then (vi.2, vi.1) else s) s = s := by
  induction l generalizing k with
  | nil => rfl
  | cons a l ih =>
    rw [List.zipIdx_cons, List.foldl_cons]
    have : ¬ s.2 < (a, k).1 := by
      rw [hs]
      change ¬ (Fl.ltB Fl.nan a = true)
      simp [Fl.ltB]
    rw [if_neg this]
    exact ih (k + 1)

theorem argmax_proj_zero (hc : X.nc ≠ 0) (h0 : colNorm X 0 = 0) (r : List ℝ) :
    argmax (ompProj X r) = some 0 := by
  classical
  obtain ⟨n, hn⟩ : ∃ n, X.nc = n + 1 := ⟨X.nc - 1, by omega⟩
  have hz : ∀ q ∈ range X.nr, X.get q 0 = 0 := by
    have h1 := (Real.sqrt_eq_zero (Finset.sum_nonneg (fun _ _ => mul_self_nonneg _))).1 h0
    rw [Finset.sum_eq_zero_iff_of_nonneg (fun _ _ => mul_self_nonneg _)] at h1
    exact fun q hq => mul_self_eq_zero.1 (h1 q hq)
  have hs : ∑ q ∈ range X.nr, X.get q 0 * r.getD q 0 = 0 :=
    Finset.sum_eq_zero (fun q hq => by rw [hz q hq, zero_mul])
  unfold ompProj
  rw [hn, List.range_succ_eq_map, List.map_cons]
  simp only [h0, hs, mul_zero, Fl.divFin, if_true, flAbs]
  unfold argmax
  simp only
  rw [argmax_fold_nan _ 0 _ rfl]

/-- C62: if the first column is zero the run selects that column and nothing else, whatever the data and
the tolerance, and explains nothing of the target. -/
theorem C62_zero_column {res : OmpResult} (h : omp svd X y tol = some res) (h0 : colNorm X 0 = 0) :
    res.order = [0] ∧ ∀ i, i < X.nr → lin X (vec res.coeff) i = 0 := by
  obtain ⟨hl, hc, hy⟩ := omp_some svd X y tol h
  obtain ⟨st, t, d, k, x, h1, h2, -, ht, hd, -⟩ := omp_main svd X y tol hl hc hy
  rw [h1] at h
  rw [← Option.some.inj h]
  have hz : ∀ a ∈ d, a = 0 := by
    intro a ha
    obtain ⟨j, hj, rfl⟩ := List.getElem_of_mem ha
    have := h2.pick j hj
    rw [argmax_proj_zero X hc h0] at this
    exact (Option.some.inj this).symm
  have hd0 : d = [0] := by
    match d, hd, hz, h2.nodup with
    | [a], _, hz, _ => rw [hz a (by simp)]
    | a :: b :: l, _, hz, hn =>
      rw [hz a (by simp), hz b (by simp)] at hn
      simp at hn
  refine ⟨by rw [hd0]; rfl, ?_⟩
  intro i hi
  have h00 : X.get i 0 = 0 := by
    have h1 := (Real.sqrt_eq_zero (Finset.sum_nonneg (fun _ _ => mul_self_nonneg _))).1 h0
    rw [Finset.sum_eq_zero_iff_of_nonneg (fun _ _ => mul_self_nonneg _)] at h1
    exact mul_self_eq_zero.1 (h1 i (mem_range.2 hi))
  unfold lin
  refine Finset.sum_eq_zero (fun j hj => ?_)
  rcases Nat.eq_zero_or_pos j with rfl | hj0
  · rw [h00, zero_mul]
  · have := h2.zero j (mem_range.1 hj) (fun hf => by
      have := (h2.feat j).1 hf
      rw [hd0] at this
      simp at this
      omega)
    unfold vec
    rw [List.getD_eq_getElem?_getD, this]
    simp

/-- Two features; the first is zero, the second equals the target. -/
def zeroColX : Mat ℝ := ⟨2, 2, fun i j => if j = 1 then (i : ℝ) + 1 else 0⟩

/-- C62 refuted: the run can stop early although the error is above the tolerance and a feature that was
left out explains the target completely. -/
theorem C62_refuted : ∃ res, omp svd zeroColX [1, 2] 1 = some res ∧ res.order.length < zeroColX.nc ∧
    ¬ rmse zeroColX res.coeff [1, 2] < 1 ∧ rmse zeroColX [0, 1] [1, 2] = 0 := by
  obtain ⟨res, hres⟩ : ∃ res, omp svd zeroColX [1, 2] 1 = some res := by
    rcases h : omp svd zeroColX [1, 2] 1 with _ | res
    · rw [C62_panic] at h
      simp [zeroColX] at h
    · exact ⟨res, rfl⟩
  have h0 : colNorm zeroColX 0 = 0 := by
    unfold colNorm
    simp [zeroColX]
  obtain ⟨h1, h2⟩ := C62_zero_column svd _ _ _ hres h0
  refine ⟨res, hres, by rw [h1]; decide, ?_, ?_⟩
  · unfold rmse sse
    have : ∑ i ∈ range zeroColX.nr, (lin zeroColX (vec res.coeff) i - vec [1, 2] i) ^ 2 = (5 : ℝ) := by
      have e : range zeroColX.nr = range 2 := rfl
      rw [e, Finset.sum_range_succ, Finset.sum_range_one, h2 0 (by decide), h2 1 (by decide)]
      norm_num [vec]
    rw [this, not_lt, Real.le_sqrt' one_pos]
    norm_num [zeroColX]
  · unfold rmse sse lin
    simp [zeroColX, Finset.sum_range_succ, vec]
    norm_num

/-! ### Examples -/

/-- The hypotheses of the theorems are met by orthonormal columns. -/
theorem unitX_colNorm {n k i : Nat} (h : k ≤ n) (hi : i < k) : colNorm (unitX n k : Mat ℝ) i ≠ 0 := by
  unfold colNorm unitX
  have : i < n := by omega
  simp [this]

example : (∃ res, omp orthSvd (unitX 3 2 : Mat ℝ) [1, 2, 3] 1 = some res) ∧
    (∀ m, m.length = (unitX 3 2 : Mat ℝ).nc → ExactFit orthSvd (unitX 3 2 : Mat ℝ) m) ∧
    ∀ i, i < (unitX 3 2 : Mat ℝ).nc → colNorm (unitX 3 2 : Mat ℝ) i ≠ 0 := by
  refine ⟨?_, fun m hm => unitX_exact (by decide) hm, fun i hi => unitX_colNorm (by decide) hi⟩
  rcases h : omp orthSvd (unitX 3 2 : Mat ℝ) [1, 2, 3] 1 with _ | res
  · rw [C62_panic] at h
    simp [unitX] at h
  · exact ⟨res, rfl⟩

/-- A run that leaves a feature out. -/
example : ∃ res, omp orthSvd (unitX 2 2 : Mat ℝ) [1, 0] 1 = some res ∧
    res.order.length < (unitX 2 2 : Mat ℝ).nc := by
  rcases h : omp orthSvd (unitX 2 2 : Mat ℝ) [1, 0] 1 with _ | res
  · rw [C62_panic] at h
    simp [unitX] at h
  refine ⟨res, rfl, ?_⟩
  have h1 := C62_no_overrun orthSvd _ _ _ h (fun m hm => unitX_exact (by decide) hm) 1 one_pos
  by_contra hlt
  have h4 := h1 (by simp [unitX] at hlt; omega) (fun _ => 0) (fun _ _ => rfl)
  have e : sse (unitX 2 2 : Mat ℝ) (fun _ => 0) (vec [1, 0]) = 1 := by
    unfold sse lin
    simp [unitX, Finset.sum_range_succ, vec]
  rw [e, Real.le_sqrt' one_pos] at h4
  norm_num [unitX] at h4

end GoSelect
