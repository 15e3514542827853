import Verif.Proofs.Greedy

/-!
# C157: orthogonal matching pursuit is nearly as good as the best choice of features
-/

namespace GoSelect

open Finset Spec

variable {svd : Mat ℝ → SVD ℝ} {X : Mat ℝ} {y : List ℝ} {tol : ℝ}

/-- The fits of all prefixes of `Order` are exact. -/
def Spec.PrefixesExact (svd : Mat ℝ → SVD ℝ) (X : Mat ℝ) (order : List Int) : Prop :=
  ∀ m n, m.length = X.nc → 0 < n → (∀ i : Nat, HasFeature m i ↔ (i : Int) ∈ order.take n) → ExactFit svd X m

/-- The order as a list of features. -/
theorem omp_order {res : OmpResult} (h : omp svd X y tol = some res) (hex : PrefixesExact svd X res.order) :
    ∃ d : List Nat, res.order = d.map Int.ofNat ∧ (∀ i ∈ d, i < X.nc) ∧ d ≠ [] ∧
      (∀ j (hj : j < d.length), argmax (ompProj X (resAt svd X y (d.take j))) = some d[j]) ∧
      (∀ n, 0 < n → ExactFit svd X (modelOf X.nc (d.take n))) ∧
      ∀ j, 0 < j → j < d.length → ¬ ompRmse svd X y (modelOf X.nc (d.take j)) < tol := by
  obtain ⟨h0, hc, hy⟩ := omp_some svd X y tol h
  obtain ⟨st, t, d, k, x, h1, h2, -, -, hd, h6⟩ := omp_main svd X y tol h0 hc hy
  rw [h1] at h
  rw [← Option.some.inj h] at hex ⊢
  refine ⟨d, rfl, h2.lt, hd, h2.pick, fun n hn => hex _ n (by simp [modelOf]) hn (fun i => ?_), h6⟩
  rw [modelOf_feature _ _ (fun i hi => h2.lt i (List.mem_of_mem_take hi)), ← List.map_take, List.mem_map]
  constructor
  · exact fun hi => ⟨i, hi, rfl⟩
  · rintro ⟨a, ha, hai⟩
    have : a = i := by simpa using hai
    exact this ▸ ha

/-- **C157, error.** Take any coefficients `c` of at most `k` features.  With every feature that the pursuit selects, its
excess over the squared error of `c` shrinks by the factor `1 - lam / k`, where `lam` measures how far the columns are
from linear dependence. -/
theorem C157_error (res : OmpResult) (h : omp svd X y tol = some res) (hex : PrefixesExact svd X res.order)
    (hcol : ∀ i, i < X.nc → ∃ r < X.nr, X.get r i ≠ 0) (S : Finset Nat) (k : Nat) (hk : 0 < k) (hSk : S.card ≤ k)
    (hS : ∀ i ∈ S, i < X.nc) (c : Nat → ℝ) (hc : ∀ i, i ∉ S → c i = 0) (lam : ℝ) (hlam : 0 < lam)
    (hcond : Conditioned X (k + res.order.length) lam) :
    sse X (vec res.coeff) (vec y) - sse X c (vec y) ≤
      (1 - lam / k) ^ res.order.length * (total X y - sse X c (vec y)) := by
  obtain ⟨-, -, hy⟩ := omp_some svd X y tol h
  obtain ⟨d, hd, hlt, hne, hpick, hexd, -⟩ := omp_order h hex
  obtain ⟨b, hb, -, hbest⟩ := resAt_best (y := y) hy (hexd d.length (List.length_pos_iff.2 hne))
    (by rw [List.take_length]; exact hne) (fun i hi => hlt i (List.mem_of_mem_take hi))
  have hl : res.order.length = d.length := by rw [hd, List.length_map]
  rw [hl] at hcond ⊢
  have h1 := greedy_prefix hy hlt hpick (fun i hi => colNorm_ne_zero (hcol i hi)) hS hk hSk hc hlam d.length le_rfl
    (fun j h1 _ => hexd j h1) hcond b hb hbest
  refine le_trans (sub_le_sub_right ?_ _) h1
  -- the returned coefficients are at least as good as `b`
  obtain ⟨h0, hc0, -⟩ := omp_some svd X y tol h
  obtain ⟨st, t, d', k', x, g1, g2, -, ht, -⟩ := omp_main svd X y tol h0 hc0 hy
  rw [g1] at h
  have hr := Option.some.inj h
  have hdd : d' = d := by
    have : d'.map Int.ofNat = d.map Int.ofNat := by rw [← hd, ← hr]
    exact (List.map_injective_iff.2 (fun a b hab => by simpa using hab)) this
  subst hdd
  have hm : st.model = modelOf X.nc (d'.take d'.length) := by
    apply model_ext (by simp [modelOf, g2.len])
    intro i
    rw [g2.feat, List.take_length, modelOf_feature _ _ g2.lt]
  have hls := fit_leastSquares (hm ▸ hexd d'.length (List.length_pos_iff.2 hne)) (ompFit_fit svd X y hy st.model)
  have h8 := hls (fun q => b ((features st.model).getD q 0))
  have e1 : sse (designOf X st.model) (vec (ompFit svd X y st.model)) (vec y) = sse X (vec res.coeff) (vec y) := by
    unfold sse
    refine Finset.sum_congr rfl (fun i _ => ?_)
    rw [sse_state svd X y g2 ht, ← hr]
  have e2 : sse (designOf X st.model) (fun q => b ((features st.model).getD q 0)) (vec y) = sse X b (vec y) := by
    unfold sse
    refine Finset.sum_congr rfl (fun i _ => ?_)
    rw [designOf_eq, lin_restrict (features_nodup _) (fun j hj => g2.len ▸ features_lt hj) b ?_ i]
    intro j hj
    refine hb j (fun hjd => hj ((mem_features _ _).2 ((g2.feat j).2 (List.mem_of_mem_take hjd))))
  rw [e1, e2] at h8
  exact h8

/-- **C157, number of features.** If some `k` features with some coefficients `c` have an error below the tolerance, the
pursuit selects at most `n` features as soon as the bound of `C157_error` for `n` features is below the tolerance. -/
theorem C157_size (res : OmpResult) (h : omp svd X y tol = some res) (hex : PrefixesExact svd X res.order)
    (hcol : ∀ i, i < X.nc → ∃ r < X.nr, X.get r i ≠ 0) (S : Finset Nat) (k : Nat) (hk : 0 < k) (hSk : S.card ≤ k)
    (hS : ∀ i ∈ S, i < X.nc) (c : Nat → ℝ) (hc : ∀ i, i ∉ S → c i = 0) (lam : ℝ) (hlam : 0 < lam) (htol : 0 < tol)
    (n : Nat) (hn : 0 < n) (hcond : Conditioned X (k + n) lam)
    (hsmall : sse X c (vec y) + (1 - lam / k) ^ n * (total X y - sse X c (vec y)) < X.nr * tol ^ 2) :
    res.order.length ≤ n := by
  obtain ⟨hy0, -, hy⟩ := omp_some svd X y tol h
  obtain ⟨d, hd, hlt, hne, hpick, hexd, hlong⟩ := omp_order h hex
  rw [hd, List.length_map]
  by_contra hgt
  have hnd : n < d.length := not_le.1 hgt
  have htk : d.take n ≠ [] := by
    rw [← List.length_pos_iff, List.length_take]
    omega
  obtain ⟨b, hb, hres, hbest⟩ := resAt_best (y := y) hy (hexd n hn) htk (fun i hi => hlt i (List.mem_of_mem_take hi))
  have h1 := greedy_prefix hy hlt hpick (fun i hi => colNorm_ne_zero (hcol i hi)) hS hk hSk hc hlam n hnd.le
    (fun j h1 _ => hexd j h1) hcond b hb hbest
  apply hlong n hn hnd
  have e : ∑ i ∈ range X.nr, (y.getD i 0 - (ompPred svd X y (modelOf X.nc (d.take n))).getD i 0) ^ 2 =
      sse X b (vec y) := by
    refine Finset.sum_congr rfl (fun i hi => ?_)
    have hi' : i < X.nr := mem_range.1 hi
    have hiy : i < y.length := hy ▸ hi'
    rw [← hres i hi', resAt, if_neg htk]
    have h2 : (ompRes svd X y (modelOf X.nc (d.take n))).getD i 0 =
        (ompPred svd X y (modelOf X.nc (d.take n))).getD i 0 - y.getD i 0 := by
      unfold ompRes ompPred
      simp [List.getD_eq_getElem?_getD, List.getElem?_zipWith, hi', hiy]
    rw [h2]
    ring
  unfold ompRmse
  have hnr : (0 : ℝ) < y.length := by exact_mod_cast Nat.pos_of_ne_zero hy0
  rw [e, Real.sqrt_lt' htol, div_lt_iff₀ hnr]
  rw [hy] at hsmall
  linarith

/-- **C157, logarithm.** `k` features with an error below the tolerance suffice for the pursuit with `k / lam` times a
logarithm of features. -/
theorem C157_log (res : OmpResult) (h : omp svd X y tol = some res) (hex : PrefixesExact svd X res.order)
    (hcol : ∀ i, i < X.nc → ∃ r < X.nr, X.get r i ≠ 0) (S : Finset Nat) (k : Nat) (hk : 0 < k) (hSk : S.card ≤ k)
    (hS : ∀ i ∈ S, i < X.nc) (c : Nat → ℝ) (hc : ∀ i, i ∉ S → c i = 0) (lam : ℝ) (hlam : 0 < lam) (hlam1 : lam ≤ 1)
    (htol : 0 < tol) (n : Nat) (hn : 0 < n) (hcond : Conditioned X (k + n) lam)
    (hgood : sse X c (vec y) < X.nr * tol ^ 2)
    (hlog : k / lam * Real.log (total X y / (X.nr * tol ^ 2 - sse X c (vec y))) < n) :
    res.order.length ≤ n := by
  refine C157_size res h hex hcol S k hk hSk hS c hc lam hlam htol n hn hcond ?_
  have hkr : (0 : ℝ) < k := by exact_mod_cast hk
  have hk1 : (1 : ℝ) ≤ k := by exact_mod_cast hk
  set δ := X.nr * tol ^ 2 - sse X c (vec y) with hδ
  have hδ0 : 0 < δ := by rw [hδ]; linarith
  have hs0 : 0 ≤ sse X c (vec y) := Finset.sum_nonneg (fun _ _ => sq_nonneg _)
  have hρ : 0 ≤ 1 - lam / k := by
    rw [sub_nonneg, div_le_one hkr]
    linarith
  have hp0 : 0 ≤ (1 - lam / k) ^ n := pow_nonneg hρ n
  have hle : (1 - lam / k) ^ n * (total X y - sse X c (vec y)) ≤ (1 - lam / k) ^ n * total X y :=
    mul_le_mul_of_nonneg_left (by linarith) hp0
  have ht0 : 0 ≤ total X y := Finset.sum_nonneg (fun _ _ => sq_nonneg _)
  suffices hlt : (1 - lam / k) ^ n * total X y < δ by rw [hδ] at hlt; linarith
  rcases ht0.eq_or_lt with h0 | hpos
  · rw [← h0, mul_zero]
    exact hδ0
  have h1 : (1 - lam / k) ^ n ≤ Real.exp (-(lam / k * n)) := by
    have h2 : 1 - lam / k ≤ Real.exp (-(lam / k)) := by
      have := Real.add_one_le_exp (-(lam / k))
      linarith
    refine (pow_le_pow_left₀ hρ h2 n).trans (le_of_eq ?_)
    rw [← Real.exp_nat_mul]
    congr 1
    ring
  have h3 : Real.log (total X y / δ) < lam / k * n := by
    have := mul_lt_mul_of_pos_left hlog (show 0 < lam / k by positivity)
    have e : lam / k * (k / lam * Real.log (total X y / δ)) = Real.log (total X y / δ) := by
      field_simp
    rwa [e] at this
  have h4 : total X y / δ < Real.exp (lam / k * n) := by
    rw [← Real.log_lt_iff_lt_exp (by positivity)]
    exact h3
  rw [div_lt_iff₀ hδ0] at h4
  have h5 : Real.exp (-(lam / k * n)) * total X y < δ := by
    rw [Real.exp_neg, inv_mul_lt_iff₀ (Real.exp_pos _)]
    exact h4
  exact (mul_le_mul_of_nonneg_right h1 ht0).trans_lt h5

/-- **C157, coherence.** Nearly orthogonal columns meet the condition. -/
theorem C157_coherence (μ : ℝ) (hμ : Coherence X μ) (h0 : 0 ≤ μ) (m : Nat) :
    Conditioned X m (1 - (m - 1) * μ) := by
  intro T a hT hlt ha
  refine le_trans ?_ (coherence_lower hμ h0 hlt ha)
  have e : ∑ i ∈ T, a i ^ 2 * ∑ r ∈ range X.nr, X.get r i ^ 2 = ∑ i ∈ T, (|a i| * colLen X i) ^ 2 := by
    refine Finset.sum_congr rfl (fun i _ => ?_)
    rw [mul_pow, sq_abs, ← colNorm_eq, colNorm, Real.sq_sqrt (Finset.sum_nonneg (fun _ _ => mul_self_nonneg _))]
    congr 1
    exact Finset.sum_congr rfl (fun _ _ => sq _)
  rw [e]
  refine mul_le_mul_of_nonneg_right ?_ (Finset.sum_nonneg (fun _ _ => sq_nonneg _))
  have : (T.card : ℝ) ≤ m := by exact_mod_cast hT
  nlinarith

/-! ### Example -/

/-- Unit vectors. -/
theorem unitX_conditioned (n k m : Nat) : Conditioned (unitX n k : Mat ℝ) m 1 := by
  have hco : Coherence (unitX n k : Mat ℝ) 0 := by
    intro i j hi hj hij
    rw [zero_mul]
    have : colProd (unitX n k : Mat ℝ) i j = 0 := by
      unfold colProd
      refine Finset.sum_eq_zero (fun r _ => ?_)
      by_cases h1 : r = i
      · have : r ≠ j := fun h => hij (h1 ▸ h)
        simp [unitX, this]
      · simp [unitX, h1]
    rw [this, abs_zero]
  have := C157_coherence 0 hco le_rfl m
  rwa [mul_zero, sub_zero] at this

/-- With three orthogonal features, one of which explains the target up to the tolerance, the pursuit stops after at
most one feature. -/
example : ∃ res, omp orthSvd (unitX 4 3) [1 / 10, 3, 1 / 10, 0] (1 / 4) = some res ∧ res.order.length ≤ 1 := by
  rcases h : omp orthSvd (unitX 4 3 : Mat ℝ) [1 / 10, 3, 1 / 10, 0] (1 / 4) with _ | res
  · rw [C62_panic] at h
    simp [unitX] at h
  refine ⟨res, rfl, ?_⟩
  refine C157_size res h (fun m n hm _ _ => unitX_exact (by norm_num) hm) ?_ {1} 1 one_pos (by simp) (by simp [unitX])
    (fun i => if i = 1 then 3 else 0) (fun i hi => if_neg (by simpa using hi)) 1 one_pos (by norm_num) 1 one_pos
    (unitX_conditioned 4 3 _) ?_
  · intro i hi
    have : i < 3 := hi
    exact ⟨i, by show i < 4; omega, by simp [unitX]⟩
  · norm_num [sse, lin, unitX, total, Finset.sum_range_succ, vec]

/-- Columns that are not orthogonal, and the error of the two features selected. -/
example : ∃ res, omp orthSvd slantX [1, 2, 0] (1 / 10) = some res ∧ res.order.length = 2 ∧
    sse slantX (vec res.coeff) (vec [1, 2, 0]) ≤ (1 - 1 / 4 / 2) ^ 2 * 5 := by
  rcases h : omp orthSvd slantX [1, 2, 0] (1 / 10) with _ | res
  · rw [C62_panic] at h
    simp [slantX] at h
  obtain ⟨l0, l1, l2⟩ := slantX_len
  have e3 : (slantX.nr : ℝ) = 3 := by norm_num [slantX]
  obtain ⟨hm, hl, -⟩ := C120_exact orthSvd h (by norm_num) slantX_sparse slantX_distinguishable slantX_exact (by
    intro i hi
    simp at hi
    rcases hi with rfl | rfl
    · simp [l0, e3]; norm_num
    · simp [l1, e3]; norm_num)
  have hl2 : res.order.length = 2 := hl
  refine ⟨res, rfl, hl2, ?_⟩
  have hcond := C157_coherence (1 / 4) slantX_distinguishable.coh (by norm_num) 4
  have hlam : (1 : ℝ) - (((4 : Nat) : ℝ) - 1) * (1 / 4) = 1 / 4 := by norm_num
  rw [hlam] at hcond
  have := C157_error res h (fun m n hlen _ hf => slantX_exact m hlen (fun i hi => by
      obtain ⟨q, hq, e⟩ := (hm _).1 (List.mem_of_mem_take ((hf i).1 hi))
      have : i = q := by exact_mod_cast e
      exact this ▸ hq)) (fun i hi => by
      have hi' : i < 3 := hi
      exact ⟨i, hi', by interval_cases i <;> norm_num [slantX]⟩)
    {0, 1} 2 (by norm_num) (by simp) slantX_sparse.lt _ slantX_sparse.zero (1 / 4) (by norm_num) (by rw [hl2]; exact hcond)
  have hz : sse slantX (fun i => if i = 0 then 1 else if i = 1 then 2 else 0) (vec [1, 2, 0]) = 0 := by
    refine Finset.sum_eq_zero (fun r hr => ?_)
    rw [slantX_sparse.eq r (Finset.mem_range.1 hr)]
    ring
  have ht : total slantX [1, 2, 0] = 5 := by
    norm_num [total, slantX, Finset.sum_range_succ, vec]
  rw [hz, ht, hl2] at this
  simpa using this

end GoSelect
