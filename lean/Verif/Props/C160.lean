import Verif.Proofs.LassoSize
import Verif.Props.C153

/-!
# C160: how many features the lasso uses, and which it does not miss
-/

namespace GoSelect

open Finset Spec MeasureTheory ProbabilityTheory

section

variable {K : Type} [Field K] [LinearOrder K] [IsStrictOrderedRing K]

/-- C160: the number of features of a lasso solution is limited by what it leaves unexplained: by the squared distance of its
predictions from any values `f` from which the data differ by little noise (from the data themselves, if `f = y` and
`ε = 0`). -/
theorem C160_size {X : Mat K} {y f : Nat → K} {lamb ε Λ : K} {β : Nat → K} (hX : StretchAtMost X Λ) (hΛ : 0 ≤ Λ)
    (hn : NoiseAtMost X (fun r => y r - f r) ε) (hε : 0 ≤ ε) (hl : ε ≤ lamb) (h : IsLassoMin X y lamb β) :
    (usedFeatures X β).card * (lamb - ε) ^ 2 ≤ Λ * sse X β f := by
  have hA : ∀ i ∈ usedFeatures X β, i < X.nc := fun i hi => (mem_usedFeatures.1 hi).1
  have h1 := inner_sq_le hX hA hΛ (fun r => f r - lin X β r)
  have h2 : ∑ r ∈ range X.nr, (f r - lin X β r) ^ 2 = sse X β f :=
    Finset.sum_congr rfl (fun r _ => by ring)
  rw [h2] at h1
  refine le_trans ?_ h1
  rw [← nsmul_eq_mul, ← Finset.sum_const]
  refine Finset.sum_le_sum (fun j hj => ?_)
  obtain ⟨hj1, hj2⟩ := mem_usedFeatures.1 hj
  obtain ⟨-, hk⟩ := kkt_of_lasso_min (hε.trans hl) h j hj1
  have hcorr : |correlation X y β j| = lamb := by
    have := congrArg (|·|) hk
    simp only [abs_mul, abs_abs, abs_of_nonneg (hε.trans hl)] at this
    exact mul_right_cancel₀ (abs_ne_zero.2 hj2) this
  have hsplit : correlation X y β j = ∑ r ∈ range X.nr, X.get r j * (y r - f r) +
      ∑ r ∈ range X.nr, X.get r j * (f r - lin X β r) := by
    unfold correlation
    rw [← Finset.sum_add_distrib]
    refine Finset.sum_congr rfl (fun r _ => ?_)
    rw [residual_lin]
    ring
  have hnj := hn j hj1
  have h3 : lamb - ε ≤ |∑ r ∈ range X.nr, X.get r j * (f r - lin X β r)| := by
    have := abs_add_le (∑ r ∈ range X.nr, X.get r j * (y r - f r)) (∑ r ∈ range X.nr, X.get r j * (f r - lin X β r))
    rw [← hsplit, hcorr] at this
    linarith
  rw [← sq_abs (∑ r ∈ range X.nr, X.get r j * (f r - lin X β r))]
  exact pow_le_pow_left₀ (sub_nonneg.2 hl) h3 2

/-- C160: if the values without the noise are a combination `b` of the features in `S`, the lasso uses at most `36 Λ / φ` times
as many features as there are in `S`. -/
theorem C160_few {X : Mat K} {y b : Nat → K} {lamb ε φ Λ : K} {β : Nat → K} {S : Finset Nat} (hX : StretchAtMost X Λ)
    (hΛ : 0 ≤ Λ) (hc : CompatibleOn X S φ) (hb : ∀ i, i ∉ S → b i = 0) (hn : NoiseAtMost X (fun r => y r - lin X b r) ε)
    (hε : 0 ≤ ε) (hl : 2 * ε ≤ lamb) (hl0 : 0 < lamb) (h : IsLassoMin X y lamb β) :
    ((usedFeatures X β).card : K) ≤ 36 * Λ * S.card / φ := by
  have h1 := C160_size hX hΛ hn hε (by linarith) h
  obtain ⟨h2, -⟩ := C153_sparse hc hb hn hl hl0 h
  have h3 : (lamb / 2) ^ 2 ≤ (lamb - ε) ^ 2 := pow_le_pow_left₀ (by linarith) (by linarith) 2
  have h4 := mul_le_mul_of_nonneg_left h2 hΛ
  have hk : (0 : K) ≤ (usedFeatures X β).card := Nat.cast_nonneg _
  have h5 := mul_le_mul_of_nonneg_left h3 hk
  have h6 : ((usedFeatures X β).card : K) * lamb ^ 2 ≤ 36 * Λ * S.card / φ * lamb ^ 2 := by
    have e1 : Λ * (9 * lamb ^ 2 * S.card / φ) = 9 * Λ * S.card / φ * lamb ^ 2 := by ring
    have e2 : 36 * Λ * S.card / φ * lamb ^ 2 = 4 * (9 * Λ * S.card / φ * lamb ^ 2) := by ring
    rw [e1] at h4
    rw [e2]
    nlinarith
  exact le_of_mul_le_mul_right h6 (by positivity)

/-- C160: and it uses, with the right sign, every feature whose coefficient in `b` is beyond `4 lamb s / φ`. -/
theorem C160_strong {X : Mat K} {y b : Nat → K} {lamb ε φ : K} {β : Nat → K} {S : Finset Nat}
    (hc : CompatibleOn X S φ) (hb : ∀ i, i ∉ S → b i = 0) (hn : NoiseAtMost X (fun r => y r - lin X b r) ε)
    (hl : 2 * ε ≤ lamb) (hl0 : 0 < lamb) (h : IsLassoMin X y lamb β) (j : Nat) (hj : 4 * lamb * S.card / φ < |b j|) :
    j ∈ usedFeatures X β ∧ 0 < b j * β j := by
  obtain ⟨-, h2⟩ := C153_sparse hc hb hn hl hl0 h
  have hφ := hc.pos
  have h0 : 0 < |b j| := lt_of_le_of_lt (by positivity) hj
  have hjS : j ∈ S := by
    by_contra hjS
    rw [hb j hjS, abs_zero] at h0
    exact lt_irrefl _ h0
  have hjc := hc.lt j hjS
  have h3 : |β j - b j| ≤ absSum X.nc (fun j => β j - b j) :=
    Finset.single_le_sum (f := fun j => |β j - b j|) (fun _ _ => abs_nonneg _) (mem_range.2 hjc)
  have h4 : |β j - b j| < |b j| := lt_of_le_of_lt (h3.trans h2) hj
  have h5 : 0 < b j * β j := by
    obtain ⟨h6, h7⟩ := abs_lt.1 h4
    rcases lt_or_ge 0 (b j) with hp | hp
    · rw [abs_of_pos hp] at h6
      exact mul_pos hp (by linarith)
    · have hneg : b j < 0 := lt_of_le_of_ne hp (abs_pos.1 h0)
      rw [abs_of_neg hneg] at h7
      exact mul_pos_of_neg_of_neg hneg (by linarith)
  exact ⟨mem_usedFeatures.2 ⟨hjc, fun h => by rw [h, mul_zero] at h5; exact lt_irrefl _ h5⟩, h5⟩

/-- C160: there is no need for more features than rows: beside every lasso solution there is one, with the same regularisation,
that uses only features the first one uses, and not more than there are rows; fewer, if the columns are centred.  If there is
only one solution, it has this property itself. -/
theorem C160_rows {X : Mat K} {y : Nat → K} {lamb : K} {b : Nat → K} (h : IsLassoMin X y lamb b) :
    (∃ b', IsLassoMin X y lamb b' ∧ usedFeatures X b' ⊆ usedFeatures X b ∧ (usedFeatures X b').card ≤ X.nr ∧
      (Centred X → 0 < X.nr → (usedFeatures X b').card < X.nr)) ∧
    ((∀ b', IsLassoMin X y lamb b' → ∀ j < X.nc, b' j = b j) → (usedFeatures X b).card ≤ X.nr ∧
      (Centred X → 0 < X.nr → (usedFeatures X b).card < X.nr)) := by
  obtain ⟨b', h1, h2, h3⟩ := exists_independent_min _ b rfl h
  have hA : ∀ i ∈ usedFeatures X b', i < X.nc := fun i hi => (mem_usedFeatures.1 hi).1
  have h4 := independentOn_card hA h3
  have h5 := fun hc hr => independentOn_card_centred hA h3 hc hr
  refine ⟨⟨b', h1, h2, h4, h5⟩, fun hu => ?_⟩
  have : usedFeatures X b = usedFeatures X b' := by
    ext j
    rw [mem_usedFeatures, mem_usedFeatures]
    exact and_congr_right (fun hj => by rw [hu b' h1 j hj])
  rw [this]
  exact ⟨h4, h5⟩

theorem nodes_independent {X : Mat K} {y : Nat → K} {tol lambMin : K} {est : Nat → List Nat → List K → Option (List K × List K)}
    {path : List (LassoLarsNode K)} (h : CleanRun X y tol lambMin est path) : ∀ n ∈ path, Independent X n.selection := by
  obtain ⟨s, hs, hr⟩ := h.returns
  have hok := h.ok
  have hi : ∀ n ∈ s.res, Independent X n.selection := by
    unfold larsInit at hs
    split at hs
    · cases hs
    · simp only [Option.some.injEq] at hs
      subst hs
      simp
  have hreach : LarsReach X y tol lambMin est s := .init hs
  have hbody : ∀ s, LarsReach X y tol lambMin est s → (∀ n ∈ s.res, Independent X n.selection) →
      (∀ r, larsBody X y tol lambMin est s = .ret r → ∀ n ∈ r, Independent X n.selection) ∧
      ∀ s', larsBody X y tol lambMin est s = .next s' → ∀ n ∈ s'.res, Independent X n.selection := by
    intro s hreach hi
    rcases larsBody_cases (X := X) (y := y) (tol := tol) (lambMin := lambMin) (est := est) (s := s) with h | ⟨-, h⟩ |
      ⟨hl, -, c, d, jts, he, -, -, -, h⟩
    · rw [h]
      exact ⟨fun r hr => (nomatch hr), fun s' hs' => (nomatch hs')⟩
    · rw [h]
      refine ⟨fun r hr => ?_, fun s' hs' => nomatch hs'⟩
      simp only [Outcome.ret.injEq] at hr
      rw [← hr]
      exact hi
    · obtain ⟨-, hreg⟩ := hok s hreach hl c d he
      have hnew : ∀ n ∈ s.res ++ [⟨betaLARS c d s.lamb, s.lamb, s.activeSet.insertionSort (· ≤ ·)⟩],
          Independent X n.selection := by
        intro n hn
        rcases List.mem_append.1 hn with hn | hn
        · exact hi n hn
        · rw [List.mem_singleton.1 hn]
          exact hreg.indep
      rw [h]
      unfold larsMove
      simp only
      split_ifs <;> refine ⟨fun r hr => ?_, fun s' hs' => ?_⟩ <;>
        first
        | (cases hr; done)
        | (cases hs'; done)
        | (cases hr; exact hnew)
        | (cases hs'; exact hnew)
  clear hs h
  induction hr with
  | ret hb => exact (hbody _ hreach hi).1 _ hb
  | next hb _ ih => exact ih ((hbody _ hreach hi).2 _ hb) (.step hreach hb)

/-- C160: the nodes of `LassoLars` (no iteration being degenerate) have at most as many features as there are rows, and fewer if
the columns are centred. -/
theorem C160_lars_rows {X : Mat K} {y : Nat → K} {tol lambMin : K} {est : Nat → List Nat → List K → Option (List K × List K)}
    {path : List (LassoLarsNode K)} (h : CleanRun X y tol lambMin est path) (n : LassoLarsNode K) (hn : n ∈ path) :
    n.selection.length ≤ X.nr ∧ (Centred X → 0 < X.nr → n.selection.length < X.nr) := by
  obtain ⟨hnodes, -⟩ := C63_path X y tol lambMin est path h.returns
  have hok := hnodes n hn
  have hnd : n.selection.Nodup := hok.sorted.imp (fun h => Nat.ne_of_lt h)
  have hA : ∀ i ∈ n.selection.toFinset, i < X.nc := fun i hi => hok.range i (List.mem_toFinset.1 hi)
  have hind : IndependentOn X n.selection.toFinset := by
    intro w hw hX
    exact nodes_independent h n hn w (fun i hi => hw i (by simpa using hi)) hX
  have e := List.toFinset_card_of_nodup hnd
  rw [← e]
  exact ⟨independentOn_card hA hind, fun hc hr => independentOn_card_centred hA hind hc hr⟩

/-- C160: all points of a path of `LassoLars` (no iteration being degenerate) use few features and miss no strong one. -/
theorem C160_lars {X : Mat K} {y : Nat → K} {tol lambMin : K} {est : Nat → List Nat → List K → Option (List K × List K)}
    {path : List (LassoLarsNode K)} (h : CleanRun X y tol lambMin est path) {lamb : K} {β : Nat → K}
    (hp : OnPath path lamb β) {b : Nat → K} {ε φ Λ : K} {S : Finset Nat} (hX : StretchAtMost X Λ) (hΛ : 0 ≤ Λ)
    (hc : CompatibleOn X S φ) (hb : ∀ i, i ∉ S → b i = 0) (hn : NoiseAtMost X (fun r => y r - lin X b r) ε) (hε : 0 ≤ ε)
    (hl : 2 * ε ≤ lamb) (hl0 : 0 < lamb) :
    ((usedFeatures X β).card : K) ≤ 36 * Λ * S.card / φ ∧
    ∀ j, 4 * lamb * S.card / φ < |b j| → j ∈ usedFeatures X β ∧ 0 < b j * β j := by
  obtain ⟨-, hm⟩ := CleanRun.onPath h hp
  exact ⟨C160_few hX hΛ hc hb hn hε hl hl0 hm, fun j hj => C160_strong hc hb hn hl hl0 hm j hj⟩

end

/-- C160: with independent noise whose tails are no heavier than those of a normal distribution of variance `σ²` this holds,
except with probability `δ`, for all lasso solutions with a regularisation of at least `2 σ √(2 q log(2p/δ))`. -/
theorem C160_random {Ω : Type} [MeasurableSpace Ω] {P : Measure Ω} {e : ℕ → Ω → ℝ} {σ : ℝ}
    (h : SubgaussianNoise P e σ) (X : Mat ℝ) {q δ φ Λ : ℝ} (hσ : 0 < σ) (hq0 : 0 < q)
    (hq : ∀ j, j < X.nc → colProd X j j ≤ q) (hδ : 0 < δ) {S : Finset Nat} (hX : StretchAtMost X Λ) (hΛ : 0 ≤ Λ)
    (hc : CompatibleOn X S φ) {b : Nat → ℝ} (hb : ∀ i, i ∉ S → b i = 0) :
    P.real {ω | ¬ ∀ lamb β, 2 * noiseBound σ q X.nc δ ≤ lamb → 0 < lamb →
      IsLassoMin X (fun r => lin X b r + e r ω) lamb β →
      ((usedFeatures X β).card : ℝ) ≤ 36 * Λ * S.card / φ ∧
      ∀ j, 4 * lamb * S.card / φ < |b j| → j ∈ usedFeatures X β ∧ 0 < b j * β j} ≤ δ := by
  have := h.indep.isProbabilityMeasure
  refine le_trans (measureReal_mono ?_ (measure_ne_top _ _)) (noiseBound_tail h X hσ hq0 hq hδ)
  intro ω hω hn
  apply hω
  intro lamb β hl hl0 hm
  have hn' : NoiseAtMost X (fun r => lin X b r + e r ω - lin X b r) (noiseBound σ q X.nc δ) := by
    simpa only [add_sub_cancel_left] using hn
  exact ⟨C160_few hX hΛ hc hb hn' (mul_nonneg hσ.le (Real.sqrt_nonneg _)) hl hl0 hm,
    fun j hj => C160_strong hc hb hn' hl hl0 hm j hj⟩

/-! ### Examples -/

namespace LarsExample

theorem stretch : StretchAtMost X (1 : ℚ) := by
  intro w
  refine le_of_eq ?_
  simp [X, lin, Finset.sum_range_succ]

/-- The second feature alone makes the signal, -30; the noise is 1 in the first row. -/
def strongY (r : Nat) : ℚ := if r = 0 then 1 else -30
def strongB (j : Nat) : ℚ := if j = 1 then -30 else 0
def strongβ (j : Nat) : ℚ := if j = 1 then -28 else 0

theorem strong_noise : NoiseAtMost X (fun r => strongY r - lin X strongB r) 1 := by
  intro j hj
  have : j = 0 ∨ j = 1 := by simp only [X] at hj; omega
  rcases this with rfl | rfl <;> decide +kernel

theorem strong_minimal : IsLassoMin X strongY 2 strongβ := by
  apply lasso_min_of_kkt
  change ∀ j, j < 2 → _
  decide +kernel

/-- The hypotheses of the theorems hold, and the only feature used is that of the signal. -/
example : ((usedFeatures X strongβ).card : ℚ) ≤ 36 ∧ (1 ∈ usedFeatures X strongβ ∧ 0 < strongB 1 * strongβ 1) ∧
    (usedFeatures X strongβ).card * ((2 : ℚ) - 1) ^ 2 ≤ 1 * sse X strongβ (lin X strongB) := by
  have hb : ∀ i, i ∉ ({1} : Finset Nat) → strongB i = 0 := fun i hi => if_neg (by simpa using hi)
  have h1 := C160_few (S := {1}) stretch zero_le_one oracle_compatible hb strong_noise zero_le_one (by norm_num) (by norm_num)
    strong_minimal
  have h2 := C160_strong (S := {1}) oracle_compatible hb strong_noise (by norm_num) (by norm_num) strong_minimal 1
    (by rw [Finset.card_singleton]; norm_num [strongB])
  have h3 := C160_size stretch zero_le_one strong_noise zero_le_one (by norm_num) strong_minimal
  rw [Finset.card_singleton] at h1
  exact ⟨by linarith, h2, h3⟩

/-- The path of C83 at the regularisation 2. -/
example : ∃ β, OnPath [⟨[0], 3, [1]⟩, ⟨[0, -2], 1, [0, 1]⟩] 2 β ∧ ((usedFeatures X β).card : ℚ) ≤ 36 * 1 * (1 : ℕ) / 1 := by
  have h1 : OnPath [⟨[0], 3, [1]⟩, ⟨[0, -2], 1, [0, 1]⟩] (2 : ℚ) _ :=
    ⟨0, _, _, 1 / 2, rfl, .inr rfl, by norm_num, by norm_num, by norm_num, rfl⟩
  have h2 := (C160_lars cleanRun h1 (b := fun j => if j = 1 then -3 else 0) (S := {1}) stretch zero_le_one oracle_compatible
    (fun i hi => by rw [if_neg (by simpa using hi)]) oracle_noise zero_le_one (by norm_num) (by norm_num)).1
  exact ⟨_, h1, h2⟩

example : ∀ n ∈ ([⟨[0], 3, [1]⟩, ⟨[0, -2], 1, [0, 1]⟩] : List (LassoLarsNode ℚ)), n.selection.length ≤ 2 :=
  fun n hn => (C160_lars_rows cleanRun n hn).1

end LarsExample

/-- One row and two equal columns: the solution that uses both has more features than rows; there is one that has not. -/
example : ∃ b : Nat → ℚ, IsLassoMin ⟨1, 2, fun _ _ => 1⟩ (fun _ => 3) 1 b ∧ (usedFeatures ⟨1, 2, fun _ _ => 1⟩ b).card = 2 ∧
    ∃ b', IsLassoMin ⟨1, 2, fun _ _ => 1⟩ (fun _ => 3) 1 b' ∧ (usedFeatures (⟨1, 2, fun _ _ => 1⟩ : Mat ℚ) b').card ≤ 1 := by
  have hm : IsLassoMin (⟨1, 2, fun _ _ => 1⟩ : Mat ℚ) (fun _ => 3) 1 (fun _ => 1) := by
    apply lasso_min_of_kkt
    change ∀ j, j < 2 → _
    decide +kernel
  obtain ⟨⟨b', h1, -, h2, -⟩, -⟩ := C160_rows hm
  exact ⟨_, hm, by decide +kernel, b', h1, h2⟩

/-- Two centred columns, three rows: the bound is attained. -/
example : Centred (⟨3, 2, fun r c => if c = 0 then (r : ℚ) - 1 else if r = 1 then 2 else -1⟩ : Mat ℚ) := by
  change ∀ j, j < 2 → _
  decide +kernel

namespace NormalRows

/-- Standard normal noise and a signal made of the first of two features: except for one of 20 samples, the lasso misses
it only if it is small. -/
example (n : ℕ) (hn : 0 < n) {φ Λ : ℝ} (hX : StretchAtMost (CoinRows.alt n) Λ) (hΛ : 0 ≤ Λ)
    (hc : CompatibleOn (CoinRows.alt n) {0} φ) (a : ℝ) :
    rows.real {ω | ¬ ∀ lamb β, 2 * noiseBound 1 n 2 (1 / 20) ≤ lamb → 0 < lamb →
      IsLassoMin (CoinRows.alt n) (fun r => lin (CoinRows.alt n) (fun j => if j = 0 then a else 0) r + e r ω) lamb β →
      4 * lamb / φ < |a| → 0 < a * β 0} ≤ 1 / 20 := by
  have hn' : (0 : ℝ) < n := by exact_mod_cast hn
  have h := C160_random (C153_noise.1 noise) (CoinRows.alt n) (q := n) (δ := 1 / 20) one_pos hn' ?_ (by norm_num) hX hΛ hc
    (b := fun j => if j = 0 then a else 0) (fun i hi => if_neg (by simpa using hi))
  · refine le_trans (measureReal_mono ?_ (measure_ne_top _ _)) h
    intro ω hω hall
    apply hω
    intro lamb β hl hl0 hm ha
    have := ((hall lamb β hl hl0 hm).2 0 (by simpa using ha)).2
    simpa using this
  · intro j hj
    have hsq : ∀ r, (CoinRows.alt n).get r j * (CoinRows.alt n).get r j ≤ 1 := by
      intro r
      simp only [CoinRows.alt]
      split_ifs <;> norm_num
    unfold colProd
    refine (Finset.sum_le_sum (fun r _ => hsq r)).trans (le_of_eq ?_)
    simp [CoinRows.alt]

end NormalRows

end GoSelect
