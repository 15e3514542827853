import Verif.Model.RoundedSearch
import Verif.Proofs.Binary64
import Verif.Props.C99

/-!
C111: `SelectModel` with rounding errors.  The model it reports is at most twice the error of a criterion value worse
than the best one; the order of the list itself is right if the rounding is monotone and the residual sums of squares
are ordered.
-/

namespace GoSelect

open Spec

/-! ### Specification -/

/-- The computed criteria and lower bounds are off by at most `ε`: `E m` is the exact criterion of the model `m`. -/
structure Spec.ErrorAtMost {α : Type} [AddCommGroup α] [LinearOrder α] (S : Search α) (E : List Bool → α) (ε : α) :
    Prop where
  above : ∀ m, Candidate S m → aiccOf S m ≤ E m + ε
  below : ∀ m, Candidate S m → E m ≤ aiccOf S m + ε
  bound : ∀ p l m, p.length = S.ncols → l ≤ S.ncols → 0 < card p → SamePrefix l p m → Candidate S m →
    (S.bounds p l).1 ≤ E m + ε
  usual : ∀ m, Candidate S m → -S.huge ≤ E m + ε ∧ E m + ε < S.maxFloat

/-- Rounding: never reverses an order, and 0 and 1 are floats. -/
structure Spec.Rounding (rnd : ℝ → ℝ) : Prop where
  mono : Monotone rnd
  zero : rnd 0 = 0
  one : rnd 1 = 1

/-! ### Any search -/

section
variable {α : Type} [LinearOrder α] [AddCommGroup α] [IsOrderedAddMonoid α]

/-- If computed criteria and lower bounds are within `ε` of the exact ones, the exact criterion of the model that
`SelectModel` reports first is at most `2 ε` above that of every other model. -/
theorem C111_within (S : Search α) (E : List Bool → α) (ε : α) (he : ErrorAtMost S E ε) (M : Int) (hM : 2 ≤ M)
    (hr : RowSafe S) (s : SState α) (h : SelectReaches S M [] s) (hd : s.main = .done) (ht : s.torn = false)
    (ho : s.overflows = 0) (m : List Bool) (hm : Candidate S m) (hroot : m ≠ S.root) :
    ∃ n rest, s.hs.items = n :: rest ∧ Candidate S n.model ∧ n.model ≠ S.root ∧ n.coeff = S.fit n.model ∧
      E n.model ≤ E m + ε + ε := by
  have hv : BoundsUpTo S [] (fun m => E m + ε) :=
    ⟨he.bound, fun m hm v _ hlt => hlt.le.trans (he.usual m hm).1, he.above⟩
  obtain ⟨h1, h2⟩ := all_beaten hM hv hr h hd ht ho m hm hroot
  cases hit : s.hs.items with
  | nil => exact absurd hit h1
  | cons n rest =>
    have hn : n ∈ s.hs.items := by simp [hit]
    have hb : s.hs.bestScore = n.score := by simp [Highscore.bestScore, hit]
    rw [hb] at h2
    obtain ⟨a1, a2⟩ := C13_own_score S M (by omega) s h n hn
    obtain ⟨b1, b2, b3⟩ := (C13_each_model_once S M (by omega) s h).2 n hn
    rcases Nat.eq_zero_or_pos (card n.model) with hz | hz
    · rw [a2 hz] at h2
      exact absurd (neg_le_neg_iff.1 h2) (not_le.2 (he.usual m hm).2)
    · obtain ⟨a3, a4⟩ := a1 hz
      rw [a3, neg_le_neg_iff] at h2
      have hc : Candidate S n.model := ⟨b1, hz, b3⟩
      exact ⟨n, rest, rfl, hc, b2, a4, (he.below n.model hc).trans (add_le_add_left h2 ε)⟩

end

/-! ### A data set -/

theorem aicc_sub (k n : Nat) (r r' : ℝ) : aicc k n r = aicc k n r' + n * (Real.log r - Real.log r') := by
  unfold aicc aic
  ring

theorem aicc_error {k n : Nat} {r r' δ ε : ℝ} {crit : Nat → Nat → ℝ → ℝ} (hδ : 0 ≤ δ) (hδ' : δ < 1) (hr : 0 < r)
    (h1 : (1 - δ) * r ≤ r') (h2 : r' ≤ (1 + δ) * r) (hc : |crit k n r' - aicc k n r'| ≤ ε) :
    crit k n r' ≤ aicc k n r + (ε + n * Real.log (1 / (1 - δ))) ∧
      aicc k n r ≤ crit k n r' + (ε + n * Real.log (1 / (1 - δ))) := by
  have h0 : 0 < 1 - δ := by linarith
  have hr' : 0 < r' := lt_of_lt_of_le (mul_pos h0 hr) h1
  have hlog : Real.log (1 / (1 - δ)) = -Real.log (1 - δ) := by rw [one_div, Real.log_inv]
  have e1 : Real.log (1 - δ) + Real.log r ≤ Real.log r' := by
    rw [← Real.log_mul h0.ne' hr.ne']
    exact Real.log_le_log (mul_pos h0 hr) h1
  have e2 : Real.log r' ≤ -Real.log (1 - δ) + Real.log r := by
    rw [← Real.log_inv, ← Real.log_mul (inv_pos.2 h0).ne' hr.ne']
    refine Real.log_le_log hr' (h2.trans (mul_le_mul_of_nonneg_right ?_ hr.le))
    rw [← one_div, le_div_iff₀ h0]
    nlinarith
  have hn : (0 : ℝ) ≤ n := Nat.cast_nonneg _
  obtain ⟨c1, c2⟩ := abs_le.1 hc
  rw [aicc_sub k n r' r] at c1 c2
  rw [hlog]
  constructor <;> nlinarith

theorem sse_contained {X : Mat ℝ} {y : List ℝ} {a b : List Bool} (ha : a.length ≤ X.nc) (hb : b.length ≤ X.nc)
    (hab : ContainedIn a b) {ra rb : ℝ} (h1 : HasRss X y a ra) (h2 : HasRss X y b rb) : rb ≤ ra := by
  obtain ⟨ca, ha1, rfl⟩ := h1
  obtain ⟨cb, hb1, rfl⟩ := h2
  rw [designOf_eq] at hb1 ⊢
  exact sse_nested (features_nodup a) (features_nodup b) (fun i hi => (features_lt hi).trans_le ha)
    (fun i hi => (features_lt hi).trans_le hb)
    (fun i hi => (mem_features b i).2 (hab i ((mem_features a i).1 hi))) _ _ _ hb1

/-- The lower bound of a node is at most the value `g m` of every model below, if this holds for the two ways in which
the bound can be computed. -/
theorem computedBounds_le {rss : List Bool → ℝ} {crit : Nat → Nat → ℝ → ℝ} {nr nc : Nat} {p : List Bool} {l : Nat}
    {m : List Bool} {v : ℝ} (hp : p.length = nc) (hl : l ≤ nc) (hm : SamePrefix l p m) (hpos : 0 < card m)
    (h1 : ∀ g k, g.length = nc → card m ≤ card g → card g < nr → ContainedIn m g → k ≤ card m →
      crit k nr (rss g) ≤ v)
    (h2 : ∀ k, nr ≤ nc → k ≤ card m → crit k nr rssTol ≤ v) : (computedBounds rss crit nr p l).1 ≤ v := by
  obtain ⟨g, hg, hgp, hgs⟩ := C01_gcs_greatest p l (by omega)
  obtain ⟨c, hc, hcp, hcs⟩ := C01_lcs_least p l (by omega)
  have hmg := hgs m hm
  have hk := card_le_of_contained (hcs m hm)
  simp only [computedBounds, hg, hc, numFeatures_eq_card]
  split
  · rename_i hlt
    exact h1 g _ (by rw [← hp, hgp.1]) (card_le_of_contained hmg) hlt hmg hk
  · rename_i hge
    refine h2 _ ?_ hk
    have : card g ≤ g.length := by rw [card_eq_count]; exact List.count_le_length
    have := hgp.1
    omega

theorem huge_lt_maxFloat : (10 : ℝ) ^ 100 < maxFloat64 :=
  calc (10 : ℝ) ^ 100 < (2 ^ 4) ^ 100 := pow_lt_pow_left₀ (by norm_num) (by norm_num) (by norm_num)
    _ = 2 ^ (4 * 100) := (pow_mul _ _ _).symm
    _ ≤ 2 ^ 1023 := pow_le_pow_right₀ (by norm_num) (by norm_num)
    _ = 1 * 2 ^ 1023 := (one_mul _).symm
    _ ≤ maxFloat64 := mul_le_mul_of_nonneg_right (by norm_num) (by positivity)

/-- `SelectModel` with rounding errors.  `r m` is the least sum of squares of the model `m`, `rss m` the computed one,
off by at most the relative error `δ`; `crit` is the computed AICc, off by at most `ε` where it is used.  The AICc of the model that is
reported first exceeds that of every other model by at most `2 (ε + n log (1 / (1 - δ)))`. -/
theorem C111_rounding (X : Mat ℝ) (y : List ℝ) (r : List Bool → ℝ) (fit : List Bool → List ℝ) (rss : List Bool → ℝ)
    (crit : Nat → Nat → ℝ → ℝ) (δ ε : ℝ) (hδ : 0 ≤ δ) (hδ' : δ < 1)
    (hr : ∀ m, m.length = X.nc → 0 < card m → card m < X.nr → HasRss X y m (r m) ∧ 0 < r m)
    (htol : X.nr ≤ X.nc → ∀ m, m.length = X.nc → 0 < card m → card m < X.nr → rssTol ≤ r m)
    (hrss : ∀ m, m.length = X.nc → 0 < card m → card m < X.nr → |rss m - r m| ≤ δ * r m)
    (hcrit : ∀ m, m.length = X.nc → 0 < card m → card m < X.nr → ∀ k, k < X.nr →
      |crit k X.nr (rss m) - aicc k X.nr (rss m)| ≤ ε)
    (hcrit' : X.nr ≤ X.nc → ∀ k, k < X.nr → |crit k X.nr rssTol - aicc k X.nr rssTol| ≤ ε)
    (husual : ∀ m, m.length = X.nc → 0 < card m → card m < X.nr →
      |aicc (card m) X.nr (r m)| + (ε + X.nr * Real.log (1 / (1 - δ))) ≤ 10 ^ 100)
    (root : List Bool) (hroot : root = List.replicate X.nc false ∨ X.nc < X.nr) (maxQueue : Int) (cutoff : ℝ) (M : Int)
    (hM : 2 ≤ M) (s : SState ℝ) (h : SelectReaches (computedSearch X.nr X.nc fit rss crit root maxQueue cutoff) M [] s)
    (hd : s.main = .done) (ht : s.torn = false) (ho : s.overflows = 0)
    (m : List Bool) (hlen : m.length = X.nc) (hpos : 0 < card m) (hrows : card m < X.nr) (hmr : m ≠ root) :
    ∃ n rest, s.hs.items = n :: rest ∧ n.model.length = X.nc ∧ 0 < card n.model ∧ card n.model < X.nr ∧
      n.coeff = fit n.model ∧
      aicc (card n.model) X.nr (r n.model) ≤
        aicc (card m) X.nr (r m) + 2 * (ε + X.nr * Real.log (1 / (1 - δ))) := by
  have h0 : 0 < 1 - δ := by linarith
  have hlog : 0 ≤ Real.log (1 / (1 - δ)) := Real.log_nonneg (by rw [le_div_iff₀ h0]; linarith)
  have hnn : (0 : ℝ) ≤ X.nr := Nat.cast_nonneg _
  have herr : ∀ m, m.length = X.nc → 0 < card m → card m < X.nr → ∀ k, k < X.nr →
      crit k X.nr (rss m) ≤ aicc k X.nr (r m) + (ε + X.nr * Real.log (1 / (1 - δ))) ∧
        aicc k X.nr (r m) ≤ crit k X.nr (rss m) + (ε + X.nr * Real.log (1 / (1 - δ))) := by
    intro m h1 h2 h3 k hk
    obtain ⟨a, b⟩ := abs_le.1 (hrss m h1 h2 h3)
    exact aicc_error hδ hδ' (hr m h1 h2 h3).2 (by linarith) (by linarith) (hcrit m h1 h2 h3 k hk)
  have he : ErrorAtMost (computedSearch X.nr X.nc fit rss crit root maxQueue cutoff)
      (fun m => aicc (card m) X.nr (r m)) (ε + X.nr * Real.log (1 / (1 - δ))) := by
    refine ⟨fun m ⟨h1, h2, h3⟩ => (herr m h1 h2 h3 _ h3).1, fun m ⟨h1, h2, h3⟩ => (herr m h1 h2 h3 _ h3).2,
      fun p l m hp hl _ hpm ⟨h1, h2, h3⟩ => ?_, fun m ⟨h1, h2, h3⟩ => ?_⟩
    · have h1' : m.length = X.nc := h1
      have h3' : card m < X.nr := h3
      refine computedBounds_le (nc := X.nc) hp hl hpm h2 (fun g k g1 g2 g3 g4 hk => ?_) fun k hnc hk => ?_
      · refine (herr g g1 (h2.trans_le g2) g3 k (by omega)).1.trans (add_le_add_left ?_ _)
        exact C02_aicc_mono _ _ _ _ _ hk (hr g g1 (h2.trans_le g2) g3).2
          (sse_contained h1'.le g1.le g4 (hr m h1 h2 h3).1 (hr g g1 (h2.trans_le g2) g3).1)
      · have b := (abs_le.1 (hcrit' hnc k (by omega))).2
        have := C02_aicc_mono k (card m) X.nr rssTol (r m) hk rssTol_pos (htol hnc m h1 h2 h3)
        have := mul_nonneg hnn hlog
        linarith
    · have hu := husual m h1 h2 h3
      have ha := abs_le.1 (le_refl |aicc (card m) X.nr (r m)|)
      have hε : 0 ≤ ε := (abs_nonneg _).trans (hcrit m h1 h2 h3 (card m) h3)
      have := mul_nonneg hnn hlog
      refine ⟨?_, ?_⟩
      · show -(10 : ℝ) ^ 100 ≤ _
        linarith [ha.1]
      · show _ < maxFloat64
        linarith [ha.2, huge_lt_maxFloat]
  obtain ⟨n, rest, h1, ⟨h2, h3, h4⟩, -, h5, h6⟩ := C111_within _ _ _ he M hM hroot s h hd ht ho m ⟨hlen, hpos, hrows⟩ hmr
  exact ⟨n, rest, h1, h2, h3, h4, h5, by linarith⟩

/-- With exact arithmetic this is the search of `C12_regression`: same problem, and same bounds for every node that has
bounds. -/
theorem C111_exact_search (svd : Mat ℝ → SVD ℝ) (X : Mat ℝ) (y : List ℝ) (hy : y.length = X.nr) (root : List Bool)
    (maxQueue : Int) (cutoff : ℝ) (p : List Bool) (l : Nat) (hp : p.length = X.nc) (hl : l ≤ X.nc) (hpos : 0 < card p) :
    let S := regressionSearch svd X y root maxQueue cutoff
    let T := computedSearch X.nr X.nc S.fit S.rss aicc root maxQueue cutoff
    T.toProblem = S.toProblem ∧ T.bounds p l = S.bounds p l ∧ T.root = S.root ∧ T.maxQueue = S.maxQueue ∧
      T.cutoff = S.cutoff ∧ T.huge = S.huge ∧ T.maxFloat = S.maxFloat ∧ T.mean = S.mean := by
  refine ⟨rfl, ?_, rfl, rfl, rfl, rfl, rfl, rfl⟩
  obtain ⟨g, hg, hgp, hgs⟩ := C01_gcs_greatest p l (by omega)
  obtain ⟨c, hc, hcp, -⟩ := C01_lcs_least p l (by omega)
  have hgpos : 0 < card g := lt_of_lt_of_le hpos (card_le_of_contained (hgs p ⟨rfl, fun _ _ => rfl⟩))
  obtain ⟨cg, h1, -⟩ := fitModel_eq_some (svd := svd) hy hgpos (hgp.1 ▸ hp.le)
  have e1 : boundsRssGcs svd g X y =
      some (if numFeatures g < X.nr then (regressionSearch svd X y root maxQueue cutoff).rss g else rssTol) := by
    unfold boundsRssGcs
    split
    · simp [regressionSearch, regressionProblem, h1]
    · rfl
  have e2 : boundsRssLcs svd c X y =
      some (if 0 < numFeatures c then (regressionSearch svd X y root maxQueue cutoff).rss c else maxFloat64) := by
    unfold boundsRssLcs
    split
    · rename_i h
      rw [numFeatures_eq_card] at h
      obtain ⟨cc, h2, -⟩ := fitModel_eq_some (svd := svd) hy h (hcp.1 ▸ hp.le)
      simp [regressionSearch, regressionProblem, h2]
    · rfl
  show computedBounds (regressionSearch svd X y root maxQueue cutoff).rss aicc X.nr p l = (boundsAICC svd p l X y).getD (0, 0)
  simp only [computedBounds, boundsAICC, bounds, hg, hc, e1, e2, Option.getD_some, hy]

/-! ### Monotone rounding -/

theorem aicRnd_mono {rnd ln : ℝ → ℝ} (hrnd : Rounding rnd) (hln : MonotoneOn ln (Set.Ioi 0)) :
    CritMono (0 < ·) (aicRnd rnd ln) := by
  intro k k' n r r' hk hr hrr
  have hn : 0 ≤ rnd n := hrnd.zero ▸ hrnd.mono (Nat.cast_nonneg n)
  refine hrnd.mono (add_le_add (hrnd.mono (mul_le_mul_of_nonneg_left (hrnd.mono (Nat.cast_le.2 hk)) (by norm_num)))
    (hrnd.mono (mul_le_mul_of_nonneg_left (hln hr (lt_of_lt_of_le hr hrr) hrr) hn)))

/-- With monotone rounding and a monotone logarithm the computed AICc grows with the number of features and with the
residual sum of squares. -/
theorem C111_rounded_aicc_mono {rnd ln : ℝ → ℝ} (hrnd : Rounding rnd) (hln : MonotoneOn ln (Set.Ioi 0)) (k k' n : Nat)
    (r r' : ℝ) (hk : k ≤ k') (hr : 0 < r) (hrr : r ≤ r') : aiccRnd rnd ln k n r ≤ aiccRnd rnd ln k' n r' := by
  have e : ∀ k, aiccRnd rnd ln k n = fun r => rnd (aicRnd rnd ln k n r + rnd (rnd ((2 * k * k + 2 * k : Nat) : ℝ) /
      (if n ≤ k + 1 then 1 else rnd ((n - k - 1 : Nat) : ℝ)))) := by
    intro k
    funext r
    unfold aiccRnd
    by_cases h : n ≤ k + 1
    · have h' : (k : Int) ≥ (n : Int) - 1 := by omega
      simp [h, h']
    · have h' : ¬ (k : Int) ≥ (n : Int) - 1 := by omega
      have e : ((n : Int) - k - 1 : Int) = ((n - k - 1 : Nat) : Int) := by omega
      simp only [h, h', if_false, e, Int.cast_natCast]
  have h1 : ∀ j : Nat, 1 ≤ j → 1 ≤ rnd (j : ℝ) := fun j hj => hrnd.one ▸ hrnd.mono (by exact_mod_cast hj)
  rw [e, e]
  refine hrnd.mono (add_le_add (aicRnd_mono hrnd hln k k' n r r' hk hr hrr) (hrnd.mono ?_))
  have hn : 2 * k * k + 2 * k ≤ 2 * k' * k' + 2 * k' := by
    have := Nat.mul_le_mul hk hk
    rw [Nat.mul_assoc, Nat.mul_assoc]; omega
  refine div_le_div₀ (hrnd.zero ▸ hrnd.mono (Nat.cast_nonneg _)) (hrnd.mono (Nat.cast_le.2 hn)) ?_ ?_
  · split
    · exact one_pos
    · exact one_pos.trans_le (h1 _ (by omega))
  · split
    · split
      · exact le_rfl
      · exact h1 _ (by omega)
    · rw [if_neg (by omega)]
      exact hrnd.mono (Nat.cast_le.2 (by omega))

/-- If the computed criterion is monotone and a computed residual sum of squares never grows when features are added, no
model has a better computed score than the first one in the list: the only errors are those of the scores themselves. -/
theorem C111_monotone (nr nc : Nat) (fit : List Bool → List ℝ) (rss : List Bool → ℝ) (rnd ln : ℝ → ℝ)
    (hrnd : Rounding rnd) (hln : MonotoneOn ln (Set.Ioi 0))
    (hpos : ∀ m, m.length = nc → 0 < card m → card m < nr → 0 < rss m ∧ -10 ^ 100 ≤ aiccRnd rnd ln (card m) nr (rss m))
    (htol : nr ≤ nc → ∀ m, m.length = nc → 0 < card m → card m < nr → rssTol ≤ rss m)
    (hord : ∀ a b, a.length = nc → b.length = nc → 0 < card a → card b < nr → ContainedIn a b → rss b ≤ rss a)
    (root : List Bool) (hroot : root = List.replicate nc false ∨ nc < nr) (maxQueue : Int) (cutoff : ℝ) (M : Int)
    (hM : 2 ≤ M) (s : SState ℝ)
    (h : SelectReaches (computedSearch nr nc fit rss (aiccRnd rnd ln) root maxQueue cutoff) M [] s)
    (hd : s.main = .done) (ht : s.torn = false) (ho : s.overflows = 0)
    (m : List Bool) (hlen : m.length = nc) (hm : 0 < card m) (hrows : card m < nr) (hmr : m ≠ root) :
    0 < s.hs.len ∧ -aiccRnd rnd ln (card m) nr (rss m) ≤ s.hs.bestScore := by
  have hv : ValidBounds (computedSearch nr nc fit rss (aiccRnd rnd ln) root maxQueue cutoff) := by
    refine ⟨fun p l m hp hl _ hpm ⟨h1, h2, h3⟩ => ?_, fun m ⟨h1, h2, h3⟩ => (hpos m h1 h2 h3).2⟩
    refine computedBounds_le (nc := nc) hp hl hpm h2 (fun g k g1 g2 g3 g4 hk => ?_) fun k hnc hk => ?_
    · exact C111_rounded_aicc_mono hrnd hln _ _ _ _ _ hk (hpos g g1 (h2.trans_le g2) g3).1 (hord m g h1 g1 h2 g3 g4)
    · exact C111_rounded_aicc_mono hrnd hln _ _ _ _ _ hk rssTol_pos (htol hnc m h1 h2 h3)
  exact C12_no_better_model _ M hM [] hv hroot s h hd ht ho m hlen hm hrows hmr

/-! ### Concrete cases -/

/-- All computed criteria are 5. -/
def tieSearch : Search Int := { exSearch with rss := fun _ => 5, bounds := fun _ _ => (5, 5) }

/-- The exact criteria: 6 for the model that is scored first, 4 for all others. -/
def tieExact (m : List Bool) : Int := if m = [true, false, false] then 6 else 4

/-- A complete schedule for `tieSearch`. -/
def tieSchedule : List Action := match sinit tieSearch (newHighscore 20) with
  | some s => greedy tieSearch s 200
  | none => []

/-- The factor 2 is needed: errors of at most 1, and the reported model is 2 above the best. -/
theorem C111_sharp : ErrorAtMost tieSearch tieExact 1 ∧ Candidate tieSearch [false, true, false] ∧
    ∃ s n rest, SelectReaches tieSearch 20 [] s ∧ s.main = .done ∧ s.torn = false ∧ s.overflows = 0 ∧
      s.hs.items = n :: rest ∧ tieExact n.model = tieExact [false, true, false] + 1 + 1 := by
  have hx : ∀ m, tieExact m = 6 ∨ tieExact m = 4 := fun m => by unfold tieExact; split <;> simp
  refine ⟨⟨fun m _ => ?_, fun m _ => ?_, fun _ _ m _ _ _ _ _ => ?_, fun m _ => ?_⟩, ⟨rfl, by decide, by decide⟩, ?_⟩
  · show (5 : Int) ≤ _
    rcases hx m with h | h <;> rw [h] <;> decide
  · show _ ≤ (5 : Int) + 1
    rcases hx m with h | h <;> rw [h] <;> decide
  · show (5 : Int) ≤ _
    rcases hx m with h | h <;> rw [h] <;> decide
  · show -(100 : Int) ≤ _ ∧ _ < (1000 : Int)
    rcases hx m with h | h <;> rw [h] <;> decide
  · obtain ⟨s, h1, h2⟩ := sstart_ex (S := tieSearch) (M := 20) tieSchedule
      (fun s => decide (s.main = .done ∧ s.torn = false ∧ s.overflows = 0 ∧
        s.hs.items.head?.map (·.model) = some [true, false, false])) (by decide +kernel)
    obtain ⟨a, b, c, d⟩ := of_decide_eq_true h2
    cases hit : s.hs.items with
    | nil => rw [hit] at d; cases d
    | cons n rest =>
      rw [hit] at d
      have d' : n.model = [true, false, false] := by simpa using d
      exact ⟨s, n, rest, h1, a, b, c, hit, by rw [d']; decide⟩

/-- The squares of the targets whose feature is not selected. -/
def leftOver (m : List Bool) : ℝ := ∑ i ∈ Finset.range 5, if HasFeature m i then 0 else vec ([1, 2, 3, 4, 5] : List ℝ) i ^ 2

/-- The hypotheses of `C111_rounding` on the first 3 unit vectors of length 5: computed residual sums of squares off by
one percent, computed criteria off by one thousandth. -/
example (m : List Bool) (hlen : m.length = 3) (hpos : 0 < card m) (hrows : card m < 5) :
    HasRss (unitX 5 3) [1, 2, 3, 4, 5] m (leftOver m) ∧ 0 < leftOver m ∧
    |101 / 100 * leftOver m - leftOver m| ≤ 1 / 100 * leftOver m ∧
    |aicc (card m) 5 (leftOver m)| + (1 / 1000 + (5 : Nat) * Real.log (1 / (1 - 1 / 100))) ≤ 10 ^ 100 := by
  obtain ⟨c, h1, h2, -⟩ := unitX_fitModel (n := 5) (k := 3) (by omega) (y := ([1, 2, 3, 4, 5] : List ℝ)) rfl hlen hpos
  have hls := fit_leastSquares (unitX_exact (by omega) hlen) h2
  have hge : 25 ≤ leftOver m := by
    have h4 : ¬ HasFeature m 4 := by
      unfold HasFeature
      rw [List.getElem?_eq_none (by omega)]
      simp
    have := Finset.single_le_sum (s := Finset.range 5)
      (f := fun i => if HasFeature m i then 0 else vec ([1, 2, 3, 4, 5] : List ℝ) i ^ 2)
      (fun i _ => by split <;> positivity) (Finset.mem_range.2 (by norm_num : 4 < 5))
    simp only [if_neg h4] at this
    norm_num [vec] at this
    exact this
  have hle : leftOver m ≤ 55 := by
    have : leftOver m ≤ ∑ i ∈ Finset.range 5, vec ([1, 2, 3, 4, 5] : List ℝ) i ^ 2 :=
      Finset.sum_le_sum fun i _ => by split <;> [positivity; exact le_rfl]
    refine this.trans ?_
    norm_num [Finset.sum_range_succ, vec]
  refine ⟨⟨vec c, hls, (unitX_sse hls).symm⟩, by linarith, ?_, ?_⟩
  · rw [abs_of_nonneg (by linarith)]
    linarith
  · have l1 : 0 ≤ Real.log (leftOver m) := Real.log_nonneg (by linarith)
    have l2 := Real.log_le_sub_one_of_pos (x := leftOver m) (by linarith)
    have l3 := Real.log_le_sub_one_of_pos (x := 1 / (1 - 1 / 100 : ℝ)) (by norm_num)
    have l4 : aicc (card m) 5 (leftOver m) = 2 * card m + 5 * Real.log (leftOver m) +
        ((2 * card m * card m + 2 * card m : Nat) : ℝ) / ((if 5 ≤ card m + 1 then 1 else 5 - card m - 1 : Nat) : ℝ) := by
      rw [aicc_eq]; simp [aic]
    have l5 : ((2 * card m * card m + 2 * card m : Nat) : ℝ) / ((if 5 ≤ card m + 1 then 1 else 5 - card m - 1 : Nat) : ℝ)
        ≤ 40 := by
      have : card m = 1 ∨ card m = 2 ∨ card m = 3 ∨ card m = 4 := by omega
      rcases this with h | h | h | h <;> rw [h] <;> norm_num
    have l6 : 0 ≤ ((2 * card m * card m + 2 * card m : Nat) : ℝ) /
        ((if 5 ≤ card m + 1 then 1 else 5 - card m - 1 : Nat) : ℝ) := by positivity
    have l7 : (card m : ℝ) ≤ 5 := by exact_mod_cast hrows.le
    have l8 : (0 : ℝ) ≤ card m := Nat.cast_nonneg _
    rw [l4, abs_of_nonneg (by linarith)]
    have : (1 / (1 - 1 / 100) : ℝ) ≤ 2 := by norm_num
    have h100 : (1000 : ℝ) ≤ 10 ^ 100 := by norm_num
    push_cast at *
    linarith

example (k : Nat) (r : ℝ) : |(aicc k 5 r + 1 / 1000) - aicc k 5 r| ≤ 1 / 1000 := by
  rw [add_sub_cancel_left]; norm_num

/-- The hypotheses on the rounding: rounding to binary64 is monotone and keeps 0 and 1. -/
example : Rounding rnd64 ∧ MonotoneOn (fun x => rnd64 (Real.log x)) (Set.Ioi 0) :=
  ⟨⟨rnd64_mono, rnd64_zero, rnd64_one⟩, fun _ ha _ _ h => rnd64_mono (Real.log_le_log ha h)⟩

end GoSelect
