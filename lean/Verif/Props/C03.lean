import Verif.Props.C01
import Verif.Props.C02
import Verif.Proofs.Orthonormal

/-! C03: `BoundsAIC` and `BoundsAICC` bracket every sub-model. -/

namespace GoSelect

open Finset Spec

/-- What the bounds need of a criterion, for RSS that satisfy `D`. -/
def CritMono {β : Type} [LE β] (D : ℝ → Prop) (crit : Nat → Nat → ℝ → β) : Prop :=
  ∀ k k' n r r', k ≤ k' → D r → r ≤ r' → crit k n r ≤ crit k' n r'

theorem rssTol_pos : 0 < rssTol := by unfold rssTol; positivity

theorem bounds_eq_some {β : Type} {svd : Mat ℝ → SVD ℝ} {p : List Bool} {start : Nat} {X : Mat ℝ}
    {y : List ℝ} (crit : Nat → Nat → ℝ → β) (hy : y.length = X.nr) (hlen : p.length ≤ X.nc)
    (hstart : start ≤ p.length) (hpos : 0 < card p) :
    ∃ b, bounds svd p start X y crit = some b := by
  obtain ⟨g, hg, hgp, hgs⟩ := C01_gcs_greatest p start hstart
  obtain ⟨l, hl, hlp, hls⟩ := C01_lcs_least p start hstart
  have hgpos : 0 < card g := lt_of_lt_of_le hpos (card_le_of_contained (hgs p ⟨rfl, fun _ _ => rfl⟩))
  have h1 : ∃ r, boundsRssLcs svd l X y = some r := by
    unfold boundsRssLcs
    split
    · rename_i h
      rw [numFeatures_eq_card] at h
      obtain ⟨c, hc, -⟩ := fitModel_eq_some (svd := svd) hy h (hlp.1 ▸ hlen)
      exact ⟨_, by rw [hc]; rfl⟩
    · exact ⟨_, rfl⟩
  have h2 : ∃ r, boundsRssGcs svd g X y = some r := by
    unfold boundsRssGcs
    split
    · obtain ⟨c, hc, -⟩ := fitModel_eq_some (svd := svd) hy hgpos (hgp.1 ▸ hlen)
      exact ⟨_, by rw [hc]; rfl⟩
    · exact ⟨_, rfl⟩
  obtain ⟨rl, hrl⟩ := h1
  obtain ⟨rg, hrg⟩ := h2
  simp only [bounds, hg, hl, hrl, hrg]
  exact ⟨_, rfl⟩

/-- The bracket for any monotone criterion. -/
theorem bounds_bracket {β : Type} [Preorder β] {D : ℝ → Prop} {svd : Mat ℝ → SVD ℝ} {p : List Bool} {start : Nat}
    {X : Mat ℝ} {y : List ℝ} {crit : Nat → Nat → ℝ → β} (hcrit : CritMono D crit) (hD : D rssTol) (hy : y.length = X.nr)
    (hlen : p.length ≤ X.nc) {lo up : β} (hb : bounds svd p start X y crit = some (lo, up))
    (hexact : ∀ m, SamePrefix start p m → 0 < card m → card m < X.nr → ExactFit svd X m)
    (hdom : ∀ m c r, SamePrefix start p m → 0 < card m → card m < X.nr →
      fitModel svd X y m = some (c, r) → D r)
    {m : List Bool} (hm : SamePrefix start p m) (hpos : 0 < card m) (hrows : card m < X.nr)
    {c : List ℝ} {r : ℝ} (hf : fitModel svd X y m = some (c, r))
    (htol : (∃ g, SamePrefix start p g ∧ X.nr ≤ card g) → rssTol ≤ r) :
    lo ≤ crit (card m) X.nr r ∧ (r ≤ maxFloat64 → crit (card m) X.nr r ≤ up) := by
  have hstart : start ≤ p.length := by
    by_contra hc
    rw [bounds, gcs_eq_none (by omega)] at hb
    cases hb
  obtain ⟨g, hg, hgp, hgs⟩ := C01_gcs_greatest p start hstart
  obtain ⟨l, hl, hlp, hls⟩ := C01_lcs_least p start hstart
  have hmg := hgs m hm
  have hlm := hls m hm
  have hmlen : m.length ≤ X.nc := hm.1 ▸ hlen
  have hglen : g.length ≤ X.nc := hgp.1 ▸ hlen
  have hllen : l.length ≤ X.nc := hlp.1 ▸ hlen
  simp only [bounds, hg, hl] at hb
  split at hb
  case h_2 => cases hb
  rename_i rl rg hrl hrg
  rw [Option.some.injEq, Prod.mk.injEq, numFeatures_eq_card, numFeatures_eq_card, hy] at hb
  obtain ⟨rfl, rfl⟩ := hb
  constructor
  · have : D rg ∧ rg ≤ r := by
      unfold boundsRssGcs at hrg
      rw [numFeatures_eq_card] at hrg
      split at hrg
      · rename_i hlt
        have hgpos := lt_of_lt_of_le hpos (card_le_of_contained hmg)
        obtain ⟨cg, hcg, -⟩ := fitModel_eq_some (svd := svd) hy hgpos hglen
        have e : sse (designOf X g) (vec cg) (vec y) = rg := by
          rw [hcg] at hrg; simpa using hrg
        rw [e] at hcg
        exact ⟨hdom g _ _ hgp hgpos hlt hcg,
          fitModel_nested hmlen hglen hy hmg hpos (hexact g hgp hgpos hlt) hf hcg⟩
      · rename_i hge
        rw [Option.some.injEq] at hrg
        subst hrg
        exact ⟨hD, htol ⟨g, hgp, by omega⟩⟩
    exact hcrit _ _ _ _ _ (card_le_of_contained hlm) this.1 this.2
  · intro hmax
    refine hcrit _ _ _ _ _ (card_le_of_contained hmg) (hdom m c r hm hpos hrows hf) ?_
    unfold boundsRssLcs at hrl
    rw [numFeatures_eq_card] at hrl
    split at hrl
    · rename_i hlpos
      obtain ⟨cl, hcl, -⟩ := fitModel_eq_some (svd := svd) hy hlpos hllen
      have e : sse (designOf X l) (vec cl) (vec y) = rl := by
        rw [hcl] at hrl; simpa using hrl
      rw [e] at hcl
      exact fitModel_nested hllen hmlen hy hlm hlpos (hexact m hm hpos hrows) hcl hf
    · rw [Option.some.injEq] at hrl
      rw [← hrl]
      exact hmax

/-- `BoundsAICC(p, start, X, y)` brackets the AICc of every model `m` with the same first `start`
flags as `p`, at least one feature and fewer features than data points, provided the fits of these
models are least-squares fits and their RSS positive.  If a model with the same first flags has as many features as
data points, the RSS of `m` must be at least `RssTol`.  (`r ≤ MaxFloat64` holds of every finite float.) -/
theorem C03_aicc (svd : Mat ℝ → SVD ℝ) (X : Mat ℝ) (y : List ℝ) (p : List Bool) (start : Nat)
    (hy : y.length = X.nr) (hlen : p.length ≤ X.nc) (lo up : ℝ)
    (hb : boundsAICC svd p start X y = some (lo, up))
    (hexact : ∀ m, SamePrefix start p m → 0 < card m → card m < X.nr → ExactFit svd X m)
    (hrss : ∀ m c r, SamePrefix start p m → 0 < card m → card m < X.nr →
      fitModel svd X y m = some (c, r) → 0 < r)
    (m : List Bool) (hm : SamePrefix start p m) (hpos : 0 < card m) (hrows : card m < X.nr)
    (c : List ℝ) (r : ℝ) (hf : fitModel svd X y m = some (c, r))
    (htol : (∃ g, SamePrefix start p g ∧ X.nr ≤ card g) → rssTol ≤ r) :
    lo ≤ aicc (card m) X.nr r ∧ (r ≤ maxFloat64 → aicc (card m) X.nr r ≤ up) :=
  bounds_bracket (D := (0 < ·)) (fun k k' n r r' => C02_aicc_mono k k' n r r') rssTol_pos hy hlen hb hexact hrss hm
    hpos hrows hf htol

/-- The same for `BoundsAIC`. -/
theorem C03_aic (svd : Mat ℝ → SVD ℝ) (X : Mat ℝ) (y : List ℝ) (p : List Bool) (start : Nat)
    (hy : y.length = X.nr) (hlen : p.length ≤ X.nc) (lo up : ℝ)
    (hb : boundsAIC svd p start X y = some (lo, up))
    (hexact : ∀ m, SamePrefix start p m → 0 < card m → card m < X.nr → ExactFit svd X m)
    (hrss : ∀ m c r, SamePrefix start p m → 0 < card m → card m < X.nr →
      fitModel svd X y m = some (c, r) → 0 < r)
    (m : List Bool) (hm : SamePrefix start p m) (hpos : 0 < card m) (hrows : card m < X.nr)
    (c : List ℝ) (r : ℝ) (hf : fitModel svd X y m = some (c, r))
    (htol : (∃ g, SamePrefix start p g ∧ X.nr ≤ card g) → rssTol ≤ r) :
    lo ≤ aic (card m) X.nr r ∧ (r ≤ maxFloat64 → aic (card m) X.nr r ≤ up) :=
  bounds_bracket (D := (0 < ·)) (fun k k' n r r' => C02_aic_mono k k' n r r') rssTol_pos hy hlen hb hexact hrss hm
    hpos hrows hf htol

/-- For a model with at least one feature and `start ≤ len(model)` the bounds do not panic. -/
theorem C03_no_panic (svd : Mat ℝ → SVD ℝ) (X : Mat ℝ) (y : List ℝ) (p : List Bool) (start : Nat)
    (hy : y.length = X.nr) (hlen : p.length ≤ X.nc) (hstart : start ≤ p.length)
    (hpos : 0 < card p) :
    (∃ b, boundsAIC svd p start X y = some b) ∧ ∃ b, boundsAICC svd p start X y = some b :=
  ⟨bounds_eq_some aic hy hlen hstart hpos, bounds_eq_some aicc hy hlen hstart hpos⟩

/-- If no model of the subtree has a feature, and there are data, the bounds panic. -/
theorem C03_panic_no_feature (svd : Mat ℝ → SVD ℝ) (X : Mat ℝ) (y : List ℝ) (p : List Bool)
    (hp : card p = 0) (hnr : 0 < X.nr) : boundsAICC svd p p.length X y = none := by
  have hg : gcs p p.length = some p := by
    rw [gcs_eq_some (le_refl _), Option.some.injEq]
    refine List.ext_getElem? fun i => ?_
    rw [extreme_spec _ _ _ (le_refl _), if_neg (by omega)]
  have hl : lcs p p.length = some p := by
    rw [lcs_eq_some (le_refl _), Option.some.injEq]
    refine List.ext_getElem? fun i => ?_
    rw [extreme_spec _ _ _ (le_refl _), if_neg (by omega)]
  have h1 : boundsRssGcs svd p X y = none := by
    rw [boundsRssGcs, numFeatures_eq_card, hp, if_pos hnr]
    have : getDesignMatrix p X = none := by
      rw [getDesignMatrix, numFeatures_eq_card, hp]; simp
    simp [fitModel, this]
  simp only [boundsAICC, bounds, hg, hl, h1]
  cases boundsRssLcs svd p X y <;> rfl

/-! ### Concrete cases -/

theorem unitX_rss (n k : Nat) (h : k < n) (y : List ℝ) (hy : y.length = n) (hk : 1 ≤ (vec y k) ^ 2)
    (m : List Bool) (hm : m.length = k) (c : List ℝ) (r : ℝ) (hpos : 0 < card m)
    (hf : fitModel orthSvd (unitX n k) y m = some (c, r)) : rssTol ≤ r := by
  obtain ⟨c', h1, -⟩ := fitModel_eq_some (svd := orthSvd) (X := (unitX n k : Mat ℝ)) hy hpos hm.le
  rw [h1, Option.some.injEq, Prod.mk.injEq] at hf
  rw [← hf.2]
  have h0 : lin (designOf (unitX n k : Mat ℝ) m) (vec c') k = 0 := by
    refine sum_eq_zero fun j hj => ?_
    have hj' : j < (features m).length := mem_range.1 hj
    have : (features m).getD j 0 < k := by
      rw [List.getD_eq_getElem?_getD]
      simp only [hj', List.getElem?_eq_getElem, Option.getD_some]
      exact hm ▸ features_lt (List.getElem_mem hj')
    simp only [designOf, unitX]
    rw [if_neg (by omega), zero_mul]
  have : (lin (designOf (unitX n k : Mat ℝ) m) (vec c') k - vec y k) ^ 2 ≤
      sse (designOf (unitX n k : Mat ℝ) m) (vec c') (vec y) :=
    single_le_sum (f := fun i => (lin (designOf (unitX n k : Mat ℝ) m) (vec c') i - vec y i) ^ 2)
      (fun i _ => sq_nonneg _) (mem_range.2 h)
  rw [h0] at this
  have ht : rssTol ≤ 1 := by unfold rssTol; norm_num
  nlinarith

/-- All hypotheses of C03 hold for the first 3 unit vectors of length 4 and `y = (1,2,3,4)`. -/
example : ∃ lo up, boundsAICC orthSvd [true, false, false] 1 (unitX 4 3) [1, 2, 3, 4] = some (lo, up) ∧
    (∀ m, SamePrefix 1 [true, false, false] m → 0 < card m → card m < 4 →
      ExactFit orthSvd (unitX 4 3 : Mat ℝ) m) ∧
    (∀ m c (r : ℝ), SamePrefix 1 [true, false, false] m → 0 < card m → card m < 4 →
      fitModel orthSvd (unitX 4 3) [1, 2, 3, 4] m = some (c, r) → 0 < r) ∧
    SamePrefix 1 [true, false, false] [true, true, false] := by
  obtain ⟨⟨lo, up⟩, hb⟩ := (C03_no_panic orthSvd (unitX 4 3) [1, 2, 3, 4] [true, false, false] 1 rfl
    (by decide) (by decide) (by decide)).2
  refine ⟨lo, up, hb, fun m hm _ _ => unitX_exact (by omega) hm.1.symm, fun m c r hm hp _ hf => ?_,
    rfl, fun i hi => ?_⟩
  · exact rssTol_pos.trans_le (unitX_rss 4 3 (by omega) _ rfl (by norm_num [vec]) m hm.1.symm c r hp hf)
  · rw [Nat.lt_one_iff.1 hi]; rfl

/-- The hypothesis on `RssTol` is needed: 2 rows, 2 columns, `y = (1, 1e-7)`.  The model with the
first feature alone has RSS `1e-14`, below the lower bound computed from `RssTol`. -/
theorem C03_rssTol_needed : ∃ lo up c r,
    (∀ m, m.length = 2 → ExactFit orthSvd (unitX 2 2 : Mat ℝ) m) ∧
    boundsAICC orthSvd [true, false] 1 (unitX 2 2) [1, 1 / 10 ^ 7] = some (lo, up) ∧
    fitModel orthSvd (unitX 2 2) [1, 1 / 10 ^ 7] [true, false] = some (c, r) ∧
    0 < r ∧ aicc 1 2 r < lo := by
  have hf : fitModel orthSvd (unitX 2 2) [1, 1 / 10 ^ 7] [true, false] =
      some ([1], (1 / 10 ^ 14 : ℝ)) := by
    obtain ⟨c, h1, h2, -⟩ := fitModel_eq_some (svd := orthSvd) (X := (unitX 2 2 : Mat ℝ))
      (y := [1, 1 / 10 ^ 7]) (m := [true, false]) rfl (by decide) (by decide)
    have e : designOf (unitX 2 2 : Mat ℝ) [true, false] =
        ⟨2, 1, fun j k => (unitX 2 2 : Mat ℝ).get j ([0].getD k 0)⟩ := rfl
    rw [e] at h1 h2
    simp [fit, orthSvd, invSigma, sum_range_succ, unitX] at h2
    rw [if_pos (by norm_num)] at h2
    rw [h1, ← h2]
    simp [sse, lin, sum_range_succ, vec, unitX]
    norm_num
  have hg : gcs [true, false] 1 = some [true, true] := rfl
  have hl : lcs [true, false] 1 = some [true, false] := rfl
  have h1 : boundsRssLcs orthSvd [true, false] (unitX 2 2) [1, 1 / 10 ^ 7] = some (1 / 10 ^ 14) := by
    rw [boundsRssLcs, if_pos (by decide), hf]; rfl
  have h2 : boundsRssGcs orthSvd [true, true] (unitX 2 2) [1, 1 / 10 ^ 7] = some rssTol := by
    rw [boundsRssGcs, if_neg (by decide)]
  refine ⟨aicc 1 2 rssTol, aicc 2 2 (1 / 10 ^ 14), _, _, fun m hm => unitX_exact (le_refl _) hm, ?_, hf, by positivity, ?_⟩
  · simp only [boundsAICC, bounds, hg, hl, h1, h2]
    rfl
  · show aicc 1 2 (1 / 10 ^ 14) < aicc 1 2 rssTol
    have : Real.log (1 / 10 ^ 14) < Real.log rssTol := by
      apply Real.log_lt_log (by positivity)
      unfold rssTol
      norm_num
    rw [aicc_eq, aicc_eq, aic, aic]
    push_cast
    linarith

end GoSelect
