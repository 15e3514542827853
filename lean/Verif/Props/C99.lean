import Verif.Model.ExtendedSearch
import Verif.Proofs.UnitDesign
import Verif.Props.C12_regression
import Verif.Props.C46
import Verif.Props.C93

/-!
C99: data with exact fits.  `SelectModel` still finds the best model, but the branch-and-bound command then saves an
empty file.

`marshal` and `unmarshal` are `json.Marshal` and `json.Unmarshal` on the structures of `Model.Json`: infinite numbers
cannot be marshalled, all else can, what was marshalled can be read, and the empty text is not JSON.
-/

namespace GoSelect

open Spec

/-! ### Specification -/

/-- A number that JSON can represent. -/
def Spec.IsNumber (x : EReal) : Prop := x ≠ ⊤ ∧ x ≠ ⊥

/-- All numbers of the structure can be represented. -/
def Spec.AllNumbers (j : HighscoreJson EReal) : Prop :=
  ∀ n ∈ j.items, IsNumber n.lower ∧ IsNumber n.upper ∧ IsNumber n.score ∧ ∀ c ∈ n.coeff, IsNumber c

/-- `encoding/json`. -/
structure Spec.JsonText {T : Type} (nil : T) (marshal : HighscoreJson EReal → Option T)
    (unmarshal : T → Option (HighscoreJson EReal)) : Prop where
  total : ∀ j, (marshal j).isSome ↔ AllNumbers j
  reads : ∀ j text, marshal j = some text → unmarshal text = some j
  empty : unmarshal nil = none

/-- The residual sum of squares of the least-squares fit of `m` is `r`. -/
def Spec.HasRss (X : Mat ℝ) (y : List ℝ) (m : List Bool) (r : ℝ) : Prop :=
  ∃ c, IsLeastSquares (designOf X m) c (vec y) ∧ r = sse (designOf X m) c (vec y)

/-- The target is a linear combination of the selected columns. -/
def Spec.FitsExactly (X : Mat ℝ) (y : List ℝ) (m : List Bool) : Prop :=
  ∃ c, ∀ i < X.nr, lin (designOf X m) c i = vec y i

/-- As `GoodData`, but models may fit exactly. -/
structure ExactData (svd : Mat ℝ → SVD ℝ) (X : Mat ℝ) (y : List ℝ) : Prop where
  rows : y.length = X.nr
  small : X.nr ≤ 2 ^ 63
  exact : ∀ m, m.length = X.nc → 0 < card m → card m < X.nr → ExactFit svd X m
  tiny : ∀ m c r, m.length = X.nc → 0 < card m → card m < X.nr →
    fitModel svd X y m = some (c, r) → r = 0 ∨ smallestFloat ≤ r
  tol : X.nr ≤ X.nc → ∀ m c r, m.length = X.nc → 0 < card m → card m < X.nr →
    fitModel svd X y m = some (c, r) → rssTol ≤ r

/-! ### The search -/

noncomputable instance : NegReverses EReal where
  neg_le_neg _ _ h := EReal.neg_le_neg_iff.2 h
  neg_le_of _ _ h := EReal.neg_le.1 h

theorem aiccExt_zero (k n : Nat) : aiccExt k n 0 = ⊥ := if_pos rfl

theorem aiccExt_pos {k n : Nat} {r : ℝ} (h : r ≠ 0) : aiccExt k n r = (aicc k n r : ℝ) := if_neg h

theorem aiccExt_mono : CritMono (0 ≤ ·) aiccExt := by
  intro k k' n r r' hk hr hrr
  by_cases h0 : r = 0
  · rw [h0, aiccExt_zero]; exact bot_le
  · have hpos : 0 < r := lt_of_le_of_ne hr (Ne.symm h0)
    rw [aiccExt_pos h0, aiccExt_pos (by linarith : r' ≠ 0), EReal.coe_le_coe_iff]
    exact C02_aicc_mono k k' n r r' hk hpos hrr

theorem extended_aiccOf {svd : Mat ℝ → SVD ℝ} {X : Mat ℝ} {y : List ℝ} {root : List Bool} {maxQueue : Int} {cutoff : ℝ}
    {m : List Bool} {c : List ℝ} {r : ℝ} (h : fitModel svd X y m = some (c, r)) :
    aiccOf (extendedSearch svd X y root maxQueue cutoff) m = aiccExt (card m) X.nr r := by
  simp [aiccOf, extendedSearch, h]

theorem fitModel_nonneg {svd : Mat ℝ → SVD ℝ} {X : Mat ℝ} {y : List ℝ} (hy : y.length = X.nr) {m : List Bool}
    (hlen : m.length ≤ X.nc) (hpos : 0 < card m) {c : List ℝ} {r : ℝ} (h : fitModel svd X y m = some (c, r)) :
    0 ≤ r := by
  obtain ⟨c', h1, -⟩ := fitModel_eq_some (svd := svd) hy hpos hlen
  rw [h1, Option.some.injEq, Prod.mk.injEq] at h
  rw [← h.2]
  exact Finset.sum_nonneg fun _ _ => sq_nonneg _

theorem ExactData.safeBounds {svd : Mat ℝ → SVD ℝ} {X : Mat ℝ} {y : List ℝ} (h : ExactData svd X y)
    (root : List Bool) (maxQueue : Int) (cutoff : ℝ) :
    SafeBounds (extendedSearch svd X y root maxQueue cutoff) [] := by
  refine ⟨fun p l m hp hl hpos hpre hm => ?_, fun m hm v hv hlt => ?_⟩
  · obtain ⟨h1, h2, h3⟩ := hm
    have h1' : m.length = X.nc := h1
    have hp' : p.length = X.nc := hp
    have hl' : l ≤ p.length := hp'.symm ▸ hl
    obtain ⟨c, hc, -⟩ := fitModel_eq_some (svd := svd) h.rows h2 h1'.le
    rw [extended_aiccOf hc]
    obtain ⟨⟨lo, up⟩, hb⟩ := bounds_eq_some (svd := svd) aiccExt h.rows hp'.le hl' hpos
    have hb' : (extendedSearch svd X y root maxQueue cutoff).bounds p l = (lo, up) := by
      simp [extendedSearch, hb]
    rw [hb']
    exact (bounds_bracket aiccExt_mono rssTol_pos.le h.rows hp'.le hb (fun m hm => h.exact m (hm.1 ▸ hp'))
      (fun m c r hm g1 g2 g3 => fitModel_nonneg h.rows (hm.1 ▸ hp'.le) g1 g3) hpre h2 h3 hc
      (fun hg => h.tol (many_columns hp' hg) m c _ h1' h2 h3 hc)).1
  · rcases hv with ⟨n, hn, -⟩ | ⟨m', ⟨h1, h2, h3⟩, rfl⟩ | rfl
    · simp at hn
    · have h1' : m'.length = X.nc := h1
      obtain ⟨c, hc, -⟩ := fitModel_eq_some (svd := svd) h.rows h2 h1'.le
      rw [neg_neg, extended_aiccOf hc] at hlt ⊢
      rcases h.tiny m' c _ h1' h2 h3 hc with h0 | h0
      · rw [h0, aiccExt_zero]; exact bot_le
      · rw [aiccExt_pos (smallestFloat_pos.trans_le h0).ne'] at hlt
        have hlt' : ((aicc (card m') X.nr (sse (designOf X m') (vec c) (vec y)) : ℝ) : EReal) <
            ((-(10 ^ 100) : ℝ) : EReal) := hlt
        rw [EReal.coe_lt_coe_iff] at hlt'
        exact absurd hlt' (not_lt.2 (aicc_ge_huge h.small h0))
    · rw [neg_neg] at hlt
      have hlt' : ((maxFloat64 : ℝ) : EReal) < ((-(10 ^ 100) : ℝ) : EReal) := hlt
      rw [EReal.coe_lt_coe_iff] at hlt'
      have : 0 < maxFloat64 := by unfold maxFloat64; norm_num
      have : (0 : ℝ) < 10 ^ 100 := by positivity
      linarith

/-- `SelectModel` finds the best model also if models fit exactly; these count as better than all others. -/
theorem C99_optimal (svd : Mat ℝ → SVD ℝ) (X : Mat ℝ) (y : List ℝ) (hdata : ExactData svd X y)
    (root : List Bool) (hroot : root = List.replicate X.nc false ∨ X.nc < X.nr)
    (maxQueue : Int) (cutoff : ℝ) (M : Int) (hM : 2 ≤ M) (s : SState EReal)
    (h : SelectReaches (extendedSearch svd X y root maxQueue cutoff) M [] s)
    (hd : s.main = .done) (ht : s.torn = false) (ho : s.overflows = 0)
    (m : List Bool) (hlen : m.length = X.nc) (hpos : 0 < card m) (hrows : card m < X.nr) (hmr : m ≠ root) (r : ℝ)
    (hr : HasRss X y m r) :
    (0 < r → ((-aicc (card m) X.nr r : ℝ) : EReal) ≤ s.hs.bestScore) ∧ (r = 0 → s.hs.bestScore = ⊤) := by
  obtain ⟨c, hc, hfit, hcl⟩ := fitModel_eq_some (svd := svd) hdata.rows hpos hlen.le
  have hls := fit_leastSquares (hdata.exact m hlen hpos hrows) hfit
  obtain ⟨c', hc', rfl⟩ := hr
  have hsse : sse (designOf X m) c' (vec y) = sse (designOf X m) (vec c) (vec y) :=
    le_antisymm (hc' _) (hls _)
  have := (C12_no_better_model_extended _ M hM [] (hdata.safeBounds root maxQueue cutoff) hroot s h hd ht ho
    m hlen hpos hrows hmr).2
  have e := extended_aiccOf (root := root) (maxQueue := maxQueue) (cutoff := cutoff) hc
  unfold aiccOf at e
  rw [e] at this
  rw [hsse]
  refine ⟨fun h0 => ?_, fun h0 => ?_⟩
  · rw [aiccExt_pos h0.ne'] at this
    exact this
  · rw [h0, aiccExt_zero, EReal.neg_bot] at this
    exact top_le_iff.1 this

/-! ### The file -/

theorem nodeToJson_numbers {n : Node EReal} {j : NodeJson EReal} (h : nodeToJson n = some j) :
    j.lower = n.lower ∧ j.upper = n.upper ∧ j.score = n.score ∧ j.coeff = n.coeff := by
  unfold nodeToJson at h
  split at h
  · cases h
  · rw [Option.some.injEq] at h
    subst h
    exact ⟨rfl, rfl, rfl, rfl⟩

/-- All numbers of a node can be represented. -/
def NodeNumbers (n : Node EReal) : Prop :=
  IsNumber n.lower ∧ IsNumber n.upper ∧ IsNumber n.score ∧ ∀ c ∈ n.coeff, IsNumber c

theorem highscoreToJson_numbers (h : Highscore EReal) :
    ∃ j, highscoreToJson h = some j ∧ (AllNumbers j ↔ ∀ n ∈ h.items, NodeNumbers n) := by
  obtain ⟨js, hjs⟩ := mapM_isSome (l := h.items) (f := nodeToJson) fun n _ => C46_node_no_panic n
  refine ⟨⟨h.maxItems, js⟩, by simp [highscoreToJson, hjs], ?_⟩
  have hlen := mapM_length hjs
  have hnum : ∀ i (hi : i < h.items.length), _ := fun i hi => nodeToJson_numbers (mapM_getElem hjs i hi)
  constructor
  · intro ha n hn
    obtain ⟨i, hi, rfl⟩ := List.getElem_of_mem hn
    obtain ⟨e1, e2, e3, e4⟩ := hnum i hi
    have := ha js[i] (List.getElem_mem _)
    rw [e1, e2, e3, e4] at this
    exact this
  · intro ha n hn
    obtain ⟨i, hi, rfl⟩ := List.getElem_of_mem hn
    have hi' : i < js.length := hi
    obtain ⟨e1, e2, e3, e4⟩ := hnum i (by omega)
    have := ha h.items[i] (List.getElem_mem _)
    unfold NodeNumbers at this
    rw [← e1, ← e2, ← e3, ← e4] at this
    exact this

theorem isNumber_coe (x : ℝ) : IsNumber (x : EReal) := ⟨EReal.coe_ne_top x, EReal.coe_ne_bot x⟩

theorem isNumber_neg {x : EReal} : IsNumber (-x) ↔ IsNumber x := by
  unfold IsNumber
  rw [Ne, Ne, EReal.neg_eq_top_iff, EReal.neg_eq_bot_iff]
  exact and_comm

theorem isNumber_aiccExt {k n : Nat} {r : ℝ} : IsNumber (aiccExt k n r) ↔ r ≠ 0 := by
  by_cases h : r = 0
  · simp [h, aiccExt_zero, IsNumber]
  · rw [aiccExt_pos h]
    exact ⟨fun _ => h, fun _ => isNumber_coe _⟩

/-- The RSS that the code computes is zero iff the target is a combination of the columns. -/
theorem rss_zero_iff {svd : Mat ℝ → SVD ℝ} {X : Mat ℝ} {y : List ℝ} (h : ExactData svd X y) {m : List Bool}
    (hlen : m.length = X.nc) (hpos : 0 < card m) (hrows : card m < X.nr) {c : List ℝ} {r : ℝ}
    (hf : fitModel svd X y m = some (c, r)) : r = 0 ↔ FitsExactly X y m := by
  obtain ⟨c', h1, h2, -⟩ := fitModel_eq_some (svd := svd) h.rows hpos hlen.le
  have hls := fit_leastSquares (h.exact m hlen hpos hrows) h2
  rw [h1, Option.some.injEq, Prod.mk.injEq] at hf
  rw [← hf.2]
  constructor
  · intro h0
    refine ⟨vec c', fun i hi => ?_⟩
    have := (Finset.sum_eq_zero_iff_of_nonneg fun _ _ => sq_nonneg _).1 h0 i (Finset.mem_range.2 hi)
    have := pow_eq_zero_iff (two_ne_zero) |>.1 this
    linarith
  · rintro ⟨b, hb⟩
    refine le_antisymm ((hls b).trans (le_of_eq ?_)) (Finset.sum_nonneg fun _ _ => sq_nonneg _)
    exact Finset.sum_eq_zero fun i hi => by rw [hb i (Finset.mem_range.1 hi), sub_self]; norm_num

theorem FitsExactly.mono {svd : Mat ℝ → SVD ℝ} {X : Mat ℝ} {y : List ℝ} (h : ExactData svd X y) {a b : List Bool}
    (ha : a.length = X.nc) (hb : b.length = X.nc) (hsub : ContainedIn a b) (hpos : 0 < card a) (hrows : card b < X.nr)
    (hf : FitsExactly X y a) : FitsExactly X y b := by
  have hcard := card_le_of_contained hsub
  obtain ⟨c, h1, -⟩ := fitModel_eq_some (svd := svd) h.rows hpos ha.le
  obtain ⟨c', h2, -⟩ := fitModel_eq_some (svd := svd) h.rows (hpos.trans_le hcard) hb.le
  have := fitModel_nested ha.le hb.le h.rows hsub hpos (h.exact b hb (hpos.trans_le hcard) hrows) h1 h2
  rw [← rss_zero_iff h ha hpos (hcard.trans_lt hrows) h1] at hf
  rw [← rss_zero_iff h hb (hpos.trans_le hcard) hrows h2]
  refine le_antisymm (hf ▸ this) (Finset.sum_nonneg fun _ _ => sq_nonneg _)

theorem boundedChild_fields {α : Type} [Zero α] [Neg α] {S : Search α} {p c : Node α} {f : Bool}
    (h : boundedChild S p f = some (some c)) :
    c.coeff = [] ∧ c.upper = (if 0 < numFeatures c.model then (S.bounds c.model c.level).2 else S.huge) := by
  unfold boundedChild at h
  split at h
  · cases h
  · rename_i child hch
    have hcoeff : child.coeff = [] := by
      unfold getChildNode at hch
      cases f
      · simp only [Bool.false_eq_true, if_false, Option.bind_eq_bind, Option.bind_some] at hch
        cases hch
        rfl
      · simp only [if_true, Option.bind_eq_bind, Option.bind_eq_some_iff] at hch
        obtain ⟨m, -, hm⟩ := hch
        cases hm
        rfl
    simp only at h
    split at h
    · split at h
      · cases h; exact ⟨hcoeff, by simp_all⟩
      · cases h; exact ⟨hcoeff, by simp_all⟩
    · cases h

/-- When the numbers of a listed node can be represented. -/
theorem listed_numbers {svd : Mat ℝ → SVD ℝ} {X : Mat ℝ} {y : List ℝ} (hdata : ExactData svd X y) {root : List Bool}
    {maxQueue : Int} {cutoff : ℝ} {n : Node EReal} (hm : MadeScored (extendedSearch svd X y root maxQueue cutoff) n)
    (hnew : isNewNode n = true) :
    NodeNumbers n ↔ (0 < card n.model → ¬ FitsExactly X y n.model ∧
      ((∀ m, SamePrefix n.level n.model m → card m < X.nr) →
        ∀ m, SamePrefix n.level n.model m → 0 < card m → ¬ FitsExactly X y m)) := by
  obtain ⟨hlen, hrows, hs1, hs2⟩ := madeScored_spec hm hnew
  obtain ⟨n₀, hn₀, rfl⟩ := hm
  have hlev := hn₀.level
  obtain ⟨p, f, hp, hb⟩ := hn₀
  obtain ⟨hcoeff, hup⟩ := boundedChild_fields hb
  obtain ⟨-, -, -, -, hlo⟩ := boundedChild_some hp hb
  rw [numFeatures_eq_card] at hup hlo
  have hupper : (scoreWorker (extendedSearch svd X y root maxQueue cutoff) n₀).upper = n₀.upper := by
    unfold scoreWorker; split <;> rfl
  have hlen' : n₀.model.length = X.nc := by rw [scoreWorker_model] at hlen; exact hlen
  have hrows' : card n₀.model < X.nr := by rw [scoreWorker_model] at hrows; exact hrows
  have hlev' : n₀.level ≤ n₀.model.length := by rw [hlen']; exact hlev.2
  unfold NodeNumbers
  rw [scoreWorker_lower, hupper, hlo, hup]
  rw [scoreWorker_model, scoreWorker_level]
  rw [scoreWorker_model] at hs1 hs2
  rcases Nat.eq_zero_or_pos (card n₀.model) with hz | hz
  · rw [hs2 hz, hz]
    simp only [lt_irrefl, if_false, false_imp_iff, iff_true]
    refine ⟨isNumber_neg.2 (isNumber_coe _), isNumber_coe _, isNumber_neg.2 (isNumber_coe _), ?_⟩
    have : (scoreWorker (extendedSearch svd X y root maxQueue cutoff) n₀).coeff = n₀.coeff := by
      unfold scoreWorker
      rw [if_neg (by rw [numFeatures_eq_card]; omega)]
    rw [this, hcoeff]
    simp
  · obtain ⟨e1, e2⟩ := hs1 hz
    obtain ⟨c, hc, -⟩ := fitModel_eq_some (svd := svd) hdata.rows hz hlen'.le
    have e3 := extended_aiccOf (root := root) (maxQueue := maxQueue) (cutoff := cutoff) hc
    unfold aiccOf at e3
    have hcn : ∀ x ∈ (extendedSearch svd X y root maxQueue cutoff).fit n₀.model, IsNumber x := by
      intro x hx
      obtain ⟨v, -, rfl⟩ := List.mem_map.1 hx
      exact isNumber_coe v
    rw [if_pos hz, if_pos hz, e1, e2, e3, isNumber_neg, isNumber_aiccExt]
    rw [ne_eq, rss_zero_iff hdata hlen' hz hrows' hc]
    obtain ⟨g, hg, hgp, hgs⟩ := C01_gcs_greatest n₀.model n₀.level hlev'
    obtain ⟨l, hl, hlp, hls⟩ := C01_lcs_least n₀.model n₀.level hlev'
    have hself : SamePrefix n₀.level n₀.model n₀.model := ⟨rfl, fun _ _ => rfl⟩
    have hgpos : 0 < card g := hz.trans_le (card_le_of_contained (hgs _ hself))
    have hlg : l.length = X.nc := by rw [← hlp.1]; exact hlen'
    have hgg : g.length = X.nc := by rw [← hgp.1]; exact hlen'
    obtain ⟨cg, hcg, -⟩ := fitModel_eq_some (svd := svd) hdata.rows hgpos hgg.le
    obtain ⟨⟨lo, up⟩, hbnd⟩ := bounds_eq_some (svd := svd) aiccExt hdata.rows hlen'.le hlev' hz
    have hb' : (extendedSearch svd X y root maxQueue cutoff).bounds n₀.model n₀.level = (lo, up) := by
      simp [extendedSearch, hbnd]
    rw [hb']
    simp only [bounds, hg, hl] at hbnd
    split at hbnd
    case h_2 => cases hbnd
    rename_i rl rg hrl hrg
    rw [Option.some.injEq, Prod.mk.injEq] at hbnd
    obtain ⟨rfl, rfl⟩ := hbnd
    simp only [isNumber_aiccExt]
    -- the RSS of the smallest model
    have hrl' : ¬ FitsExactly X y n₀.model → rl ≠ 0 := by
      intro hn
      unfold boundsRssLcs at hrl
      rw [numFeatures_eq_card] at hrl
      split at hrl
      · rename_i hlpos
        obtain ⟨cl, hcl, -⟩ := fitModel_eq_some (svd := svd) hdata.rows hlpos hlg.le
        have hsub := hls _ hself
        rw [hcl, Option.map_some, Option.some.injEq] at hrl
        rw [← hrl]
        intro h0
        exact hn (FitsExactly.mono hdata hlg hlen' hsub hlpos hrows'
          ((rss_zero_iff hdata hlg hlpos ((card_le_of_contained hsub).trans_lt hrows') hcl).1 h0))
      · rw [Option.some.injEq] at hrl
        rw [← hrl]
        unfold maxFloat64; norm_num
    -- the RSS of the largest model
    have hrg' : rg ≠ 0 ↔ (card g < X.nr → ¬ FitsExactly X y g) := by
      unfold boundsRssGcs at hrg
      rw [numFeatures_eq_card] at hrg
      split at hrg
      · rename_i hlt
        rw [hcg, Option.map_some, Option.some.injEq] at hrg
        rw [← hrg, ne_eq, rss_zero_iff hdata hgg hgpos hlt hcg]
        exact ⟨fun h _ => h, fun h => h hlt⟩
      · rename_i hlt
        rw [Option.some.injEq] at hrg
        rw [← hrg]
        exact ⟨fun _ h => absurd h hlt, fun _ => rssTol_pos.ne'⟩
    have hall : (∀ m, SamePrefix n₀.level n₀.model m → card m < X.nr) ↔ card g < X.nr :=
      ⟨fun h => h g hgp, fun h m hm => (card_le_of_contained (hgs m hm)).trans_lt h⟩
    rw [hall, hrg']
    constructor
    · rintro ⟨h1, h2, h3, h4⟩ _
      exact ⟨h3, fun hlt m hmp hmpos hfit => h1 hlt
        (FitsExactly.mono hdata (by rw [← hmp.1]; exact hlen') hgg (hgs m hmp) hmpos hlt hfit)⟩
    · intro h
      obtain ⟨h1, h2⟩ := h hz
      exact ⟨fun hlt => h2 hlt g hgp hgpos, hrl' h1, h1, hcn⟩

/-- For every data set, root model and schedule, at any time: what `saveHighscoreList` writes can be read iff no listed
model fits exactly and below no listed model (that is, among the models that agree with it up to its level, if these all
have fewer features than rows) there is one that fits exactly.  Otherwise the file is empty. -/
theorem C99_file_partial (svd : Mat ℝ → SVD ℝ) (X : Mat ℝ) (y : List ℝ) (hdata : ExactData svd X y) (root : List Bool)
    (maxQueue : Int) (cutoff : ℝ) (M : Int) (hM : M ≠ 1) (s : SState EReal)
    (h : SelectReaches (extendedSearch svd X y root maxQueue cutoff) M [] s)
    {T : Type} (nil : T) (marshal : HighscoreJson EReal → Option T) (unmarshal : T → Option (HighscoreJson EReal))
    (hjson : JsonText nil marshal unmarshal) :
    ((∃ j, unmarshal (saveHighscoreList nil marshal s.hs) = some j) ↔
      ∀ n ∈ s.hs.items, 0 < card n.model → ¬ FitsExactly X y n.model ∧
        ((∀ m, SamePrefix n.level n.model m → card m < X.nr) →
          ∀ m, SamePrefix n.level n.model m → 0 < card m → ¬ FitsExactly X y m)) ∧
    ((¬ ∃ j, unmarshal (saveHighscoreList nil marshal s.hs) = some j) → saveHighscoreList nil marshal s.hs = nil) := by
  have hi := SInv.reach hM h
  have hist := hi.hist
  rw [List.nil_append] at hist
  obtain ⟨j, hj, hnum⟩ := highscoreToJson_numbers s.hs
  have hsave : saveHighscoreList nil marshal s.hs = (marshal j).getD nil := by
    simp [saveHighscoreList, hj]
  have hread : (∃ j, unmarshal (saveHighscoreList nil marshal s.hs) = some j) ↔ AllNumbers j := by
    rw [hsave, ← hjson.total]
    cases hm : marshal j with
    | none => simp [hjson.empty]
    | some text => simp [hjson.reads j text hm]
  refine ⟨?_, fun hn => ?_⟩
  · rw [hread, hnum]
    refine forall₂_congr fun n hn => ?_
    obtain ⟨a, b⟩ := hi.logOk n (mem_ranking.1 ((insertAll_inv hist).2.sub.subset hn))
    exact listed_numbers hdata a b
  · rw [hread, ← hjson.total] at hn
    rw [hsave]
    cases hm : marshal j with
    | none => rfl
    | some text => rw [hm] at hn; simp at hn

/-- If no model fits exactly, the file can be read, whenever it is written. -/
theorem C99_no_exact_fit (svd : Mat ℝ → SVD ℝ) (X : Mat ℝ) (y : List ℝ) (hdata : ExactData svd X y) (root : List Bool)
    (maxQueue : Int) (cutoff : ℝ) (M : Int) (hM : M ≠ 1) (s : SState EReal)
    (h : SelectReaches (extendedSearch svd X y root maxQueue cutoff) M [] s)
    {T : Type} (nil : T) (marshal : HighscoreJson EReal → Option T) (unmarshal : T → Option (HighscoreJson EReal))
    (hjson : JsonText nil marshal unmarshal)
    (hno : ∀ m, m.length = X.nc → 0 < card m → card m < X.nr → ¬ FitsExactly X y m) :
    saveHighscoreList nil marshal s.hs ≠ nil := by
  have hlen := (C13_each_model_once _ M hM s h).2
  obtain ⟨j, hj⟩ := (C99_file_partial svd X y hdata root maxQueue cutoff M hM s h nil marshal unmarshal hjson).1.2
    fun n hn hpos => by
      obtain ⟨h1, -, h2⟩ := hlen n hn
      have h1' : n.model.length = X.nc := h1
      exact ⟨hno _ h1' hpos h2, fun hlt m hm hmpos => hno m (by rw [← hm.1]; exact h1') hmpos (hlt m hm)⟩
  intro h0
  rw [h0, hjson.empty] at hj
  cases hj

/-- If it can be read, the list is restored (the condition on the capacity is that of C46). -/
theorem C99_reload_partial (svd : Mat ℝ → SVD ℝ) (X : Mat ℝ) (y : List ℝ) (root : List Bool)
    (maxQueue : Int) (cutoff : ℝ) (M M' : Int) (hM : M ≠ 1) (s : SState EReal)
    (h : SelectReaches (extendedSearch svd X y root maxQueue cutoff) M [] s)
    {T : Type} (nil : T) (marshal : HighscoreJson EReal → Option T) (unmarshal : T → Option (HighscoreJson EReal))
    (hjson : JsonText nil marshal unmarshal) (hsaved : saveHighscoreList nil marshal s.hs ≠ nil) (z : Node EReal)
    (hroom : (s.hs.len : Int) < M ∨ ∃ pre a b, s.hs.items = pre ++ [a, b] ∧ a.score = b.score) :
    (unmarshal (saveHighscoreList nil marshal s.hs)).bind (highscoreOfJson z (newHighscore M')) =
      some ⟨s.hs.items.map (withFlip z.wasFlipped), M⟩ := by
  have hi := SInv.reach hM h
  have hist := hi.hist
  rw [List.nil_append] at hist
  cases ht : (highscoreToJson s.hs).bind marshal with
  | none => rw [saveHighscoreList, ht] at hsaved; simp at hsaved
  | some text =>
    rw [saveHighscoreList, ht, Option.getD_some]
    exact C46_list_partial marshal unmarshal hjson.reads M M' s.log s.hs hist z text ht hroom

/-- If a model other than the root model fits exactly, the command ends with an empty file: all models found are lost. -/
theorem C99_lost (svd : Mat ℝ → SVD ℝ) (X : Mat ℝ) (y : List ℝ) (hdata : ExactData svd X y)
    (root : List Bool) (hroot : root = List.replicate X.nc false ∨ X.nc < X.nr)
    (maxQueue : Int) (cutoff : ℝ) (M : Int) (hM : 2 ≤ M) (s : SState EReal)
    (h : SelectReaches (extendedSearch svd X y root maxQueue cutoff) M [] s)
    (hd : s.main = .done) (ht : s.torn = false) (ho : s.overflows = 0)
    (m : List Bool) (hlen : m.length = X.nc) (hpos : 0 < card m) (hrows : card m < X.nr) (hmr : m ≠ root)
    (hfit : FitsExactly X y m)
    {T : Type} (nil : T) (marshal : HighscoreJson EReal → Option T) (unmarshal : T → Option (HighscoreJson EReal))
    (hjson : JsonText nil marshal unmarshal) :
    0 < s.hs.len ∧ saveHighscoreList nil marshal s.hs = nil := by
  obtain ⟨c, hc, hf, hcl⟩ := fitModel_eq_some (svd := svd) hdata.rows hpos hlen.le
  have hls := fit_leastSquares (hdata.exact m hlen hpos hrows) hf
  have htop := (C99_optimal svd X y hdata root hroot maxQueue cutoff M hM s h hd ht ho m hlen hpos hrows hmr _
    ⟨vec c, hls, rfl⟩).2 ((rss_zero_iff hdata hlen hpos hrows hc).2 hfit)
  have hlen' := (C12_no_better_model_extended _ M hM [] (hdata.safeBounds root maxQueue cutoff) hroot s h hd ht ho
    m hlen hpos hrows hmr).1
  refine ⟨hlen', ?_⟩
  obtain ⟨j, hj, hnum⟩ := highscoreToJson_numbers s.hs
  have hnot : ¬ AllNumbers j := by
    rw [hnum]
    intro hall
    cases hitems : s.hs.items with
    | nil => rw [Highscore.len, hitems] at hlen'; simp at hlen'
    | cons n rest =>
      have hn := (hall n (by rw [hitems]; simp)).2.2.1.1
      rw [Highscore.bestScore, hitems] at htop
      exact hn htop
  rw [← hjson.total] at hnot
  rw [saveHighscoreList, hj, Option.bind_some]
  cases hm : marshal j with
  | none => rfl
  | some text => rw [hm] at hnot; simp at hnot

/-! ### A concrete data set -/

namespace ExactExample

/-- Three unit vectors of length 5; the target is twice the second plus three times the third. -/
noncomputable def X : Mat ℝ := unitX 5 3

def y : List ℝ := [0, 2, 3, 0, 0]

theorem rss_eq {m : List Bool} (hm : m.length = 3) (hpos : 0 < card m) {c : List ℝ} {r : ℝ}
    (h : fitModel orthSvd X y m = some (c, r)) :
    r = (if HasFeature m 1 then 0 else 4) + (if HasFeature m 2 then 0 else 9) := by
  obtain ⟨c', f1, -⟩ := unitX_fitModel (K := ℝ) (n := 5) (k := 3) (by norm_num) (y := y) rfl hm hpos
  have h' : fitModel orthSvd (unitX 5 3 : Mat ℝ) y m = some (c, r) := h
  rw [f1, Option.some.injEq, Prod.mk.injEq] at h'
  rw [← h'.2]
  simp only [Finset.sum_range_succ, Finset.sum_range_zero]
  have e0 : vec y 0 = 0 := rfl
  have e1 : vec y 1 = 2 := rfl
  have e2 : vec y 2 = 3 := rfl
  have e3 : vec y 3 = 0 := rfl
  have e4 : vec y 4 = 0 := rfl
  rw [e0, e1, e2, e3, e4]
  norm_num

theorem data : ExactData orthSvd X y where
  rows := rfl
  small := by show (5 : Nat) ≤ 2 ^ 63; norm_num
  exact m hm _ _ := unitX_exact (by norm_num) hm
  tiny m c r hm hp _ hf := by
    have h4 : smallestFloat ≤ 4 := by
      unfold smallestFloat
      exact (div_le_self (by norm_num) (one_le_pow₀ (by norm_num))).trans (by norm_num)
    rw [rss_eq hm hp hf]
    split <;> split
    · left; norm_num
    · right; linarith
    · right; linarith
    · right; linarith
  tol h := absurd h (by show ¬ 5 ≤ 3; norm_num)

theorem fits : FitsExactly X y [false, true, true] := by
  obtain ⟨c, h1, -⟩ := fitModel_eq_some (svd := orthSvd) (X := X) (y := y) (m := [false, true, true]) rfl (by decide)
    (by show 3 ≤ 3; norm_num)
  refine (rss_zero_iff data rfl (by decide) (by show 2 < 5; norm_num) h1).1 ?_
  rw [rss_eq rfl (by decide) h1, if_pos (by unfold HasFeature; decide), if_pos (by unfold HasFeature; decide)]
  norm_num

end ExactExample

/-- Data without exact fits: all hypotheses of `C99_no_exact_fit` can be met. -/
example : ExactData orthSvd (unitX 5 3) [1, 2, 3, 4, 5] ∧
    ∀ m, m.length = 3 → 0 < card m → card m < 5 → ¬ FitsExactly (unitX 5 3) [1, 2, 3, 4, 5] m := by
  have hd : ExactData orthSvd (unitX 5 3) [1, 2, 3, 4, 5] :=
    { rows := rfl
      small := by show (5 : Nat) ≤ 2 ^ 63; norm_num
      exact := fun m hm _ _ => unitX_exact (by norm_num) hm
      tiny := fun m c r hm hp _ hf => .inr (smallestFloat_le_tol.trans
        (unitX_rss 5 3 (by omega) _ rfl (by norm_num [vec]) m hm c r hp hf))
      tol := fun h => absurd h (by show ¬ 5 ≤ 3; omega) }
  refine ⟨hd, fun m hm hp hr hfit => ?_⟩
  obtain ⟨c, h1, -⟩ := fitModel_eq_some (svd := orthSvd) (X := (unitX 5 3 : Mat ℝ)) (y := [1, 2, 3, 4, 5]) rfl hp
    (by rw [hm]; exact le_refl 3)
  have h0 := (rss_zero_iff hd hm hp hr h1).2 hfit
  have := unitX_rss 5 3 (by omega) _ rfl (by norm_num [vec]) m hm _ _ hp h1
  rw [h0] at this
  exact absurd this (not_le.2 rssTol_pos)

open Classical in
/-- There are such functions. -/
example : JsonText (none : Option (HighscoreJson EReal)) (fun j => if AllNumbers j then some (some j) else none) id where
  total j := by by_cases h : AllNumbers j <;> simp [h]
  reads j text h := by
    split at h
    · cases h; rfl
    · cases h
  empty := rfl

/-- The claim that the file of a finished search holds the list is false: on this data set every search that ends (and
there is one) leaves an empty file, although it found the model that fits exactly. -/
theorem C99_refuted {T : Type} (nil : T) (marshal : HighscoreJson EReal → Option T)
    (unmarshal : T → Option (HighscoreJson EReal)) (hjson : JsonText nil marshal unmarshal) :
    (∃ s, SelectReaches (extendedSearch orthSvd ExactExample.X ExactExample.y [false, false, false] 10000000 0) 10 [] s ∧
      s.main = .done ∧ s.torn = false) ∧
    ∀ s, SelectReaches (extendedSearch orthSvd ExactExample.X ExactExample.y [false, false, false] 10000000 0) 10 [] s →
      s.main = .done → s.torn = false → 0 < s.hs.len ∧ saveHighscoreList nil marshal s.hs = nil := by
  refine ⟨?_, fun s h hd ht => ?_⟩
  · exact C93_can_end _ 10 (by norm_num) [] (newHighscore 10) _ rfl rfl
  · refine C99_lost orthSvd ExactExample.X ExactExample.y ExactExample.data _ (.inl rfl) _ _ 10 (by norm_num) s h hd ht
      (C93_no_eviction _ 10 (by norm_num) [] s h (by show (2 : Int) ^ 2 ≤ 10000000; norm_num)) [false, true, true] rfl
      (by decide) (by show 2 < 5; norm_num) (by decide) ExactExample.fits nil marshal unmarshal hjson

end GoSelect
