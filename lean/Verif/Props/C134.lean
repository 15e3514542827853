import Verif.Proofs.SelectAny
import Verif.Proofs.SelectRun
import Verif.Proofs.NonFinite
import Verif.Model.FlSearch
import Verif.Props.C133
import Verif.Props.C03
import Verif.Props.C14_C16

/-!
C134: `SelectModel` when the criterion of some or all models is NaN.

`SelectReaches S M pre s` with `s.main = .done`: `SelectModel` has returned, started with a highscore list of capacity
`M` into which the nodes `pre` were inserted; `s.log` are the nodes it has inserted, in this order.  `s.torn` and
`s.overflows` as in C12.
-/

namespace GoSelect

open Spec
open scoped List

section
variable {K : Type} [AddCommGroup K] [LinearOrder K] [IsOrderedAddMonoid K]

theorem Fl.neg_lt_swap {a b : Fl K} (h : -a < b) : -b < a := by
  change Fl.ltB (Fl.neg a) b = true at h
  change Fl.ltB (Fl.neg b) a = true
  cases a <;> cases b <;> simp_all [Fl.ltB, Fl.neg]
  exact neg_lt.1 h

/-- No lower bound exceeds the criterion of a model that it covers; a bound or a criterion may be NaN. -/
def Spec.NanBounds (S : Search (Fl K)) : Prop :=
  (∀ p l m, p.length = S.ncols → l ≤ S.ncols → 0 < card p → SamePrefix l p m → Candidate S m →
    ¬ aiccOf S m < (S.bounds p l).1) ∧
  ∀ m, Candidate S m → ¬ aiccOf S m < -S.huge

/-- Every model other than the root with a number as criterion was inserted, or a node with a larger score. -/
theorem nan_dominated {S : Search (Fl K)} {M : Int} (hM : 2 ≤ M) {pre : List (Node (Fl K))} (hb : NanBounds S)
    (hr : RowSafe S) {s : SState (Fl K)} (h : SelectReaches S M pre s) (hd : s.main = .done) (ht : s.torn = false)
    (ho : s.overflows = 0) {m : List Bool} (hm : Candidate S m) (hroot : m ≠ S.root) (hn : aiccOf S m ≠ .nan) :
    ∃ n ∈ pre ++ s.log, n.score ≠ .nan ∧ ¬ n.score < -aiccOf S m := by
  have hi := SInv.reach (by omega : M ≠ 1) h
  rcases all_seen hM hr h hd ht ho m hm hroot with ⟨n, hn1, rfl⟩ | ⟨c, h1, h2, l, hs, h3, h4, h5, h6⟩
  · obtain ⟨a, b⟩ := hi.logOk n hn1
    obtain ⟨-, -, h3, -⟩ := madeScored_spec a b
    have h4 := (h3 hm.2.1).1
    refine ⟨n, by simp [hn1], ?_, ?_⟩
    · rw [h4]
      intro h0
      apply hn
      unfold aiccOf
      change Fl.neg _ = _ at h0
      generalize S.aicc (card n.model) S.nrows (S.rss n.model) = v at *
      cases v <;> simp_all [Fl.neg]
    · rw [h4]
      exact Fl.lt_irrefl' _
  · obtain ⟨n, hn1, hn2⟩ := bestScore_mem h5 (insertAll_ne_nil hM h3 h5)
    rw [← hn2] at h6
    have hlow : ¬ aiccOf S m < c.lower := by
      have hp := mem_covSelf h1 h2
      have hl := h1.level
      have hlen := h1.length
      obtain ⟨p, f, hp', hbc⟩ := h1
      obtain ⟨-, -, -, -, g5⟩ := boundedChild_some hp' hbc
      rw [g5]
      split
      · rename_i hpos
        rw [numFeatures_eq_card] at hpos
        exact hb.1 _ _ _ hlen hl.2 hpos hp hm
      · exact hb.2 m hm
    have h7 : -n.score < aiccOf S m := (Fl.lt_or_lt _ hn h6).resolve_right hlow
    have h8 : -aiccOf S m < n.score := Fl.neg_lt_swap h7
    exact ⟨n, h4.subset hn1, (Fl.ne_nan_of_lt h8).2, fun h9 => Fl.lt_irrefl' _ (Fl.lt_trans' h8 h9)⟩

/-- If there is a number in the list at all, then its first number is the score of an inserted node, and no model other
than the root has a better criterion that is a number. -/
theorem C134_first_number_partial {S : Search (Fl K)} {M : Int} (hM : 2 ≤ M) {pre : List (Node (Fl K))}
    (hb : NanBounds S) (hr : RowSafe S) {s : SState (Fl K)} (h : SelectReaches S M pre s) (hd : s.main = .done)
    (ht : s.torn = false) (ho : s.overflows = 0) {v : Fl K} (hv : (numbersOf s.hs.items).head? = some v) :
    (∃ n ∈ pre ++ s.log, n.score = v) ∧
      ∀ m, Candidate S m → m ≠ S.root → aiccOf S m ≠ .nan → ¬ v < -aiccOf S m := by
  have hi := SInv.reach (by omega : M ≠ 1) h
  have hne : ∃ n ∈ (pre ++ s.log).take M.toNat, n.score ≠ .nan := by
    by_contra hc
    push Not at hc
    have hst := C133_stuck hM hc hi.hist
    have hvm := List.mem_of_mem_head? hv
    unfold numbersOf at hvm
    obtain ⟨h1, h2⟩ := List.mem_filter.1 hvm
    obtain ⟨n, h3, h4⟩ := List.mem_map.1 h1
    rw [hst] at h3
    rw [← h4, hc n h3] at h2
    simp at h2
  obtain ⟨w, h1, h2, h3⟩ := C133_best_number_partial hM hne hi.hist
  rw [hv, Option.some.injEq] at h1
  subst h1
  refine ⟨h2, fun m hm hroot hn hlt => ?_⟩
  obtain ⟨n, h4, h5, h6⟩ := nan_dominated hM hb hr h hd ht ho hm hroot hn
  rcases Fl.lt_or_lt n.score h5 hlt with h7 | h7
  · exact h3 n h4 h7
  · exact h6 h7

/-- If `BestScore()` of the result is a number, no model other than the root has a better criterion that is a number. -/
theorem C134_best_score_partial {S : Search (Fl K)} {M : Int} (hM : 2 ≤ M) {pre : List (Node (Fl K))}
    (hb : NanBounds S) (hr : RowSafe S) {s : SState (Fl K)} (h : SelectReaches S M pre s) (hd : s.main = .done)
    (ht : s.torn = false) (ho : s.overflows = 0) (hne : s.hs.items ≠ []) (hv : s.hs.bestScore ≠ .nan) (m : List Bool)
    (hm : Candidate S m) (hroot : m ≠ S.root) (hn : aiccOf S m ≠ .nan) : ¬ s.hs.bestScore < -aiccOf S m := by
  refine (C134_first_number_partial hM hb hr h hd ht ho ?_).2 m hm hroot hn
  cases hit : s.hs.items with
  | nil => exact absurd hit hne
  | cons a l =>
    have : s.hs.bestScore = a.score := by simp [Highscore.bestScore, hit]
    rw [this] at hv ⊢
    simp [numbersOf, hv]

/-- If `BestScore()` of the result is NaN, nothing was pruned for its bound: every model other than the root was
inserted.  (No assumption on the bounds.) -/
theorem C134_nan_means_all {S : Search (Fl K)} {M : Int} (hM : 2 ≤ M) {pre : List (Node (Fl K))} (hr : RowSafe S)
    {s : SState (Fl K)} (h : SelectReaches S M pre s) (hd : s.main = .done) (ht : s.torn = false)
    (ho : s.overflows = 0) (hv : s.hs.bestScore = .nan) (m : List Bool) (hm : Candidate S m) (hroot : m ≠ S.root) :
    ∃ n ∈ s.log, n.model = m := by
  have hi := SInv.reach (by omega : M ≠ 1) h
  rcases all_seen hM hr h hd ht ho m hm hroot with h1 | ⟨c, -, -, l, hs, h3, h4, h5, h6⟩
  · exact h1
  · exfalso
    obtain ⟨b, l', rfl⟩ := List.exists_cons_of_ne_nil h3
    obtain ⟨r, hr'⟩ := h4
    have hist := hi.hist
    rw [← hr', List.cons_append] at hist
    by_cases hbn : b.score = .nan
    · have := (C133_nan_first hM hbn h5).2
      rw [this] at h6
      exact Fl.not_nan_lt _ h6
    · exact (C133_number_first_partial hM hbn hist).1 hv

end

/-! ### A response with NaN or infinite values -/

theorem boundsAICCFl_neg {v : Fl ℝ} (h : v.Big) (w : Fl ℝ) : ¬ v < w := by
  change ¬ Fl.ltB v w = true
  rcases h with rfl | rfl <;> cases w <;> simp [Fl.ltB]

/-- The criterion of every model is NaN or plus infinity. -/
theorem flSearch_big {B : Blas} (hB : BlasOk B) {svd : Mat ℝ → SVD ℝ} {X : Mat ℝ} {y : List (Fl ℝ)}
    (hr : y.length = X.nr) (hy : NotFinite y) {root : List Bool} {maxQueue : Int} {cutoff : ℝ} {m : List Bool}
    (hm : m.length = X.nc) (hpos : 0 < card m) : (aiccOf (flSearch B svd X y root maxQueue cutoff) m).Big := by
  obtain ⟨c, r, h⟩ := fitModelFl_some hB (svd := svd) hr hy hm hpos
  have hbig := fitModelFl_big hy h
  unfold aiccOf flSearch
  simp only [h, Option.map_some, Option.getD_some]
  exact aiccFl_big _ _ hbig

/-- With a value NaN or infinite in the response, and the empty root model and list, `SelectModel` inserts every model
with fewer features than rows, and no score in the list is a finite number: each is NaN or minus infinity. -/
theorem C134_response {B : Blas} (hB : BlasOk B) {svd : Mat ℝ → SVD ℝ} {X : Mat ℝ} {y : List (Fl ℝ)}
    (hr : y.length = X.nr) (hy : NotFinite y) {maxQueue : Int} {cutoff : ℝ} {M : Int} (hM : 2 ≤ M) {s : SState (Fl ℝ)}
    (h : SelectReaches (flSearch B svd X y (List.replicate X.nc false) maxQueue cutoff) M [] s) (hd : s.main = .done)
    (ht : s.torn = false) (ho : s.overflows = 0) :
    (∀ m : List Bool, m.length = X.nc → 0 < card m → card m < X.nr → ∃ n ∈ s.log, n.model = m) ∧
    (1 < X.nr → s.hs.items ≠ []) ∧ (∀ n ∈ s.hs.items, n.score = .nan ∨ n.score = .negInf) ∧
    (X.nc < X.nr → s.numChecked + 1 = 2 ^ X.nc) := by
  set S := flSearch B svd X y (List.replicate X.nc false) maxQueue cutoff with hS
  have hrs : RowSafe S := Or.inl rfl
  have hi := SInv.reach (by omega : M ≠ 1) h
  have hnc : 3 ≤ X.nc := hi.ncols
  have hscore : ∀ n ∈ s.log, n.score = .nan ∨ n.score = .negInf := by
    intro n hn
    obtain ⟨a, b⟩ := hi.logOk n hn
    obtain ⟨h1, h2, h3, h4⟩ := madeScored_spec a b
    have hroot : n.model ≠ S.root := (log_spec (by omega : M ≠ 1) h).2.1 n hn
    have hpos : 0 < card n.model := by
      by_contra h0
      refine hroot (List.ext_getElem? fun i => ?_)
      show _ = (List.replicate X.nc false)[i]?
      have hz : ∀ b ∈ n.model, b = false := by
        have : n.model.count true = 0 := by rw [← card_eq_count]; omega
        intro b hb
        cases b with
        | false => rfl
        | true => exact absurd hb (List.count_eq_zero.1 this)
      have : n.model = List.replicate n.model.length false := List.eq_replicate_iff.2 ⟨rfl, hz⟩
      rw [this, h1]
      rfl
    have hbig : (aiccOf S n.model).Big := flSearch_big hB hr hy h1 hpos
    rw [(h3 hpos).1]
    unfold aiccOf at hbig
    rcases hbig with hb | hb <;> rw [hb]
    · exact Or.inr rfl
    · exact Or.inl rfl
  have hall : ∀ m : List Bool, m.length = X.nc → 0 < card m → card m < X.nr → ∃ n ∈ s.log, n.model = m := by
    intro m h1 h2 h3
    have hroot : m ≠ S.root := by
      rintro rfl
      have : card (List.replicate X.nc false) = 0 := by
        rw [card_eq_count]
        simp [List.count_replicate]
      change 0 < card (List.replicate X.nc false) at h2
      omega
    rcases all_seen hM hrs h hd ht ho m ⟨h1, h2, h3⟩ hroot with h4 | ⟨c, -, -, l, hs, g3, g4, g5, g6⟩
    · exact h4
    · exfalso
      obtain ⟨n, hn1, hn2⟩ := bestScore_mem g5 (insertAll_ne_nil hM g3 g5)
      rw [← hn2] at g6
      have hn3 : n ∈ s.log := by simpa using g4.subset hn1
      refine boundsAICCFl_neg ?_ _ g6
      rcases hscore n hn3 with h0 | h0 <;> rw [h0]
      · exact Or.inr rfl
      · exact Or.inl rfl
  refine ⟨hall, fun h1 => ?_, fun n hn => hscore n (by simpa using insertAll_mem hi.hist n hn), fun h1 => ?_⟩
  · obtain ⟨n, hn, -⟩ := hall (true :: List.replicate (X.nc - 1) false) (by simp; omega)
      (by rw [card_eq_count]; simp) (by rw [card_eq_count]; simpa [List.count_replicate] using h1)
    exact insertAll_ne_nil hM (by simpa using List.ne_nil_of_mem hn) hi.hist
  · have hk : 0 + X.nc = (List.replicate X.nc false).length := by simp
    have hsub : descend S.root 0 S.ncols ⊆ s.log.map (·.model) := by
      intro m hm
      obtain ⟨h2, h3⟩ := (mem_descend hk).1 hm
      have hlen : m.length = X.nc := by
        have := h2.1
        simpa using this.symm
      have hpos : 0 < card m := by
        by_contra h0
        refine h3 ?_
        rw [← hlen]
        refine List.eq_replicate_iff.2 ⟨rfl, fun b hb => ?_⟩
        have : m.count true = 0 := by rw [← card_eq_count]; omega
        cases b with
        | false => rfl
        | true => exact absurd hb (List.count_eq_zero.1 this)
      have hle : card m ≤ m.length := by rw [card_eq_count]; exact List.count_le_length
      obtain ⟨n, hn, rfl⟩ := hall m hlen hpos (by omega)
      exact List.mem_map_of_mem hn
    have h4 : (descend S.root 0 S.ncols).length ≤ _ := ((descend_nodup hk).subperm hsub).length_le
    have h5 := (log_spec (by omega : M ≠ 1) h).2.2
    have h6 := descend_length S.root 0 S.ncols
    rw [List.length_map] at h4
    rw [hi.checked]
    change _ = 2 ^ S.ncols
    omega

/-- For finite responses with positive residual sums of squares the criterion is the one of C12 and C92. -/
theorem C134_finite (B : Blas) (svd : Mat ℝ → SVD ℝ) (X : Mat ℝ) (y : List ℝ) (root : List Bool) (maxQueue : Int)
    (cutoff : ℝ) {m : List Bool} {c : List ℝ} {r : ℝ} (h : fitModel svd X y m = some (c, r)) (hr : 0 < r) :
    aiccOf (flSearch B svd X (y.map .fin) root maxQueue cutoff) m =
      .fin (aiccOf (regressionSearch svd X y root maxQueue cutoff) m) := by
  unfold aiccOf flSearch regressionSearch regressionProblem
  simp only [fitModelFl_fin, h, Option.map_some, Option.getD_some]
  exact aiccFl_fin _ _ hr

/-- For finite responses, if no fit is exact, the bounds are those of C09 to C12. -/
theorem C134_finite_bounds (B : Blas) (svd : Mat ℝ → SVD ℝ) (X : Mat ℝ) (y : List ℝ)
    (hp : ∀ m c r, m.length = X.nc → 0 < card m → fitModel svd X y m = some (c, r) → 0 < r) (m : List Bool)
    (hm : m.length = X.nc) (l : Nat) :
    boundsAICCFl B svd m l X (y.map .fin) = (boundsAICC svd m l X y).map (fun b => (.fin b.1, .fin b.2)) := by
  unfold boundsAICCFl boundsAICC bounds
  rcases Nat.lt_or_ge m.length l with hl | hl
  · rw [gcs_eq_none hl]
    rfl
  rw [gcs_eq_some hl, lcs_eq_some hl]
  have hg' := (length_extreme m l true).trans hm
  have hk' := (length_extreme m l false).trans hm
  generalize fillFrom (goCopy (List.replicate m.length false) (m.take l)) l true = g at hg' ⊢
  generalize fillFrom (goCopy (List.replicate m.length false) (m.take l)) l false = k at hk' ⊢
  have hpos : ∀ mod v, mod.length = X.nc → fitModel svd X y mod = some v → 0 < v.2 := by
    intro mod v h1 h2
    refine hp mod v.1 v.2 h1 (Nat.pos_of_ne_zero fun h0 => ?_) h2
    have : getDesignMatrix mod X = none := by
      rw [getDesignMatrix, numFeatures_eq_card, h0]; simp
    simp [fitModel, this] at h2
  have h1 : ∀ mod, mod.length = X.nc → (boundsRssLcsFl B svd mod X (y.map .fin) = (boundsRssLcs svd mod X y).map .fin) ∧
      (∀ r, boundsRssLcs svd mod X y = some r → 0 < r) := by
    intro mod hmod
    unfold boundsRssLcsFl boundsRssLcs
    split
    · rw [fitModelFl_fin]
      cases hf : fitModel svd X y mod with
      | none => simp
      | some v => simpa using hpos mod v hmod hf
    · simp only [Option.map_some, Option.some.injEq, true_and]
      rintro _ rfl
      unfold maxFloat64
      norm_num
  have h2 : ∀ mod, mod.length = X.nc → (boundsRssGcsFl B svd mod X (y.map .fin) = (boundsRssGcs svd mod X y).map .fin) ∧
      (∀ r, boundsRssGcs svd mod X y = some r → 0 < r) := by
    intro mod hmod
    unfold boundsRssGcsFl boundsRssGcs
    split
    · rw [fitModelFl_fin]
      cases hf : fitModel svd X y mod with
      | none => simp
      | some v => simpa using hpos mod v hmod hf
    · simp [rssTol]
  obtain ⟨a1, a2⟩ := h1 k hk'
  obtain ⟨b1, b2⟩ := h2 g hg'
  simp only [a1, b1, List.length_map]
  cases hk : boundsRssLcs svd k X y with
  | none => rfl
  | some u =>
    cases hg : boundsRssGcs svd g X y with
    | none => rfl
    | some v => simp [aiccFl_fin _ _ (a2 u hk), aiccFl_fin _ _ (b2 v hg)]

/-- The search `T` over floating point values is the search `S` over numbers, for the models that satisfy `ok` and the
bounds that `okb` says exist. -/
structure Spec.SameSearch (ok : List Bool → Prop) (okb : List Bool → Nat → Prop) (S : Search ℝ) (T : Search (Fl ℝ)) :
    Prop where
  sizes : T.nrows = S.nrows ∧ T.ncols = S.ncols ∧ T.maxQueue = S.maxQueue
  root : T.root = S.root
  numbers : T.cutoff = .fin S.cutoff ∧ T.huge = .fin S.huge ∧ T.maxFloat = .fin S.maxFloat
  fit : ∀ m, ok m → T.fit m = (S.fit m).map .fin
  criterion : ∀ m, ok m → aiccOf T m = .fin (aiccOf S m)
  bounds : ∀ m l, okb m l → T.bounds m l = (.fin (S.bounds m l).1, .fin (S.bounds m l).2)
  mean : ∀ ls, ls ≠ [] → T.mean (ls.map .fin) = .fin (S.mean ls)

/-- For finite responses, if no fit is exact, the whole search is that of C12 and C92. -/
theorem C134_finite_search (B : Blas) (svd : Mat ℝ → SVD ℝ) (X : Mat ℝ) (y : List ℝ) (root : List Bool) (maxQueue : Int)
    (cutoff : ℝ) (hp : ∀ m c r, m.length = X.nc → 0 < card m → fitModel svd X y m = some (c, r) → 0 < r) :
    SameSearch (fun m => m.length = X.nc ∧ 0 < card m ∧ (fitModel svd X y m).isSome)
      (fun m l => m.length = X.nc ∧ (boundsAICC svd m l X y).isSome)
      (regressionSearch svd X y root maxQueue cutoff) (flSearch B svd X (y.map .fin) root maxQueue cutoff) where
  sizes := ⟨rfl, rfl, rfl⟩
  root := rfl
  numbers := ⟨rfl, rfl, rfl⟩
  fit m hm := by
    obtain ⟨v, hv⟩ := Option.isSome_iff_exists.1 hm.2.2
    simp [flSearch, regressionSearch, regressionProblem, fitModelFl_fin, hv]
  criterion m hm := by
    obtain ⟨v, hv⟩ := Option.isSome_iff_exists.1 hm.2.2
    exact C134_finite B svd X y root maxQueue cutoff (c := v.1) (r := v.2) hv (hp m _ _ hm.1 hm.2.1 hv)
  bounds m l hm := by
    obtain ⟨v, hv⟩ := Option.isSome_iff_exists.1 hm.2
    simp [flSearch, regressionSearch, C134_finite_bounds B svd X y hp m hm.1, hv]
  mean ls hls := by
    have h0 : ((ls.length : ℕ) : ℝ) ≠ 0 := by simpa using hls
    simp [flSearch, regressionSearch, Fl.sum_fin, Fl.div, Fl.divFin, h0]

/-! ### A column with missing values -/

/-- 3 columns, 10 rows; the first column has missing values: the criterion of each model with it is NaN.  Among the others
it is 1 for `[false, true, false]` and 5 for the rest. -/
def exColumn : Search (Fl Int) where
  nrows := 10
  ncols := 3
  fit := fun m => List.replicate (card m) (.fin 1)
  rss := fun m => if m.head? = some true then .nan else if m = [false, true, false] then .fin 1 else .fin 5
  aicc := fun _ _ r => r
  root := [false, false, false]
  maxQueue := 1000
  cutoff := .fin 0
  bounds := fun m _ => if m.head? = some true then (.nan, .nan) else (.fin 1, .fin 5)
  huge := .fin 100
  maxFloat := .fin 1000
  mean := fun _ => .nan

theorem exColumn_bounds : NanBounds exColumn := by
  have h : ∀ m, aiccOf exColumn m = .nan ∨ aiccOf exColumn m = .fin 1 ∨ aiccOf exColumn m = .fin 5 := by
    intro m
    simp only [aiccOf, exColumn]
    split
    · exact Or.inl rfl
    · split
      · exact Or.inr (Or.inl rfl)
      · exact Or.inr (Or.inr rfl)
  refine ⟨fun p l m _ _ _ _ _ => ?_, fun m _ => ?_⟩
  · have : (exColumn.bounds p l).1 = .nan ∨ (exColumn.bounds p l).1 = .fin 1 := by
      simp only [exColumn]
      split
      · exact Or.inl rfl
      · exact Or.inr rfl
    rcases this with h1 | h1 <;> rw [h1] <;> rcases h m with h2 | h2 | h2 <;> rw [h2] <;> decide
  · rcases h m with h2 | h2 | h2 <;> rw [h2] <;> decide

/-- A complete schedule. -/
def columnSchedule (start : List Action) (M : Int) : List Action := match sstart exColumn M start with
  | some s => start ++ greedy exColumn s 200
  | none => []

/-- The first nodes that are inserted have the first column. -/
def columnStart : List Action := [.want, .readBest 0, .sendNode 0, .readBest 0, .sendNode 0, .score 1, .ready 0, .want,
  .readBest 0, .sendNode 0, .readBest 0, .sendNode 0, .score 2]

/-- The search returns with `BestScore()` NaN although there are models with a number as criterion; and the list of
capacity 2 can end without any number. -/
theorem C134_refuted :
    (∃ s, SelectReaches exColumn 20 [] s ∧ s.main = .done ∧ s.torn = false ∧ s.overflows = 0 ∧ s.hs.bestScore = .nan ∧
      Candidate exColumn [false, true, false] ∧ aiccOf exColumn [false, true, false] = .fin 1) ∧
    ∃ s, SelectReaches exColumn 2 [] s ∧ s.main = .done ∧ s.torn = false ∧ s.overflows = 0 ∧ s.hs.scores = [.nan, .nan] := by
  constructor
  · obtain ⟨s, h1, h2⟩ := sstart_ex (S := exColumn) (M := 20) (columnSchedule [] 20)
      (fun s => decide (s.main = .done ∧ s.torn = false ∧ s.overflows = 0 ∧ s.hs.bestScore = .nan)) (by decide +kernel)
    rw [decide_eq_true_eq] at h2
    exact ⟨s, h1, h2.1, h2.2.1, h2.2.2.1, h2.2.2.2, ⟨rfl, by decide, by decide⟩, rfl⟩
  · obtain ⟨s, h1, h2⟩ := sstart_ex (S := exColumn) (M := 2) (columnSchedule columnStart 2)
      (fun s => decide (s.main = .done ∧ s.torn = false ∧ s.overflows = 0 ∧ s.hs.scores = [.nan, .nan]))
      (by decide +kernel)
    rw [decide_eq_true_eq] at h2
    exact ⟨s, h1, h2⟩

/-- A run that meets the hypotheses of the theorems: the first number of the list is the best one, all seven models were
inserted. -/
example : ∃ s, SelectReaches exColumn 20 [] s ∧ s.main = .done ∧ s.torn = false ∧ s.overflows = 0 ∧
    (numbersOf s.hs.items).head? = some (.fin (-1)) ∧ s.log.length = 7 := by
  obtain ⟨s, h1, h2⟩ := sstart_ex (S := exColumn) (M := 20) (columnSchedule [] 20)
    (fun s => decide (s.main = .done ∧ s.torn = false ∧ s.overflows = 0 ∧
      (numbersOf s.hs.items).head? = some (.fin (-1)) ∧ s.log.length = 7)) (by decide +kernel)
  rw [decide_eq_true_eq] at h2
  exact ⟨s, h1, h2⟩

example : RowSafe exColumn := Or.inl rfl

/-- C14 to C16 apply to such a search. -/
example (s : SState (Fl Int)) (h : SelectReaches exColumn 20 [] s) : s.main ≠ .panicked :=
  C16_no_panic exColumn 20 (by decide) [] s h

/-- A library as in the hypotheses, and a response with a missing value. -/
example : BlasOk ⟨fun X _ => List.replicate X.nc .nan, fun X _ => List.replicate X.nr .nan⟩ ∧
    NotFinite [.fin 1, .nan, .fin 2] :=
  ⟨⟨fun _ _ => by simp, fun _ _ => by simp⟩, ⟨.nan, by simp, by simp⟩⟩

/-- No fit is exact for the first 3 unit vectors of length 4 and `y = (1,2,3,4)`. -/
example (m : List Bool) (c : List ℝ) (r : ℝ) (hm : m.length = (unitX 4 3 : Mat ℝ).nc) (hpos : 0 < card m)
    (h : fitModel orthSvd (unitX 4 3) [1, 2, 3, 4] m = some (c, r)) : 0 < r :=
  rssTol_pos.trans_le (unitX_rss 4 3 (by omega) _ rfl (by norm_num [vec]) m hm c r hpos h)

end GoSelect
