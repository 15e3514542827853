import Verif.Props.C176
import Mathlib.Data.List.Sort

/-!
# C177: leaving out columns
-/

namespace GoSelect

open Finset Spec

/-- `X'` has the columns `idx` of `X`, in ascending order. -/
structure Spec.ColumnsOf {K : Type} (idx : List Nat) (X X' : Mat K) : Prop where
  nr : X'.nr = X.nr
  nc : X'.nc = idx.length
  sorted : idx.Pairwise (· < ·)
  range : ∀ f ∈ idx, f < X.nc
  get : ∀ i < X.nr, ∀ j < idx.length, X'.get i j = X.get i (idx.getD j 0)

/-- `m` has the features of `m'`, which is a model over the columns `idx`. -/
def Spec.SameModel (idx : List Nat) (m m' : List Bool) : Prop := features m = (features m').map (fun j => idx.getD j 0)

theorem Spec.SameModel.card {idx : List Nat} {m m' : List Bool} (h : SameModel idx m m') : Spec.card m = Spec.card m' := by
  unfold Spec.card
  rw [h, List.length_map]

/-- The model over `nc` columns with the given ascending features. -/
theorem exists_model {nc : Nat} {l : List Nat} (hs : l.Pairwise (· < ·)) (hr : ∀ f ∈ l, f < nc) :
    ∃ m : List Bool, m.length = nc ∧ features m = l := by
  refine ⟨(List.range nc).map (fun i => decide (i ∈ l)), by simp, ?_⟩
  have hf := features_sorted ((List.range nc).map (fun i => decide (i ∈ l)))
  refine List.Perm.eq_of_pairwise' (r := (· ≤ ·)) (hf.imp le_of_lt) (hs.imp le_of_lt) ?_
  rw [List.perm_ext_iff_of_nodup (features_nodup _) (hs.imp Nat.ne_of_lt)]
  intro i
  rw [mem_features, HasFeature]
  constructor
  · intro h
    rw [List.getElem?_map] at h
    obtain ⟨j, h1, h2⟩ := Option.map_eq_some_iff.1 h
    obtain ⟨h3, h4⟩ := List.getElem?_eq_some_iff.1 h1
    rw [List.getElem_range] at h4
    subst h4
    simpa using h2
  · intro h
    rw [List.getElem?_map, List.getElem?_range (hr i h)]
    simp [h]

section
variable {idx : List Nat} {X X' : Mat ℝ}

theorem Spec.ColumnsOf.lt (h : ColumnsOf idx X X') {i j : Nat} (hij : i < j) (hj : j < idx.length) : idx.getD i 0 < idx.getD j 0 := by
  rw [List.getD_eq_getElem?_getD, List.getD_eq_getElem?_getD, List.getElem?_eq_getElem (hij.trans hj), List.getElem?_eq_getElem hj]
  exact List.pairwise_iff_getElem.1 h.sorted i j _ hj hij

/-- Every model over the columns `idx` is a model over all columns. -/
theorem Spec.ColumnsOf.lift (h : ColumnsOf idx X X') {m' : List Bool} (hm' : m'.length = X'.nc) :
    ∃ m, m.length = X.nc ∧ SameModel idx m m' := by
  have hlt : ∀ j ∈ features m', j < idx.length := fun j hj => by rw [← h.nc, ← hm']; exact features_lt hj
  refine exists_model ?_ ?_
  · rw [List.pairwise_map]
    exact (features_sorted m').imp_of_mem fun _ hb hab => h.lt hab (hlt _ hb)
  · intro f hf
    obtain ⟨j, hj, rfl⟩ := List.mem_map.1 hf
    have := hlt j hj
    rw [List.getD_eq_getElem?_getD, List.getElem?_eq_getElem this]
    exact h.range _ (List.getElem_mem this)

/-- A model all of whose features are among `idx` is a model over these columns. -/
theorem Spec.ColumnsOf.restrict (h : ColumnsOf idx X X') {m : List Bool} (hsub : ∀ f ∈ features m, f ∈ idx) :
    ∃ m', m'.length = X'.nc ∧ SameModel idx m m' := by
  have hinj : ∀ f ∈ idx, idx.getD (idx.idxOf f) 0 = f := by
    intro f hf
    have := List.idxOf_lt_length_iff.2 hf
    rw [List.getD_eq_getElem?_getD, List.getElem?_eq_getElem this]
    simp
  have hs : ((features m).map idx.idxOf).Pairwise (· < ·) := by
    rw [List.pairwise_map]
    refine (features_sorted m).imp_of_mem fun ha hb hab => ?_
    by_contra hle
    rcases (not_lt.1 hle).eq_or_lt with e | e
    · have := congrArg (fun i => idx.getD i 0) e
      simp only [hinj _ (hsub _ ha), hinj _ (hsub _ hb)] at this
      omega
    · have := h.lt e (List.idxOf_lt_length_iff.2 (hsub _ ha))
      rw [hinj _ (hsub _ ha), hinj _ (hsub _ hb)] at this
      omega
  have hr : ∀ f ∈ (features m).map idx.idxOf, f < X'.nc := by
    intro f hf
    obtain ⟨g, hg, rfl⟩ := List.mem_map.1 hf
    rw [h.nc]
    exact List.idxOf_lt_length_iff.2 (hsub g hg)
  obtain ⟨m', h1, h2⟩ := exists_model hs hr
  refine ⟨m', h1, ?_⟩
  unfold SameModel
  rw [h2, List.map_map]
  conv_lhs => rw [← List.map_id (features m)]
  apply List.map_congr_left
  intro f hf
  exact (hinj f (hsub f hf)).symm

/-- The two design matrices have the same entries. -/
theorem Spec.ColumnsOf.design (h : ColumnsOf idx X X') {m m' : List Bool} (hm' : m'.length = X'.nc) (hmm : SameModel idx m m') {i j : Nat}
    (hi : i < X.nr) (hj : j < Spec.card m') : (designOf X' m').get i j = (designOf X m).get i j := by
  have hj' : j < (features m').length := hj
  have h1 : (features m')[j] < idx.length := by
    rw [← h.nc, ← hm']
    exact features_lt (List.getElem_mem hj')
  show X'.get i ((features m').getD j 0) = X.get i ((features m).getD j 0)
  unfold SameModel at hmm
  rw [hmm, List.getD_eq_getElem?_getD, List.getD_eq_getElem?_getD, List.getElem?_map, List.getElem?_eq_getElem hj']
  exact h.get i hi _ h1

/-- **C177 (fits).** A model has the same fit whether or not there are other columns, whichever decompositions are found and also if
singular values are discarded. -/
theorem C177_fit (svd svd' : Mat ℝ → SVD ℝ) (hsvd : ∀ A, (svd A).Of A) (hsvd' : ∀ A, (svd' A).Of A) (h : ColumnsOf idx X X')
    {y : List ℝ} (hy : y.length = X.nr) {m m' : List Bool} (hm : m.length = X.nc) (hm' : m'.length = X'.nc)
    (hpos : 0 < Spec.card m') (hmm : SameModel idx m m') :
    ∃ c r, fitModel svd X y m = some (c, r) ∧ fitModel svd' X' y m' = some (c, r) := by
  have hy' : y.length = X'.nr := by rw [hy, h.nr]
  obtain ⟨c, f1, f2, f3⟩ := fitModel_eq_some (svd := svd) hy (hmm.card ▸ hpos) hm.le
  obtain ⟨c', g1, g2, g3⟩ := fitModel_eq_some (svd := svd') hy' hpos hm'.le
  have hget : ∀ i < X.nr, ∀ j < Spec.card m', (designOf X' m').get i j = (designOf X m).get i j :=
    fun i hi j hj => h.design hm' hmm hi hj
  have hnr : (designOf X' m').nr = (designOf X m).nr := h.nr
  have hs : SameSums (designOf X m) (designOf X' m') (vec y) (vec y) := by
    refine ⟨hmm.card.symm, fun i j hi hj => ?_, fun j hj => ?_, ?_⟩
    · rw [hnr]
      refine sum_congr rfl fun r hr => ?_
      have hi' : i < Spec.card m := hi
      have hj' : j < Spec.card m := hj
      rw [hget r (mem_range.1 hr) i (hmm.card ▸ hi'), hget r (mem_range.1 hr) j (hmm.card ▸ hj')]
    · rw [hnr]
      refine sum_congr rfl fun r hr => ?_
      have hj' : j < Spec.card m := hj
      rw [hget r (mem_range.1 hr) j (hmm.card ▸ hj')]
    · rw [hnr]
  obtain ⟨b, r, k1, k2, k3, k4⟩ := C170_fit _ _ _ _ y y (hsvd (designOf X m)) (hsvd' (designOf X' m')) hy hy' hs
  rw [f2, Option.some.injEq] at k1
  rw [g2, Option.some.injEq] at k2
  subst k1
  subst k2
  refine ⟨c', _, f1, ?_⟩
  rw [g1]
  congr 2
  have e1 := C04_rss (designOf X m) c' y f3 hy
  have e2 := C04_rss (designOf X' m') c' y g3 hy'
  rw [k3, Option.some.injEq] at e1
  rw [k4, Option.some.injEq] at e2
  exact e2.symm.trans e1

end

/-- The node is a best model of the data by `Aicc`, with its fit and score. -/
structure Spec.IsBestNode (svd : Mat ℝ → SVD ℝ) (X : Mat ℝ) (y : List ℝ) (n : Node ℝ) : Prop where
  len : n.model.length = X.nc
  pos : 0 < Spec.card n.model
  fit : ∃ r, fitModel svd X y n.model = some (n.coeff, r) ∧ n.score = -aicc (Spec.card n.model) X.nr r
  best : ∀ m c r, m.length = X.nc → 0 < Spec.card m → fitModel svd X y m = some (c, r) → -aicc (Spec.card m) X.nr r ≤ n.score

theorem bruteForce_isBest (svd : Mat ℝ → SVD ℝ) {X : Mat ℝ} {y : List ℝ} (hy : y.length = X.nr) {hs : Highscore ℝ}
    (h : BruteForceReturns (regressionProblem svd X y) hs) {a : Node ℝ} (ha : hs.items.head? = some a) : IsBestNode svd X y a := by
  obtain ⟨r, f1, b1⟩ := brute_best svd hy hs h a ha
  obtain ⟨h0, a1, -, a3, -⟩ := C06_every_model_once (regressionProblem svd X y)
  cases h.unique a1
  have ham : a ∈ hs.items := List.mem_of_mem_head? ha
  obtain ⟨l1, l2⟩ := (a3 a.model).1 (List.mem_map_of_mem ham)
  have own := C06_own_score _ hs h a ham
  have es : a.score = -aicc (Spec.card a.model) X.nr r := by
    rw [own.2]; simp [regressionProblem, f1]
  refine ⟨l1, l2, ⟨r, f1, es⟩, fun m c s m1 m2 m3 => ?_⟩
  rw [es]
  exact neg_le_neg (b1.2 (Spec.card m, s) ⟨m, c, m1, m2, rfl, m3⟩)

theorem selectModel_isBest (svd : Mat ℝ → SVD ℝ) {X : Mat ℝ} {y : List ℝ} (hdata : GoodData svd X y) (hsize : X.nc < X.nr) {q : Int}
    {cutoff : ℝ} {M : Int} (hM : 2 ≤ M) {st : SState ℝ}
    (h : SelectReaches (regressionSearch svd X y (List.replicate X.nc false) q cutoff) M [] st)
    (hd : st.main = .done) (ht : st.torn = false) (ho : st.overflows = 0) {n : Node ℝ} (hn : n ∈ st.hs.items)
    (hb : n.score = st.hs.bestScore) : IsBestNode svd X y n := by
  obtain ⟨l1, l2, r, f1, b1⟩ := select_best svd hdata hsize hM h hd ht ho n hn hb
  obtain ⟨es, -⟩ := (C13_own_score _ M (by omega) st h n hn).1 l2
  have es' : n.score = -aicc (Spec.card n.model) X.nr r := by
    rw [es]; simp [regressionSearch, regressionProblem, f1]
  refine ⟨l1, l2, ⟨r, f1, es'⟩, fun m c s m1 m2 m3 => ?_⟩
  rw [es']
  exact neg_le_neg (b1.2 (Spec.card m, s) ⟨m, c, m1, m2, rfl, m3⟩)

/-- What leaving out columns does to a best node. -/
structure Spec.Reduced (idx : List Nat) (svd : Mat ℝ → SVD ℝ) (X : Mat ℝ) (y : List ℝ) (n n' : Node ℝ) : Prop where
  le : n'.score ≤ n.score
  same : (∀ f ∈ features n.model, f ∈ idx) → n'.score = n.score
  model : (∀ f ∈ features n.model, f ∈ idx) →
    (∀ m c r, m.length = X.nc → 0 < Spec.card m → fitModel svd X y m = some (c, r) → -aicc (Spec.card m) X.nr r = n.score →
      m = n.model) → SameModel idx n.model n'.model ∧ n'.coeff = n.coeff

theorem reduced_of_best (svd svd' : Mat ℝ → SVD ℝ) (hsvd : ∀ A, (svd A).Of A) (hsvd' : ∀ A, (svd' A).Of A) {idx : List Nat} {X X' : Mat ℝ}
    {y : List ℝ} (h : ColumnsOf idx X X') (hy : y.length = X.nr) {n n' : Node ℝ} (hn : IsBestNode svd X y n)
    (hn' : IsBestNode svd' X' y n') : Reduced idx svd X y n n' := by
  obtain ⟨r', f', s'⟩ := hn'.fit
  obtain ⟨r, f, s⟩ := hn.fit
  obtain ⟨m, m1, m2⟩ := h.lift hn'.len
  obtain ⟨c, q, g1, g2⟩ := C177_fit svd svd' hsvd hsvd' h hy m1 hn'.len hn'.pos m2
  rw [f', Option.some.injEq, Prod.mk.injEq] at g2
  have hs' : n'.score = -aicc (Spec.card m) X.nr q := by rw [s', m2.card, h.nr, g2.2]
  have hle : n'.score ≤ n.score := by
    rw [hs']
    exact hn.best m c q m1 (m2.card ▸ hn'.pos) g1
  have hsame : (∀ f ∈ features n.model, f ∈ idx) → n'.score = n.score := by
    intro hsub
    obtain ⟨k, k1, k2⟩ := h.restrict hsub
    obtain ⟨c2, q2, e1, e2⟩ := C177_fit svd svd' hsvd hsvd' h hy hn.len k1 (k2.card ▸ hn.pos) k2
    rw [f, Option.some.injEq, Prod.mk.injEq] at e1
    have := hn'.best k c2 q2 k1 (k2.card ▸ hn.pos) e2
    rw [h.nr, ← k2.card, ← e1.2, ← s] at this
    exact le_antisymm hle this
  refine ⟨hle, hsame, fun hsub huniq => ?_⟩
  have e := huniq m c q m1 (m2.card ▸ hn'.pos) g1 (by rw [← hs', hsame hsub])
  subst e
  rw [f, Option.some.injEq, Prod.mk.injEq] at g1
  exact ⟨m2, g2.1.trans g1.1.symm⟩

/-- **C177.** `BruteForceSelect` on some of the columns: the best score is not higher; it is the same if no feature of the first model was
left out, and then, if no other model has that score, the first model has the same features and coefficients. -/
theorem C177_brute (svd svd' : Mat ℝ → SVD ℝ) (hsvd : ∀ A, (svd A).Of A) (hsvd' : ∀ A, (svd' A).Of A) {idx : List Nat} {X X' : Mat ℝ}
    {y : List ℝ} (h : ColumnsOf idx X X') (hy : y.length = X.nr) (hs hs' : Highscore ℝ)
    (hr : BruteForceReturns (regressionProblem svd X y) hs) (hr' : BruteForceReturns (regressionProblem svd' X' y) hs') (a a' : Node ℝ)
    (ha : hs.items.head? = some a) (ha' : hs'.items.head? = some a') : Reduced idx svd X y a a' :=
  reduced_of_best svd svd' hsvd hsvd' h hy (bruteForce_isBest svd hy hr ha) (bruteForce_isBest svd' (by rw [hy, h.nr]) hr' ha')

/-- **C177.** The same for the best models of `SelectModel`, started from the empty model and without overflow message and torn read,
whatever the options and schedules. -/
theorem C177_select (svd svd' : Mat ℝ → SVD ℝ) (hsvd : ∀ A, (svd A).Of A) (hsvd' : ∀ A, (svd' A).Of A) {idx : List Nat} {X X' : Mat ℝ}
    {y : List ℝ} (h : ColumnsOf idx X X') (hdata : GoodData svd X y) (hdata' : GoodData svd' X' y) (hsize : X.nc < X.nr) (q q' : Int)
    (cutoff cutoff' : ℝ) (M M' : Int) (hM : 2 ≤ M) (hM' : 2 ≤ M') (st st' : SState ℝ)
    (h1 : SelectReaches (regressionSearch svd X y (List.replicate X.nc false) q cutoff) M [] st)
    (h2 : st.main = .done) (h3 : st.torn = false) (h4 : st.overflows = 0)
    (h1' : SelectReaches (regressionSearch svd' X' y (List.replicate X'.nc false) q' cutoff') M' [] st')
    (h2' : st'.main = .done) (h3' : st'.torn = false) (h4' : st'.overflows = 0) (n n' : Node ℝ) (hn : n ∈ st.hs.items)
    (hb : n.score = st.hs.bestScore) (hn' : n' ∈ st'.hs.items) (hb' : n'.score = st'.hs.bestScore) : Reduced idx svd X y n n' := by
  have hidx : idx.length ≤ X.nc := by
    have h5 : idx.Nodup := h.sorted.imp Nat.ne_of_lt
    have h6 : idx ⊆ List.range X.nc := fun f hf => List.mem_range.2 (h.range f hf)
    simpa using (h5.subperm h6).length_le
  exact reduced_of_best svd svd' hsvd hsvd' h hdata.rows (selectModel_isBest svd hdata hsize hM h1 h2 h3 h4 hn hb)
    (selectModel_isBest svd' hdata' (by rw [h.nc, h.nr]; omega) hM' h1' h2' h3' h4' hn' hb')

theorem columns_example : ColumnsOf [0, 2] UnitExample.X ⟨5, 2, fun i j => UnitExample.X.get i ([0, 2].getD j 0)⟩ := by
  refine ⟨rfl, rfl, by simp, ?_, fun i _ j _ => rfl⟩
  intro f hf
  show f < 3
  simp at hf
  omega

/-- Hypotheses of C177: the first and the last of the three columns of the example of C107. -/
example (svd : Mat ℝ → SVD ℝ) (hd : ∀ A, (svd A).Of A) : UnitExample.y.length = UnitExample.X.nr ∧
    UnitExample.X.nc < UnitExample.X.nr ∧ SameModel [0, 2] [true, false, true] [true, true] ∧ GoodData svd UnitExample.X UnitExample.y ∧
    GoodData svd ⟨5, 2, fun i j => UnitExample.X.get i ([0, 2].getD j 0)⟩ UnitExample.y := by
  refine ⟨rfl, by show 3 < 5; omega, by unfold SameModel; decide, UnitExample.good hd, ?_⟩
  exact
    { rows := rfl
      small := by show (5 : Nat) ≤ 2 ^ 63; norm_num
      exact := fun m' hm' hp _ => by
        obtain ⟨m, m1, m2⟩ := columns_example.lift hm'
        refine untruncated_of_gram (k := 1) (UnitExample.exact hd m1) (hd _) le_rfl m2.card.symm fun i j hi hj => ?_
        have hi' : i < Spec.card m := hi
        have hj' : j < Spec.card m := hj
        rw [Nat.cast_one, one_mul]
        refine sum_congr rfl fun r hr => ?_
        rw [columns_example.design hm' m2 (mem_range.1 hr) (m2.card ▸ hi'), columns_example.design hm' m2 (mem_range.1 hr) (m2.card ▸ hj')]
      tiny := fun m' c r hm' hp _ hf => by
        obtain ⟨m, m1, m2⟩ := columns_example.lift hm'
        obtain ⟨c0, r0, g1, g2⟩ := C177_fit (y := UnitExample.y) svd svd hd hd columns_example rfl m1 hm' hp m2
        rw [hf, Option.some.injEq, Prod.mk.injEq] at g2
        have h1 := (UnitExample.fit_ge hd m1 (m2.card ▸ hp) g1).1
        refine smallestFloat_le_tol.trans (le_trans ?_ (g2.2 ▸ h1))
        unfold rssTol
        norm_num
      tol := fun h => absurd h (by show ¬ 5 ≤ 2; omega) }

end GoSelect
