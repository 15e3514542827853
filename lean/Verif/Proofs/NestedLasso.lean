import Verif.Model.NestedLasso
import Verif.Model.Lars
import Verif.Props.C42_C43
import Verif.Props.C48_C49
import Verif.Props.C63
import Verif.Props.C67_C68

/-! Lemmas about nested lasso: normalised columns, LARS paths grow by one feature, names and numbers. -/

namespace GoSelect

open Spec
open scoped List

/-- A column that normalisation leaves alone. -/
def NormCol (v : List ℝ) : Prop := goMean v = 0 ∧ (goStd v = 1 ∨ goStd v < 1 / 10 ^ 10)

theorem newNormalizedData_cols {X : Mat ℝ} {y : List ℝ} {d : NormalizedData} (hnr : 2 ≤ X.nr)
    (h : newNormalizedData X y = some d) :
    d.X.nr = X.nr ∧ d.X.nc = X.nc ∧ ∀ c < X.nc, NormCol (colOf d.X c) := by
  have hds := C48_dataset X y hnr d h
  refine ⟨hds.1, hds.2.1, ?_⟩
  rcases newNormalizedData_inv X y with ⟨-, h1⟩ | ⟨d', h1, h2, -⟩
  · rw [h] at h1; simp at h1
  rw [h, Option.some.injEq] at h1
  subst h1
  intro c hc
  have hlen : 2 ≤ (colOf d.X c).length := by simp [colOf, h2.nr, hnr]
  have hcolne : colOf X c ≠ [] := by
    intro e
    have : (colOf X c).length = 0 := by rw [e]; rfl
    simp [colOf] at this
    omega
  have hcol : colOf d.X c = (colOf X c).map (fun x => (x - mean (colOf X c)) /
      (if goStd (colOf X c) < 1 / 10 ^ 10 then 1 else goStd (colOf X c))) := by
    conv_lhs => unfold colOf
    conv_rhs => rw [colOf]
    rw [List.map_map, h2.nr]
    apply List.map_congr_left
    intro r hr
    rw [h2.done r c hc (List.mem_range.1 hr), goMean_eq]
    rfl
  constructor
  · rw [goMean_eq, hcol]
    exact mean_affine _ _ hcolne
  · by_cases hs : goStd (colOf X c) < 1 / 10 ^ 10
    · right
      rw [goStd_eq _ hlen, hcol, variance_affine _ _ hcolne, if_pos hs]
      rw [goStd_eq _ (by simp [colOf]; exact hnr)] at hs
      simpa using hs
    · left
      rw [goStd_eq _ hlen, (hds.2.2.1 c hc (not_lt.1 hs)).2, Real.sqrt_one]

theorem newNormalizedData_fix {X : Mat ℝ} {y : List ℝ} {d : NormalizedData}
    (hX : ∀ c < X.nc, NormCol (colOf X c)) (h : newNormalizedData X y = some d) :
    d.X.nr = X.nr ∧ d.X.nc = X.nc ∧ ∀ r < X.nr, ∀ c < X.nc, d.X.get r c = X.get r c := by
  rcases newNormalizedData_inv X y with ⟨-, h1⟩ | ⟨d', h1, h2, -⟩
  · rw [h] at h1; simp at h1
  rw [h, Option.some.injEq] at h1
  subst h1
  refine ⟨h2.nr, h2.nc, fun r hr c hc => ?_⟩
  rw [h2.done r c hc hr, (hX c hc).1, sub_zero]
  rcases (hX c hc).2 with hs | hs
  · rw [hs, if_neg (by norm_num), div_one]
  · rw [if_pos hs, div_one]

theorem newNormalizedData_y {X : Mat ℝ} {y : List ℝ} {d : NormalizedData} (h : newNormalizedData X y = some d) :
    d.y = normalizeArray y := by
  rcases newNormalizedData_inv X y with ⟨-, h1⟩ | ⟨d', h1, -, h3, -⟩
  · rw [h] at h1; simp at h1
  rw [h, Option.some.injEq] at h1
  subst h1
  exact h3

theorem finValues_fin (w : List ℝ) : finValues (w.map .fin) = some w := by
  unfold finValues
  rw [mapM_some_iff, List.map_map]
  rfl

theorem finValues_some {v : List (Fl ℝ)} {w : List ℝ} (h : finValues v = some w) : v = w.map .fin := by
  unfold finValues at h
  apply List.ext_getElem
  · rw [List.length_map, mapM_length h]
  · intro i h1 h2
    have := mapM_getElem h i h1
    rw [List.getElem_map]
    split at this
    · rename_i a ha
      rw [ha]
      congr 1
      exact Option.some.inj this
    · cases this

/-- A response that normalisation makes finite is not constant. -/
theorem normalizeArray_fin {y w : List ℝ} (hy : y ≠ []) (h : normalizeArray y = w.map .fin) :
    2 ≤ y.length ∧ w.length = y.length ∧ mean w = 0 ∧ variance w = 1 := by
  have hc : ¬ Constant y := by
    intro hc
    rw [C48_constant_array y hc hy] at h
    cases y with
    | nil => exact hy rfl
    | cons a y =>
      cases w with
      | nil => simp at h
      | cons b w => simp at h
  have h2 : 2 ≤ y.length := by
    by_contra hl
    apply hc
    intro a ha b hb
    rcases y with _ | ⟨c, _ | ⟨d, y⟩⟩
    · simp at ha
    · simp at ha hb; rw [ha, hb]
    · simp at hl
  obtain ⟨w', e1, e2, e3, e4⟩ := C48_array y h2 hc
  have hw : w = w' := by
    have : w.map Fl.fin = w'.map Fl.fin := h.symm.trans e1
    exact (List.map_injective_iff.2 (fun a b hab => by cases hab; rfl)) this
  subst hw
  exact ⟨h2, e2, e3, e4⟩

/-! ### Normalising a data set in place -/

/-- What remains of a data set: matrix normalised, response normalised. -/
structure Normal (d : Dataset ℝ) : Prop where
  rows : 2 ≤ d.X.nr
  cols : ∀ c < d.X.nc, NormCol (colOf d.X c)
  ylen : d.Y.length = d.X.nr
  mean : mean d.Y = 0
  var : variance d.Y = 1

theorem normalizeInPlace_some {d d' : Dataset ℝ} {n : NormalizedData} (hnr : 0 < d.X.nr)
    (hy : d.Y.length = d.X.nr) (h : normalizeInPlace d = some (n, d')) :
    newNormalizedData d.X d.Y = some n ∧ normalizeArray d.Y = d'.Y.map .fin ∧ d'.X = n.X ∧
      d'.names = d.names ∧ d'.targetCol = d.targetCol ∧ d'.X.nr = d.X.nr ∧ d'.X.nc = d.X.nc ∧ Normal d' := by
  unfold normalizeInPlace at h
  rw [Option.bind_eq_some_iff] at h
  obtain ⟨m, hm, h⟩ := h
  rw [Option.map_eq_some_iff] at h
  obtain ⟨w, hw, h⟩ := h
  simp only [Prod.mk.injEq] at h
  obtain ⟨rfl, rfl⟩ := h
  have e := finValues_some hw
  rw [newNormalizedData_y hm] at e
  obtain ⟨h2, hlen, hmean, hvar⟩ := normalizeArray_fin (by intro e; rw [e] at hy; simp at hy; omega) e
  have hc := newNormalizedData_cols (by omega) hm
  exact ⟨hm, e, rfl, rfl, rfl, hc.1, hc.2.1, by simp only; omega, fun c hc' => hc.2.2 c (by simp only at hc'; omega),
    by simp only; omega, hmean, hvar⟩

/-- Normalising a normal data set changes no entry. -/
theorem normalizeInPlace_fix {d d' : Dataset ℝ} {n : NormalizedData} (hd : Normal d)
    (h : normalizeInPlace d = some (n, d')) :
    d'.X.nr = d.X.nr ∧ d'.X.nc = d.X.nc ∧ (∀ r < d.X.nr, ∀ c < d.X.nc, d'.X.get r c = d.X.get r c) ∧ d'.Y = d.Y := by
  have hrows := hd.rows
  obtain ⟨h1, h2, h3, -⟩ := normalizeInPlace_some (by omega) hd.ylen h
  obtain ⟨g1, g2, g3⟩ := newNormalizedData_fix hd.cols h1
  refine ⟨by rw [h3, g1], by rw [h3, g2], fun r hr c hc => by rw [h3, g3 r hr c hc], ?_⟩
  rw [normalizeArray_fix d.Y (by rw [hd.ylen]; exact hd.rows) hd.mean hd.var] at h2
  exact ((List.map_injective_iff.2 (fun a b hab => by cases hab; rfl)) h2).symm

/-! ### The features of a LARS path -/

section
variable {K : Type} [Field K] [LinearOrder K] [IsStrictOrderedRing K]

/-- Every node has at most one feature that no earlier node has. -/
def OneByOne (path : List (LassoLarsNode K)) : Prop :=
  ∀ k, (pathFeatures (path.take (k + 1))).toFinset.card ≤ (pathFeatures (path.take k)).toFinset.card + 1

theorem pathFeatures_append (p q : List (LassoLarsNode K)) :
    pathFeatures (p ++ q) = pathFeatures p ++ pathFeatures q := by
  unfold pathFeatures; rw [List.flatMap_append]

theorem OneByOne.append {path : List (LassoLarsNode K)} {n : LassoLarsNode K} (h : OneByOne path)
    (hn : ((pathFeatures path).toFinset ∪ n.selection.toFinset).card ≤ (pathFeatures path).toFinset.card + 1) :
    OneByOne (path ++ [n]) := by
  intro k
  rcases Nat.lt_trichotomy k path.length with hk | rfl | hk
  · rw [List.take_append_of_le_length (by omega), List.take_append_of_le_length (by omega)]
    exact h k
  · rw [List.take_of_length_le (by simp), List.take_append_of_le_length (le_refl _), List.take_length,
      pathFeatures_append, List.toFinset_append]
    have : pathFeatures [n] = n.selection := by simp [pathFeatures]
    rw [this]
    exact hn
  · rw [List.take_of_length_le (by simp; omega), List.take_of_length_le (by simp; omega)]
    omega

/-- The invariant of the loop. -/
def LarsGrow (s : LarsState K) : Prop :=
  OneByOne s.res ∧
    ((pathFeatures s.res).toFinset ∪ s.activeSet.toFinset).card ≤ (pathFeatures s.res).toFinset.card + 1

theorem larsBody_grow {X : Mat K} {y : Nat → K} {tol lambMin : K}
    {est : Nat → List Nat → List K → Option (List K × List K)} {s : LarsState K} (hi : LarsGrow s) :
    (∀ r, larsBody X y tol lambMin est s = .ret r → OneByOne r) ∧
    (∀ s', larsBody X y tol lambMin est s = .next s' → LarsGrow s') := by
  rcases larsBody_cases (X := X) (y := y) (tol := tol) (lambMin := lambMin) (est := est) (s := s) with h | ⟨-, h⟩ |
    ⟨hl, hne, c, d, jts, -, hc, -, hj, h⟩
  · rw [h]; simp
  · rw [h]
    refine ⟨fun r hr => ?_, by simp⟩
    simp only [Outcome.ret.injEq] at hr
    subst hr
    exact hi.1
  · rw [h]
    have hset : (s.activeSet.insertionSort (· ≤ ·)).toFinset = s.activeSet.toFinset :=
      List.toFinset_eq_of_perm _ _ (List.perm_insertionSort _ _)
    have hone : OneByOne (s.res ++ [⟨betaLARS c d s.lamb, s.lamb, s.activeSet.insertionSort (· ≤ ·)⟩]) := by
      apply hi.1.append
      simp only [hset]
      exact hi.2
    have hfeat : (pathFeatures (s.res ++ [(⟨betaLARS c d s.lamb, s.lamb, s.activeSet.insertionSort (· ≤ ·)⟩ :
        LassoLarsNode K)])).toFinset = (pathFeatures s.res).toFinset ∪ s.activeSet.toFinset := by
      rw [pathFeatures_append, List.toFinset_append, ← hset]
      simp [pathFeatures]
    constructor
    · intro r hr
      unfold larsMove at hr
      simp only at hr
      split at hr
      · split at hr
        · cases hr; exact hone
        · cases hr
      · split at hr
        · cases hr; exact hone
        · cases hr
    · intro s' hs'
      unfold larsMove at hs'
      simp only at hs'
      split at hs'
      · split at hs'
        · cases hs'
        · cases hs'
          refine ⟨hone, ?_⟩
          simp only
          rw [hfeat, List.toFinset_append, hset, ← Finset.union_assoc,
            Finset.union_eq_left.2 (Finset.subset_union_right : s.activeSet.toFinset ⊆ _ ∪ s.activeSet.toFinset)]
          refine (Finset.card_union_le _ _).trans ?_
          simp
      · split at hs'
        · cases hs'
        · cases hs'
          refine ⟨hone, ?_⟩
          simp only
          rw [hfeat]
          refine le_trans (le_of_eq ?_) (Nat.le_succ _)
          congr 1
          rw [Finset.union_eq_left]
          intro v hv
          rw [List.mem_toFinset] at hv
          apply Finset.mem_union_right
          rw [← hset, List.mem_toFinset]
          have := List.mem_of_mem_dropLast hv
          rcases List.mem_or_eq_of_mem_set this with h' | h'
          · exact h'
          · have hne' : s.activeSet.insertionSort (· ≤ ·) ≠ [] := by
              intro e
              apply hne
              have := congrArg List.length e
              rw [List.length_insertionSort] at this
              exact List.eq_nil_of_length_eq_zero this
            rw [h', List.getLastD_eq_getLast?, List.getLast?_eq_getLast_of_ne_nil hne']
            exact List.getLast_mem hne'

/-- Along a path that `LassoLars` returns, at most one feature appears per node. -/
theorem lars_oneByOne {X : Mat K} {y : Nat → K} {tol lambMin : K}
    {est : Nat → List Nat → List K → Option (List K × List K)} {path : List (LassoLarsNode K)}
    (h : LarsReturns X y tol lambMin est path) : OneByOne path := by
  obtain ⟨s, hs, hr⟩ := h
  have hi : LarsGrow s := by
    unfold larsInit at hs
    split at hs
    · cases hs
    · cases hs
      refine ⟨fun k => by simp, ?_⟩
      simp [pathFeatures]
  clear hs
  induction hr with
  | ret h => exact (larsBody_grow hi).1 _ h
  | next h _ ih => exact ih ((larsBody_grow hi).2 _ h)

/-- So no more features survive than were asked for. -/
theorem survivors_le {path : List (LassoLarsNode K)} (h : OneByOne path) (numFeat : Int) (hn : 1 ≤ numFeat) :
    ((pickMostRelevantFeatures path numFeat).length : Int) ≤ numFeat := by
  obtain ⟨k, d, h1, h2, h3, h4, -, -, h7⟩ := C67_features path numFeat
  have hcard : d.length = (pathFeatures (path.take k)).toFinset.card := by
    rw [← List.toFinset_card_of_nodup h3]
    congr 1
    ext v
    simp [h4]
  rw [h2, List.length_map, hcard]
  rcases k with _ | _ | k
  · simp [pathFeatures]; omega
  · have := h 0
    simp only [List.take_zero, Nat.zero_add] at this ⊢
    have h0 : (pathFeatures ([] : List (LassoLarsNode K))).toFinset.card = 0 := by simp [pathFeatures]
    rw [h0] at this
    omega
  · have := h (k + 1)
    have := h7 (k + 1) (by omega) (by omega)
    omega

/-! ### The first node, and columns of zeros -/

/-- What an iteration does to the path. -/
theorem larsBody_res {X : Mat K} {y : Nat → K} {tol lambMin : K}
    {est : Nat → List Nat → List K → Option (List K × List K)} {s : LarsState K} :
    (∀ r, larsBody X y tol lambMin est s = .ret r → (s.lamb > lambMin → ∃ n : LassoLarsNode K,
      n.selection = s.activeSet.insertionSort (· ≤ ·) ∧ s.res ++ [n] = r) ∧ (¬ s.lamb > lambMin → s.res = r)) ∧
    (∀ s', larsBody X y tol lambMin est s = .next s' → ∃ n : LassoLarsNode K,
      n.selection = s.activeSet.insertionSort (· ≤ ·) ∧ s.res ++ [n] = s'.res) := by
  rcases larsBody_cases (X := X) (y := y) (tol := tol) (lambMin := lambMin) (est := est) (s := s) with h | ⟨h0, h⟩ |
    ⟨hl, hne, c, d, jts, -, hc, -, hj, h⟩
  · rw [h]; simp
  · rw [h]
    refine ⟨fun r hr => ?_, by simp⟩
    simp only [Outcome.ret.injEq] at hr
    subst hr
    exact ⟨fun h1 => absurd h1 h0, fun _ => rfl⟩
  · rw [h]
    unfold larsMove
    simp only
    constructor
    · intro r hr
      refine ⟨fun _ => ⟨⟨betaLARS c d s.lamb, s.lamb, s.activeSet.insertionSort (· ≤ ·)⟩, rfl, ?_⟩,
        fun h1 => absurd hl h1⟩
      split at hr
      · split at hr
        · cases hr; rfl
        · cases hr
      · split at hr
        · cases hr; rfl
        · cases hr
    · intro s' hs'
      refine ⟨⟨betaLARS c d s.lamb, s.lamb, s.activeSet.insertionSort (· ≤ ·)⟩, rfl, ?_⟩
      split at hs'
      · split at hs'
        · cases hs'
        · cases hs'; rfl
      · split at hs'
        · cases hs'
        · cases hs'; rfl

theorem lars_prefix {X : Mat K} {y : Nat → K} {tol lambMin : K}
    {est : Nat → List Nat → List K → Option (List K × List K)} {s : LarsState K} {path : List (LassoLarsNode K)}
    (h : Runs (larsBody X y tol lambMin est) s path) : s.res <+: path := by
  induction h with
  | @ret s r h =>
    obtain ⟨h1, h2⟩ := larsBody_res.1 _ h
    by_cases hl : s.lamb > lambMin
    · obtain ⟨n, -, e⟩ := h1 hl
      exact ⟨_, e⟩
    · rw [h2 hl]
  | next h _ ih =>
    obtain ⟨n, -, e⟩ := larsBody_res.2 _ h
    rw [← e] at ih
    exact (List.prefix_append _ _).trans ih

/-- If some feature is correlated more than `lambMin`, the first node has one feature of maximal correlation. -/
theorem lars_first {X : Mat K} {y : Nat → K} {tol lambMin : K}
    {est : Nat → List Nat → List K → Option (List K × List K)} {path : List (LassoLarsNode K)}
    (h : LarsReturns X y tol lambMin est path) (hc : ∃ i < X.nc, lambMin < |larsXy X y i|) :
    ∃ f n rest, path = n :: rest ∧ n.selection = [f] ∧ f < X.nc ∧ ∀ i < X.nc, |larsXy X y i| ≤ |larsXy X y f| := by
  obtain ⟨s, hs, hr⟩ := h
  unfold larsInit at hs
  split at hs
  · cases hs
  rename_i hz
  obtain ⟨-, h2, h3⟩ := maxTime_spec ((List.range X.nc).map (fun i => some |larsXy X y i|))
  generalize hm : maxTime ((List.range X.nc).map (fun i => some |larsXy X y i|)) = m at *
  have hmax : ∀ i < X.nc, |larsXy X y i| ≤ m.1 := by
    intro i hi
    exact h3 _ (List.mem_map.2 ⟨i, List.mem_range.2 hi, rfl⟩)
  have hf : m.2 < X.nc ∧ m.1 ≤ |larsXy X y m.2| := by
    rcases h2 with ⟨h2, h2'⟩ | ⟨-, h2⟩
    · rw [h2, h2']
      exact ⟨by omega, abs_nonneg _⟩
    · rw [List.getElem?_map, Option.map_eq_some_iff] at h2
      obtain ⟨a, ha, h2⟩ := h2
      obtain ⟨hlt, ha⟩ := List.getElem?_eq_some_iff.1 ha
      rw [List.getElem_range] at ha
      subst ha
      simp only [Option.some.injEq] at h2
      exact ⟨by simpa using hlt, le_of_eq h2.symm⟩
  obtain ⟨i, hi, hlt⟩ := hc
  have hlamb : m.1 > lambMin := lt_of_lt_of_le hlt (hmax i hi)
  simp only [Option.some.injEq] at hs
  have hres : s.res = [] := by rw [← hs]
  have hact : s.activeSet = [m.2] := by rw [← hs]
  have hl : s.lamb > lambMin := by rw [← hs]; exact hlamb
  have key : ∃ n : LassoLarsNode K, n.selection = [m.2] ∧ [n] <+: path := by
    cases hr with
    | ret h =>
      obtain ⟨n, h1, h2⟩ := (larsBody_res.1 _ h).1 hl
      rw [hres] at h2
      exact ⟨n, by rw [h1, hact]; rfl, ⟨[], by simpa using h2⟩⟩
    | next h h' =>
      obtain ⟨n, h1, h2⟩ := larsBody_res.2 _ h
      rw [hres] at h2
      have := lars_prefix h'
      rw [← h2] at this
      exact ⟨n, by rw [h1, hact]; rfl, by simpa using this⟩
  obtain ⟨n, h1, rest, h2⟩ := key
  exact ⟨m.2, n, rest, by rw [← h2]; rfl, h1, hf.1, fun i hi => (hmax i hi).trans hf.2⟩

/-- A column that is not all zeros. -/
def NonzeroCol (X : Mat K) (f : Nat) : Prop := ∃ r < X.nr, X.get r f ≠ 0

theorem larsXX_zero {X : Mat K} {f : Nat} (h : ¬ NonzeroCol X f) (active : List Nat) (v : List K) :
    larsXX X active v f = 0 := by
  unfold larsXX
  apply Finset.sum_eq_zero
  intro r hr
  have : X.get r f = 0 := by
    by_contra h0
    exact h ⟨r, Finset.mem_range.1 hr, h0⟩
  rw [this, zero_mul]

theorem larsXy_zero {X : Mat K} {f : Nat} (h : ¬ NonzeroCol X f) (y : Nat → K) : larsXy X y f = 0 := by
  unfold larsXy
  apply Finset.sum_eq_zero
  intro r hr
  have : X.get r f = 0 := by
    by_contra h0
    exact h ⟨r, Finset.mem_range.1 hr, h0⟩
  rw [this, zero_mul]

theorem joinTime_zero {tol l t : K} {last : Option (Nat × K)} {i : Nat} (h : joinTime tol l last i 0 0 = some t) :
    t ≤ 0 := by
  have e1 : Fl.divFin (0 : K) (1 - 0) = .fin 0 := by simp [Fl.divFin]
  have e2 : Fl.divFin (0 : K) (-1 - 0) = .fin 0 := by simp [Fl.divFin]
  have key : ∀ (a b : Fl K) , (a = .fin 0 ∨ a = .fin (-10)) → (b = .fin 0 ∨ b = .fin (-10)) →
      (match timeIn (-tol) (l + tol) a with | some t => some t | none => timeIn (-tol) (l + tol) b) = some t →
      t ≤ 0 := by
    intro a b ha hb hab
    have h10 : (-10 : K) ≤ 0 := by norm_num
    have hone : ∀ (a : Fl K), (a = .fin 0 ∨ a = .fin (-10)) → timeIn (-tol) (l + tol) a = some t → t ≤ 0 := by
      rintro a (rfl | rfl) h
      · unfold timeIn at h
        simp only at h
        split at h
        · cases h; exact le_refl _
        · cases h
      · unfold timeIn at h
        simp only at h
        split at h
        · cases h; exact h10
        · cases h
    split at hab
    · rename_i t' ht'
      cases hab
      exact hone a ha ht'
    · exact hone b hb hab
  unfold joinTime at h
  rw [e1, e2] at h
  refine key _ _ ?_ ?_ h
  · split
    · split
      · exact .inr rfl
      · exact .inl rfl
    · exact .inl rfl
  · split
    · split
      · exact .inr rfl
      · exact .inl rfl
    · exact .inl rfl

/-- A column of zeros never enters the path. -/
theorem lars_nonzero {X : Mat K} {y : Nat → K} {tol lambMin : K} (hmin : 0 ≤ lambMin)
    {est : Nat → List Nat → List K → Option (List K × List K)} {path : List (LassoLarsNode K)}
    (h : LarsReturns X y tol lambMin est path) : ∀ n ∈ path, ∀ f ∈ n.selection, NonzeroCol X f := by
  obtain ⟨s, hs, hr⟩ := h
  have hi : (s.lamb > lambMin → ∀ f ∈ s.activeSet, NonzeroCol X f) ∧ ∀ n ∈ s.res, ∀ f ∈ n.selection, NonzeroCol X f := by
    unfold larsInit at hs
    split at hs
    · cases hs
    · simp only [Option.some.injEq] at hs
      obtain ⟨-, h2, -⟩ := maxTime_spec ((List.range X.nc).map (fun i => some |larsXy X y i|))
      rw [← hs]
      refine ⟨fun hl f hf => ?_, by simp⟩
      simp only [List.mem_singleton] at hf
      simp only at hl
      subst hf
      by_contra h0
      rcases h2 with ⟨h2, -⟩ | ⟨h1, h2⟩
      · rw [h2] at hl
        exact absurd hl (not_lt.2 hmin)
      · rw [List.getElem?_map, Option.map_eq_some_iff] at h2
        obtain ⟨a, ha, h2⟩ := h2
        obtain ⟨hlt, ha⟩ := List.getElem?_eq_some_iff.1 ha
        rw [List.getElem_range] at ha
        simp only [Option.some.injEq] at h2
        rw [← h2, ← ha, larsXy_zero h0, abs_zero] at h1
        exact lt_irrefl _ h1
  clear hs
  induction hr with
  | @ret s r h =>
    obtain ⟨h1, h2⟩ := larsBody_res.1 _ h
    by_cases hl : s.lamb > lambMin
    · obtain ⟨n, hn, e⟩ := h1 hl
      intro n' hn'
      rw [← e, List.mem_append, List.mem_singleton] at hn'
      rcases hn' with hn' | rfl
      · exact hi.2 n' hn'
      · intro f hf
        rw [hn, List.mem_insertionSort] at hf
        exact hi.1 hl f hf
    · rw [← h2 hl]
      exact hi.2
  | @next s s' r h _ ih =>
    apply ih
    obtain ⟨n, hn, e⟩ := larsBody_res.2 _ h
    rcases larsBody_cases (X := X) (y := y) (tol := tol) (lambMin := lambMin) (est := est) (s := s) with h' | ⟨h0, h'⟩ |
      ⟨hl, hne, c, d, jts, -, hc, -, hj, h'⟩
    · rw [h'] at h; cases h
    · rw [h'] at h; cases h
    · constructor
      · intro hl' f hf
        rw [h'] at h
        unfold larsMove at h
        simp only at h
        split at h
        · rename_i hgt
          split at h
          · cases h
          · cases h
            simp only [List.mem_append, List.mem_singleton] at hf
            rcases hf with hf | hf
            · rw [List.mem_insertionSort] at hf
              exact hi.1 hl f hf
            · subst hf
              by_contra h0
              obtain ⟨g1, g2, -⟩ := maxJoinTime_spec jts (s.activeSet.insertionSort (· ≤ ·))
              have hpos : 0 < (maxJoinTime jts (s.activeSet.insertionSort (· ≤ ·))).1 :=
                lt_of_le_of_lt (maxTime_spec _).1 hgt
              obtain ⟨-, g3⟩ := g2 hpos
              obtain ⟨glt, g3⟩ := List.getElem?_eq_some_iff.1 g3
              have hlt' : (maxJoinTime jts (s.activeSet.insertionSort (· ≤ ·))).2 < (List.range X.nc).length := by
                rw [← mapM_length hj]; exact glt
              have := mapM_getElem hj _ hlt'
              rw [List.getElem_range, larsXy_zero h0, larsXX_zero h0, larsXX_zero h0, sub_zero] at this
              have := joinTime_zero this
              rw [g3] at this
              exact absurd hpos (not_lt.2 this)
        · split at h
          · cases h
          · cases h
            simp only at hf
            have := List.mem_of_mem_dropLast hf
            have hmem : f ∈ s.activeSet.insertionSort (· ≤ ·) := by
              rcases List.mem_or_eq_of_mem_set this with h' | h'
              · exact h'
              · have hne' : s.activeSet.insertionSort (· ≤ ·) ≠ [] := by
                  intro e
                  apply hne
                  have := congrArg List.length e
                  rw [List.length_insertionSort] at this
                  exact List.eq_nil_of_length_eq_zero this
                rw [h', List.getLastD_eq_getLast?, List.getLast?_eq_getLast_of_ne_nil hne']
                exact List.getLast_mem hne'
            rw [List.mem_insertionSort] at hmem
            exact hi.1 hl f hmem
      · intro n' hn'
        rw [← e, List.mem_append, List.mem_singleton] at hn'
        rcases hn' with hn' | rfl
        · exact hi.2 n' hn'
        · intro f hf
          rw [hn, List.mem_insertionSort] at hf
          exact hi.1 hl f hf

end

end GoSelect
