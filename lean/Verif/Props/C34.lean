import Verif.Props.C33
import Verif.Model.LazyMatrix
import Verif.Proofs.IntUtil
import Verif.Proofs.MapM
import Mathlib.Algebra.BigOperators.Intervals
import Mathlib.Data.List.Range

/-!
C34: the columns of the lazy power matrix.

Because of C33 the claim holds up to three columns and fails from four columns on.
-/

namespace GoSelect

open Spec

theorem powerMap_fold (L : List (Nat × Int)) (acc : List (Nat × Nat))
    (hd : (L.map (·.1)).Nodup) (hdis : ∀ c ∈ L.map (·.1), ∀ e, (c, e) ∉ acc) :
    L.foldl (fun p ce => if 0 < ce.2 then mapPut p ce.1 ce.2.toNat else p) acc =
      acc ++ (L.filter (fun ce => decide (0 < ce.2))).map (fun ce => (ce.1, ce.2.toNat)) := by
  induction L generalizing acc with
  | nil => simp
  | cons a L ih =>
    rw [List.map_cons, List.nodup_cons] at hd
    rw [List.foldl_cons]
    by_cases ha : 0 < a.2
    · have hput : mapPut acc a.1 a.2.toNat = acc ++ [(a.1, a.2.toNat)] := by
        unfold mapPut
        rw [List.filter_eq_self.2]
        rintro ⟨c, e⟩ hce
        simp only [ne_eq, decide_not, Bool.not_eq_true', decide_eq_false_iff_not]
        rintro rfl
        exact hdis a.1 (by simp) e hce
      rw [if_pos ha, hput, ih _ hd.2, List.filter_cons_of_pos (by simpa using ha)]
      · simp
      · intro c hc e he
        rcases List.mem_append.1 he with he | he
        · exact hdis c (by simp only [List.map_cons]; exact List.mem_cons_of_mem _ hc) e he
        · rw [List.mem_singleton, Prod.mk.injEq] at he
          rw [he.1] at hc
          exact hd.1 hc
    · rw [if_neg ha, ih _ hd.2, List.filter_cons_of_neg (by simpa using ha)]
      intro c hc e
      exact hdis c (by simp only [List.map_cons]; exact List.mem_cons_of_mem _ hc) e

theorem zip_range_eq (pow : List Int) :
    (List.range pow.length).zip pow = (List.range pow.length).map (fun c => (c, pow.getD c 0)) := by
  apply List.ext_getElem
  · simp
  · intro i h1 h2
    simp at h1
    simp [List.getElem?_eq_getElem h1]

theorem powerMap_range (pow : List Int) :
    powerMap (List.range pow.length) pow =
      ((List.range pow.length).filter (fun c => decide (0 < pow.getD c 0))).map
        (fun c => (c, (pow.getD c 0).toNat)) := by
  unfold powerMap
  rw [powerMap_fold _ _ (by rw [zip_range_eq, List.map_map]; simpa [Function.comp_def] using List.nodup_range)
    (by simp), zip_range_eq, List.filter_map, List.map_map, List.nil_append]
  rfl

theorem powerEntry_eq {K : Type} [CommMonoid K] (X : Mat K) (row : Nat) (p : List (Nat × Nat)) :
    powerEntry X row p = (p.map (fun cp => X.get row cp.1 ^ cp.2)).prod := by
  unfold powerEntry
  have : ∀ a : K, p.foldl (fun r cp => r * X.get row cp.1 ^ cp.2) a =
      a * (p.map (fun cp => X.get row cp.1 ^ cp.2)).prod := by
    induction p with
    | nil => simp
    | cons c p ih => intro a; rw [List.foldl_cons, ih]; simp [mul_assoc]
  rw [this, one_mul]

/-- The entry of a power column is the product over all columns. -/
theorem powerEntry_powerMap {K : Type} [CommMonoid K] (X : Mat K) (row : Nat) (pow : List Int) :
    powerEntry X row (powerMap (List.range pow.length) pow) =
      ∏ c ∈ Finset.range pow.length, X.get row c ^ (pow.getD c 0).toNat := by
  rw [powerMap_range, powerEntry_eq, List.map_map]
  generalize pow.length = n
  induction n with
  | zero => simp
  | succ n ih =>
    rw [List.range_succ, List.filter_append, List.map_append, List.prod_append, ih,
      Finset.prod_range_succ]
    congr 1
    by_cases h : 0 < pow.getD n 0
    · rw [List.filter_cons_of_pos (by simpa using h)]
      simp
    · rw [List.filter_cons_of_neg (by simpa using h)]
      have : (pow.getD n 0).toNat = 0 := by omega
      rw [this]
      simp

theorem addPowers_eq {K : Type} (rows : List (List Int)) (cols : List Nat) (maxPower : Int)
    (m : LazyMat K) :
    rows.foldl (fun m pow =>
      if sumInt pow ≤ 1 ∨ sumInt pow > maxPower then m else m.addPower (powerMap cols pow)) m =
    { m with powers := m.powers ++
        (rows.filter (fun pow => decide (1 < sumInt pow ∧ sumInt pow ≤ maxPower))).map (powerMap cols) } := by
  induction rows generalizing m with
  | nil => simp
  | cons t rows ih =>
    rw [List.foldl_cons, ih]
    by_cases h : sumInt t ≤ 1 ∨ sumInt t > maxPower
    · rw [if_pos h, List.filter_cons_of_neg (by simp; omega)]
    · rw [if_neg h, List.filter_cons_of_pos (by simp; omega)]
      simp [LazyMat.addPower]

theorem sumInt_cast (l : List Nat) : sumInt (l.map Int.ofNat) = ((l.sum : Nat) : Int) := by
  unfold sumInt
  have : ∀ a : Int, (l.map Int.ofNat).foldl (fun s v => s + v) a = a + ((l.sum : Nat) : Int) := by
    induction l with
    | nil => simp
    | cons x l ih => intro a; rw [List.map_cons, List.foldl_cons, ih]; simp; omega
  rw [this]; simp

theorem le_sum_of_mem_nat {e : List Nat} {x : Nat} (h : x ∈ e) : x ≤ e.sum := by
  induction e with
  | nil => simp at h
  | cons a e ih =>
    rw [List.sum_cons]
    rcases List.mem_cons.1 h with rfl | h
    · omega
    · have := ih h; omega

theorem two_le_sum (e : List Nat) {i j a b : Nat} (hi : e[i]? = some a) (hj : e[j]? = some b)
    (hne : j ≠ i) : a + b ≤ e.sum := by
  induction e generalizing i j with
  | nil => simp at hi
  | cons x e ih =>
    rw [List.sum_cons]
    cases i with
    | zero =>
      cases j with
      | zero => exact absurd rfl hne
      | succ j =>
        simp at hi hj
        have := le_sum_of_mem_nat (List.mem_of_getElem? hj)
        omega
    | succ i =>
      cases j with
      | zero =>
        simp at hi hj
        have := le_sum_of_mem_nat (List.mem_of_getElem? hi)
        omega
      | succ j =>
        have := ih (i := i) (j := j) (by simpa using hi) (by simpa using hj) (by omega)
        omega

theorem tuples_nodup {values : List Int} (h : values.Nodup) (r : Nat) : (tuples values r).Nodup := by
  induction r with
  | zero => simp [tuples]
  | succ r ih =>
    rw [tuples, List.nodup_flatMap]
    refine ⟨fun v _ => ih.map (fun a b hab => by simpa using hab), ?_⟩
    refine h.imp ?_
    intro a b hab t h1 h2
    obtain ⟨u, -, rfl⟩ := List.mem_map.1 h1
    obtain ⟨w, -, hw⟩ := List.mem_map.1 h2
    simp at hw
    exact hab hw.1.symm

theorem tuples_cast {n r : Nat} {t : List Int} (h : t ∈ tuples ((List.range n).map Int.ofNat) r) :
    t = (t.map Int.toNat).map Int.ofNat := by
  obtain ⟨-, h2⟩ := mem_tuples.1 h
  rw [List.map_map]
  conv_lhs => rw [← List.map_id t]
  apply List.map_congr_left
  intro v hv
  obtain ⟨k, -, rfl⟩ := List.mem_map.1 (h2 v hv)
  rfl

/-- The powers that `NewLazyMatrix` adds, in terms of `IterProduct`. -/
theorem newLazyMatrix_eq {K : Type} (grow : Nat → Nat) (X : Mat K) (p : Nat) :
    newLazyMatrix grow X p = some ⟨X, ((iterProduct grow ((List.range (p + 1)).map Int.ofNat) X.nc).filter
      (fun pow => decide (1 < sumInt pow ∧ sumInt pow ≤ p))).map (powerMap (List.range X.nc))⟩ := by
  unfold newLazyMatrix LazyMat.addPowerSequence
  rw [if_neg (by omega)]
  simp only [List.length_range]
  rw [show ((p : Int) + 1).toNat = p + 1 by omega, addPowers_eq]
  simp

theorem getCol_power {K : Type} [CommMonoid K] (m : LazyMat K) (k : Nat) (pow : List Int)
    (hl : pow.length = m.X.nc) (hk : m.powers[k]? = some (powerMap (List.range m.X.nc) pow)) :
    m.getCol (m.X.nc + k) = some ((List.range m.X.nr).map (fun row =>
      ∏ c ∈ Finset.range m.X.nc, m.X.get row c ^ (pow.getD c 0).toNat)) := by
  unfold LazyMat.getCol
  rw [if_neg (by omega)]
  by_cases h0 : m.X.nr = 0
  · rw [if_pos h0, h0]; rfl
  · rw [if_neg h0, Nat.add_sub_cancel_left, hk]
    simp only
    rw [if_neg]
    · congr 1
      apply List.map_congr_left
      intro row _
      rw [← hl, powerEntry_powerMap]
    · rw [← hl, powerMap_range]
      simp only [List.any_eq_true, List.mem_map, List.mem_filter, List.mem_range, decide_eq_true_eq]
      rintro ⟨_, ⟨c, ⟨hc, -⟩, rfl⟩, h⟩
      omega

/-- **C34 (partial).** Up to three columns: the columns of `X`, then one column for each exponent
vector of total degree 2..p, equal to the product of the powers; no exponent vector occurs twice.
Missing: four or more columns, where the claim is false (`C34_refuted`). -/
theorem C34_monomials_partial {K : Type} [CommMonoid K] {grow : Nat → Nat} (hg : GoGrowth grow)
    (X : Mat K) (hX : X.nc ≤ 3) (p : Nat) :
    ∃ (m : LazyMat K) (es : List (List Nat)), newLazyMatrix grow X p = some m ∧
      es.Nodup ∧ (∀ e : List Nat, e ∈ es ↔ e.length = X.nc ∧ 2 ≤ e.sum ∧ e.sum ≤ p) ∧
      m.numCols = X.nc + es.length ∧
      (∀ c, c < X.nc → m.getCol c = some ((List.range X.nr).map (fun r => X.get r c))) ∧
      ∀ k (hk : k < es.length), m.getCol (X.nc + k) = some ((List.range X.nr).map (fun r =>
        ∏ c ∈ Finset.range X.nc, X.get r c ^ es[k].getD c 0)) := by
  set values := (List.range (p + 1)).map Int.ofNat with hvals
  have hnodup : values.Nodup := List.nodup_range.map (fun a b h => by simpa using h)
  set rows := (tuples values X.nc).filter
    (fun pow => decide (1 < sumInt pow ∧ sumInt pow ≤ (p : Int))) with hrows
  have hmemrows : ∀ t ∈ rows, t.length = X.nc ∧ t = (t.map Int.toNat).map Int.ofNat := by
    intro t ht
    have := (List.mem_filter.1 ht).1
    exact ⟨tuples_length this, tuples_cast this⟩
  refine ⟨_, rows.map (fun t => t.map Int.toNat), newLazyMatrix_eq grow X p, ?_, ?_, ?_, ?_, ?_⟩
  · apply List.Nodup.map_on
    · intro a ha b hb hab
      rw [(hmemrows a ha).2, (hmemrows b hb).2, hab]
    · exact (tuples_nodup hnodup X.nc).filter _
  · intro e
    rw [List.mem_map]
    constructor
    · rintro ⟨t, ht, rfl⟩
      obtain ⟨h1, h2⟩ := hmemrows t ht
      have h3 := (List.mem_filter.1 ht).2
      rw [decide_eq_true_eq, h2, sumInt_cast] at h3
      exact ⟨by simpa using h1, by omega, by omega⟩
    · rintro ⟨h1, h2, h3⟩
      refine ⟨e.map Int.ofNat, ?_, by simp [Function.comp_def]⟩
      rw [hrows, List.mem_filter, decide_eq_true_eq, sumInt_cast, mem_tuples]
      refine ⟨⟨by simpa using h1, ?_⟩, by omega, by omega⟩
      intro v hv
      obtain ⟨x, hx, rfl⟩ := List.mem_map.1 hv
      rw [hvals]
      refine List.mem_map.2 ⟨x, List.mem_range.2 ?_, rfl⟩
      have := le_sum_of_mem_nat hx
      omega
  · simp only [LazyMat.numCols, List.length_map]
    rw [C33_product_partial hg _ _ hX]
  · intro c hc
    unfold LazyMat.getCol
    rw [if_pos (by exact hc)]
  · intro k hk
    rw [List.length_map] at hk
    have hr := hmemrows rows[k] (List.getElem_mem hk)
    refine (getCol_power ⟨X, _⟩ k rows[k] hr.1 ?_).trans ?_
    · simp only
      rw [C33_product_partial hg _ _ hX, List.getElem?_map, List.getElem?_eq_getElem hk]
      rfl
    · congr 1
      apply List.map_congr_left
      intro r _
      apply Finset.prod_congr rfl
      intro c hc
      have hc' : c < rows[k].length := by rw [hr.1]; exact Finset.mem_range.1 hc
      simp [List.getElem?_eq_getElem hc']

/-- `FullMatrix` has the columns that `GetCol` returns. -/
theorem C34_fullMatrix {K : Type} [CommMonoid K] [Inhabited K] (m : LazyMat K) (F : Mat K)
    (h : m.fullMatrix = some F) : F.nr = m.X.nr ∧ F.nc = m.numCols ∧
      ∀ c, c < F.nc → m.getCol c = some ((List.range F.nr).map (fun r => F.get r c)) := by
  unfold LazyMat.fullMatrix at h
  split at h
  · simp at h
  · rename_i cols hcols
    simp only [Option.some.injEq] at h
    subst h
    refine ⟨rfl, rfl, ?_⟩
    intro c hc
    simp only at hc ⊢
    have hlen : cols.length = m.numCols := by
      have := mapM_length hcols
      simpa using this
    have hget := mapM_getElem hcols c (by simpa using hc)
    rw [List.getElem_range] at hget
    rw [hget]
    have hcol : (cols[c]'(by omega)).length = m.X.nr := by
      unfold LazyMat.getCol at hget
      split at hget
      · rw [← Option.some.inj hget]; simp
      · split at hget
        · rename_i h0; rw [← Option.some.inj hget, h0]; rfl
        · split at hget
          · simp at hget
          · split at hget
            · simp at hget
            · rw [← Option.some.inj hget]; simp
    congr 1
    apply List.ext_getElem
    · simp [hcol]
    · intro i h1 h2
      simp [List.getElem?_eq_getElem (show c < cols.length by omega), List.getElem?_eq_getElem h1]

/-- From four columns on, every added column is the `p`-th power of column 3. -/
theorem C34_four_columns {K : Type} [CommMonoid K] {grow : Nat → Nat} (hg : GoGrowth grow)
    (X : Mat K) (hX : 4 ≤ X.nc) (p : Nat) (m : LazyMat K) (hm : newLazyMatrix grow X p = some m)
    (c : Nat) (h1 : X.nc ≤ c) (h2 : c < m.numCols) :
    m.getCol c = some ((List.range X.nr).map (fun r => X.get r 3 ^ p)) := by
  rw [newLazyMatrix_eq] at hm
  obtain rfl := Option.some.inj hm
  obtain ⟨k, rfl⟩ : ∃ k, c = X.nc + k := ⟨c - X.nc, by omega⟩
  set rows := (iterProduct grow ((List.range (p + 1)).map Int.ofNat) X.nc).filter
    (fun pow => decide (1 < sumInt pow ∧ sumInt pow ≤ (p : Int))) with hrows
  have hk : k < rows.length := by
    simp only [LazyMat.numCols, List.length_map] at h2
    omega
  have hmem := List.mem_filter.1 (List.getElem_mem hk)
  obtain ⟨hlen, hvals⟩ := C33_rows hg _ _ _ hmem.1
  have h3 := C33_position_three hg _ _ hX _ hmem.1
  have hlast : ((List.range (p + 1)).map Int.ofNat).getLastD 0 = (p : Int) := by
    simp [List.range_succ]
  rw [hlast] at h3
  set t := rows[k] with ht
  have hcast : t = (t.map Int.toNat).map Int.ofNat := by
    rw [List.map_map]
    conv_lhs => rw [← List.map_id t]
    apply List.map_congr_left
    intro v hv
    obtain ⟨j, -, rfl⟩ := List.mem_map.1 (hvals v hv)
    rfl
  have hsum : (t.map Int.toNat).sum ≤ p := by
    have := hmem.2
    rw [decide_eq_true_eq, hcast, sumInt_cast] at this
    omega
  refine (getCol_power ⟨X, _⟩ k t hlen ?_).trans ?_
  · simp only
    rw [List.getElem?_map, List.getElem?_eq_getElem hk]
    rfl
  · congr 1
    apply List.map_congr_left
    intro r _
    have hzero : ∀ c, c ≠ 3 → (t.getD c 0).toNat = 0 := by
      intro c hc
      by_contra hne
      have hct : c < t.length := by
        by_contra hge
        rw [List.getD_eq_getElem?_getD, List.getElem?_eq_none (by omega)] at hne
        exact hne rfl
      have h3t : 3 < t.length := by omega
      have e3 : (t.map Int.toNat)[3]? = some p := by
        rw [List.getElem?_map, h3]; rfl
      have ec : (t.map Int.toNat)[c]? = some (t.getD c 0).toNat := by
        rw [List.getElem?_map, List.getElem?_eq_getElem hct]
        simp [List.getElem?_eq_getElem hct]
      have := two_le_sum _ e3 ec hc
      omega
    rw [Finset.prod_eq_single 3]
    · rw [List.getD_eq_getElem?_getD, h3]
      simp
    · intro b _ hb
      rw [hzero b hb, pow_zero]
    · intro h
      exact absurd (Finset.mem_range.2 (by simp only; omega)) h

/-- From six columns on (and the capacity 8 for a full slice of length 4) no column is added. -/
theorem C34_six_columns {K : Type} {grow : Nat → Nat} (hg : GoGrowth grow) (h4 : grow 4 = 8)
    (X : Mat K) (hX : 6 ≤ X.nc) (p : Nat) (m : LazyMat K) (hm : newLazyMatrix grow X p = some m) :
    m.X = X ∧ m.numCols = X.nc := by
  rw [newLazyMatrix_eq] at hm
  obtain rfl := Option.some.inj hm
  refine ⟨rfl, ?_⟩
  simp only [LazyMat.numCols, List.length_map, Nat.add_eq_left, List.length_eq_zero_iff, List.filter_eq_nil_iff,
    decide_eq_true_eq]
  intro t ht
  have h3 := C33_position_three hg _ _ (by omega) _ ht
  have h5 : t[5]? = some (p : Int) := by
    rw [iterProduct_eq hg.grows] at ht
    obtain ⟨u, hu, rfl⟩ := List.mem_map.1 ht
    have h1 : capSeq grow 1 = 1 := by simp [capSeq, hg.g0]
    have h2 : capSeq grow 2 = 2 := by rw [capSeq, h1]; simp [hg.g1]
    have h3 : capSeq grow 3 = 4 := by rw [capSeq, h2]; simp [hg.g2]
    have h4' : capSeq grow 4 = 4 := by rw [capSeq, h3]; simp
    have h5 : capSeq grow 5 = 8 := by rw [capSeq, h4']; simp [h4]
    have hl := tuples_length hu
    rw [blur, List.getElem?_mapIdx, List.getElem?_eq_getElem (by omega)]
    simp [h5, List.range_succ]
  rw [show ((List.range (p + 1)).map Int.ofNat).getLastD 0 = (p : Int) by simp [List.range_succ]] at h3
  obtain ⟨-, hvals⟩ := C33_rows hg _ _ _ ht
  have hcast : t = (t.map Int.toNat).map Int.ofNat := by
    rw [List.map_map]
    conv_lhs => rw [← List.map_id t]
    apply List.map_congr_left
    intro v hv
    obtain ⟨j, -, rfl⟩ := List.mem_map.1 (hvals v hv)
    rfl
  have := two_le_sum (t.map Int.toNat) (i := 3) (j := 5) (a := p) (b := p) (by rw [List.getElem?_map, h3]; rfl)
    (by rw [List.getElem?_map, h5]; rfl) (by omega)
  rw [hcast, sumInt_cast]
  omega

theorem countP_tuples_zero (p r : Nat) (P Q : List Int → Bool) (h : ∀ v u, P (v :: u) = (decide (v = 0) && Q u)) :
    (tuples ((List.range (p + 1)).map Int.ofNat) (r + 1)).countP P =
      (tuples ((List.range (p + 1)).map Int.ofNat) r).countP Q := by
  generalize hT : tuples ((List.range (p + 1)).map Int.ofNat) r = T
  rw [tuples, hT, List.countP_flatMap, List.range_succ_eq_map]
  simp only [List.map_cons, List.map_map, List.sum_cons, Function.comp_def, List.countP_map, h]
  have : ((List.range p).map (fun x => T.countP (fun u => decide (Int.ofNat x.succ = 0) && Q u))).sum = 0 := by
    rw [List.sum_eq_zero]
    intro n hn
    obtain ⟨x, -, rfl⟩ := List.mem_map.1 hn
    rw [List.countP_eq_zero]
    intro u _
    have : ¬ (Int.ofNat x.succ = 0) := by simp; omega
    rw [decide_eq_false this, Bool.false_and]
    exact Bool.false_ne_true
  rw [this]
  simp

theorem countP_tuples_any (values : List Int) (r : Nat) (P Q : List Int → Bool) (h : ∀ v u, P (v :: u) = Q u) :
    (tuples values (r + 1)).countP P = values.length * (tuples values r).countP Q := by
  rw [tuples, List.countP_flatMap]
  simp only [List.countP_map, Function.comp_def, h]
  rw [List.map_const', List.sum_replicate_nat]

/-- With four or five columns `p + 1` columns are added. -/
theorem C34_four_five_columns {K : Type} {grow : Nat → Nat} (hg : GoGrowth grow) (X : Mat K)
    (hX : X.nc = 4 ∨ X.nc = 5) (p : Nat) (hp : 2 ≤ p) (m : LazyMat K) (hm : newLazyMatrix grow X p = some m) :
    m.X = X ∧ m.numCols = X.nc + (p + 1) := by
  rw [newLazyMatrix_eq] at hm
  obtain rfl := Option.some.inj hm
  refine ⟨rfl, ?_⟩
  simp only [LazyMat.numCols, List.length_map, Nat.add_left_cancel_iff]
  rw [iterProduct_eq hg.grows, List.filter_map, List.length_map, ← List.countP_eq_length_filter,
    show ((List.range (p + 1)).map Int.ofNat).getLastD 0 = (p : Int) by simp [List.range_succ]]
  have h1 : capSeq grow 1 = 1 := by simp [capSeq, hg.g0]
  have h2 : capSeq grow 2 = 2 := by rw [capSeq, h1]; simp [hg.g1]
  have h3 : capSeq grow 3 = 4 := by rw [capSeq, h2]; simp [hg.g2]
  have h4 : capSeq grow 4 = 4 := by rw [capSeq, h3]; simp
  have hnn : ∀ r, ∀ t ∈ tuples ((List.range (p + 1)).map Int.ofNat) r, ∀ v ∈ t, 0 ≤ v := by
    intro r t ht v hv
    obtain ⟨k, -, rfl⟩ := List.mem_map.1 ((mem_tuples.1 ht).2 v hv)
    simp
  rcases hX with hX | hX
  · rw [hX, List.countP_congr (q := fun t => decide (t.getD 0 1 = 0) && (decide (t.getD 1 1 = 0) &&
      (decide (t.getD 2 1 = 0) && true)))]
    · rw [countP_tuples_zero p 3 _ (fun t => decide (t.getD 0 1 = 0) && (decide (t.getD 1 1 = 0) && true))
        (by intro v u; simp), countP_tuples_zero p 2 _ (fun t => decide (t.getD 0 1 = 0) && true)
        (by intro v u; simp), countP_tuples_zero p 1 _ (fun t => true) (by intro v u; simp)]
      simp [tuples_count]
    · intro t ht
      have hl := tuples_length ht
      have hn := hnn _ t ht
      match t, hl with
      | [a, b, c, d], _ =>
        simp only [List.mem_cons, List.not_mem_nil, or_false, forall_eq_or_imp, forall_eq] at hn
        obtain ⟨ha, hb, hc, hd⟩ := hn
        simp [blur, sumInt, capSeq, hg.g0, hg.g1, hg.g2]
        omega
  · rw [hX, List.countP_congr (q := fun t => decide (t.getD 0 1 = 0) && (decide (t.getD 1 1 = 0) &&
      (decide (t.getD 2 1 = 0) && decide (t.getD 4 1 = 0))))]
    · rw [countP_tuples_zero p 4 _ (fun t => decide (t.getD 0 1 = 0) && (decide (t.getD 1 1 = 0) &&
          decide (t.getD 3 1 = 0)))
        (by intro v u; simp), countP_tuples_zero p 3 _ (fun t => decide (t.getD 0 1 = 0) && decide (t.getD 2 1 = 0))
        (by intro v u; simp), countP_tuples_zero p 2 _ (fun t => decide (t.getD 1 1 = 0)) (by intro v u; simp),
        countP_tuples_any _ 1 _ (fun t => decide (t.getD 0 1 = 0)) (by intro v u; simp),
        countP_tuples_zero p 0 _ (fun _ => true) (by intro v u; simp)]
      simp [tuples_count]
    · intro t ht
      have hl := tuples_length ht
      have hn := hnn _ t ht
      match t, hl with
      | [a, b, c, d, e], _ =>
        simp only [List.mem_cons, List.not_mem_nil, or_false, forall_eq_or_imp, forall_eq] at hn
        obtain ⟨ha, hb, hc, hd, he⟩ := hn
        simp [blur, sumInt, capSeq, hg.g0, hg.g1, hg.g2]
        omega

/-- A concrete data set with four columns. -/
def exLazy : Mat Int := ⟨1, 4, fun _ c => [2, 3, 5, 7].getD c 0⟩

/-- **C34 is false** from four columns on: here the square 4 of the first column is missing, and the
square 49 of the last one occurs three times. -/
theorem C34_refuted : ∃ m, newLazyMatrix doubling exLazy 2 = some m ∧
    (List.range m.numCols).map m.getCol =
      [some [2], some [3], some [5], some [7], some [49], some [49], some [49]] := by
  exact ⟨_, rfl, by decide +kernel⟩

/-- Six columns: nothing is added. -/
example : ∃ m, newLazyMatrix doubling (⟨1, 6, fun _ c => [2, 3, 5, 7, 11, 13].getD c 0⟩ : Mat Int) 2 = some m ∧
    m.numCols = 6 :=
  ⟨_, rfl, (C34_six_columns doubling_growth rfl _ (Nat.le_refl 6) 2 _ rfl).2⟩

/-- Two columns, powers up to 2. -/
example : ∃ m, newLazyMatrix doubling (⟨1, 2, fun _ c => [2, 3].getD c 0⟩ : Mat Int) 2 = some m ∧
    (List.range m.numCols).map m.getCol = [some [2], some [3], some [9], some [6], some [4]] := by
  exact ⟨_, rfl, by decide +kernel⟩

end GoSelect
