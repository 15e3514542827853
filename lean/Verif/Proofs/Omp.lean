import Verif.Model.Omp
import Verif.Proofs.FitModel
import Verif.Proofs.Selection
import Verif.Proofs.Models

/-! Orthogonal matching pursuit: invariant of the loop. -/

namespace GoSelect

open Finset Spec

section argmax
variable {α : Type} [LT α] [DecidableLT α]

theorem argmax_fold_lt (l : List α) (k : Nat) (s : Nat × α) :
    ((l.zipIdx k).foldl (fun s vi => if s.2 < vi.1 then (vi.2, vi.1) else s) s).1 = s.1 ∨
      (k ≤ ((l.zipIdx k).foldl (fun s vi => if s.2 < vi.1 then (vi.2, vi.1) else s) s).1 ∧
      ((l.zipIdx k).foldl (fun s vi => if s.2 < vi.1 then (vi.2, vi.1) else s) s).1 < k + l.length) := by
  induction l generalizing k s with
  | nil => exact .inl rfl
  | cons a l ih =>
    rw [List.zipIdx_cons, List.foldl_cons]
    rcases ih (k + 1) (if s.2 < (a, k).1 then ((a, k).2, (a, k).1) else s) with h | h
    · rw [h]
      split
      · right; simp
      · exact .inl rfl
    · right
      rw [List.length_cons]
      exact ⟨by omega, by omega⟩

/-- `Argmax` of a non-empty slice is an index of the slice, also in the presence of NaN. -/
theorem argmax_lt (l : List α) (h : l ≠ []) : ∃ i, argmax l = some i ∧ i < l.length := by
  cases l with
  | nil => exact absurd rfl h
  | cons a l =>
    refine ⟨_, rfl, ?_⟩
    rcases argmax_fold_lt (a :: l) 0 (0, a) with h | h
    · rw [h]; simp
    · omega

end argmax

/-- The list of true flags after setting one more. -/
theorem hasFeature_set {m : List Bool} {i j : Nat} (hi : i < m.length) :
    HasFeature (m.set i true) j ↔ HasFeature m j ∨ j = i := by
  unfold HasFeature
  rw [List.getElem?_set]
  by_cases h : i = j
  · subst h; simp [hi]
  · simp [h]
    intro h'; exact absurd h'.symm h

variable (svd : Mat ℝ → SVD ℝ) (X : Mat ℝ) (y : List ℝ)

/-- Coefficients that `Fit` gives the model `m`. -/
noncomputable def ompFit (m : List Bool) : List ℝ :=
  (List.range (card m)).map (svdCoeff (svd (designOf X m)) (designOf X m)
    (fun k => invSigma ((svd (designOf X m)).s k)) (vec y))

/-- Predictions of the model `m`. -/
noncomputable def ompPred (m : List Bool) : List ℝ :=
  (List.range X.nr).map (lin (designOf X m) (vec (ompFit svd X y m)))

/-- Residuals of the model `m`. -/
noncomputable def ompRes (m : List Bool) : List ℝ := List.zipWith (· - ·) (ompPred svd X y m) y

/-- Root mean square error of the model `m`. -/
noncomputable def ompRmse (m : List Bool) : ℝ :=
  Real.sqrt ((∑ i ∈ range X.nr, (y.getD i 0 - (ompPred svd X y m).getD i 0) ^ 2) / y.length)

theorem ompFit_length (m : List Bool) : (ompFit svd X y m).length = card m := by simp [ompFit]

theorem ompFit_fit (hy : X.nr = y.length) (m : List Bool) :
    fit (svd (designOf X m)) (designOf X m) y = some (ompFit svd X y m) := fit_eq_some hy

/-- `coeff` holds the fit of `m` and zeros. -/
def CoeffOf (m : List Bool) (coeff : List ℝ) : Prop :=
  coeff.length = X.nc ∧ (∀ j, j < X.nc → ¬ HasFeature m j → coeff[j]? = some 0) ∧
    ∀ k, k < card m → coeff[(features m).getD k 0]? = (ompFit svd X y m)[k]?

/-- The model with the features `l`. -/
def modelOf (n : Nat) (l : List Nat) : List Bool := (List.range n).map (fun i => decide (i ∈ l))

theorem modelOf_feature (n : Nat) (l : List Nat) (h : ∀ i ∈ l, i < n) (i : Nat) :
    HasFeature (modelOf n l) i ↔ i ∈ l := by
  unfold HasFeature modelOf
  rw [List.getElem?_map]
  by_cases hi : i < n
  · simp [hi]
  · simp [hi]
    exact fun hm => hi (h i hm)

/-- Residuals when the features `l` have been chosen. -/
noncomputable def resAt (l : List Nat) : List ℝ :=
  if l = [] then y else ompRes svd X y (modelOf X.nc l)

/-- Invariant before iteration number `t`.  `d` are the features chosen so far, without repetition;
`k` further iterations have chosen `x ∈ d` again. -/
structure OmpInv (t : Nat) (st : OmpState) (d : List Nat) (k x : Nat) : Prop where
  count : d.length + k = t
  nodup : d.Nodup
  lt : ∀ i ∈ d, i < X.nc
  order : st.order = (d ++ List.replicate k x).map Int.ofNat ++ List.replicate (X.nc - t) (-1)
  le : t ≤ X.nc
  len : st.model.length = X.nc
  feat : ∀ i, HasFeature st.model i ↔ i ∈ d
  clen : st.coeff.length = X.nc
  zero : ∀ j, j < X.nc → ¬ HasFeature st.model j → st.coeff[j]? = some 0
  fit : t ≠ 0 → CoeffOf svd X y st.model st.coeff ∧ st.residuals = ompRes svd X y st.model
  stall : k ≠ 0 → x ∈ d ∧ argmax (ompProj X st.residuals) = some x
  start : t = 0 → st.residuals = y
  pick : ∀ j (hj : j < d.length), argmax (ompProj X (resAt svd X y (d.take j))) = some d[j]

variable {svd X y} in
theorem OmpInv.res {t : Nat} {st : OmpState} {d : List Nat} {k x : Nat} (h : OmpInv svd X y t st d k x) :
    st.residuals = resAt svd X y d := by
  unfold resAt
  by_cases h0 : t = 0
  · have : d = [] := List.eq_nil_of_length_eq_zero (by have := h.count; omega)
    rw [if_pos this]
    exact h.start h0
  · have hd : d ≠ [] := by
      rintro rfl
      have hk : k ≠ 0 := by have := h.count; simp at this; omega
      exact absurd (h.stall hk).1 (by simp)
    rw [if_neg hd, (h.fit h0).2]
    congr 1
    apply model_ext (by simp [modelOf, h.len])
    intro i
    rw [h.feat, modelOf_feature _ _ h.lt]

theorem set_append_replicate {α : Type} (a : List α) (n : Nat) (z v : α) (h : 0 < n) :
    (a ++ List.replicate n z).set a.length v = a ++ [v] ++ List.replicate (n - 1) z := by
  rw [List.set_append_right _ _ (le_refl _), Nat.sub_self]
  obtain ⟨m, rfl⟩ : ∃ m, n = m + 1 := ⟨n - 1, by omega⟩
  simp [List.replicate_succ]

/-- One iteration. -/
theorem ompStep_inv (hy : X.nr = y.length) {t : Nat} {st : OmpState} {d : List Nat} {k x : Nat}
    (h : OmpInv svd X y t st d k x) (ht : t < X.nc) :
    ∃ st' d' k' x', ompStep svd X y t st = some (st', ompRmse svd X y st'.model) ∧
      OmpInv svd X y (t + 1) st' d' k' x' ∧ (d' = d ∨ ∃ i, d' = d ++ [i]) := by
  have hne : ompProj X st.residuals ≠ [] := by
    intro h0
    have := congrArg List.length h0
    simp [ompProj] at this
    omega
  obtain ⟨imax, hmax, hlt⟩ := argmax_lt _ hne
  have hi : imax < X.nc := by simpa [ompProj] using hlt
  set m' := st.model.set imax true with hm'
  have hlen' : m'.length = X.nc := by rw [hm', List.length_set, h.len]
  have hf' : ∀ j, HasFeature m' j ↔ j ∈ d ∨ j = imax := by
    intro j
    rw [hm', hasFeature_set (by rw [h.len]; exact hi), h.feat]
  have hpos : 0 < card m' := by
    have : imax ∈ features m' := (mem_features _ _).2 ((hf' imax).2 (.inr rfl))
    exact List.length_pos_of_mem this
  have hdes : getDesignMatrix m' X = some (designOf X m') := getDesignMatrix_some hpos hlen'.le
  have hfit := ompFit_fit svd X y hy m'
  have hol : st.order.length = X.nc := by
    rw [h.order]
    simp only [List.length_append, List.length_map, List.length_replicate]
    have := h.count
    omega
  obtain ⟨out, g1, g2, g3, g4⟩ := fullCoeffLoop_spec (ompFit svd X y m') (features m') 0 st.coeff
    (fun v hv => by rw [h.clen, ← hlen']; exact features_lt hv)
    (by rw [ompFit_length, Nat.zero_add]; rfl) (features_nodup _)
  have hpred : predict (designOf X m') (ompFit svd X y m') = some (ompPred svd X y m') := by
    unfold predict
    rw [if_neg (by rw [ompFit_length]; simp [designOf])]
    rfl
  have hstep : ompStep svd X y t st = some (⟨ompRes svd X y m', m', out, st.order.set t (imax : Int)⟩,
      ompRmse svd X y m') := by
    unfold ompStep
    have e1 : goSet st.model imax true = some m' := by unfold goSet; rw [if_pos (by rw [h.len]; exact hi)]
    have e2 : goSet st.order t (imax : Int) = some (st.order.set t (imax : Int)) := by
      unfold goSet; rw [if_pos (by rw [hol]; exact ht)]
    simp only [hmax, e1, e2, hdes, hfit, selectedFeatures_eq, g1, hpred, Option.bind_eq_bind,
      Option.bind_some, Option.pure_def]
    have e3 : (ompPred svd X y m').length = X.nr := by simp [ompPred]
    rw [e3]
    rfl
  have hzero : ∀ j, j < X.nc → ¬ HasFeature m' j → out[j]? = some 0 := by
    intro j hj hn
    rw [g3 j (fun hm => hn ((mem_features _ _).1 hm))]
    apply h.zero j hj
    intro hh
    exact hn ((hf' j).2 (.inl ((h.feat j).1 hh)))
  have hco : CoeffOf svd X y m' out := by
    refine ⟨by rw [g2, h.clen], hzero, ?_⟩
    intro q hq
    rw [g4 q hq, Nat.zero_add]
  have hord : st.order.set t (imax : Int) =
      ((d ++ List.replicate k x) ++ [imax]).map Int.ofNat ++ List.replicate (X.nc - (t + 1)) (-1) := by
    rw [h.order]
    have e : t = ((d ++ List.replicate k x).map Int.ofNat).length := by
      simp only [List.length_map, List.length_append, List.length_replicate]
      exact h.count.symm
    conv_lhs => rw [show ∀ l : List Int, l.set t (imax : Int) =
      l.set ((d ++ List.replicate k x).map Int.ofNat).length (imax : Int) from fun l => by rw [← e]]
    rw [set_append_replicate _ _ _ _ (by omega)]
    simp only [List.map_append, List.map_cons, List.map_nil, List.append_assoc]
    congr 4
  by_cases hd : imax ∈ d
  · -- the feature was chosen before
    have hsame : m' = st.model := by
      apply model_ext (by rw [hlen', h.len])
      intro j
      rw [hf', h.feat]
      constructor
      · rintro (hj | rfl)
        · exact hj
        · exact hd
      · exact .inl
    have ht0 : t ≠ 0 := by
      intro h0
      have := h.count
      have hd0 : d = [] := List.eq_nil_of_length_eq_zero (by omega)
      rw [hd0] at hd
      simp at hd
    have hres : ompRes svd X y m' = st.residuals := by rw [hsame]; exact ((h.fit ht0).2).symm
    have hx : k ≠ 0 → x = imax := by
      intro hk
      have := (h.stall hk).2
      rw [hmax] at this
      exact (Option.some.inj this).symm
    refine ⟨⟨ompRes svd X y m', m', out, st.order.set t (imax : Int)⟩, d, k + 1, imax, hstep, ?_, .inl rfl⟩
    refine ⟨by have := h.count; omega, h.nodup, h.lt, ?_, ht, hlen', ?_, hco.1, hzero, fun _ => ⟨hco, rfl⟩, ?_, ?_, ?_⟩
    · change st.order.set t (imax : Int) = _
      rw [hord]
      congr 2
      rw [List.append_assoc]
      congr 1
      by_cases hk : k = 0
      · subst hk; rfl
      · rw [hx hk, List.replicate_succ']
    · intro j
      change HasFeature m' j ↔ j ∈ d
      rw [hsame]; exact h.feat j
    · intro _
      refine ⟨hd, ?_⟩
      change argmax (ompProj X (ompRes svd X y m')) = some imax
      rw [hres]; exact hmax
    · intro h0; omega
    · exact h.pick
  · -- a new feature
    have hk : k = 0 := by
      by_contra hk
      obtain ⟨hx1, hx2⟩ := h.stall hk
      rw [hmax] at hx2
      rw [← Option.some.inj hx2] at hx1
      exact hd hx1
    subst hk
    refine ⟨⟨ompRes svd X y m', m', out, st.order.set t (imax : Int)⟩, d ++ [imax], 0, 0, hstep, ?_, .inr ⟨imax, rfl⟩⟩
    refine ⟨by have := h.count; simp; omega, ?_, ?_, ?_, ht, hlen', ?_, hco.1, hzero, fun _ => ⟨hco, rfl⟩,
      fun hc => absurd rfl hc, fun h0 => by omega, ?_⟩
    · rw [List.nodup_append]
      refine ⟨h.nodup, by simp, ?_⟩
      intro a ha b hb
      simp only [List.mem_singleton] at hb
      rintro rfl
      exact hd (hb ▸ ha)
    · intro i hi'
      rcases List.mem_append.1 hi' with hi' | hi'
      · exact h.lt i hi'
      · simp only [List.mem_singleton] at hi'
        rw [hi']; exact hi
    · change st.order.set t (imax : Int) = _
      rw [hord]
      simp
    · intro j
      change HasFeature m' j ↔ _
      rw [hf']
      simp
    · intro j hj
      simp only [List.length_append, List.length_cons, List.length_nil, Nat.zero_add] at hj
      by_cases hjd : j < d.length
      · rw [List.take_append_of_le_length hjd.le, List.getElem_append_left hjd]
        exact h.pick j hjd
      · have : j = d.length := by omega
        subst this
        rw [List.take_append_of_le_length (le_refl _), List.take_length, ← h.res]
        simp [hmax]

variable {svd X y} in
theorem OmpInv.model_eq {t : Nat} {st : OmpState} {d : List Nat} {k x : Nat} (h : OmpInv svd X y t st d k x) :
    st.model = modelOf X.nc d := by
  apply model_ext (by simp [modelOf, h.len])
  intro i
  rw [h.feat, modelOf_feature _ _ h.lt]

/-- The loop.  Before the last iteration the error was never below the tolerance. -/
theorem ompLoop_inv (hy : X.nr = y.length) (tol : ℝ) (fuel t : Nat) (st : OmpState) (d : List Nat) (k x : Nat)
    (h : OmpInv svd X y t st d k x) (hf : fuel + t = X.nc)
    (hq : ∀ j, 0 < j → j ≤ d.length → ¬ ompRmse svd X y (modelOf X.nc (d.take j)) < tol) :
    ∃ st' t' d' k' x', ompLoop svd X y tol fuel t st = some st' ∧ OmpInv svd X y t' st' d' k' x' ∧
      (t' = X.nc ∨ ompRmse svd X y st'.model < tol) ∧ t ≤ t' ∧ (fuel ≠ 0 → t < t') ∧
      ∀ j, 0 < j → j < d'.length → ¬ ompRmse svd X y (modelOf X.nc (d'.take j)) < tol := by
  induction fuel generalizing t st d k x with
  | zero =>
    exact ⟨st, t, d, k, x, rfl, h, .inl (by omega), le_refl _, fun h => absurd rfl h,
      fun j h0 hj => hq j h0 hj.le⟩
  | succ fuel ih =>
    obtain ⟨st', d', k', x', h1, h2, h3⟩ := ompStep_inv svd X y hy h (by omega)
    have hq' : ∀ j, 0 < j → j < d'.length → ¬ ompRmse svd X y (modelOf X.nc (d'.take j)) < tol := by
      intro j h0 hj
      rcases h3 with rfl | ⟨i, rfl⟩
      · exact hq j h0 hj.le
      · rw [List.length_append, List.length_singleton] at hj
        rw [List.take_append_of_le_length (by omega)]
        exact hq j h0 (by omega)
    rw [ompLoop, h1]
    simp only
    by_cases hr : ompRmse svd X y st'.model < tol
    · rw [if_pos hr]
      exact ⟨st', t + 1, d', k', x', rfl, h2, .inr hr, by omega, fun _ => by omega, hq'⟩
    · rw [if_neg hr]
      obtain ⟨s, a, b, c, e, g1, g2, g3, g4, -, g6⟩ := ih (t + 1) st' d' k' x' h2 (by omega) (by
        intro j h0 hj
        by_cases hlt : j < d'.length
        · exact hq' j h0 hlt
        · rw [List.take_of_length_le (by omega), ← h2.model_eq]
          exact hr)
      exact ⟨s, a, b, c, e, g1, g2, g3, by omega, fun _ => by omega, g6⟩

theorem ompInit_inv : OmpInv svd X y 0
    ⟨y, List.replicate X.nc false, List.replicate X.nc 0, List.replicate X.nc (-1)⟩ [] 0 0 := by
  refine ⟨rfl, List.nodup_nil, by simp, by simp, by omega, by simp, ?_, by simp, ?_, by simp, by simp,
    fun _ => rfl, by simp⟩
  · intro i
    simp [HasFeature, List.getElem?_replicate]
  · intro j hj _
    simp [List.getElem?_replicate, hj]

/-- The trimming loop. -/
theorem trimLoop_spec (order : List Int) (n : Nat) (pre d : List Nat) (k x q : Nat) (found : List Bool)
    (hord : order = (pre ++ d ++ List.replicate k x).map Int.ofNat ++ List.replicate q (-1))
    (hlen : found.length = n) (hlt : ∀ i ∈ pre ++ d, i < n) (hnd : (pre ++ d).Nodup) (hx : k ≠ 0 → x ∈ pre ++ d)
    (hfound : ∀ i, HasFeature found i ↔ i ∈ pre) :
    trimLoop order ((d ++ List.replicate k x).map Int.ofNat ++ List.replicate q (-1)) pre.length found =
      some ((pre ++ d).map Int.ofNat) := by
  induction d generalizing pre found with
  | nil =>
    rw [List.append_nil] at *
    have htake : order.take pre.length = pre.map Int.ofNat := by
      rw [hord]
      simp only [List.map_append, List.append_assoc]
      rw [List.take_append_of_le_length (by simp)]
      rw [List.take_of_length_le (by simp)]
    cases k with
    | zero =>
      cases q with
      | zero =>
        simp only [List.replicate_zero, List.append_nil, List.map_nil, trimLoop]
        rw [hord]; simp
      | succ q =>
        simp only [List.replicate_zero, List.append_nil, List.map_nil, List.nil_append, List.replicate_succ,
          trimLoop, if_true]
        rw [htake]
    | succ k =>
      have hxp := hx (by omega)
      simp only [List.nil_append, List.replicate_succ, List.map_cons, List.cons_append, trimLoop]
      rw [if_neg (by simp), if_neg (by simp)]
      have : found[x]? = some true := (hfound x).2 hxp
      simp only [Int.ofNat_eq_natCast, Int.toNat_natCast, this]
      rw [htake]
  | cons a d ih =>
    have ha : a < n := hlt a (by simp)
    have hap : a ∉ pre := by
      intro h
      exact (List.nodup_append.1 hnd).2.2 a h a (by simp) rfl
    have hfa : found[a]? = some false := by
      have h1 : ¬ HasFeature found a := fun h => hap ((hfound a).1 h)
      unfold HasFeature at h1
      rw [List.getElem?_eq_getElem (by rw [hlen]; exact ha)] at h1 ⊢
      simpa using h1
    simp only [List.cons_append, List.map_cons, trimLoop]
    rw [if_neg (by simp), if_neg (by simp)]
    simp only [Int.ofNat_eq_natCast, Int.toNat_natCast, hfa]
    have := ih (pre ++ [a]) (found.set a true) (by rw [hord]; simp) (by simpa using hlen)
      (by simpa using hlt) (by simpa using hnd) (by simpa using hx)
      (by
        intro i
        rw [hasFeature_set (by rw [hlen]; exact ha), hfound]
        simp)
    simp only [List.append_assoc, List.cons_append, List.nil_append, List.length_append, List.length_cons,
      List.length_nil, Nat.zero_add] at this
    simpa using this

end GoSelect
