import Verif.Model.OmpGap
import Verif.Proofs.AnnealingGap
import Verif.Props.C62
import Verif.Props.C141

/-! Orthogonal matching pursuit on features with gaps: the features with gaps count as zeros. -/

namespace GoSelect

open Finset Spec

/-- What is assumed about inner products: `GonumDot`, and the inner product of a vector with itself, if not all entries
are numbers, is NaN or plus infinity. -/
structure Spec.GonumSquare (dot : Nat → (Nat → Fl ℝ) → (Nat → Fl ℝ) → Fl ℝ) : Prop where
  toDot : GonumDot dot
  square : ∀ (n : Nat) (x : Nat → Fl ℝ), (∃ r < n, ∀ a, x r ≠ .fin a) → dot n x x = .nan ∨ dot n x x = .posInf

open Classical in
/-- The matrix with zeros for the columns that have gaps. -/
noncomputable def zeroGaps (X : Mat (Fl ℝ)) : Mat ℝ :=
  ⟨X.nr, X.nc, fun r c => if Gap X c then 0 else (X.get r c).number⟩

/-- A state of the run on numbers as a state of the run with gaps. -/
def OmpState.gap (st : OmpState) : OmpStateGap := ⟨st.residuals.map .fin, st.model, st.coeff.map .fin, st.order⟩

/-! ### Argmax -/

section argmax

/-- `Argmax` as a fold over the indices. -/
theorem argmax_range {α : Type} [LT α] [DecidableLT α] (f : Nat → α) {n : Nat} (hn : 0 < n) :
    argmax ((List.range n).map f) =
      some ((List.range n).foldl (fun s c => if s.2 < f c then (c, f c) else s) (0, f 0)).1 := by
  obtain ⟨m, rfl⟩ : ∃ m, n = m + 1 := ⟨n - 1, by omega⟩
  have h0 : (List.range (m + 1)).map f = f 0 :: ((List.range m).map (fun i => f (i + 1))) := by
    rw [List.range_succ_eq_map, List.map_cons, List.map_map]; rfl
  have h1 : ((List.range (m + 1)).map f).zipIdx = (List.range (m + 1)).map (fun c => (f c, c)) := by
    apply List.ext_getElem (by simp)
    intro i h1 h2
    simp
  unfold argmax
  rw [h0]
  simp only
  rw [← h0, h1, List.foldl_map]

variable [DecidableLT ℝ]

theorem not_lt_nan (x : Fl ℝ) : ¬ x < .nan := by
  change ¬ Fl.ltB x .nan = true
  cases x <;> simp [Fl.ltB]

theorem not_nan_lt (x : Fl ℝ) : ¬ (.nan : Fl ℝ) < x := by
  change ¬ Fl.ltB .nan x = true
  simp [Fl.ltB]

theorem flAbs_not_lt (x : Fl ℝ) : ¬ flAbs x < .fin 0 := by
  change ¬ Fl.ltB (flAbs x) (.fin 0) = true
  cases x <;> simp [flAbs, Fl.ltB]

/-- Entries that are NaN or 0 do not matter. -/
theorem argmax_fold_gap (f g : Nat → Fl ℝ) (l : List Nat) (s : Nat × Fl ℝ) (hs : ¬ s.2 < .fin 0)
    (hg : ∀ c, ¬ g c < .fin 0) (h : ∀ c ∈ l, f c = g c ∨ g c = .nan ∧ (f c = .nan ∨ f c = .fin 0)) :
    l.foldl (fun s c => if s.2 < f c then (c, f c) else s) s = l.foldl (fun s c => if s.2 < g c then (c, g c) else s) s := by
  induction l generalizing s with
  | nil => rfl
  | cons c l ih =>
    rw [List.foldl_cons, List.foldl_cons]
    have hl : ∀ c ∈ l, f c = g c ∨ g c = .nan ∧ (f c = .nan ∨ f c = .fin 0) := fun d hd => h d (List.mem_cons_of_mem _ hd)
    rcases h c List.mem_cons_self with h1 | ⟨h1, h2⟩
    · rw [h1]
      refine ih _ ?_ hl
      split
      · exact hg c
      · exact hs
    · have e1 : ¬ s.2 < g c := by rw [h1]; exact not_lt_nan _
      have e2 : ¬ s.2 < f c := by
        rcases h2 with h2 | h2
        · rw [h2]; exact not_lt_nan _
        · rw [h2]; exact hs
      rw [if_neg e1, if_neg e2]
      exact ih _ hs hl

/-- The entry found is the first or not NaN. -/
theorem argmax_fold_ne (g : Nat → Fl ℝ) (l : List Nat) (s : Nat × Fl ℝ) (hs : s.1 = 0 ∨ g s.1 ≠ .nan) :
    (l.foldl (fun s c => if s.2 < g c then (c, g c) else s) s).1 = 0 ∨
      g (l.foldl (fun s c => if s.2 < g c then (c, g c) else s) s).1 ≠ .nan := by
  induction l generalizing s with
  | nil => exact hs
  | cons c l ih =>
    rw [List.foldl_cons]
    apply ih
    split
    · rename_i h
      right
      intro h1
      simp only at h1
      rw [h1] at h
      exact not_lt_nan _ h
    · exact hs

end argmax

/-! ### Numbers -/

theorem map_range_getD {α : Type} (v : List α) (z : α) : (List.range v.length).map (fun i => v.getD i z) = v := by
  apply List.ext_getElem (by simp)
  intro i h1 h2
  simp [h2]

open Classical in
theorem norm2Gap_fin (v : List ℝ) : norm2Gap (v.map .fin) = .fin (norm2 v) := by
  unfold norm2Gap
  have e : (v.map Fl.fin).map (fun a => Fl.mul a a) = (v.map (fun a => a * a)).map Fl.fin := by
    rw [List.map_map, List.map_map]; rfl
  have e2 : (v.map (fun a => a * a)).sum = ∑ i ∈ range v.length, v.getD i 0 ^ 2 := by
    conv_lhs => rw [← map_range_getD v 0, List.map_map]
    rw [sum_listRange]
    refine sum_congr rfl fun i _ => ?_
    simp only [Function.comp]
    ring
  rw [e, Fl.sum_fin, e2]
  show (if 0 ≤ _ then _ else _) = _
  rw [if_pos (sum_nonneg fun _ _ => sq_nonneg _)]
  rfl

theorem norm2_nonneg' (v : List ℝ) : 0 ≤ norm2 v := Real.sqrt_nonneg _

theorem notGap_number {X : Mat (Fl ℝ)} {c : Nat} (h : ¬ Gap X c) {r : Nat} (hr : r < X.nr) :
    X.get r c = .fin (X.get r c).number := by
  unfold Gap at h
  push Not at h
  obtain ⟨a, ha⟩ := h r hr
  rw [ha]; rfl

theorem zeroGaps_get {X : Mat (Fl ℝ)} {c : Nat} (h : ¬ Gap X c) (r : Nat) : (zeroGaps X).get r c = (X.get r c).number := by
  unfold zeroGaps; simp only; rw [if_neg h]

theorem zeroGaps_gap {X : Mat (Fl ℝ)} {c : Nat} (h : Gap X c) (r : Nat) : (zeroGaps X).get r c = 0 := by
  unfold zeroGaps; simp only; rw [if_pos h]

open Classical in
/-- Entry `i` of `ompProj`. -/
noncomputable def projAt (X : Mat ℝ) (res : List ℝ) (i : Nat) : Fl ℝ :=
  flAbs (Fl.divFin (∑ r ∈ range X.nr, X.get r i * res.getD r 0) (norm2 res * colNorm X i))

theorem projAt_zero {X : Mat ℝ} {res : List ℝ} {i : Nat} (h : ∀ r, X.get r i = 0) : projAt X res i = .nan := by
  unfold projAt colNorm
  simp [h, Fl.divFin, flAbs]

open Classical in
/-- Entry `i` of `ompProjGap`. -/
noncomputable def projGapAt (P : OmpInputGap) (res : List (Fl ℝ)) (i : Nat) : Fl ℝ :=
  flAbs (Fl.div (P.dot P.X.nr (fun r => P.X.get r i) (fun r => res.getD r .nan))
    (Fl.mul (norm2Gap res) (Fl.sqrt (P.dot P.X.nr (fun r => P.X.get r i) (fun r => P.X.get r i)))))

theorem getD_map_fin (v : List ℝ) {r : Nat} (hr : r < v.length) : (v.map Fl.fin).getD r .nan = .fin (v.getD r 0) := by
  simp [List.getD_eq_getElem?_getD, hr]

open Classical in
theorem projGapAt_num {P : OmpInputGap} (hd : GonumSquare P.dot) {v : List ℝ} (hv : v.length = P.X.nr) {i : Nat}
    (hi : ¬ Gap P.X i) : projGapAt P (v.map .fin) i = projAt (zeroGaps P.X) v i := by
  unfold projGapAt projAt
  have hnr : (zeroGaps P.X).nr = P.X.nr := rfl
  have e1 := hd.toDot.fin P.X.nr (fun r => P.X.get r i) (fun r => (v.map Fl.fin).getD r .nan)
    (fun r => (zeroGaps P.X).get r i) (fun r => v.getD r 0)
    (fun r hr => by rw [zeroGaps_get hi]; exact notGap_number hi hr) (fun r hr => getD_map_fin v (by omega))
  have e2 := hd.toDot.fin P.X.nr (fun r => P.X.get r i) (fun r => P.X.get r i)
    (fun r => (zeroGaps P.X).get r i) (fun r => (zeroGaps P.X).get r i)
    (fun r hr => by rw [zeroGaps_get hi]; exact notGap_number hi hr)
    (fun r hr => by rw [zeroGaps_get hi]; exact notGap_number hi hr)
  rw [e1, e2, norm2Gap_fin]
  have e3 : Fl.sqrt (.fin (∑ r ∈ range P.X.nr, (zeroGaps P.X).get r i * (zeroGaps P.X).get r i)) =
      .fin (colNorm (zeroGaps P.X) i) := by
    show (if 0 ≤ _ then _ else _) = _
    rw [if_pos (sum_nonneg fun _ _ => mul_self_nonneg _)]
    rfl
  rw [e3]
  rfl

open Classical in
theorem projGapAt_gap {P : OmpInputGap} (hd : GonumSquare P.dot) {v : List ℝ} {i : Nat} (hi : Gap P.X i) :
    projGapAt P (v.map .fin) i = .nan ∨ projGapAt P (v.map .fin) i = .fin 0 := by
  unfold projGapAt
  rw [norm2Gap_fin]
  rcases hd.square P.X.nr (fun r => P.X.get r i) hi with h | h
  · rw [h]
    left
    have : Fl.mul (.fin (norm2 v)) (Fl.sqrt .nan) = .nan := rfl
    rw [this]
    cases P.dot P.X.nr (fun r => P.X.get r i) (fun r => (v.map Fl.fin).getD r .nan) <;> rfl
  · rw [h]
    have : Fl.mul (.fin (norm2 v)) (Fl.sqrt .posInf) = .nan ∨ Fl.mul (.fin (norm2 v)) (Fl.sqrt .posInf) = .posInf := by
      show Fl.infOf _ = _ ∨ Fl.infOf _ = _
      unfold Fl.infOf
      have := norm2_nonneg' v
      split
      · exact .inr rfl
      · rw [if_neg (by linarith)]; exact .inl rfl
    rcases this with h | h
    · rw [h]
      left
      cases P.dot P.X.nr (fun r => P.X.get r i) (fun r => (v.map Fl.fin).getD r .nan) <;> rfl
    · rw [h]
      cases P.dot P.X.nr (fun r => P.X.get r i) (fun r => (v.map Fl.fin).getD r .nan)
      · right; show flAbs (.fin 0) = _; simp [flAbs]
      · exact .inl rfl
      · exact .inl rfl
      · exact .inl rfl

open Classical in
theorem argmax_gap {P : OmpInputGap} (hd : GonumSquare P.dot) (hc : 0 < P.X.nc) (h0 : ¬ Gap P.X 0) {v : List ℝ}
    (hv : v.length = P.X.nr) : argmax (ompProjGap P (v.map .fin)) = argmax (ompProj (zeroGaps P.X) v) := by
  show argmax ((List.range P.X.nc).map (projGapAt P (v.map .fin))) = argmax ((List.range P.X.nc).map (projAt (zeroGaps P.X) v))
  rw [argmax_range _ hc, argmax_range _ hc, projGapAt_num hd hv h0, argmax_fold_gap _ (projAt (zeroGaps P.X) v)]
  · exact flAbs_not_lt _
  · exact fun c => flAbs_not_lt _
  · intro c _
    by_cases h : Gap P.X c
    · exact .inr ⟨projAt_zero (zeroGaps_gap h), projGapAt_gap hd h⟩
    · exact .inl (projGapAt_num hd hv h)

open Classical in
theorem argmax_complete {X : Mat (Fl ℝ)} (hc : 0 < X.nc) (h0 : ¬ Gap X 0) {v : List ℝ} {i : Nat}
    (h : argmax (ompProj (zeroGaps X) v) = some i) : ¬ Gap X i := by
  change argmax ((List.range X.nc).map (projAt (zeroGaps X) v)) = some i at h
  rw [argmax_range _ hc, Option.some.injEq] at h
  have := argmax_fold_ne (projAt (zeroGaps X) v) (List.range X.nc) (0, projAt (zeroGaps X) v 0) (.inl rfl)
  rw [h] at this
  rcases this with h1 | h1
  · rw [h1]; exact h0
  · exact fun hg => h1 (projAt_zero (zeroGaps_gap hg))

/-! ### One iteration -/

theorem fullCoeffLoop_map {A B : Type} (f : A → B) (coeff : List A) (L : List Int) (i : Nat) (res : List A) :
    fullCoeffLoop (coeff.map f) L i (res.map f) = (fullCoeffLoop coeff L i res).map (List.map f) := by
  induction L generalizing i res with
  | nil => rfl
  | cons v L ih =>
    unfold fullCoeffLoop
    rw [List.getElem?_map]
    cases coeff[i]? with
    | none => rfl
    | some c =>
      simp only [Option.map_some]
      unfold goSetInt goSet
      by_cases h1 : v < 0
      · simp [h1]
      · by_cases h2 : v.toNat < res.length
        · simp only [h1, if_false, List.length_map, h2, if_true]
          rw [← List.map_set]
          exact ih _ _
        · simp [h1, h2]

theorem zipWith_sub_fin (a b : List ℝ) :
    List.zipWith Fl.sub (a.map .fin) (b.map .fin) = (List.zipWith (· - ·) a b).map Fl.fin := by
  induction a generalizing b with
  | nil => rfl
  | cons x a ih =>
    cases b with
    | nil => rfl
    | cons y b =>
      simp only [List.map_cons, List.zipWith_cons_cons, ih]
      congr 1

open Classical in
theorem rmse_fin (y p : List ℝ) (hy : y.length ≠ 0) :
    Fl.sqrt (Fl.div (Fl.sum ((List.range (p.map Fl.fin).length).map (fun i =>
      let d := Fl.sub (.fin (y.getD i 0)) ((p.map Fl.fin).getD i .nan)
      Fl.mul d d))) (.fin y.length)) =
      .fin (Real.sqrt ((∑ i ∈ range p.length, (y.getD i 0 - p.getD i 0) ^ 2) / y.length)) := by
  have e : (List.range (p.map Fl.fin).length).map (fun i =>
      let d := Fl.sub (.fin (y.getD i 0)) ((p.map Fl.fin).getD i .nan)
      Fl.mul d d) = ((List.range p.length).map (fun i => (y.getD i 0 - p.getD i 0) ^ 2)).map Fl.fin := by
    rw [List.map_map, List.length_map]
    refine List.map_congr_left fun i hi => ?_
    simp only [Function.comp]
    rw [getD_map_fin _ (List.mem_range.1 hi)]
    show Fl.fin (_ * _) = _
    congr 1
    ring
  rw [e, Fl.sum_fin, sum_listRange]
  have hl : (y.length : ℝ) ≠ 0 := by exact_mod_cast hy
  have e2 : Fl.div (.fin (∑ i ∈ range p.length, (y.getD i 0 - p.getD i 0) ^ 2)) (.fin (y.length : ℝ)) =
      .fin ((∑ i ∈ range p.length, (y.getD i 0 - p.getD i 0) ^ 2) / y.length) := by
    show Fl.divFin _ _ = _
    unfold Fl.divFin
    rw [if_neg hl]
  rw [e2]
  show (if 0 ≤ _ then _ else _) = _
  rw [if_pos (div_nonneg (sum_nonneg fun _ _ => sq_nonneg _) (Nat.cast_nonneg _))]

/-- The design matrix of columns without gaps. -/
theorem design_complete {X : Mat (Fl ℝ)} {m : List Bool} (h0 : ¬ Gap X 0) (h : ∀ c ∈ features m, ¬ Gap X c)
    (hp : 0 < Spec.card m) (hl : m.length ≤ X.nc) :
    ∃ D, getDesignMatrix m X = some D ∧ allNumbers D ∧ numbers D = designOf (zeroGaps X) m := by
  have hk : ∀ k, ¬ Gap X ((features m).getD k 0) := by
    intro k
    by_cases hk : k < (features m).length
    · apply h
      rw [List.getD_eq_getElem?_getD, List.getElem?_eq_getElem hk, Option.getD_some]
      exact List.getElem_mem hk
    · rw [List.getD_eq_getElem?_getD, List.getElem?_eq_none (by omega)]
      exact h0
  refine ⟨_, getDesignMatrix_some hp hl, fun r hr k _ => ?_, ?_⟩
  · show (X.get r ((features m).getD k 0)).isFin = true
    rw [notGap_number (hk k) hr]; rfl
  · unfold numbers designOf
    congr 1
    funext r k
    exact (zeroGaps_get (hk k) r).symm

theorem ompRes_length (svd : Mat ℝ → SVD ℝ) (X : Mat ℝ) (y : List ℝ) (hy : X.nr = y.length) (m : List Bool) :
    (ompRes svd X y m).length = X.nr := by
  simp [ompRes, ompPred, hy]

theorem inv_complete {svd : Mat ℝ → SVD ℝ} {X : Mat (Fl ℝ)} {y : List ℝ} {t : Nat} {st : OmpState} {d : List Nat}
    {k x : Nat} (hc : 0 < X.nc) (h0 : ¬ Gap X 0) (h : OmpInv svd (zeroGaps X) y t st d k x) : ∀ c ∈ d, ¬ Gap X c := by
  intro c hcd
  obtain ⟨j, hj, rfl⟩ := List.getElem_of_mem hcd
  exact argmax_complete hc h0 (h.pick j hj)

open Classical in
/-- One iteration with gaps is one iteration with zeros. -/
theorem ompStepGap_eq {P : OmpInputGap} (hd : GonumSquare P.dot) (hy : P.X.nr = P.y.length) (hy0 : P.y.length ≠ 0)
    (h0 : ¬ Gap P.X 0) {t : Nat} {st : OmpState} {d : List Nat} {k x : Nat}
    (h : OmpInv P.svd (zeroGaps P.X) P.y t st d k x) (ht : t < P.X.nc) :
    ompStepGap P t st.gap = (ompStep P.svd (zeroGaps P.X) P.y t st).map (fun r => (r.1.gap, .fin r.2)) := by
  have hc : 0 < P.X.nc := by omega
  have hv : st.residuals.length = P.X.nr := by
    by_cases h1 : t = 0
    · rw [h.start h1, hy]
    · rw [(h.fit h1).2, ompRes_length _ _ _ hy]; rfl
  have hmax := argmax_gap hd hc h0 hv
  unfold ompStepGap ompStep
  show (argmax (ompProjGap P (st.residuals.map .fin)) >>= _) = _
  rw [hmax]
  rcases ha : argmax (ompProj (zeroGaps P.X) st.residuals) with _ | i
  · rfl
  simp only [Option.bind_eq_bind, Option.bind_some]
  have hi := argmax_complete hc h0 ha
  show (goSet st.model i true).bind _ = _
  rcases hm : goSet st.model i true with _ | m
  · rfl
  simp only [Option.bind_some]
  show (goSet st.order t (i : Int)).bind _ = _
  rcases ho : goSet st.order t (i : Int) with _ | o
  · rfl
  simp only [Option.bind_some]
  have him : i < st.model.length ∧ m = st.model.set i true := by
    unfold goSet at hm
    split at hm
    · exact ⟨by assumption, (Option.some.inj hm).symm⟩
    · cases hm
  have hml : m.length = P.X.nc := by rw [him.2, List.length_set, h.len]; rfl
  have hf : ∀ j, HasFeature m j ↔ j ∈ d ∨ j = i := by
    intro j
    rw [him.2, hasFeature_set him.1, h.feat]
  have hcomp : ∀ c ∈ features m, ¬ Gap P.X c := by
    intro c hcf
    rcases (hf c).1 ((mem_features _ _).1 hcf) with h1 | rfl
    · exact inv_complete hc h0 h c h1
    · exact hi
  have hpos : 0 < Spec.card m := List.length_pos_of_mem ((mem_features _ _).2 ((hf i).2 (.inr rfl)))
  obtain ⟨D, hD, hD1, hD2⟩ := design_complete h0 hcomp hpos hml.le
  have hZ : getDesignMatrix m (zeroGaps P.X) = some (designOf (zeroGaps P.X) m) := getDesignMatrix_some hpos hml.le
  rw [hD, hZ]
  simp only [Option.bind_some]
  unfold ompFitGap
  rw [if_pos hD1, hD2]
  rcases fit (P.svd (designOf (zeroGaps P.X) m)) (designOf (zeroGaps P.X) m) P.y with _ | c
  · rfl
  simp only [Option.bind_eq_bind, Option.bind_some]
  rw [selectedFeatures_eq]
  simp only [Option.bind_some]
  rcases predict (designOf (zeroGaps P.X) m) c with _ | p
  · simp only [Option.bind_none]
    cases fullCoeffLoop c ((features m).map Int.ofNat) 0 st.coeff <;> rfl
  · simp only [Option.bind_some, Option.pure_def]
    show (fullCoeffLoop (c.map Fl.fin) ((features m).map Int.ofNat) 0 (st.coeff.map Fl.fin)).bind _ = _
    rw [fullCoeffLoop_map]
    rcases fullCoeffLoop c ((features m).map Int.ofNat) 0 st.coeff with _ | full
    · rfl
    simp only [Option.map_some, Option.bind_some]
    rw [zipWith_sub_fin, rmse_fin P.y p hy0]
    rfl

open Classical in
theorem ompLoopGap_eq {P : OmpInputGap} (hd : GonumSquare P.dot) (hy : P.X.nr = P.y.length) (hy0 : P.y.length ≠ 0)
    (h0 : ¬ Gap P.X 0) (fuel t : Nat) {st : OmpState} {d : List Nat} {k x : Nat}
    (h : OmpInv P.svd (zeroGaps P.X) P.y t st d k x) (hf : fuel + t = P.X.nc) :
    ompLoopGap P fuel t st.gap = (ompLoop P.svd (zeroGaps P.X) P.y P.tol fuel t st).map OmpState.gap := by
  induction fuel generalizing t st d k x with
  | zero => rfl
  | succ fuel ih =>
    have ht : t < P.X.nc := by omega
    obtain ⟨st', d', k', x', h1, h2, -⟩ := ompStep_inv P.svd (zeroGaps P.X) P.y hy h ht
    rw [ompLoopGap, ompLoop, ompStepGap_eq hd hy hy0 h0 h ht, h1]
    simp only [Option.map_some]
    by_cases hr : ompRmse P.svd (zeroGaps P.X) P.y st'.model < P.tol
    · rw [if_pos hr, if_pos ((fin_lt _ _).2 hr)]; rfl
    · rw [if_neg hr, if_neg (fun hc => hr ((fin_lt _ _).1 hc))]
      exact ih (t + 1) h2 (by omega)

/-- With a complete first column, columns with gaps count as zeros. -/
theorem ompGap_zeroed {P : OmpInputGap} (hd : GonumSquare P.dot) (h0 : ¬ Gap P.X 0) :
    ompGap P = (omp P.svd (zeroGaps P.X) P.y P.tol).map (fun r => ⟨r.coeff.map .fin, r.order⟩) := by
  unfold ompGap omp
  have e1 : (zeroGaps P.X).nc = P.X.nc := rfl
  have e2 : (zeroGaps P.X).nr = P.X.nr := rfl
  rw [e1, e2]
  by_cases h : P.y.length = 0 ∨ P.X.nc = 0 ∨ P.X.nr ≠ P.y.length
  · rw [if_pos h, if_pos h]; rfl
  rw [if_neg h, if_neg h]
  simp only [not_or, not_not] at h
  have hi := ompInit_inv P.svd (zeroGaps P.X) P.y
  rw [e1] at hi
  have := ompLoopGap_eq hd h.2.2 h.1 h0 P.X.nc 0 hi rfl
  have eg : OmpState.gap ⟨P.y, List.replicate P.X.nc false, List.replicate P.X.nc 0, List.replicate P.X.nc (-1)⟩ =
      ⟨P.y.map .fin, List.replicate P.X.nc false, List.replicate P.X.nc (.fin 0), List.replicate P.X.nc (-1)⟩ := by
    simp [OmpState.gap]
  rw [← eg, this]
  rcases ompLoop P.svd (zeroGaps P.X) P.y P.tol P.X.nc 0
      ⟨P.y, List.replicate P.X.nc false, List.replicate P.X.nc 0, List.replicate P.X.nc (-1)⟩ with _ | st
  · rfl
  simp only [Option.map_some]
  have eo : st.gap.order = st.order := rfl
  rw [eo]
  rcases trimLoop st.order st.order 0 (List.replicate st.order.length false) with _ | o
  · rfl
  · rfl

/-! ### The complete columns alone -/

open Classical in
/-- The columns without gaps. -/
noncomputable def Spec.completeCols (X : Mat (Fl ℝ)) : List Nat := (List.range X.nc).filter (fun c => decide (¬ Gap X c))

/-- The matrix of the columns without gaps. -/
noncomputable def Spec.completeMat (X : Mat (Fl ℝ)) : Mat ℝ :=
  ⟨X.nr, (completeCols X).length, fun r c => (X.get r ((completeCols X).getD c 0)).number⟩

variable {X : Mat (Fl ℝ)}

theorem mem_completeCols {c : Nat} : c ∈ completeCols X ↔ c < X.nc ∧ ¬ Gap X c := by
  simp [completeCols]

theorem completeCols_sorted : (completeCols X).Pairwise (· < ·) := List.pairwise_lt_range.filter _

theorem completeCols_getD_mem {i : Nat} (hi : i < (completeCols X).length) : (completeCols X).getD i 0 ∈ completeCols X := by
  rw [List.getD_eq_getElem?_getD, List.getElem?_eq_getElem hi, Option.getD_some]
  exact List.getElem_mem hi

theorem completeCols_inj {i j : Nat} (hi : i < (completeCols X).length) (hj : j < (completeCols X).length)
    (h : (completeCols X).getD i 0 = (completeCols X).getD j 0) : i = j := by
  rw [List.getD_eq_getElem?_getD, List.getElem?_eq_getElem hi, Option.getD_some,
    List.getD_eq_getElem?_getD, List.getElem?_eq_getElem hj, Option.getD_some] at h
  exact (List.Nodup.getElem_inj_iff (completeCols_sorted.imp (fun h => h.ne))).1 h

theorem completeCols_zero (hc : 0 < X.nc) (h0 : ¬ Gap X 0) : 0 < (completeCols X).length ∧ (completeCols X).getD 0 0 = 0 := by
  obtain ⟨n, hn⟩ : ∃ n, X.nc = n + 1 := ⟨X.nc - 1, by omega⟩
  unfold completeCols
  rw [hn, List.range_succ_eq_map, List.filter_cons_of_pos (by simpa using h0)]
  simp

/-- Not a gap, also for indices out of range. -/
theorem completeCols_notGap (hc : 0 < X.nc) (h0 : ¬ Gap X 0) (i : Nat) : ¬ Gap X ((completeCols X).getD i 0) := by
  by_cases hi : i < (completeCols X).length
  · exact (mem_completeCols.1 (completeCols_getD_mem hi)).2
  · rw [List.getD_eq_getElem?_getD, List.getElem?_eq_none (by omega)]
    exact h0

theorem completeMat_get (hc : 0 < X.nc) (h0 : ¬ Gap X 0) (r i : Nat) :
    (completeMat X).get r i = (zeroGaps X).get r ((completeCols X).getD i 0) :=
  (zeroGaps_get (completeCols_notGap hc h0 i) r).symm

theorem projAt_complete (hc : 0 < X.nc) (h0 : ¬ Gap X 0) (v : List ℝ) (i : Nat) :
    projAt (completeMat X) v i = projAt (zeroGaps X) v ((completeCols X).getD i 0) := by
  unfold projAt colNorm
  simp only [completeMat_get hc h0]
  rfl

section
variable [DecidableLT ℝ]

/-- NaN entries may be left out. -/
theorem fold_filter_nan (g : Nat → Fl ℝ) (p : Nat → Bool) (l : List Nat) (s : Nat × Fl ℝ)
    (h : ∀ c, p c = false → g c = .nan) :
    l.foldl (fun s c => if s.2 < g c then (c, g c) else s) s =
      (l.filter p).foldl (fun s c => if s.2 < g c then (c, g c) else s) s := by
  induction l generalizing s with
  | nil => rfl
  | cons c l ih =>
    rw [List.foldl_cons]
    by_cases hp : p c = true
    · rw [List.filter_cons_of_pos hp, List.foldl_cons]; exact ih _
    · rw [List.filter_cons_of_neg hp, if_neg (by rw [h c (by simpa using hp)]; exact not_lt_nan _)]
      exact ih _

/-- Renumbering. -/
theorem fold_renumber (g : Nat → Fl ℝ) (κ : Nat → Nat) (l : List Nat) (s : Nat × Fl ℝ) :
    (l.map κ).foldl (fun s c => if s.2 < g c then (c, g c) else s) (κ s.1, s.2) =
      (κ (l.foldl (fun s c => if s.2 < g (κ c) then (c, g (κ c)) else s) s).1,
        (l.foldl (fun s c => if s.2 < g (κ c) then (c, g (κ c)) else s) s).2) := by
  induction l generalizing s with
  | nil => rfl
  | cons c l ih =>
    rw [List.map_cons, List.foldl_cons, List.foldl_cons]
    by_cases h : s.2 < g (κ c)
    · simp only [h, if_true]
      exact ih (c, g (κ c))
    · simp only [h, if_false]
      exact ih s

end

open Classical in
/-- The choice among all columns is the choice among the complete columns. -/
theorem argmax_renumber (hc : 0 < X.nc) (h0 : ¬ Gap X 0) (v : List ℝ) :
    argmax (ompProj (zeroGaps X) v) = (argmax (ompProj (completeMat X) v)).map (fun i => (completeCols X).getD i 0) := by
  obtain ⟨hl, hz⟩ := completeCols_zero hc h0
  change argmax ((List.range X.nc).map (projAt (zeroGaps X) v)) =
    (argmax ((List.range (completeCols X).length).map (projAt (completeMat X) v))).map _
  rw [argmax_range _ hc, argmax_range _ hl, Option.map_some]
  congr 1
  rw [fold_filter_nan (projAt (zeroGaps X) v) (fun c => decide (¬ Gap X c)) _ _
    (fun c hcg => projAt_zero (zeroGaps_gap (by simpa using hcg)))]
  rw [show (List.range X.nc).filter (fun c => decide (¬ Gap X c)) = completeCols X from rfl]
  conv_lhs => rw [← map_range_getD (completeCols X) 0]
  have := fold_renumber (projAt (zeroGaps X) v) (fun i => (completeCols X).getD i 0)
    (List.range (completeCols X).length) (0, projAt (zeroGaps X) v 0)
  simp only [hz] at this
  rw [this]
  simp only [projAt_complete hc h0, hz]

theorem features_modelOf (n : Nat) (l : List Nat) : features (modelOf n l) = (List.range n).filter (fun i => decide (i ∈ l)) := by
  unfold features modelOf
  simp only [List.length_map, List.length_range]
  apply List.filter_congr
  intro i hi
  rw [List.getElem?_map, List.getElem?_range (List.mem_range.1 hi)]
  simp

theorem features_renumber {l : List Nat} (hl : ∀ i ∈ l, i < (completeCols X).length) :
    features (modelOf X.nc (l.map (fun i => (completeCols X).getD i 0))) =
      (features (modelOf (completeCols X).length l)).map (fun i => (completeCols X).getD i 0) := by
  classical
  rw [features_modelOf, features_modelOf]
  generalize hL : l.map (fun i => (completeCols X).getD i 0) = L
  have e1 : (List.range X.nc).filter (fun i => decide (i ∈ L)) = (completeCols X).filter (fun i => decide (i ∈ L)) := by
    unfold completeCols
    rw [List.filter_filter]
    apply List.filter_congr
    intro c _
    by_cases h : c ∈ L
    · have h1 : ¬ Gap X c := by
        rw [← hL] at h
        obtain ⟨i, hi, rfl⟩ := List.mem_map.1 h
        exact (mem_completeCols.1 (completeCols_getD_mem (hl i hi))).2
      simp [h, h1]
    · simp [h]
  rw [e1]
  have e2 : completeCols X = (List.range (completeCols X).length).map (fun i => (completeCols X).getD i 0) :=
    (map_range_getD _ 0).symm
  have e3 : (completeCols X).filter (fun i => decide (i ∈ L)) =
      ((List.range (completeCols X).length).map (fun i => (completeCols X).getD i 0)).filter (fun i => decide (i ∈ L)) :=
    congrArg (List.filter _) e2
  rw [e3, List.filter_map]
  congr 1
  apply List.filter_congr
  intro i hi
  have hi' := List.mem_range.1 hi
  show decide ((completeCols X).getD i 0 ∈ L) = decide (i ∈ l)
  have : (completeCols X).getD i 0 ∈ L ↔ i ∈ l := by
    rw [← hL]
    constructor
    · intro h
      obtain ⟨j, hj, hji⟩ := List.mem_map.1 h
      rw [← completeCols_inj (hl j hj) hi' hji]; exact hj
    · exact fun h => List.mem_map.2 ⟨i, h, rfl⟩
  simp only [this]

theorem designOf_renumber (hc : 0 < X.nc) (h0 : ¬ Gap X 0) {l : List Nat} (hl : ∀ i ∈ l, i < (completeCols X).length) :
    designOf (zeroGaps X) (modelOf X.nc (l.map (fun i => (completeCols X).getD i 0))) =
      designOf (completeMat X) (modelOf (completeCols X).length l) := by
  have hf := features_renumber (X := X) hl
  unfold designOf Spec.card
  rw [hf]
  simp only [List.length_map]
  congr 1
  funext r k
  rw [completeMat_get hc h0]
  congr 1
  rw [List.getD_eq_getElem?_getD, List.getElem?_map]
  by_cases hk : k < (features (modelOf (completeCols X).length l)).length
  · rw [List.getD_eq_getElem?_getD (i := k), List.getElem?_eq_getElem hk]; rfl
  · rw [List.getD_eq_getElem?_getD (i := k), List.getElem?_eq_none (by omega)]
    exact (completeCols_zero hc h0).2.symm

theorem card_renumber {l : List Nat} (hl : ∀ i ∈ l, i < (completeCols X).length) :
    Spec.card (modelOf X.nc (l.map (fun i => (completeCols X).getD i 0))) =
      Spec.card (modelOf (completeCols X).length l) := by
  unfold Spec.card
  rw [features_renumber hl, List.length_map]

variable (svd : Mat ℝ → SVD ℝ) (y : List ℝ)

theorem ompFit_renumber (hc : 0 < X.nc) (h0 : ¬ Gap X 0) {l : List Nat} (hl : ∀ i ∈ l, i < (completeCols X).length) :
    ompFit svd (zeroGaps X) y (modelOf X.nc (l.map (fun i => (completeCols X).getD i 0))) =
      ompFit svd (completeMat X) y (modelOf (completeCols X).length l) := by
  unfold ompFit
  rw [designOf_renumber hc h0 hl, card_renumber hl]

theorem ompPred_renumber (hc : 0 < X.nc) (h0 : ¬ Gap X 0) {l : List Nat} (hl : ∀ i ∈ l, i < (completeCols X).length) :
    ompPred svd (zeroGaps X) y (modelOf X.nc (l.map (fun i => (completeCols X).getD i 0))) =
      ompPred svd (completeMat X) y (modelOf (completeCols X).length l) := by
  unfold ompPred
  rw [designOf_renumber hc h0 hl, ompFit_renumber svd y hc h0 hl]
  rfl

theorem ompRmse_renumber (hc : 0 < X.nc) (h0 : ¬ Gap X 0) {l : List Nat} (hl : ∀ i ∈ l, i < (completeCols X).length) :
    ompRmse svd (zeroGaps X) y (modelOf X.nc (l.map (fun i => (completeCols X).getD i 0))) =
      ompRmse svd (completeMat X) y (modelOf (completeCols X).length l) := by
  unfold ompRmse
  rw [ompPred_renumber svd y hc h0 hl]
  rfl

theorem resAt_renumber (hc : 0 < X.nc) (h0 : ¬ Gap X 0) {l : List Nat} (hl : ∀ i ∈ l, i < (completeCols X).length) :
    resAt svd (zeroGaps X) y (l.map (fun i => (completeCols X).getD i 0)) = resAt svd (completeMat X) y l := by
  unfold resAt
  by_cases h : l = []
  · subst h; rfl
  · rw [if_neg (by simpa using h), if_neg h]
    unfold ompRes
    rw [show (zeroGaps X).nc = X.nc from rfl, show (completeMat X).nc = (completeCols X).length from rfl,
      ompPred_renumber svd y hc h0 hl]

/-! ### The choices determine each other -/

/-- Two lists of which each entry is determined by the entries before, and that end for the same reason. -/
theorem chain_unique {d e : List Nat} {next : List Nat → Option Nat} {stop : List Nat → Prop}
    (hd : ∀ j (hj : j < d.length), next (d.take j) = some d[j]) (he : ∀ j (hj : j < e.length), next (e.take j) = some e[j])
    (hd1 : d.Nodup) (he1 : e.Nodup)
    (hd2 : stop d ∨ ∃ x ∈ d, next d = some x) (he2 : stop e ∨ ∃ x ∈ e, next e = some x)
    (hd3 : ∀ j, 0 < j → j < d.length → ¬ stop (d.take j)) (he3 : ∀ j, 0 < j → j < e.length → ¬ stop (e.take j))
    (hd4 : d ≠ []) (he4 : e ≠ []) : d = e := by
  have key : ∀ j, j ≤ d.length → j ≤ e.length → d.take j = e.take j := by
    intro j
    induction j with
    | zero => intros; simp
    | succ j ih =>
      intro h1 h2
      have := ih (by omega) (by omega)
      rw [List.take_add_one, List.take_add_one, this]
      congr 1
      have a := hd j (by omega)
      have b := he j (by omega)
      rw [this, b] at a
      rw [List.getElem?_eq_getElem (by omega), List.getElem?_eq_getElem (by omega)]
      exact congrArg _ a.symm
  have half : ∀ (d e : List Nat), (∀ j (hj : j < e.length), next (e.take j) = some e[j]) → e.Nodup →
      (stop d ∨ ∃ x ∈ d, next d = some x) → (∀ j, 0 < j → j < e.length → ¬ stop (e.take j)) → d ≠ [] →
      (∀ j, j ≤ d.length → j ≤ e.length → d.take j = e.take j) → ¬ d.length < e.length := by
    intro d e he he1 hd2 he3 hd4 key hlt
    have h1 := key d.length (le_refl _) hlt.le
    rw [List.take_length] at h1
    rcases hd2 with hs | ⟨x, hx, hn⟩
    · rw [h1] at hs
      exact he3 d.length (List.length_pos_iff.2 hd4) hlt hs
    · have h2 := he d.length hlt
      rw [← h1, hn, Option.some.injEq] at h2
      have h3 : x ∈ e.take d.length := h1 ▸ hx
      rw [h2] at h3
      obtain ⟨i, hi, hie⟩ := List.getElem_of_mem h3
      rw [List.getElem_take] at hie
      have := (List.Nodup.getElem_inj_iff he1).1 hie
      rw [List.length_take] at hi
      omega
  have l1 := half d e he he1 hd2 he3 hd4 key
  have l2 := half e d hd hd1 he2 hd3 he4 (fun j h1 h2 => (key j h2 h1).symm)
  have := key d.length (le_refl _) (by omega)
  rwa [List.take_length, List.take_of_length_le (by omega)] at this

/-- Why the list of choices ends. -/
theorem omp_ends {svd : Mat ℝ → SVD ℝ} {X : Mat ℝ} {y : List ℝ} {tol : ℝ} {st : OmpState} {t : Nat} {d : List Nat} {k x : Nat}
    (hc : X.nc ≠ 0) (h2 : OmpInv svd X y t st d k x) (h3 : t = X.nc ∨ ompRmse svd X y st.model < tol) :
    ompRmse svd X y (modelOf X.nc d) < tol ∨ ∃ x ∈ d, argmax (ompProj X (resAt svd X y d)) = some x := by
  rcases h3 with h3 | h3
  · right
    by_cases hk : k = 0
    · have hne : ompProj X (resAt svd X y d) ≠ [] := by
        intro h0
        have := congrArg List.length h0
        simp [ompProj] at this
        omega
      obtain ⟨i, hi, hlt⟩ := argmax_lt _ hne
      refine ⟨i, ?_, hi⟩
      have hlen : d.length = X.nc := by have := h2.count; omega
      have hi' : i < X.nc := by simpa [ompProj] using hlt
      have hsub : d.toFinset = Finset.range X.nc := by
        apply Finset.eq_of_subset_of_card_le
        · intro a ha
          exact Finset.mem_range.2 (h2.lt a (List.mem_toFinset.1 ha))
        · rw [List.toFinset_card_of_nodup h2.nodup, Finset.card_range, hlen]
      have : i ∈ d.toFinset := by rw [hsub]; exact Finset.mem_range.2 hi'
      exact List.mem_toFinset.1 this
    · obtain ⟨h4, h5⟩ := h2.stall hk
      refine ⟨x, h4, ?_⟩
      rw [← h2.res]; exact h5
  · left
    rw [← h2.model_eq]; exact h3

/-- The run with zeros is the run on the complete columns, renumbered. -/
theorem omp_renumber (tol : ℝ) (hc : 0 < X.nc) (h0 : ¬ Gap X 0) (hy : X.nr = y.length) (hy0 : y.length ≠ 0) :
    ∃ r r', omp svd (zeroGaps X) y tol = some r ∧ omp svd (completeMat X) y tol = some r' ∧
      (∃ d : List Nat, (∀ i ∈ d, i < (completeCols X).length) ∧ r'.order = d.map Int.ofNat ∧
        r.order = (d.map (fun i => (completeCols X).getD i 0)).map Int.ofNat) ∧
      r.coeff.length = X.nc ∧
      (∀ i < (completeCols X).length, r.coeff[(completeCols X).getD i 0]? = r'.coeff[i]?) ∧
      (∀ c < X.nc, Gap X c → r.coeff[c]? = some 0) := by
  obtain ⟨hK, hK0⟩ := completeCols_zero hc h0
  obtain ⟨st, t, d, k, x, a1, a2, a3, a4, a5, a6⟩ := omp_main svd (zeroGaps X) y tol hy0 (by exact hc.ne') hy
  obtain ⟨st', t', e, k', x', b1, b2, b3, b4, b5, b6⟩ := omp_main svd (completeMat X) y tol hy0 (by exact hK.ne') hy
  have hlt : ∀ i ∈ e, i < (completeCols X).length := b2.lt
  have htake : ∀ j, ∀ i ∈ e.take j, i < (completeCols X).length := fun j i hi => hlt i (List.mem_of_mem_take hi)
  have hnod : (e.map (fun i => (completeCols X).getD i 0)).Nodup :=
    List.Nodup.map_on (fun i hi j hj h => completeCols_inj (hlt i hi) (hlt j hj) h) b2.nodup
  have hde : d = e.map (fun i => (completeCols X).getD i 0) := by
    apply chain_unique (next := fun l => argmax (ompProj (zeroGaps X) (resAt svd (zeroGaps X) y l)))
      (stop := fun l => ompRmse svd (zeroGaps X) y (modelOf X.nc l) < tol) a2.pick ?_ a2.nodup hnod
      (omp_ends (by exact hc.ne') a2 a3) ?_ a6 ?_ a5 (by simpa using b5)
    · intro j hj
      rw [List.length_map] at hj
      rw [← List.map_take, resAt_renumber svd y hc h0 (htake j), argmax_renumber hc h0, b2.pick j hj]
      simp
    · rcases omp_ends (by exact hK.ne') b2 b3 with h | ⟨z, hz, h⟩
      · left
        show ompRmse svd (zeroGaps X) y _ < tol
        rw [ompRmse_renumber svd y hc h0 hlt]; exact h
      · right
        refine ⟨(completeCols X).getD z 0, List.mem_map.2 ⟨z, hz, rfl⟩, ?_⟩
        rw [resAt_renumber svd y hc h0 hlt, argmax_renumber hc h0, h]; rfl
    · intro j hj1 hj2
      rw [List.length_map] at hj2
      rw [← List.map_take]
      show ¬ ompRmse svd (zeroGaps X) y _ < tol
      rw [ompRmse_renumber svd y hc h0 (htake j)]
      exact b6 j hj1 hj2
  have hmod : st.model = modelOf X.nc (e.map (fun i => (completeCols X).getD i 0)) := by rw [← hde]; exact a2.model_eq
  have hmod' : st'.model = modelOf (completeCols X).length e := b2.model_eq
  obtain ⟨c1, c2, c3⟩ := (a2.fit a4).1
  obtain ⟨g1, g2, g3⟩ := (b2.fit b4).1
  have hlen : st.coeff.length = X.nc := c1
  refine ⟨_, _, a1, b1, ⟨e, hlt, rfl, by rw [hde]⟩, hlen, ?_, ?_⟩
  · intro i hi
    simp only
    have hci := (mem_completeCols.1 (completeCols_getD_mem hi)).1
    by_cases hie : i ∈ e
    · have hif : i ∈ features (modelOf (completeCols X).length e) := by
        rw [mem_features, modelOf_feature _ _ hlt]; exact hie
      obtain ⟨q, hq, hqi⟩ := List.getElem_of_mem hif
      have hq' : q < Spec.card st.model := by rw [hmod, card_renumber hlt]; exact hq
      have := c3 q hq'
      rw [hmod, features_renumber hlt, ompFit_renumber svd y hc h0 hlt] at this
      have e1 : ((features (modelOf (completeCols X).length e)).map (fun i => (completeCols X).getD i 0)).getD q 0 =
          (completeCols X).getD i 0 := by
        rw [List.getD_eq_getElem?_getD, List.getElem?_map, List.getElem?_eq_getElem hq, hqi]; rfl
      rw [e1] at this
      rw [this]
      have h5 := g3 q (by rw [hmod']; exact hq)
      rw [hmod'] at h5
      rw [← h5, List.getD_eq_getElem?_getD, List.getElem?_eq_getElem hq, Option.getD_some, hqi]
    · rw [g2 i hi (fun hf => hie ((b2.feat i).1 hf))]
      apply c2 _ hci
      intro hf
      have := (a2.feat _).1 hf
      rw [hde] at this
      obtain ⟨j, hj, hji⟩ := List.mem_map.1 this
      exact hie (completeCols_inj (hlt j hj) hi hji ▸ hj)
  · intro c hcn hg
    apply c2 c hcn
    intro hf
    have := (a2.feat _).1 hf
    rw [hde] at this
    obtain ⟨j, hj, rfl⟩ := List.mem_map.1 this
    exact completeCols_notGap hc h0 j hg

end GoSelect
