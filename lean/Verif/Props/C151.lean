import Verif.Proofs.OmpGap

/-!
# C151: orthogonal matching pursuit passes over features with gaps
-/

namespace GoSelect

open Finset Spec

/-! ### Specification -/

/-- The result `res` for all columns of `X` is the result `res'` for the complete columns: the same features in the same
order with the same coefficients, and coefficient 0 for columns with gaps. -/
structure Spec.PassesOver (X : Mat (Fl ℝ)) (res : OmpResultGap) (res' : OmpResult) : Prop where
  order : ∃ d : List Nat, (∀ i ∈ d, i < (completeCols X).length) ∧ res'.order = d.map Int.ofNat ∧
    res.order = (d.map (fun i => (completeCols X).getD i 0)).map Int.ofNat
  length : res.coeff.length = X.nc
  coeff : ∀ i < (completeCols X).length, res.coeff[(completeCols X).getD i 0]? = (res'.coeff[i]?).map .fin
  zero : ∀ c < X.nc, Gap X c → res.coeff[c]? = some (.fin 0)

/-- Full claim: if some column is complete, columns with gaps might as well be left out. -/
def Spec.OmpPassesGaps (run : OmpInputGap → Option OmpResultGap) : Prop :=
  ∀ P, GonumSquare P.dot → P.X.nr = P.y.length → P.y.length ≠ 0 → (∃ c < P.X.nc, ¬ Gap P.X c) →
    ∃ res res', run P = some res ∧ omp P.svd (completeMat P.X) P.y P.tol = some res' ∧ PassesOver P.X res res'

/-! ### A complete first column -/

/-- **C151, part.**  If the first column is complete, columns with gaps might as well be left out.  Missing: data whose
first column has a gap (`C151_first`). -/
theorem C151_passes_partial {P : OmpInputGap} (hd : GonumSquare P.dot) (hy : P.X.nr = P.y.length) (hy0 : P.y.length ≠ 0)
    (hc : 0 < P.X.nc) (h0 : ¬ Gap P.X 0) :
    ∃ res res', ompGap P = some res ∧ omp P.svd (completeMat P.X) P.y P.tol = some res' ∧ PassesOver P.X res res' := by
  obtain ⟨r, r', h1, h2, h3, h4, h5, h6⟩ := omp_renumber P.svd P.y P.tol hc h0 hy hy0
  refine ⟨⟨r.coeff.map .fin, r.order⟩, r', ?_, h2, ⟨h3, by simp [h4], fun i hi => ?_, fun c hcn hg => ?_⟩⟩
  · rw [ompGap_zeroed hd h0, h1]; rfl
  · simp only
    rw [List.getElem?_map, h5 i hi]
  · simp only
    rw [List.getElem?_map, h6 c hcn hg]; rfl

/-! ### A missing value in the first column -/

open Classical in
theorem argmax_first_nan {P : OmpInputGap} (hd : GonumDot P.dot) (hc : 0 < P.X.nc) {r : Nat} (hr : r < P.X.nr)
    (hn : P.X.get r 0 = .nan) (v : List (Fl ℝ)) : argmax (ompProjGap P v) = some 0 := by
  have h1 := hd.nan P.X.nr (fun r => P.X.get r 0) (fun r => P.X.get r 0) r hr
    (.inl ⟨hn, by rw [hn]; exact fun h => nomatch h⟩)
  have h2 : projGapAt P v 0 = .nan := by
    unfold projGapAt
    rw [h1]
    have : Fl.mul (norm2Gap v) (Fl.sqrt .nan) = .nan := Fl.mul_nan _
    rw [this]
    cases P.dot P.X.nr (fun r => P.X.get r 0) (fun r => v.getD r .nan) <;> rfl
  show argmax ((List.range P.X.nc).map (projGapAt P v)) = _
  rw [argmax_range _ hc, h2]
  congr 1
  have : ∀ l : List Nat, l.foldl (fun (s : Nat × Fl ℝ) c => if s.2 < projGapAt P v c then (c, projGapAt P v c) else s)
      (0, .nan) = (0, .nan) := by
    intro l
    induction l with
    | nil => rfl
    | cons a l ih =>
      rw [List.foldl_cons, if_neg (not_nan_lt _)]
      exact ih
  rw [this]

theorem fullCoeffLoop_first {A : Type} (coeff : List A) (L : List Int) (i : Nat) (res out : List A)
    (hL : ∀ v ∈ L, v = 0) (h : fullCoeffLoop coeff L i res = some out) : out.length = res.length ∧
      ∀ j, 0 < j → out[j]? = res[j]? := by
  induction L generalizing i res with
  | nil =>
    rw [fullCoeffLoop, Option.some.injEq] at h
    subst h
    exact ⟨rfl, fun _ _ => rfl⟩
  | cons v L ih =>
    unfold fullCoeffLoop at h
    cases hc : coeff[i]? with
    | none => rw [hc] at h; cases h
    | some c =>
      rw [hc, hL v List.mem_cons_self] at h
      simp only [goSetInt, goSet] at h
      by_cases h2 : 0 < res.length
      · have h0 : ¬ (0 : Int) < 0 := by omega
        simp only [h0, if_false, Int.toNat_zero, h2, if_true] at h
        obtain ⟨g1, g2⟩ := ih (i + 1) (res.set 0 c) (fun v hv => hL v (List.mem_cons_of_mem _ hv)) h
        refine ⟨by rw [g1, List.length_set], fun j hj => ?_⟩
        rw [g2 j hj, List.getElem?_set_ne (by omega)]
      · have h0 : ¬ (0 : Int) < 0 := by omega
        simp [h2] at h

/-- What holds before iteration number `t`. -/
structure FirstOnly (nc t : Nat) (st : OmpStateGap) : Prop where
  order : st.order = List.replicate t 0 ++ List.replicate (nc - t) (-1)
  feat : ∀ j, HasFeature st.model j → j = 0
  mlen : st.model.length = nc
  length : st.coeff.length = nc
  zero : ∀ j, 0 < j → j < nc → st.coeff[j]? = some (.fin 0)

open Classical in
theorem firstOnly_step {P : OmpInputGap} (hd : GonumDot P.dot) {r : Nat} (hr : r < P.X.nr)
    (hn : P.X.get r 0 = .nan) {t : Nat} (ht : t < P.X.nc) {st st' : OmpStateGap} {e : Fl ℝ} (h : FirstOnly P.X.nc t st)
    (hs : ompStepGap P t st = some (st', e)) : FirstOnly P.X.nc (t + 1) st' := by
  unfold ompStepGap at hs
  rw [argmax_first_nan hd (by omega) hr hn] at hs
  simp only [Option.bind_eq_bind, Option.bind_some, Option.bind_eq_some_iff, selectedFeatures_eq] at hs
  obtain ⟨m, hm, o, ho, D, -, ⟨c, p⟩, -, full, hfull, hres⟩ := hs
  simp only [Option.pure_def, Option.some.injEq, Prod.mk.injEq] at hres
  obtain ⟨rfl, -⟩ := hres
  have hm' : 0 < st.model.length ∧ m = st.model.set 0 true := by
    unfold goSet at hm
    split at hm
    · exact ⟨by assumption, (Option.some.inj hm).symm⟩
    · cases hm
  have ho' : o = st.order.set t 0 := by
    unfold goSet at ho
    split at ho
    · exact (Option.some.inj ho).symm
    · cases ho
  have hf : ∀ j, HasFeature m j → j = 0 := by
    intro j hj
    rw [hm'.2, hasFeature_set hm'.1] at hj
    exact hj.elim (h.feat j) id
  obtain ⟨g1, g2⟩ := fullCoeffLoop_first _ _ _ _ _ (fun v hv => by
    obtain ⟨i, hi, rfl⟩ := List.mem_map.1 hv
    rw [hf i ((mem_features _ _).1 hi)]; rfl) hfull
  refine ⟨?_, hf, by simp only; rw [hm'.2, List.length_set, h.mlen], by simp only; rw [g1, h.length], fun j h1 h2 => by simp only; rw [g2 j h1]; exact h.zero j h1 h2⟩
  simp only
  rw [ho', h.order]
  have e : t = (List.replicate t (0 : Int)).length := by simp
  conv_lhs => rw [show ∀ l : List Int, l.set t 0 = l.set (List.replicate t (0 : Int)).length 0 from fun l => by rw [← e]]
  rw [set_append_replicate _ _ _ _ (by omega), List.replicate_succ']
  rfl

open Classical in
theorem firstOnly_loop {P : OmpInputGap} (hd : GonumDot P.dot) {r : Nat} (hr : r < P.X.nr)
    (hn : P.X.get r 0 = .nan) (fuel t : Nat) {st st' : OmpStateGap} (h : FirstOnly P.X.nc t st) (hf : fuel + t = P.X.nc)
    (hs : ompLoopGap P fuel t st = some st') : ∃ t', t ≤ t' ∧ (fuel ≠ 0 → t < t') ∧ FirstOnly P.X.nc t' st' := by
  induction fuel generalizing t st with
  | zero =>
    rw [ompLoopGap, Option.some.injEq] at hs
    subst hs
    exact ⟨t, le_refl _, fun h => absurd rfl h, h⟩
  | succ fuel ih =>
    rw [ompLoopGap] at hs
    rcases h1 : ompStepGap P t st with _ | ⟨s, e⟩
    · rw [h1] at hs; cases hs
    · rw [h1] at hs
      have h2 := firstOnly_step hd hr hn (by omega) h h1
      simp only at hs
      split at hs
      · rw [Option.some.injEq] at hs
        subst hs
        exact ⟨t + 1, by omega, fun _ => by omega, h2⟩
      · obtain ⟨t', g1, -, g3⟩ := ih (t + 1) h2 (by omega) hs
        exact ⟨t', by omega, fun _ => by omega, g3⟩

open Classical in
/-- If the fit of a column with gaps returns at all, so does an iteration. -/
theorem firstOnly_goes {P : OmpInputGap} (hd : GonumDot P.dot) {r : Nat} (hr : r < P.X.nr)
    (hn : P.X.get r 0 = .nan) (hy : P.X.nr = P.y.length)
    (hfit : ∀ D, ∃ c, P.gapFit D P.y = some c ∧ c.length = D.nc) {t : Nat} (ht : t < P.X.nc) {st : OmpStateGap}
    (h : FirstOnly P.X.nc t st) : ∃ s, ompStepGap P t st = some s := by
  unfold ompStepGap
  rw [argmax_first_nan hd (by omega) hr hn]
  simp only [Option.bind_eq_bind, Option.bind_some, selectedFeatures_eq]
  have e1 : goSet st.model 0 true = some (st.model.set 0 true) := by unfold goSet; rw [if_pos (by rw [h.mlen]; omega)]
  have e2 : goSet st.order t ((0 : Nat) : Int) = some (st.order.set t ((0 : Nat) : Int)) := by
    unfold goSet; rw [if_pos (by rw [h.order]; simp; omega)]
  rw [e1, e2]
  simp only [Option.bind_some]
  have h0 : 0 ∈ features (st.model.set 0 true) :=
    (mem_features _ _).2 ((hasFeature_set (by rw [h.mlen]; omega)).2 (.inr rfl))
  have hlen : (st.model.set 0 true).length = P.X.nc := by rw [List.length_set, h.mlen]
  rw [getDesignMatrix_some (List.length_pos_of_mem h0) hlen.le]
  simp only [Option.bind_some]
  unfold ompFitGap
  obtain ⟨k, hk, hk0⟩ := List.getElem_of_mem h0
  rw [if_neg (fun hall => by
    have := hall r hr k hk
    simp only [List.getD_eq_getElem?_getD, List.getElem?_eq_getElem hk, Option.getD_some, hk0, hn] at this
    cases this), if_neg (not_not.2 hy)]
  obtain ⟨c, hc, hcl⟩ := hfit ⟨P.X.nr, Spec.card (st.model.set 0 true),
    fun j k => P.X.get j ((features (st.model.set 0 true)).getD k 0)⟩
  rw [hc]
  simp only [Option.map_some, Option.bind_some]
  obtain ⟨out, g1, -⟩ := fullCoeffLoop_spec c (features (st.model.set 0 true)) 0 st.coeff
    (fun v hv => by rw [h.length, ← hlen]; exact features_lt hv) (by rw [hcl, Nat.zero_add]; rfl) (features_nodup _)
  rw [g1]
  exact ⟨_, rfl⟩

open Classical in
theorem firstOnly_ends {P : OmpInputGap} (hd : GonumDot P.dot) {r : Nat} (hr : r < P.X.nr)
    (hn : P.X.get r 0 = .nan) (hy : P.X.nr = P.y.length)
    (hfit : ∀ D, ∃ c, P.gapFit D P.y = some c ∧ c.length = D.nc) (fuel t : Nat) {st : OmpStateGap}
    (h : FirstOnly P.X.nc t st) (hf : fuel + t = P.X.nc) : ∃ s, ompLoopGap P fuel t st = some s := by
  induction fuel generalizing t st with
  | zero => exact ⟨st, rfl⟩
  | succ fuel ih =>
    obtain ⟨⟨s, e⟩, h1⟩ := firstOnly_goes hd hr hn hy hfit (by omega) h
    rw [ompLoopGap, h1]
    simp only
    split
    · exact ⟨s, rfl⟩
    · exact ih (t + 1) (firstOnly_step hd hr hn (by omega) h h1) (by omega)

theorem trim_first_some (a b : Nat) (ha : 0 < a) :
    ∃ o, trimLoop (List.replicate a 0 ++ List.replicate b (-1)) (List.replicate a 0 ++ List.replicate b (-1)) 0
      (List.replicate (List.replicate a (0 : Int) ++ List.replicate b (-1)).length false) = some o := by
  obtain ⟨a, rfl⟩ : ∃ n, a = n + 1 := ⟨a - 1, by omega⟩
  have hlen : (List.replicate (a + 1) (0 : Int) ++ List.replicate b (-1)).length = a + b + 1 := by simp; omega
  rw [hlen]
  simp only [List.replicate_succ, List.cons_append]
  rw [trimLoop]
  rcases a with _ | a
  · rcases b with _ | b
    · exact ⟨[0], by simp [trimLoop]⟩
    · exact ⟨[0], by simp [List.replicate_succ, trimLoop]⟩
  · exact ⟨[0], by simp [List.replicate_succ, trimLoop]⟩

theorem trim_first {a b : Nat} {o : List Int} (ha : 0 < a)
    (h : trimLoop (List.replicate a 0 ++ List.replicate b (-1)) (List.replicate a 0 ++ List.replicate b (-1)) 0
      (List.replicate (List.replicate a (0 : Int) ++ List.replicate b (-1)).length false) = some o) : o = [0] := by
  obtain ⟨a, rfl⟩ : ∃ n, a = n + 1 := ⟨a - 1, by omega⟩
  have hlen : (List.replicate (a + 1) (0 : Int) ++ List.replicate b (-1)).length = a + b + 1 := by simp; omega
  rw [hlen] at h
  simp only [List.replicate_succ, List.cons_append] at h
  rw [trimLoop] at h
  simp at h
  rcases a with _ | a
  · rcases b with _ | b
    · simpa [trimLoop] using h.symm
    · simp [List.replicate_succ, trimLoop] at h
      exact h.symm
  · simp [List.replicate_succ, trimLoop] at h
    exact h.symm

theorem firstOnly_init (P : OmpInputGap) : FirstOnly P.X.nc 0 ⟨P.y.map .fin, List.replicate P.X.nc false,
    List.replicate P.X.nc (.fin 0), List.replicate P.X.nc (-1)⟩ :=
  ⟨by simp, fun j hj => by
    simp only [HasFeature, List.getElem?_replicate] at hj
    split at hj <;> simp at hj, by simp, by simp, fun j _ hj => by simp [List.getElem?_replicate, hj]⟩

/-- **C151.**  With a missing value in the first column nothing else is found. -/
theorem C151_first {P : OmpInputGap} (hd : GonumDot P.dot) {r : Nat} (hr : r < P.X.nr) (hn : P.X.get r 0 = .nan)
    {res : OmpResultGap} (h : ompGap P = some res) :
    res.order = [0] ∧ res.coeff.length = P.X.nc ∧ ∀ j, 0 < j → j < P.X.nc → res.coeff[j]? = some (.fin 0) := by
  unfold ompGap at h
  split at h
  · cases h
  rename_i hne
  simp only [not_or, not_not] at hne
  rcases hl : ompLoopGap P P.X.nc 0
      ⟨P.y.map .fin, List.replicate P.X.nc false, List.replicate P.X.nc (.fin 0), List.replicate P.X.nc (-1)⟩ with _ | st
  · rw [hl] at h; cases h
  rw [hl] at h
  simp only at h
  obtain ⟨t', -, g2, g3⟩ := firstOnly_loop hd hr hn P.X.nc 0 (firstOnly_init P) rfl hl
  rcases ho : trimLoop st.order st.order 0 (List.replicate st.order.length false) with _ | o
  · rw [ho] at h; cases h
  rw [ho, Option.some.injEq] at h
  subst h
  rw [g3.order] at ho
  exact ⟨trim_first (g2 hne.2.1) ho, g3.length, g3.zero⟩

/-- **C151.**  Such a run ends if the fit of a column with gaps returns at all. -/
theorem C151_first_returns {P : OmpInputGap} (hd : GonumDot P.dot) {r : Nat} (hr : r < P.X.nr) (hn : P.X.get r 0 = .nan)
    (hc : 0 < P.X.nc) (hy : P.X.nr = P.y.length) (hfit : ∀ D, ∃ c, P.gapFit D P.y = some c ∧ c.length = D.nc) :
    ∃ res, ompGap P = some res := by
  unfold ompGap
  rw [if_neg (by simp only [not_or, not_not]; omega)]
  obtain ⟨st, hs⟩ := firstOnly_ends hd hr hn hy hfit P.X.nc 0 (firstOnly_init P) rfl
  rw [hs]
  obtain ⟨t', -, g2, g3⟩ := firstOnly_loop hd hr hn P.X.nc 0 (firstOnly_init P) rfl hs
  obtain ⟨o, ho⟩ := trim_first_some t' (P.X.nc - t') (g2 hc.ne')
  simp only [g3.order, ho]
  exact ⟨_, rfl⟩

/-! ### Examples -/

open Classical in
/-- The plain sum of products meets the assumptions. -/
theorem plainDot_square : GonumSquare (fun n x z => Fl.sum ((List.range n).map (fun r => Fl.mul (x r) (z r)))) := by
  refine ⟨by convert plainDot_ok, fun n x hx => ?_⟩
  obtain ⟨r, hr, hx⟩ := hx
  have hb : Fl.Big (Fl.sum ((List.range n).map (fun r => Fl.mul (x r) (x r)))) := by
    apply Fl.sum_big
    · intro z hz
      obtain ⟨i, -, rfl⟩ := List.mem_map.1 hz
      cases hxi : x i with
      | fin a => exact fun h => nomatch h
      | posInf => exact fun h => nomatch h
      | negInf => exact fun h => nomatch h
      | nan => exact fun h => nomatch h
    · exact ⟨_, List.mem_map.2 ⟨r, List.mem_range.2 hr, rfl⟩, Fl.sq_big hx⟩
  exact hb.symm

/-- Three features, the one numbered `g` without first value; the others are unit vectors. -/
noncomputable def ompGapP (g : Nat) : OmpInputGap :=
  ⟨orthSvd, fun n x z => Fl.sum ((List.range n).map (fun r => Fl.mul (x r) (z r))), fun D _ => some (List.replicate D.nc .nan),
    fun D _ => List.replicate D.nr .nan,
    ⟨3, 3, fun r c => if c = g then (if r = 0 then .nan else .fin 1) else .fin (if r = c then 1 else 0)⟩, [1, 2, 3], 0⟩

theorem ompGapP_gap (g c : Nat) : Gap (ompGapP g).X c ↔ c = g := by
  constructor
  · rintro ⟨r, -, h⟩
    by_contra hc
    exact h _ (by simp [ompGapP, hc]; rfl)
  · rintro rfl
    exact ⟨0, by simp [ompGapP], fun a => by simp [ompGapP]⟩

example : GonumSquare (ompGapP 1).dot ∧ (ompGapP 1).X.nr = (ompGapP 1).y.length ∧ ¬ Gap (ompGapP 1).X 0 ∧
    Gap (ompGapP 1).X 1 :=
  ⟨plainDot_square, rfl, by rw [ompGapP_gap]; decide, (ompGapP_gap 1 1).2 rfl⟩

example : ∃ res, ompGap (ompGapP 0) = some res ∧ res.order = [0] := by
  obtain ⟨res, h⟩ := C151_first_returns plainDot_square.toDot (P := ompGapP 0) (r := 0) (by decide) rfl (by decide) rfl
    (fun D => ⟨_, rfl, by simp⟩)
  exact ⟨res, h, (C151_first plainDot_square.toDot (P := ompGapP 0) (r := 0) (by decide) rfl h).1⟩

/-- **C151** in general is false: a missing value in the first column hides the other columns. -/
theorem C151_refuted : ¬ OmpPassesGaps ompGap := by
  intro h
  obtain ⟨res, res', h1, h2, h3⟩ := h (ompGapP 0) plainDot_square rfl (by decide) ⟨1, by decide, by rw [ompGapP_gap]; decide⟩
  have g := (C151_first plainDot_square.toDot (P := ompGapP 0) (r := 0) (by decide) rfl h1).1
  obtain ⟨d, d1, -, d3⟩ := h3.order
  rw [g] at d3
  cases d with
  | nil => cases d3
  | cons i d =>
    simp only [List.map_cons, List.cons.injEq] at d3
    have h0 : (completeCols (ompGapP 0).X).getD i 0 = 0 := by
      have := d3.1
      simp only [Int.ofNat_eq_natCast] at this
      omega
    have := (mem_completeCols.1 (completeCols_getD_mem (d1 i List.mem_cons_self))).2
    rw [h0, ompGapP_gap] at this
    exact this rfl

end GoSelect
