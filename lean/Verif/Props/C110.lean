import Verif.Props.C87_C88
import Verif.Props.C89

/-! # C110: units of the data given to the lasso command. -/

namespace GoSelect

open Finset Spec

/-! ### Specification -/

/-- The same data in other units: column `j` is multiplied by `a j > 0` and shifted by `c j`, the response is
multiplied by `t > 0` and shifted by `u`.  (Entries outside the matrix do not exist in the program; in the model they
are kept.) -/
structure Spec.OtherUnits (dset dset' : Dataset ℝ) (a c : Nat → ℝ) (t u : ℝ) : Prop where
  rows : dset'.X.nr = dset.X.nr
  cols : dset'.X.nc = dset.X.nc
  scale : ∀ j, 0 < a j
  inside : ∀ r < dset.X.nr, ∀ j < dset.X.nc, dset'.X.get r j = a j * dset.X.get r j + c j
  outside : ∀ r j, ¬ (r < dset.X.nr ∧ j < dset.X.nc) → dset'.X.get r j = dset.X.get r j
  pos : 0 < t
  response : dset'.Y = dset.Y.map (fun v => t * v + u)

/-- No column but a constant first one is nearly constant in either of the two units. -/
structure Spec.Spread (X X' : Mat ℝ) : Prop where
  first : (∀ r < X.nr, X.get r 0 = X.get 0 0) ∨ 1 / 10 ^ 10 ≤ goStd (colOf X 0) ∧ 1 / 10 ^ 10 ≤ goStd (colOf X' 0)
  rest : ∀ j < X.nc, j ≠ 0 → 1 / 10 ^ 10 ≤ goStd (colOf X' j)

/-- A constant added to a number. -/
noncomputable def Spec.shiftBy (s : ℝ) : Fl ℝ → Fl ℝ
  | .fin x => .fin (x + s)
  | .posInf => .posInf
  | .negInf => .negInf
  | .nan => .nan

/-- A sort that looks at the values only through comparisons. -/
structure Spec.ComparesOnly (sort : List (Fl ℝ × Nat) → List (Fl ℝ × Nat)) : Prop where
  perm : ∀ l, (sort l).Perm l
  stable : ∀ g : Fl ℝ → Fl ℝ, (∀ x y, g x < g y ↔ x < y) → ∀ l : List (Fl ℝ × Nat),
    sort (l.map (fun p => (g p.1, p.2))) = (sort l).map (fun p => (g p.1, p.2))

/-- The path in other units: same regularisation and columns; every coefficient but the intercept is multiplied by
`t / a j`. -/
structure Spec.SamePath (intercept : Prop) (a : Nat → ℝ) (t : ℝ) (nodes nodes' : List (LassoLarsNode ℝ)) : Prop where
  length : nodes'.length = nodes.length
  lamb : nodes'.map (·.lamb) = nodes.map (·.lamb)
  selection : nodes'.map (·.selection) = nodes.map (·.selection)
  coeff : ∀ k (h : k < nodes.length) (h' : k < nodes'.length) (j : Nat), ¬ (intercept ∧ j = 0) →
    coeffOf nodes'[k] j = t / a j * coeffOf nodes[k] j

/-! ### Mean and standard deviation -/

theorem goMean_units {v : List ℝ} (h : v ≠ []) (a c : ℝ) : goMean (v.map (fun x => a * x + c)) = a * goMean v + c := by
  have hl : (v.length : ℝ) ≠ 0 := by
    have := List.length_pos_iff.2 h
    positivity
  have e : (v.map (fun x => a * x + c)).sum = a * v.sum + v.length * c := by
    clear hl h
    induction v with
    | nil => simp
    | cons x v ih =>
      simp only [List.map_cons, List.sum_cons, ih, List.length_cons]
      push_cast
      ring
  unfold goMean
  rw [foldl_add_eq, foldl_add_eq, zero_add, zero_add, e, List.length_map]
  field_simp

theorem goStd_units (v : List ℝ) {a : ℝ} (ha : 0 ≤ a) (c : ℝ) : goStd (v.map (fun x => a * x + c)) = a * goStd v := by
  unfold goStd
  rw [List.length_map]
  by_cases h : v.length ≤ 1
  · rw [if_pos h, if_pos h, mul_zero]
  · rw [if_neg h, if_neg h]
    have hne : v ≠ [] := by
      intro e
      rw [e] at h
      simp at h
    simp only [goMean_units hne]
    rw [foldl_add_map (fun x => (x - (a * goMean v + c)) * (x - (a * goMean v + c))),
      foldl_add_map (fun x => (x - goMean v) * (x - goMean v)), zero_add, zero_add, List.map_map]
    have e : ∀ m : ℝ, (v.map ((fun x => (x - (a * m + c)) * (x - (a * m + c))) ∘ fun x => a * x + c)).sum =
        a ^ 2 * (v.map (fun x => (x - m) * (x - m))).sum := by
      intro m
      clear h hne
      induction v with
      | nil => simp
      | cons x v ih =>
        simp only [List.map_cons, List.sum_cons, ih, Function.comp]
        ring
    rw [e, mul_div_assoc, Real.sqrt_mul (sq_nonneg a), Real.sqrt_sq ha]

theorem divFin_units {t : ℝ} (ht : 0 < t) (x s : ℝ) : Fl.divFin (t * x) (t * s) = Fl.divFin x s := by
  unfold Fl.divFin
  have h1 : t * s = 0 ↔ s = 0 := by simp [ht.ne']
  have h2 : t * x = 0 ↔ x = 0 := by simp [ht.ne']
  have h3 : 0 < t * x ↔ 0 < x := by simp [ht]
  simp only [h1, h2, h3, mul_div_mul_left _ _ ht.ne']

theorem normalizeArray_units (v : List ℝ) {t : ℝ} (ht : 0 < t) (u : ℝ) :
    normalizeArray (v.map (fun x => t * x + u)) = normalizeArray v := by
  by_cases h : v = []
  · rw [h]
    rfl
  unfold normalizeArray
  simp only [goMean_units h, goStd_units v ht.le, List.map_map]
  refine List.map_congr_left (fun x _ => ?_)
  simp only [Function.comp]
  rw [← divFin_units ht (x - goMean v)]
  congr 1
  ring

/-! ### Normalised data -/

theorem normColumn_outside {d d' : NormalizedData} {c : Nat} (h : normColumn d c = some d') :
    d'.X.nr = d.X.nr ∧ ∀ r j, d.X.nr ≤ r → d'.X.get r j = d.X.get r j := by
  unfold normColumn at h
  simp only at h
  split at h
  · cases h
  · rw [Option.some.injEq] at h
    subst h
    refine ⟨rfl, fun r j hr => ?_⟩
    simp only
    rw [if_neg (by omega)]

theorem normLoop_outside (l : List Nat) {d d' : NormalizedData} (h : l.foldlM normColumn d = some d') :
    d'.X.nr = d.X.nr ∧ ∀ r j, d.X.nr ≤ r → d'.X.get r j = d.X.get r j := by
  induction l generalizing d with
  | nil =>
    simp only [List.foldlM_nil, Option.pure_def, Option.some.injEq] at h
    subst h
    exact ⟨rfl, fun _ _ _ => rfl⟩
  | cons c l ih =>
    rw [List.foldlM_cons] at h
    cases h1 : normColumn d c with
    | none => rw [h1] at h; cases h
    | some e =>
      rw [h1] at h
      obtain ⟨g1, g2⟩ := ih h
      obtain ⟨g3, g4⟩ := normColumn_outside h1
      refine ⟨by rw [g1, g3], fun r j hr => ?_⟩
      rw [g2 r j (by rw [g3]; exact hr), g4 r j hr]

theorem newNormalizedData_outside {X : Mat ℝ} {y : List ℝ} {d : NormalizedData} (h : newNormalizedData X y = some d)
    (r j : Nat) (hr : X.nr ≤ r) : d.X.get r j = X.get r j := (normLoop_outside _ h).2 r j hr

/-- What is the same in both units. -/
structure UnitsPair (n n' : NormalizedData) (a : Nat → ℝ) (t : ℝ) : Prop where
  X : n'.X = n.X
  y : n'.y = n.y
  bias : n'.hasBias = n.hasBias
  stdY : n'.stdY = t * n.stdY
  std : ∀ j < n.X.nc, n'.std.getD j 0 = a j * n.std.getD j 0
  stdLen : n.std.length = n.X.nc
  muLen : n.mu.length = n.X.nc
  stdLen' : n'.std.length = n.X.nc
  muLen' : n'.mu.length = n.X.nc

theorem colOf_units {dset dset' : Dataset ℝ} {a c : Nat → ℝ} {t u : ℝ} (h : OtherUnits dset dset' a c t u)
    {j : Nat} (hj : j < dset.X.nc) : colOf dset'.X j = (colOf dset.X j).map (fun x => a j * x + c j) := by
  unfold colOf
  rw [h.rows, List.map_map]
  exact List.map_congr_left (fun r hr => h.inside r (List.mem_range.1 hr) j hj)

theorem colOf_constant {X : Mat ℝ} (h : ∀ r < X.nr, X.get r 0 = X.get 0 0) : Constant (colOf X 0) := by
  intro x hx z hz
  unfold colOf at hx hz
  obtain ⟨r, h1, rfl⟩ := List.mem_map.1 hx
  obtain ⟨r', h1', rfl⟩ := List.mem_map.1 hz
  rw [h r (List.mem_range.1 h1), h r' (List.mem_range.1 h1')]

theorem goMean_constant {X : Mat ℝ} (h : ∀ r < X.nr, X.get r 0 = X.get 0 0) (hr : 0 < X.nr) :
    goMean (colOf X 0) = X.get 0 0 := by
  have e : colOf X 0 = List.replicate X.nr (X.get 0 0) := by
    unfold colOf
    refine List.ext_getElem (by simp) (fun i hi _ => ?_)
    simp only [List.length_map, List.length_range] at hi
    simp [h i hi]
  have : (X.nr : ℝ) ≠ 0 := by positivity
  rw [e, goMean, foldl_add_eq, List.sum_replicate, List.length_replicate, nsmul_eq_mul, zero_add]
  field_simp

theorem units_normalized {dset dset' : Dataset ℝ} {a c : Nat → ℝ} {t u : ℝ} (h : OtherUnits dset dset' a c t u)
    (hs : Spread dset.X dset'.X) {n : NormalizedData} (hn : newNormalizedData dset.X dset.Y = some n) :
    ∃ n', newNormalizedData dset'.X dset'.Y = some n' ∧ UnitsPair n n' a t := by
  rcases newNormalizedData_inv dset.X dset.Y with ⟨-, h1⟩ | ⟨d, h1, h2, h3, h4, -⟩
  · rw [hn] at h1; cases h1
  rw [hn, Option.some.injEq] at h1
  subst h1
  rcases newNormalizedData_inv dset'.X dset'.Y with ⟨⟨j, hj, hj0, hlt⟩, -⟩ | ⟨n', g1, g2, g3, g4, -⟩
  · exact absurd (hs.rest j (by rw [← h.cols]; exact hj) hj0) (not_le.2 hlt)
  have hstd : ∀ j < dset.X.nc, goStd (colOf dset'.X j) = a j * goStd (colOf dset.X j) := fun j hj => by
    rw [colOf_units h hj, goStd_units _ (h.scale j).le]
  have hmean : 0 < dset.X.nr → ∀ j < dset.X.nc, goMean (colOf dset'.X j) = a j * goMean (colOf dset.X j) + c j :=
    fun hr j hj => by
      rw [colOf_units h hj, goMean_units]
      intro e
      have := congrArg List.length e
      simp [colOf] at this
      omega
  refine ⟨n', g1, ?_, ?_, ?_, ?_, ?_, by rw [h2.stdLen, h2.nc], by rw [h2.muLen, h2.nc],
    by rw [g2.stdLen, h.cols, h2.nc], by rw [g2.muLen, h.cols, h2.nc]⟩
  · have hget : n'.X.get = n.X.get := by
      funext r j
      by_cases hj : j < dset.X.nc
      · by_cases hr : r < dset.X.nr
        · rw [h2.done r j hj hr, g2.done r j (by rw [h.cols]; exact hj) (by rw [h.rows]; exact hr), h.inside r hr j hj,
            hmean (by omega) j hj, hstd j hj]
          have e : a j * dset.X.get r j + c j - (a j * goMean (colOf dset.X j) + c j) =
              a j * (dset.X.get r j - goMean (colOf dset.X j)) := by ring
          rw [e]
          have hbig : 1 / 10 ^ 10 ≤ goStd (colOf dset.X j) ∧ 1 / 10 ^ 10 ≤ a j * goStd (colOf dset.X j) →
              a j * (dset.X.get r j - goMean (colOf dset.X j)) /
                (if a j * goStd (colOf dset.X j) < 1 / 10 ^ 10 then 1 else a j * goStd (colOf dset.X j)) =
              (dset.X.get r j - goMean (colOf dset.X j)) /
                (if goStd (colOf dset.X j) < 1 / 10 ^ 10 then 1 else goStd (colOf dset.X j)) := by
            rintro ⟨b1, b2⟩
            rw [if_neg (not_lt.2 b1), if_neg (not_lt.2 b2), mul_div_mul_left _ _ (h.scale j).ne']
          by_cases hj0 : j = 0
          · subst hj0
            rcases hs.first with hc | ⟨b1, b2⟩
            · have e0 : dset.X.get r 0 - goMean (colOf dset.X 0) = 0 := by
                rw [goMean_constant hc (by omega), hc r hr, sub_self]
              rw [e0, mul_zero, zero_div, zero_div]
            · rw [hstd 0 hj] at b2
              exact hbig ⟨b1, b2⟩
          · have b2 := hs.rest j hj hj0
            rw [hstd j hj] at b2
            exact hbig ⟨h2.later j hj hj0, b2⟩
        · rw [newNormalizedData_outside hn r j (by omega), newNormalizedData_outside g1 r j (by rw [h.rows]; omega),
            h.outside r j (by tauto)]
      · rw [h2.todo r j (by omega), g2.todo r j (by rw [h.cols]; omega), h.outside r j (by tauto)]
    have e1 : n'.X = ⟨n'.X.nr, n'.X.nc, n'.X.get⟩ := rfl
    have e2 : n.X = ⟨n.X.nr, n.X.nc, n.X.get⟩ := rfl
    rw [e1, e2, hget, g2.nr, g2.nc, h.rows, h.cols, h2.nr, h2.nc]
  · rw [g3, h3, h.response, normalizeArray_units _ h.pos]
  · rw [Bool.eq_iff_iff, g2.bias, h2.bias, h.cols]
    refine and_congr_right (fun h0 => ?_)
    rcases hs.first with hc | ⟨b1, b2⟩
    · have e0 : goStd (colOf dset.X 0) = 0 := goStd_constant _ (colOf_constant hc)
      rw [hstd 0 h0, e0, mul_zero]
    · exact iff_of_false (not_lt.2 b2) (not_lt.2 b1)
  · rw [g4, h4, h.response, goStd_units _ h.pos.le]
  · intro j hj
    rw [h2.nc] at hj
    rw [List.getD_eq_getElem?_getD, List.getD_eq_getElem?_getD, h2.std j hj, g2.std j (by rw [h.cols]; exact hj),
      Option.getD_some, Option.getD_some, hstd j hj]

/-! ### Nodes in the units of the data -/

theorem biasLoop_exists (n : NormalizedData) (coeff : List ℝ) (sel : List Nat) (i : Nat) (s : ℝ)
    (h : ∀ v ∈ sel, v < n.mu.length ∧ v < n.std.length) (hl : i + sel.length ≤ coeff.length) :
    ∃ b, biasLoop n coeff sel i s = some b := by
  induction sel generalizing i s with
  | nil => exact ⟨s, rfl⟩
  | cons v sel ih =>
    rw [List.length_cons] at hl
    obtain ⟨h1, h2⟩ := h v (by simp)
    rw [biasLoop, List.getElem?_eq_getElem (show i < coeff.length by omega), List.getElem?_eq_getElem h1,
      List.getElem?_eq_getElem h2]
    exact ih _ _ (fun w hw => h w (by simp [hw])) (by omega)

theorem unnormLoop_exists (n : NormalizedData) (sel : List Nat) (i : Nat) (coeff : List ℝ)
    (h : ∀ v ∈ sel, v < n.std.length ∧ ¬ (v = 0 ∧ n.hasBias = true)) (hl : i + sel.length ≤ coeff.length) :
    ∃ out, unnormLoop n sel i coeff = some out := by
  induction sel generalizing i coeff with
  | nil => exact ⟨coeff, rfl⟩
  | cons v sel ih =>
    rw [List.length_cons] at hl
    obtain ⟨h1, h2⟩ := h v (by simp)
    rw [unnormLoop, List.getElem?_eq_getElem (show i < coeff.length by omega)]
    simp only [linearNormalizationTransformation, if_neg h2, List.getElem?_eq_getElem h1]
    exact ih _ _ (fun w hw => h w (by simp [hw])) (by rw [List.length_set]; omega)

/-- The coefficients of a node, one by one. -/
theorem unnormalizeNode_coeff {n : NormalizedData} {node node' : LassoLarsNode ℝ}
    (hl : node.coeff.length = node.selection.length) (hu : unnormalizeNode n node = some node') (j : Nat)
    (hj : ¬ (n.hasBias = true ∧ j = 0)) : coeffOf node' j = coeffOf node j * n.stdY / n.std.getD j 0 := by
  unfold unnormalizeNode at hu
  cases hb : linearTransformationBias n node.selection node.coeff with
  | none => rw [hb] at hu; simp at hu
  | some bias =>
    rw [hb] at hu
    simp only at hu
    cases hul : unnormLoop n node.selection 0 node.coeff with
    | none => rw [hul] at hu; simp at hu
    | some out =>
      rw [hul] at hu
      simp only at hu
      obtain ⟨ho, hz⟩ := unnormLoop_some n node.selection 0 [] node.coeff out rfl (by simpa using hul) (by omega)
      rw [List.nil_append, List.drop_of_length_le (by omega), List.append_nil] at ho
      have hcore : (if j ∈ node.selection then out.getD (node.selection.idxOf j) 0 else 0) =
          coeffOf node j * n.stdY / n.std.getD j 0 := by
        unfold coeffOf
        by_cases hm : j ∈ node.selection
        · rw [if_pos hm, if_pos hm, ho]
          have hi := List.idxOf_lt_length_of_mem hm
          have hi' : node.selection.idxOf j < node.coeff.length := by omega
          simp only [List.getD_eq_getElem?_getD, List.getElem?_zipWith, List.getElem?_eq_getElem hi,
            List.getElem?_eq_getElem hi', List.getElem_idxOf, Option.getD_some]
        · rw [if_neg hm, if_neg hm]
          simp
      by_cases hbias : n.hasBias = true
      · rw [if_pos hbias, Option.some.injEq] at hu
        subst hu
        have hj0 : j ≠ 0 := fun e => hj ⟨hbias, e⟩
        rw [← hcore]
        unfold coeffOf
        simp only [List.mem_cons, hj0, false_or]
        rw [List.idxOf_cons_ne _ (Ne.symm hj0)]
        simp
      · rw [if_neg hbias, Option.some.injEq] at hu
        subst hu
        rw [← hcore]
        rfl

theorem unnormalizeNode_exists {n n' : NormalizedData} {a : Nat → ℝ} {t : ℝ} (h : UnitsPair n n' a t)
    {node node' : LassoLarsNode ℝ} (hr : RawNode n.X.nc node) (hu : unnormalizeNode n node = some node') :
    ∃ node'', unnormalizeNode n' node = some node'' := by
  have h0 := (unnormalizeNode_shape hr.coeff hu).2.2.1
  obtain ⟨b, hb⟩ := biasLoop_exists n' node.coeff node.selection 0 0
    (fun v hv => ⟨by rw [h.muLen']; exact hr.range v hv, by rw [h.stdLen']; exact hr.range v hv⟩)
    (by rw [hr.coeff]; omega)
  obtain ⟨out, ho⟩ := unnormLoop_exists n' node.selection 0 node.coeff
    (fun v hv => ⟨by rw [h.stdLen']; exact hr.range v hv, by
      rintro ⟨rfl, e⟩
      rw [h.bias] at e
      exact (h0 e).2 hv⟩)
    (by rw [hr.coeff]; omega)
  unfold unnormalizeNode linearTransformationBias
  rw [hb]
  simp only [ho]
  split <;> exact ⟨_, rfl⟩

theorem path2_units {n n' : NormalizedData} {a : Nat → ℝ} {t : ℝ} (h : UnitsPair n n' a t)
    {raw nodes : List (LassoLarsNode ℝ)} (hr : ∀ node ∈ raw, RawNode n.X.nc node)
    (hp : path2Unnormalized n raw = some nodes) : ∃ nodes', path2Unnormalized n' raw = some nodes' := by
  refine mapM_isSome (fun node hm => ?_)
  obtain ⟨k, hk, rfl⟩ := List.getElem_of_mem hm
  exact unnormalizeNode_exists h (hr _ hm) (mapM_getElem hp k hk)

/-- The nodes of the two paths, one by one. -/
theorem samePath_units {n n' : NormalizedData} {a : Nat → ℝ} {t : ℝ} (h : UnitsPair n n' a t)
    (ha : ∀ j, 0 < a j) {raw nodes nodes' : List (LassoLarsNode ℝ)} (hr : ∀ node ∈ raw, RawNode n.X.nc node)
    (hp : path2Unnormalized n raw = some nodes) (hp' : path2Unnormalized n' raw = some nodes') {P : Prop}
    (hP : n.hasBias = true → P) : SamePath P a t nodes nodes' := by
  have l1 := mapM_length hp
  have l2 := mapM_length hp'
  have hk : ∀ k (h1 : k < nodes.length) (h2 : k < nodes'.length), nodes'[k].lamb = nodes[k].lamb ∧
      nodes'[k].selection = nodes[k].selection ∧ ∀ j, ¬ (P ∧ j = 0) →
        coeffOf nodes'[k] j = t / a j * coeffOf nodes[k] j := by
    intro k h1 h2
    have hk : k < raw.length := by omega
    have u1 := mapM_getElem hp k hk
    have u2 := mapM_getElem hp' k hk
    have hraw := hr _ (List.getElem_mem hk)
    obtain ⟨s1, s2, s3, s4⟩ := unnormalizeNode_shape hraw.coeff u1
    obtain ⟨s1', s2', s3', s4'⟩ := unnormalizeNode_shape hraw.coeff u2
    refine ⟨by rw [s1, s1'], ?_, fun j hj => ?_⟩
    · cases hb : n.hasBias with
      | true => rw [(s3 hb).1, (s3' (by rw [h.bias]; exact hb)).1]
      | false => rw [s4 hb, s4' (by rw [h.bias]; exact hb)]
    · rw [unnormalizeNode_coeff hraw.coeff u1 j (fun e => hj ⟨hP e.1, e.2⟩),
        unnormalizeNode_coeff hraw.coeff u2 j (fun e => hj ⟨hP (by rw [← h.bias]; exact e.1), e.2⟩), h.stdY]
      by_cases hjn : j < n.X.nc
      · rw [h.std j hjn]
        have := (ha j).ne'
        by_cases h0 : n.std.getD j 0 = 0
        · rw [h0]
          simp
        · field_simp
      · have : coeffOf raw[k] j = 0 := by
          unfold coeffOf
          rw [if_neg (fun hm => hjn (hraw.range j hm))]
        rw [this]
        simp
  refine ⟨by omega, ?_, ?_, fun k h1 h2 => (hk k h1 h2).2.2⟩
  · refine List.ext_getElem (by simp; omega) (fun k h1 h2 => ?_)
    simp only [List.length_map] at h1 h2
    simpa using (hk k h2 h1).1
  · refine List.ext_getElem (by simp; omega) (fun k h1 h2 => ?_)
    simp only [List.length_map] at h1 h2
    simpa using (hk k h2 h1).2.1

/-! ### The table -/

theorem printHighscore_exists {K α : Type} {sort : List (α × Nat) → List (α × Nat)} (hs : ∀ l, (sort l).Perm l)
    {nodes : List (LassoLarsNode K)} {aicc bic : List α} (h1 : aicc.length = nodes.length)
    (h2 : bic.length = nodes.length) (num : Int) : ∃ rows, printHighscore sort nodes aicc bic num = some rows := by
  unfold printHighscore
  refine mapM_isSome (fun i hi => ?_)
  have hp := hs aicc.zipIdx
  have hlen : (argsort sort aicc).length = aicc.length := by
    unfold argsort
    rw [List.length_map, hp.length_eq, List.length_zipIdx]
  have hi' : i < (argsort sort aicc).length := by
    have := List.mem_range.1 hi
    split at this <;> omega
  have hv : (argsort sort aicc)[i] < aicc.length := by
    have hm : (argsort sort aicc)[i] ∈ (sort aicc.zipIdx).map (·.2) := List.getElem_mem hi'
    obtain ⟨p, hp1, hp2⟩ := List.mem_map.1 hm
    have := List.snd_lt_of_mem_zipIdx (hp.mem_iff.1 hp1)
    rw [← hp2]
    simpa using this
  rw [List.getElem?_eq_getElem hi']
  simp only [Option.bind_eq_bind, Option.bind_some]
  rw [List.getElem?_eq_getElem (show _ < nodes.length by omega), List.getElem?_eq_getElem hv,
    List.getElem?_eq_getElem (show _ < bic.length by omega)]
  exact ⟨_, rfl⟩

theorem shiftBy_lt (s : ℝ) (x y : Fl ℝ) : shiftBy s x < shiftBy s y ↔ x < y := by
  cases x <;> cases y <;> first
    | exact Iff.rfl
    | (show Fl.ltB (.fin _) (.fin _) = true ↔ Fl.ltB (.fin _) (.fin _) = true
       simp [Fl.ltB])

theorem argsort_shift {sort : List (Fl ℝ × Nat) → List (Fl ℝ × Nat)} (hs : ComparesOnly sort) (s : ℝ)
    (a : List (Fl ℝ)) : argsort sort (a.map (shiftBy s)) = argsort sort a := by
  unfold argsort
  have e : (a.map (shiftBy s)).zipIdx = a.zipIdx.map (fun p => (shiftBy s p.1, p.2)) := by
    rw [List.zipIdx_map]
    rfl
  rw [e, hs.stable _ (shiftBy_lt s), List.map_map]
  rfl

/-- A row of the table with both criteria shifted. -/
noncomputable def Spec.shiftRow (s : ℝ) (r : HighscoreRow ℝ (Fl ℝ)) : HighscoreRow ℝ (Fl ℝ) :=
  ⟨r.rank, r.lamb, r.numCoeff, shiftBy s r.aicc, shiftBy s r.bic⟩

theorem printHighscore_shift {sort : List (Fl ℝ × Nat) → List (Fl ℝ × Nat)} (hs : ComparesOnly sort) (s : ℝ)
    {nodes nodes' : List (LassoLarsNode ℝ)} {aicc bic : List (Fl ℝ)} (hlen : nodes'.length = nodes.length)
    (hl : nodes'.map (·.lamb) = nodes.map (·.lamb)) (hsel : nodes'.map (·.selection) = nodes.map (·.selection))
    {num : Int} {rows : List (HighscoreRow ℝ (Fl ℝ))} (h : printHighscore sort nodes aicc bic num = some rows) :
    printHighscore sort nodes' (aicc.map (shiftBy s)) (bic.map (shiftBy s)) num = some (rows.map (shiftRow s)) := by
  unfold printHighscore at h ⊢
  rw [argsort_shift hs, List.length_map]
  rw [mapM_some_iff] at h ⊢
  rw [List.map_map]
  have e2 : (some ∘ shiftRow s) = (Option.map (shiftRow s)) ∘ some := by
    funext r
    rfl
  rw [e2, ← List.map_map, ← h, List.map_map]
  refine List.map_congr_left (fun i _ => ?_)
  simp only [Function.comp]
  cases hv : (argsort sort aicc)[i]? with
  | none => rfl
  | some v =>
    simp only [Option.bind_eq_bind, Option.bind_some, List.getElem?_map]
    have g1 := congrArg (fun l => l[v]?) hl
    have g2 := congrArg (fun l => l[v]?) hsel
    simp only [List.getElem?_map] at g1 g2
    cases hn : nodes[v]? with
    | none =>
      rw [hn, Option.map_none, Option.map_eq_none_iff] at g1
      rw [g1]
      rfl
    | some node =>
      rw [hn, Option.map_some, Option.map_eq_some_iff] at g1 g2
      obtain ⟨node', k1, k2⟩ := g1
      obtain ⟨node'', k3, k4⟩ := g2
      rw [k1, Option.some.injEq] at k3
      subst k3
      rw [k1]
      simp only [Option.bind_some]
      cases aicc[v]? with
      | none => rfl
      | some x =>
        cases bic[v]? with
        | none => rfl
        | some z => simp [shiftRow, k2, k4]

/-! ### The command -/

theorem aicc_units (k n : Nat) {r t : ℝ} (hr : 0 < r) (ht : 0 < t) :
    aicc k n (t ^ 2 * r) = aicc k n r + n * Real.log (t ^ 2) := by
  rw [savedAicc_eq, savedAicc_eq, savedAicc, savedAicc, Real.log_mul (by positivity) hr.ne']
  ring

theorem bic_units (k n : Nat) {r t : ℝ} (hr : 0 < r) (ht : 0 < t) :
    bic k n (t ^ 2 * r) = bic k n r + n * Real.log (t ^ 2) := by
  rw [bic, bic, Real.log_mul (by positivity) hr.ne']
  ring

theorem withLog_units {crit : Nat → Nat → ℝ → ℝ} {t : ℝ} (ht : 0 < t)
    (hc : ∀ k n r, 0 < r → crit k n (t ^ 2 * r) = crit k n r + n * Real.log (t ^ 2)) (k n : Nat) (r : ℝ) :
    withLog crit k n (t ^ 2 * r) = shiftBy (n * Real.log (t ^ 2)) (withLog crit k n r) := by
  have h2 : 0 < t ^ 2 := by positivity
  unfold withLog
  by_cases h : 0 < r
  · rw [if_pos h, if_pos (mul_pos h2 h), hc k n r h]
    rfl
  · have h' : ¬ 0 < t ^ 2 * r := by
      rw [mul_pos_iff_of_pos_left h2]
      exact h
    rw [if_neg h, if_neg h']
    by_cases h0 : r = 0
    · rw [if_pos h0, if_pos (by rw [h0, mul_zero])]
      rfl
    · rw [if_neg h0, if_neg (by
        rw [mul_eq_zero]
        push Not
        exact ⟨h2.ne', h0⟩)]
      rfl

theorem shiftBy_isFin (s : ℝ) (x : Fl ℝ) : (shiftBy s x).isFin = x.isFin := by
  cases x <;> rfl

/-- When the predictions follow the units: with a first column of ones in both units any change does; without a
constant first column a change of scale does. -/
def Spec.Compatible (dset : Dataset ℝ) (a c : Nat → ℝ) (u : ℝ) : Prop :=
  (0 < dset.X.nc ∧ (∀ r < dset.X.nr, dset.X.get r 0 = 1) ∧ a 0 + c 0 = 1) ∨
    ((¬ ∀ r < dset.X.nr, dset.X.get r 0 = dset.X.get 0 0) ∧ (∀ j, c j = 0) ∧ u = 0)

theorem lassoFit_units {svd : Mat ℝ → SVD ℝ} {sort : List (Fl ℝ × Nat) → List (Fl ℝ × Nat)} {f : LassoFlags}
    {dset dset' : Dataset ℝ} {a c : Nat → ℝ} {t u : ℝ} {nodes : List (LassoLarsNode ℝ)}
    {rows : List (HighscoreRow ℝ (Fl ℝ))} {out : Option LassoFile} (hy : dset.Y.length = dset.X.nr)
    (hu : OtherUnits dset dset' a c t u) (hs : Spread dset.X dset'.X) (hsort : ComparesOnly sort)
    (h : LassoFit svd sort f dset nodes rows out) : ∃ nodes' rows' out', LassoFit svd sort f dset' nodes' rows' out' ∧
      SamePath (∀ r < dset.X.nr, dset.X.get r 0 = dset.X.get 0 0) a t nodes nodes' ∧
      (Compatible dset a c u → (∀ k (h : k < nodes.length) (h' : k < nodes'.length), ∀ r < dset.X.nr,
          lin dset'.X (coeffOf nodes'[k]) r = t * lin dset.X (coeffOf nodes[k]) r + u) ∧
        rows' = rows.map (shiftRow (dset.X.nr * Real.log (t ^ 2))) ∧
        out' = out.map (fun file => ⟨dset', nodes', file.aicc.map (shiftBy (dset.X.nr * Real.log (t ^ 2))),
          file.bic.map (shiftBy (dset.X.nr * Real.log (t ^ 2)))⟩)) := by
  obtain ⟨hok, hcrit⟩ := lassoFit_criteria hy h
  obtain ⟨n, y, hn, hfin, hcase⟩ := h
  obtain ⟨n', hn', hp⟩ := units_normalized hu hs hn
  have hfin' : finValues n'.y = some y := by rw [hp.y]; exact hfin
  rcases hcase with ⟨h1, h2, rfl, rfl, rfl⟩ | ⟨raw, aic, bic', hraw, hpath, ha, hb, hrows, hout⟩
  · exact ⟨[], [], none, ⟨n', y, hn', hfin', .inl ⟨h1, h2, rfl, rfl, rfl⟩⟩,
      ⟨rfl, rfl, rfl, fun k h => by simp at h⟩, fun _ => ⟨fun k h => by simp at h, rfl, rfl⟩⟩
  have hnode := lassoRaw_nodes hraw
  have hraw' : LassoRawPath svd f n'.X y raw := by rw [hp.X]; exact hraw
  have hnode' : ∀ node ∈ raw, RawNode n'.X.nc node := by rw [hp.X]; exact hnode
  obtain ⟨nodes', hpath'⟩ := path2_units hp hnode hpath
  rcases newNormalizedData_inv dset.X dset.Y with ⟨-, h1⟩ | ⟨d, h1, h2, -⟩
  · rw [hn] at h1; cases h1
  rw [hn, Option.some.injEq] at h1
  subst h1
  have hP : n.hasBias = true → ∀ r < dset.X.nr, dset.X.get r 0 = dset.X.get 0 0 := by
    intro hb
    rcases hs.first with hc | ⟨b1, -⟩
    · exact hc
    · exact absurd (h2.bias.1 hb).2 (not_lt.2 b1)
  have hsame := samePath_units hp hu.scale hnode hpath hpath' hP
  have hy' : dset'.Y.length = dset'.X.nr := by rw [hu.response, List.length_map, hu.rows, hy]
  have hok' : ∀ m ∈ nodes', SavedNode dset'.X.nc m := by
    intro m hm
    obtain ⟨k, hk, rfl⟩ := List.getElem_of_mem hm
    obtain ⟨node, g1, g2⟩ := path2_mem hpath' hm
    have hr := final_node hn' (hnode' node g1) g2
    refine ⟨hr.sorted, ?_, hr.range, hr.coeff⟩
    have hk' : k < nodes.length := by rw [← hsame.length]; exact hk
    have e := congrArg (fun l => l[k]?) hsame.selection
    simp only [List.getElem?_map, List.getElem?_eq_getElem hk, List.getElem?_eq_getElem hk', Option.map_some,
      Option.some.injEq] at e
    rw [e]
    exact (hok _ (List.getElem_mem hk')).nonempty
  have hcrit' : ∀ crit : Nat → Nat → ℝ → ℝ, getCriteria dset'.X dset'.Y nodes' (withLog crit) =
      some (nodes'.map (fun n => withLog crit n.selection.length dset'.X.nr (sse dset'.X (coeffOf n) (vec dset'.Y)))) :=
    fun crit => C68_criteria_partial dset'.X dset'.Y nodes' (withLog crit) hy'
      (fun n hn => ⟨(hok' n hn).nonempty, (hok' n hn).sorted, (hok' n hn).range, (hok' n hn).coeff⟩)
  obtain ⟨rows', hrows'⟩ := printHighscore_exists hsort.perm
    (nodes := nodes') (aicc := nodes'.map (fun n => withLog aicc n.selection.length dset'.X.nr
      (sse dset'.X (coeffOf n) (vec dset'.Y)))) (bic := nodes'.map (fun n => withLog bic n.selection.length dset'.X.nr
      (sse dset'.X (coeffOf n) (vec dset'.Y)))) (by simp) (by simp) 20
  refine ⟨nodes', rows', _, ⟨n', y, hn', hfin', .inr ⟨raw, _, _, hraw', hpath', hcrit' _, hcrit' _, hrows', rfl⟩⟩,
    hsame, fun hcomp => ?_⟩
  have hvec : ∀ r < dset.X.nr, vec dset'.Y r = t * vec dset.Y r + u := by
    intro r hr
    have hr' : r < dset.Y.length := by omega
    simp only [vec, hu.response, List.getD_eq_getElem?_getD, List.getElem?_map, List.getElem?_eq_getElem hr',
      Option.map_some, Option.getD_some]
  have hpred : ∀ k (h : k < nodes.length) (h' : k < nodes'.length), ∀ r < dset.X.nr,
      lin dset'.X (coeffOf nodes'[k]) r = t * lin dset.X (coeffOf nodes[k]) r + u := by
    intro k hk hk' r hr
    rcases hcomp with ⟨hnc, hones, h01⟩ | ⟨hnc, hc, hu0⟩
    · have hkr : k < raw.length := by rw [← mapM_length hpath]; exact hk
      have u1 := mapM_getElem hpath k hkr
      have u2 := mapM_getElem hpath' k hkr
      have hbias : n.hasBias = true := ((C48_bias dset.X dset.Y hnc n hn).2 (colOf_constant (fun r hr => by
        rw [hones r hr, hones 0 (by omega)]))).1
      obtain ⟨b, -, e1⟩ := residual_original hn hfin hy (hnode _ (List.getElem_mem hkr)) u1
      obtain ⟨b', -, e2⟩ := residual_original hn' hfin' hy' (hnode' _ (List.getElem_mem hkr)) u2
      have f1 := e1 r hr
      have f2 := e2 r (by rw [hu.rows]; exact hr)
      rw [hbias, if_pos rfl, hones r hr] at f1
      rw [hp.bias, hbias, if_pos rfl, hu.inside r hr 0 hnc, hones r hr, mul_one, h01, hp.X, hp.stdY, hvec r hr] at f2
      linear_combination f2 - t * f1
    · unfold lin
      rw [hu.cols, mul_sum, hu0, add_zero]
      refine sum_congr rfl (fun j hj => ?_)
      rw [hu.inside r hr j (mem_range.1 hj), hc j, hsame.coeff k hk hk' j (fun e => hnc e.1)]
      have := (hu.scale j).ne'
      field_simp
      ring
  have hsse : ∀ k (h : k < nodes.length) (h' : k < nodes'.length), sse dset'.X (coeffOf nodes'[k]) (vec dset'.Y) =
      t ^ 2 * sse dset.X (coeffOf nodes[k]) (vec dset.Y) := by
    intro k hk hk'
    unfold sse
    rw [hu.rows, mul_sum]
    refine sum_congr rfl (fun r hr => ?_)
    rw [hpred k hk hk' r (mem_range.1 hr), hvec r (mem_range.1 hr)]
    ring
  have hmap : ∀ crit : Nat → Nat → ℝ → ℝ,
      (∀ k n r, 0 < r → crit k n (t ^ 2 * r) = crit k n r + n * Real.log (t ^ 2)) →
      nodes'.map (fun n => withLog crit n.selection.length dset'.X.nr (sse dset'.X (coeffOf n) (vec dset'.Y))) =
      (nodes.map (fun n => withLog crit n.selection.length dset.X.nr (sse dset.X (coeffOf n) (vec dset.Y)))).map
        (shiftBy (dset.X.nr * Real.log (t ^ 2))) := by
    intro crit hcr
    simp only [hu.rows]
    refine List.ext_getElem (by simp [hsame.length]) (fun k g1 g2 => ?_)
    simp only [List.length_map] at g1 g2
    have e := congrArg (fun l => l[k]?) hsame.selection
    simp only [List.getElem?_map, List.getElem?_eq_getElem g1, List.getElem?_eq_getElem g2, Option.map_some,
      Option.some.injEq] at e
    simp only [List.getElem_map]
    rw [e, hsse k g2 g1, withLog_units hu.pos hcr]
  have ma := hmap aicc (fun k n r hr => aicc_units k n hr hu.pos)
  have mb := hmap bic (fun k n r hr => bic_units k n hr hu.pos)
  rw [hcrit, Option.some.injEq] at ha hb
  rw [ha] at ma
  rw [hb] at mb
  rw [ma, mb] at hrows' ⊢
  refine ⟨hpred, ?_, ?_⟩
  · have := printHighscore_shift hsort (dset.X.nr * Real.log (t ^ 2)) hsame.length hsame.lamb hsame.selection hrows
    rw [hrows', Option.some.injEq] at this
    exact this
  · have e : ((aic.map (shiftBy (dset.X.nr * Real.log (t ^ 2)))) ++ bic'.map (shiftBy (dset.X.nr * Real.log (t ^ 2)))).all
        Fl.isFin = (aic ++ bic').all Fl.isFin := by
      simp only [List.all_append, List.all_map, Function.comp_def, shiftBy_isFin]
    rw [e, hout]
    split <;> rfl

/-- C110 (path).  Changing the units of the columns and of the response, scale and zero point, changes neither the
regularisations nor the selected columns of the path; coefficients are converted.  Missing: columns that are nearly
constant in one of the units, where it is false. -/
theorem C110_path_partial (svd : Mat ℝ → SVD ℝ) (sort : List (Fl ℝ × Nat) → List (Fl ℝ × Nat)) (f : LassoFlags)
    (dset dset' : Dataset ℝ) (a c : Nat → ℝ) (t u : ℝ) (nodes : List (LassoLarsNode ℝ))
    (rows : List (HighscoreRow ℝ (Fl ℝ))) (out : Option LassoFile) (hy : dset.Y.length = dset.X.nr)
    (hu : OtherUnits dset dset' a c t u) (hs : Spread dset.X dset'.X) (hsort : ComparesOnly sort)
    (h : LassoFit svd sort f dset nodes rows out) : ∃ nodes' rows' out', LassoFit svd sort f dset' nodes' rows' out' ∧
      SamePath (∀ r < dset.X.nr, dset.X.get r 0 = dset.X.get 0 0) a t nodes nodes' := by
  obtain ⟨nodes', rows', out', h1, h2, -⟩ := lassoFit_units hy hu hs hsort h
  exact ⟨nodes', rows', out', h1, h2⟩

/-- C110 (predictions, table and file).  With a first column of ones, or without a constant first column and when only
scales change, the predictions follow the units, both criteria of every node change by the same number, the table lists
the same nodes in the same order, and a file is written in both units or in none.  Missing: other data and changes of
units, where it is false. -/
theorem C110_units_partial (svd : Mat ℝ → SVD ℝ) (sort : List (Fl ℝ × Nat) → List (Fl ℝ × Nat)) (f : LassoFlags)
    (dset dset' : Dataset ℝ) (a c : Nat → ℝ) (t u : ℝ) (nodes : List (LassoLarsNode ℝ))
    (rows : List (HighscoreRow ℝ (Fl ℝ))) (out : Option LassoFile) (hy : dset.Y.length = dset.X.nr)
    (hu : OtherUnits dset dset' a c t u) (hs : Spread dset.X dset'.X) (hc : Compatible dset a c u)
    (hsort : ComparesOnly sort) (h : LassoFit svd sort f dset nodes rows out) :
    ∃ nodes', LassoFit svd sort f dset' nodes' (rows.map (shiftRow (dset.X.nr * Real.log (t ^ 2))))
        (out.map (fun file => ⟨dset', nodes', file.aicc.map (shiftBy (dset.X.nr * Real.log (t ^ 2))),
          file.bic.map (shiftBy (dset.X.nr * Real.log (t ^ 2)))⟩)) ∧
      SamePath (∀ r < dset.X.nr, dset.X.get r 0 = dset.X.get 0 0) a t nodes nodes' ∧
      ∀ k (h : k < nodes.length) (h' : k < nodes'.length), ∀ r < dset.X.nr,
        lin dset'.X (coeffOf nodes'[k]) r = t * lin dset.X (coeffOf nodes[k]) r + u := by
  obtain ⟨nodes', rows', out', h1, h2, h3⟩ := lassoFit_units hy hu hs hsort h
  obtain ⟨h4, rfl, rfl⟩ := h3 hc
  exact ⟨nodes', h1, h2, h4⟩

/-- C110 (small units).  Any data with two columns can be written in units in which every run panics. -/
theorem C110_small (dset : Dataset ℝ) (h : 1 < dset.X.nc) : ∃ a dset', OtherUnits dset dset' a (fun _ => 0) 1 0 ∧
    ∀ svd sort f nodes rows out, ¬ LassoFit svd sort f dset' nodes rows out := by
  have hs : 0 ≤ goStd (colOf dset.X 1) := by
    unfold goStd
    split
    · exact le_rfl
    · exact Real.sqrt_nonneg _
  set s := goStd (colOf dset.X 1) with hsd
  have ha : 0 < 1 / (2 * 10 ^ 10 * (s + 1)) := by positivity
  have hu : OtherUnits dset ⟨⟨dset.X.nr, dset.X.nc, fun r j => if r < dset.X.nr ∧ j < dset.X.nc then
      1 / (2 * 10 ^ 10 * (s + 1)) * dset.X.get r j else dset.X.get r j⟩, dset.Y, dset.names, dset.targetCol⟩
      (fun _ => 1 / (2 * 10 ^ 10 * (s + 1))) (fun _ => 0) 1 0 := by
    refine ⟨rfl, rfl, fun _ => ha, fun r hr j hj => ?_, fun r j hrj => ?_, one_pos, by simp⟩
    · simp only [if_pos (show r < dset.X.nr ∧ j < dset.X.nc from ⟨hr, hj⟩), add_zero]
    · simp only [if_neg hrj]
  refine ⟨_, _, hu, ?_⟩
  rintro svd sort f nodes rows out ⟨n, y, hn, -⟩
  refine absurd hn ?_
  rw [(C48_panic _ _).2 ⟨1, by rw [hu.cols]; exact h, one_ne_zero, ?_⟩]
  · simp
  · rw [colOf_units hu h, goStd_units _ ha.le, ← hsd, div_mul_eq_mul_div, one_mul, div_lt_div_iff₀ (by positivity)
      (by positivity)]
    nlinarith

/-! ### Examples -/

namespace UnitsExample

open NestedExample LassoExample

/-- A sort by comparisons. -/
noncomputable def cmpSort (l : List (Fl ℝ × Nat)) : List (Fl ℝ × Nat) :=
  l.insertionSort (fun a b => ¬ b.1 < a.1)

theorem cmpSort_ok : ComparesOnly cmpSort := by
  refine ⟨fun l => List.perm_insertionSort _ l, fun g hg l => ?_⟩
  unfold cmpSort
  refine (List.map_insertionSort _ _ (fun p : Fl ℝ × Nat => (g p.1, p.2)) l (fun x _ y _ => ?_)).symm
  simp only [hg]

/-- The data of C87 with the columns in halves and the response in thirds of the units. -/
noncomputable def scaled : Dataset ℝ :=
  ⟨⟨5, 2, fun r j => if r < 5 ∧ j < 2 then 2 * data.X.get r j else data.X.get r j⟩, [6, 6, -6, -6, 0], ["y", "a", "b"], 0⟩

theorem scaled_units : OtherUnits data scaled (fun _ => 2) (fun _ => 0) 3 0 := by
  refine ⟨rfl, rfl, fun _ => by norm_num, fun r hr j hj => ?_, fun r j h => ?_, by norm_num, ?_⟩
  · simp only [scaled, if_pos (show r < 5 ∧ j < 2 from ⟨hr, hj⟩), add_zero]
  · simp only [scaled, if_neg (show ¬ (r < 5 ∧ j < 2) from h)]
  · simp only [scaled, data]
    norm_num

theorem scaled_spread : Spread data.X scaled.X := by
  have h : ∀ j < 2, goStd (colOf scaled.X j) = 2 * goStd (colOf data.X j) := fun j hj => by
    rw [colOf_units scaled_units hj, goStd_units _ (by norm_num)]
  refine ⟨.inr ⟨?_, ?_⟩, fun j hj hj0 => ?_⟩
  · rw [std_A.1]
    norm_num
  · rw [h 0 (by norm_num), std_A.1]
    norm_num
  · have : j = 1 := by
      have : j < 2 := hj
      omega
    subst this
    rw [h 1 (by norm_num), std_B.1]
    norm_num

theorem scaled_compatible : Compatible data (fun _ => 2) (fun _ => 0) 0 := by
  refine .inr ⟨fun h => ?_, fun _ => rfl, rfl⟩
  have := h 1 (by norm_num [data])
  norm_num [data, colA] at this

/-- The sort matters only for the table. -/
theorem lassoFit_sort {svd : Mat ℝ → SVD ℝ} {sort sort' : List (Fl ℝ × Nat) → List (Fl ℝ × Nat)} {f : LassoFlags}
    {dset : Dataset ℝ} {nodes : List (LassoLarsNode ℝ)} {rows : List (HighscoreRow ℝ (Fl ℝ))} {out : Option LassoFile}
    (h : LassoFit svd sort f dset nodes rows out) (hs : ∀ l, (sort' l).Perm l) :
    ∃ rows', LassoFit svd sort' f dset nodes rows' out := by
  obtain ⟨n, y, hn, hfin, ⟨h1, h2, h3, h4, h5⟩ | ⟨raw, a, b, hraw, hp, ha, hb, -, hout⟩⟩ := h
  · exact ⟨[], n, y, hn, hfin, .inl ⟨h1, h2, h3, rfl, h5⟩⟩
  · obtain ⟨rows', hr⟩ := printHighscore_exists hs (nodes := nodes) (aicc := a) (bic := b) (mapM_length ha)
      (mapM_length hb) 20
    exact ⟨rows', n, y, hn, hfin, .inr ⟨raw, a, b, hraw, hp, ha, hb, hr, hout⟩⟩

/-- A run that writes a file, to which `C110_units_partial` applies. -/
example : ∃ rows file nodes' rows' file',
    LassoFit svd cmpSort cdFlags data [⟨[1 / 2], 3 / 10, [1]⟩] rows (some file) ∧
    LassoFit svd cmpSort cdFlags scaled nodes' rows' (some file') ∧
    SamePath (∀ r < data.X.nr, data.X.get r 0 = data.X.get 0 0) (fun _ => 2) 3 [⟨[1 / 2], 3 / 10, [1]⟩] nodes' := by
  obtain ⟨rows, file, h⟩ := cdFit
  obtain ⟨rows, h⟩ := lassoFit_sort h cmpSort_ok.perm
  obtain ⟨nodes', h1, h2, -⟩ := C110_units_partial _ _ _ _ _ _ _ _ _ _ _ _ rfl scaled_units scaled_spread
    scaled_compatible cmpSort_ok h
  exact ⟨rows, file, nodes', _, _, h, h1, h2⟩

/-- Data with a column of ones; the response has mean 1. -/
noncomputable def ones : Dataset ℝ :=
  ⟨⟨5, 2, fun r j => if j = 0 then 1 else 2 * colB r⟩, [3, 3, -1, -1, 1], ["one", "b", "y"], 2⟩

theorem ones_col : colOf ones.X 1 = colOf data.X 1 := by
  simp [colOf, ones, data]

theorem ones_normed : ∃ n, newNormalizedData ones.X ones.Y = some n ∧ n.X.nr = 5 ∧ n.X.nc = 2 ∧
    (∀ r < 5, n.X.get r 0 = 0 ∧ n.X.get r 1 = colB r) ∧ n.hasBias = true ∧ n.std[1]? = some 2 ∧ n.mu[1]? = some 0 ∧
    n.stdY = 2 ∧ n.muY = 1 ∧ n.y = ys.map .fin := by
  have hconst : ∀ r < ones.X.nr, ones.X.get r 0 = ones.X.get 0 0 := fun r _ => by simp [ones]
  rcases newNormalizedData_inv ones.X ones.Y with ⟨⟨j, hj, h0, hs⟩, -⟩ | ⟨n, h1, h2, h3, h4, h5⟩
  · exfalso
    have : j = 1 := by
      have : j < 2 := hj
      omega
    subst this
    rw [ones_col, std_B.1] at hs
    norm_num at hs
  · refine ⟨n, h1, h2.nr, h2.nc, fun r hr => ⟨?_, ?_⟩, ?_, ?_, ?_, ?_, ?_, ?_⟩
    · rw [h2.done r 0 (by decide) hr, goMean_constant hconst (by decide), hconst r hr, sub_self, zero_div]
    · rw [h2.done r 1 (by decide) hr, ones_col, std_B.1, std_B.2, if_neg (by norm_num)]
      simp [ones]
    · exact ((C48_bias ones.X ones.Y (by decide) n h1).2 (colOf_constant hconst)).1
    · rw [h2.std 1 (by decide), ones_col, std_B.1]
    · rw [h2.mu 1 (by decide), ones_col, std_B.2]
    · rw [h4]
      exact shifted_y.2.2
    · rw [h5]
      exact shifted_y.2.1
    · rw [h3]
      exact shifted_y.1

theorem ones_raw {M : Mat ℝ} (h1 : M.nr = 5) (h2 : M.nc = 2) (h3 : ∀ r < 5, M.get r 0 = 0 ∧ M.get r 1 = colB r) :
    LassoRawPath svd cdFlags M ys [⟨[1 / 2], 3 / 10, [1]⟩] := by
  unfold LassoRawPath
  rw [if_neg (by decide), if_pos (by decide)]
  refine ⟨identityCov M, [3 / 10], by simp [LassoCov, cdFlags], by simp [logspace, cdFlags], ?_⟩
  set p : ℝ → CDProblem ℝ Unit := fun lamb => ⟨M.nr, M.nc, identityCov M, xTy M (fun r => ys.getD r 0), lamb,
    cdFlags.tol, pureLasso⟩ with hp
  have hid : IdProblem (p (3 / 10)) := ⟨fun i j => rfl, rfl⟩
  have x0 : xTy M (fun r => ys.getD r 0) 0 = 0 := by
    simp only [xTy, h1, sum_range_succ, sum_range_zero]
    rw [(h3 0 (by omega)).1, (h3 1 (by omega)).1, (h3 2 (by omega)).1, (h3 3 (by omega)).1, (h3 4 (by omega)).1]
    norm_num
  have x1 : xTy M (fun r => ys.getD r 0) 1 = 4 := by
    simp only [xTy, h1, sum_range_succ, sum_range_zero]
    rw [(h3 0 (by omega)).2, (h3 1 (by omega)).2, (h3 2 (by omega)).2, (h3 3 (by omega)).2, (h3 4 (by omega)).2]
    norm_num [colB, ys]
  have b0 : (cdLoop (p (3 / 10)) 100000 (cdInit (p (3 / 10)) ())).1.beta 0 = 0 := by
    have hi : idCoeff (p (3 / 10)) 0 = 0 := by
      simp only [idCoeff, hp, x0]
      norm_num [softThreshold]
    rw [cdLoop_id hid 100000 _ (cdInit_id hid) 0 (by rw [hi]; rfl), hi]
  have b1 : (cdLoop (p (3 / 10)) 100000 (cdInit (p (3 / 10)) ())).1.beta 1 = 1 / 2 := by
    rw [cdLoop_id_pos hid 99999 1 le_rfl (by show 1 < M.nc; omega)]
    simp only [idCoeff, hp, x1, h1]
    norm_num [softThreshold]
  have := crdPath_exists p M.nc [3 / 10] 100000 (fun _ => rfl) (by rw [h2]; decide) (fun _ => ⟨rfl, rfl⟩)
  have hnode : crdNode M.nc (cdLoop (p (3 / 10)) 100000 (cdInit (p (3 / 10)) ())).1.beta (3 / 10) =
      ⟨[1 / 2], 3 / 10, [1]⟩ := by
    unfold crdNode
    rw [h2]
    have hsel : (List.range 2).filter (fun j => decide (|(cdLoop (p (3 / 10)) 100000
        (cdInit (p (3 / 10)) ())).1.beta j| > lassoCrdDescZero)) = [1] := by
      simp only [List.range_succ, List.range_zero, List.nil_append, List.cons_append, List.filter, b0, b1,
        lassoCrdDescZero]
      norm_num
    simp only [hsel, List.map_cons, List.map_nil, b1]
  simp only [List.reverse_singleton, List.map_cons, List.map_nil, hnode] at this
  simpa using this

theorem ones_errors : sse ones.X (coeffOf ⟨[1, 1 / 2], 3 / 10, [0, 1]⟩) (vec ones.Y) = 4 := by
  simp only [sse, lin, ones, sum_range_succ, sum_range_zero, coeffOf, vec]
  norm_num [colB]

/-- The command on the data with a column of ones: intercept 1 and coefficient 1/2. -/
theorem ones_fit : ∃ rows file, LassoFit svd cmpSort cdFlags ones [⟨[1, 1 / 2], 3 / 10, [0, 1]⟩] rows (some file) := by
  obtain ⟨n, hn, h1, h2, h3, hb, hstd, hmu, hs, hm, hy⟩ := ones_normed
  have hp : path2Unnormalized n [⟨[1 / 2], 3 / 10, [1]⟩] = some [⟨[1, 1 / 2], 3 / 10, [0, 1]⟩] := by
    have : unnormalizeNode n ⟨[1 / 2], 3 / 10, [1]⟩ = some ⟨[1, 1 / 2], 3 / 10, [0, 1]⟩ := by
      unfold unnormalizeNode linearTransformationBias
      simp [biasLoop, unnormLoop, linearNormalizationTransformation, hb, hstd, hmu, hs, hm]
    simp only [path2Unnormalized, List.mapM_cons, List.mapM_nil, this]
    rfl
  have hc : ∀ crit : Nat → Nat → ℝ → Fl ℝ, getCriteria ones.X ones.Y [⟨[1, 1 / 2], 3 / 10, [0, 1]⟩] crit =
      some [crit 2 5 4] := by
    intro crit
    rw [C68_criteria_partial ones.X ones.Y _ crit rfl]
    · simp only [List.map_cons, List.map_nil, ones_errors]
      rfl
    · intro m hm
      simp only [List.mem_singleton] at hm
      subst hm
      simp [ones]
  obtain ⟨rows, hr⟩ := printHighscore_exists (K := ℝ) cmpSort_ok.perm (nodes := [⟨[1, 1 / 2], 3 / 10, [0, 1]⟩])
    (aicc := [withLog aicc 2 5 4]) (bic := [withLog bic 2 5 4]) rfl rfl 20
  refine ⟨rows, ⟨ones, [⟨[1, 1 / 2], 3 / 10, [0, 1]⟩], [withLog aicc 2 5 4], [withLog bic 2 5 4]⟩, n, ys, hn, by rw [hy, finValues_fin],
    .inr ⟨_, _, _, ones_raw h1 h2 h3, hp, hc _, hc _, hr, ?_⟩⟩
  simp [withLog, Fl.isFin]

/-- From degrees Celsius to degrees Fahrenheit, and a response in thousandths with another zero. -/
noncomputable def fahrenheit : Dataset ℝ :=
  ⟨⟨5, 2, fun r j => if r < 5 ∧ j < 2 then (if j = 0 then 1 else 9 / 5 * (2 * colB r) + 32) else ones.X.get r j⟩,
    [3007, 3007, -993, -993, 1007], ["one", "b", "y"], 2⟩

theorem fahrenheit_units : OtherUnits ones fahrenheit (fun j => if j = 0 then 1 else 9 / 5)
    (fun j => if j = 0 then 0 else 32) 1000 7 := by
  refine ⟨rfl, rfl, fun j => ?_, fun r hr j hj => ?_, fun r j h => ?_, by norm_num, ?_⟩
  · split <;> norm_num
  · simp only [fahrenheit, ones, if_pos (show r < 5 ∧ j < 2 from ⟨hr, hj⟩)]
    by_cases h0 : j = 0
    · simp [h0]
    · simp [h0]
  · simp only [fahrenheit, if_neg (show ¬ (r < 5 ∧ j < 2) from h)]
  · simp only [fahrenheit, ones]
    norm_num

/-- A run with an intercept, to which `C110_path_partial` and `C110_units_partial` apply. -/
example : ∃ nodes' rows' file', LassoFit svd cmpSort cdFlags fahrenheit nodes' rows' (some file') ∧
    ∀ k (h : k < 1) (h' : k < nodes'.length), ∀ r < 5, lin fahrenheit.X (coeffOf nodes'[k]) r =
      1000 * lin ones.X (coeffOf ⟨[1, 1 / 2], 3 / 10, [0, 1]⟩) r + 7 := by
  obtain ⟨rows, file, h⟩ := ones_fit
  have hs : Spread ones.X fahrenheit.X := by
    refine ⟨.inl (fun r _ => by simp [ones]), fun j hj hj0 => ?_⟩
    have : j = 1 := by
      have : j < 2 := hj
      omega
    subst this
    rw [colOf_units fahrenheit_units (by decide), goStd_units _ (by norm_num), ones_col, std_B.1]
    norm_num
  obtain ⟨nodes', h1, -, h2⟩ := C110_units_partial _ _ _ _ _ _ _ _ _ _ _ _ rfl fahrenheit_units hs
    (.inl ⟨by decide, fun r _ => by simp [ones], by norm_num⟩) cmpSort_ok h
  refine ⟨nodes', _, _, h1, fun k hk hk' r hr => ?_⟩
  have : k = 0 := by omega
  subst this
  exact h2 0 hk hk' r hr

theorem shifted_units : OtherUnits data shifted (fun _ => 1) (fun _ => 0) 1 1 := by
  refine ⟨rfl, rfl, fun _ => one_pos, fun r _ j _ => by simp [shifted], fun r j _ => rfl, one_pos, ?_⟩
  simp only [shifted, data]
  norm_num

theorem data_balanced (b : Nat → ℝ) : ∑ r ∈ range 5, lin data.X b r = 0 := by
  simp only [lin, data, sum_range_succ, sum_range_zero]
  norm_num [colA, colB]
  ring

end UnitsExample

/-- The full claim: the predictions follow any change of units. -/
def Spec.UnitsDoNotMatter : Prop :=
  ∀ (svd : Mat ℝ → SVD ℝ) (sort : List (Fl ℝ × Nat) → List (Fl ℝ × Nat)) (f : LassoFlags) (dset dset' : Dataset ℝ)
    (a c : Nat → ℝ) (t u : ℝ) (nodes : List (LassoLarsNode ℝ)) (rows : List (HighscoreRow ℝ (Fl ℝ)))
    (out : Option LassoFile), dset.Y.length = dset.X.nr → OtherUnits dset dset' a c t u → ComparesOnly sort →
    LassoFit svd sort f dset nodes rows out → ∃ nodes' rows' out', LassoFit svd sort f dset' nodes' rows' out' ∧
      nodes'.length = nodes.length ∧ ∀ k (h : k < nodes.length) (h' : k < nodes'.length), ∀ r < dset.X.nr,
        lin dset'.X (coeffOf nodes'[k]) r = t * lin dset.X (coeffOf nodes[k]) r + u

open UnitsExample NestedExample LassoExample in
/-- C110 is false in general: without a constant column a response with another zero point is not followed, although
nothing is nearly constant. -/
theorem C110_refuted : ¬ UnitsDoNotMatter := by
  intro hall
  obtain ⟨rows, file, h⟩ := cdFit
  obtain ⟨rows, h⟩ := lassoFit_sort h cmpSort_ok.perm
  obtain ⟨nodes', rows', out', -, hl, h1⟩ := hall _ _ _ _ _ _ _ _ _ _ _ _ rfl shifted_units cmpSort_ok h
  have hsum := sum_congr (rfl : range 5 = range 5) (fun r hr => h1 0 (by simp) (by rw [hl]; simp) r (mem_range.1 hr))
  have e := data_balanced (coeffOf (nodes'[0]'(by rw [hl]; simp)))
  have e' := data_balanced (coeffOf ⟨[1 / 2], 3 / 10, [1]⟩)
  rw [sum_add_distrib, ← mul_sum] at hsum
  simp only [List.getElem_cons_zero] at hsum
  rw [e'] at hsum
  rw [show (shifted.X = data.X) from rfl, e] at hsum
  norm_num at hsum

end GoSelect
