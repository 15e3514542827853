import Verif.Props.C97
import Mathlib.Tactic.Positivity
import Mathlib.Tactic.FieldSimp

/-! # C175: model averages are stable

Leaving out models with a much larger criterion, or changing all criteria a little, hardly changes the average of the
models of a path. -/

namespace GoSelect

open Finset Spec

/-- `x` is the list of averaged coefficients over `nc` features of the given criteria and nodes. -/
def Spec.IsAverage (nc : Nat) (P : List (ℝ × LassoLarsNode ℝ)) (x : List ℝ) : Prop :=
  weightedAveragedCoeff nc (weightsFromAIC (P.map Prod.fst)).1 (lassoNodesToSparse (P.map Prod.snd)) = some x

/-- Sum of a value of the models, each counted with `exp(-criterion)`. -/
noncomputable def expMass (P : List (ℝ × LassoLarsNode ℝ)) (f : LassoLarsNode ℝ → ℝ) : ℝ :=
  (P.map (fun p => Real.exp (-p.1) * f p.2)).sum

theorem expMass_append (P Q : List (ℝ × LassoLarsNode ℝ)) (f : LassoLarsNode ℝ → ℝ) :
    expMass (P ++ Q) f = expMass P f + expMass Q f := by
  simp [expMass]

theorem expMass_abs {P : List (ℝ × LassoLarsNode ℝ)} {f : LassoLarsNode ℝ → ℝ} {B : ℝ}
    (h : ∀ p ∈ P, |f p.2| ≤ B) : |expMass P f| ≤ B * expMass P (fun _ => 1) := by
  induction P with
  | nil => simp [expMass]
  | cons p P ih =>
    have h1 := ih (fun q hq => h q (List.mem_cons_of_mem _ hq))
    have h2 := h p List.mem_cons_self
    unfold expMass at h1 ⊢
    simp only [List.map_cons, List.sum_cons]
    refine (abs_add_le _ _).trans ?_
    rw [abs_mul, abs_of_pos (Real.exp_pos _)]
    have := mul_le_mul_of_nonneg_left h2 (Real.exp_pos (-p.1)).le
    linarith

theorem expMass_one_nonneg (P : List (ℝ × LassoLarsNode ℝ)) : 0 ≤ expMass P (fun _ => 1) := by
  refine List.sum_nonneg (fun v hv => ?_)
  obtain ⟨p, -, rfl⟩ := List.mem_map.1 hv
  have := Real.exp_pos (-p.1)
  linarith

theorem expMass_one_ge {P : List (ℝ × LassoLarsNode ℝ)} {best : ℝ × LassoLarsNode ℝ} (h : best ∈ P) :
    Real.exp (-best.1) ≤ expMass P (fun _ => 1) := by
  refine List.single_le_sum (fun v hv => ?_) _ (List.mem_map.2 ⟨best, h, mul_one _⟩)
  obtain ⟨p, -, rfl⟩ := List.mem_map.1 hv
  have := Real.exp_pos (-p.1)
  linarith

theorem expMass_one_le {Q : List (ℝ × LassoLarsNode ℝ)} {a : ℝ} (h : ∀ q ∈ Q, a ≤ q.1) :
    expMass Q (fun _ => 1) ≤ Q.length * Real.exp (-a) := by
  induction Q with
  | nil => simp [expMass]
  | cons q Q ih =>
    have h1 := ih (fun r hr => h r (List.mem_cons_of_mem _ hr))
    have h2 : Real.exp (-q.1) ≤ Real.exp (-a) := Real.exp_le_exp.2 (neg_le_neg (h q List.mem_cons_self))
    unfold expMass at h1 ⊢
    simp only [List.map_cons, List.sum_cons, List.length_cons, Nat.cast_add, Nat.cast_one]
    linarith

theorem weightedSum_expMass {P : List (ℝ × LassoLarsNode ℝ)} (hne : P ≠ []) (f : LassoLarsNode ℝ → ℝ) :
    weightedSum (weightsFromAIC (P.map Prod.fst)).1 (P.map Prod.snd) f = expMass P f / expMass P (fun _ => 1) := by
  rw [weights_eq (by simpa using hne)]
  have hs : ((P.map Prod.fst).map (fun v => Real.exp (-v))).sum = expMass P (fun _ => 1) := by
    unfold expMass
    rw [List.map_map]
    congr 1
    apply List.map_congr_left
    intro p _
    simp
  rw [hs]
  unfold weightedSum
  rw [List.map_map, List.zip_map', List.map_map]
  conv_rhs => rw [expMass, div_eq_mul_inv, ← List.sum_map_mul_right]
  congr 1
  apply List.map_congr_left
  intro p _
  simp only [Function.comp]
  ring

theorem truncate_bound {P Q : List (ℝ × LassoLarsNode ℝ)} {best : ℝ × LassoLarsNode ℝ} (hb : best ∈ P) {D B : ℝ}
    (hD : ∀ q ∈ Q, best.1 + D ≤ q.1) {f : LassoLarsNode ℝ → ℝ} (hB : ∀ p ∈ P ++ Q, |f p.2| ≤ B) :
    |weightedSum (weightsFromAIC ((P ++ Q).map Prod.fst)).1 ((P ++ Q).map Prod.snd) f -
      weightedSum (weightsFromAIC (P.map Prod.fst)).1 (P.map Prod.snd) f| ≤ 2 * B * (Q.length * Real.exp (-D)) := by
  have hne : P ≠ [] := List.ne_nil_of_mem hb
  rw [weightedSum_expMass (by simp [hne]), weightedSum_expMass hne, expMass_append, expMass_append]
  have hA := expMass_abs (P := P) (f := f) (B := B) (fun p hp => hB p (List.mem_append_left _ hp))
  have hA' := expMass_abs (P := Q) (f := f) (B := B) (fun p hp => hB p (List.mem_append_right _ hp))
  have hS := expMass_one_ge hb
  have hS' := expMass_one_nonneg Q
  have hQ := expMass_one_le hD
  have hB0 : 0 ≤ B := (abs_nonneg _).trans (hB best (List.mem_append_left _ hb))
  have he : Real.exp (-(best.1 + D)) = Real.exp (-best.1) * Real.exp (-D) := by
    rw [← Real.exp_add]; congr 1; ring
  rw [he] at hQ
  have hpos : 0 < expMass P (fun _ => 1) := (Real.exp_pos _).trans_le hS
  generalize expMass P (fun _ => 1) = S at *
  generalize expMass Q (fun _ => 1) = S' at *
  generalize expMass P f = A at *
  generalize expMass Q f = A' at *
  have h1 : (A + A') / (S + S') - A / S = (A' * S - A * S') / ((S + S') * S) := by
    field_simp
    ring
  have h2 : |A' * S - A * S'| ≤ 2 * B * S' * S := by
    refine (abs_sub _ _).trans ?_
    rw [abs_mul, abs_mul, abs_of_pos hpos, abs_of_nonneg hS']
    nlinarith [mul_le_mul_of_nonneg_right hA' hpos.le, mul_le_mul_of_nonneg_right hA hS']
  rw [h1, abs_div, abs_of_pos (show 0 < (S + S') * S by positivity), div_le_iff₀ (by positivity)]
  refine h2.trans ?_
  have h3 : S' ≤ Q.length * Real.exp (-D) * S := by
    refine hQ.trans ?_
    have := mul_le_mul_of_nonneg_left hS (show 0 ≤ (Q.length : ℝ) * Real.exp (-D) by positivity)
    linarith
  have h4 : S' * S ≤ Q.length * Real.exp (-D) * ((S + S') * S) := by
    have h5 : (0 : ℝ) ≤ Q.length * Real.exp (-D) * (S' * S) := by positivity
    nlinarith [mul_le_mul_of_nonneg_right h3 hpos.le]
  nlinarith [mul_le_mul_of_nonneg_left h4 (show 0 ≤ 2 * B by linarith)]

theorem average_spec {nc : Nat} {P : List (ℝ × LassoLarsNode ℝ)} (hP : P ≠ []) (hn : ∀ p ∈ P, PathNode nc p.2) :
    ∃ x, IsAverage nc P x ∧
      (∀ j < nc, x.getD j 0 =
        weightedSum (weightsFromAIC (P.map Prod.fst)).1 (P.map Prod.snd) (fun n => coeffOf n j)) ∧
      ∀ X : Mat ℝ, X.nc = nc → ∀ r, lin X (vec x) r =
        weightedSum (weightsFromAIC (P.map Prod.fst)).1 (P.map Prod.snd) (fun n => lin X (coeffOf n) r) := by
  have hl : (weightsFromAIC (P.map Prod.fst)).1.length = (P.map Prod.snd).length := by
    rw [(C37_distribution _ (by simpa using hP)).1]; simp
  have hm : ∀ n ∈ P.map Prod.snd, PathNode nc n := by
    intro n h
    obtain ⟨p, hp, rfl⟩ := List.mem_map.1 h
    exact hn p hp
  obtain ⟨x, h1, -, h3⟩ := C97_coefficients nc _ _ hl hm
  refine ⟨x, h1, h3, fun X hX r => ?_⟩
  subst hX
  exact C97_predictions X _ _ hl hm x h1 r

/-- C175: leaving out models whose criteria exceed that of a kept model by at least `D` changes every averaged
coefficient, and every prediction, by at most `2·B·m·exp(-D)`, where `m` is the number of the models left out and `B`
bounds the coefficient (the prediction) in the single models. -/
theorem C175_truncate (nc : Nat) (P Q : List (ℝ × LassoLarsNode ℝ)) (hn : ∀ p ∈ P ++ Q, PathNode nc p.2)
    (best : ℝ × LassoLarsNode ℝ) (hb : best ∈ P) (D : ℝ) (hD : ∀ q ∈ Q, best.1 + D ≤ q.1) :
    ∃ full kept, IsAverage nc (P ++ Q) full ∧ IsAverage nc P kept ∧
      (∀ j < nc, ∀ B, (∀ p ∈ P ++ Q, |coeffOf p.2 j| ≤ B) →
        |full.getD j 0 - kept.getD j 0| ≤ 2 * B * (Q.length * Real.exp (-D))) ∧
      ∀ X : Mat ℝ, X.nc = nc → ∀ r B, (∀ p ∈ P ++ Q, |lin X (coeffOf p.2) r| ≤ B) →
        |lin X (vec full) r - lin X (vec kept) r| ≤ 2 * B * (Q.length * Real.exp (-D)) := by
  have hne : P ≠ [] := List.ne_nil_of_mem hb
  obtain ⟨full, f1, f2, f3⟩ := average_spec (P := P ++ Q) (by simp [hne]) hn
  obtain ⟨kept, k1, k2, k3⟩ := average_spec hne (fun p hp => hn p (List.mem_append_left _ hp))
  refine ⟨full, kept, f1, k1, fun j hj B hB => ?_, fun X hX r B hB => ?_⟩
  · rw [f2 j hj, k2 j hj]
    exact truncate_bound hb hD hB
  · rw [f3 X hX r, k3 X hX r]
    exact truncate_bound (f := fun n => lin X (coeffOf n) r) hb hD hB

theorem mass_change {T : List (ℝ × ℝ × LassoLarsNode ℝ)} {δ B : ℝ} (hδ : ∀ t ∈ T, |t.2.1 - t.1| ≤ δ) (hne : T ≠ [])
    {f : LassoLarsNode ℝ → ℝ} (hB : ∀ t ∈ T, |f t.2.2| ≤ B) :
    |expMass (T.map (fun t => (t.2.1, t.2.2))) f / expMass (T.map (fun t => (t.2.1, t.2.2))) (fun _ => 1) -
      expMass (T.map (fun t => (t.1, t.2.2))) f / expMass (T.map (fun t => (t.1, t.2.2))) (fun _ => 1)| ≤
      B * (Real.exp (2 * δ) - 1) := by
  obtain ⟨t0, ht0⟩ := List.exists_mem_of_ne_nil T hne
  have hδ0 : 0 ≤ δ := (abs_nonneg _).trans (hδ t0 ht0)
  have hB0 : 0 ≤ B := (abs_nonneg _).trans (hB t0 ht0)
  have hE1 : (1 : ℝ) ≤ Real.exp δ := Real.one_le_exp hδ0
  have hEE : Real.exp (2 * δ) = Real.exp δ * Real.exp δ := by rw [← Real.exp_add]; congr 1; ring
  -- entrywise bounds
  have hent : ∀ t ∈ T, Real.exp (-t.2.1) ≤ Real.exp δ * Real.exp (-t.1) ∧
      Real.exp (-t.1) ≤ Real.exp δ * Real.exp (-t.2.1) := by
    intro t ht
    have := abs_le.1 (hδ t ht)
    rw [← Real.exp_add, ← Real.exp_add]
    exact ⟨Real.exp_le_exp.2 (by linarith), Real.exp_le_exp.2 (by linarith)⟩
  have hsum : ∀ (u v : ℝ × ℝ × LassoLarsNode ℝ → ℝ) (L : List (ℝ × ℝ × LassoLarsNode ℝ)),
      (∀ t ∈ L, u t ≤ Real.exp δ * v t) → (L.map u).sum ≤ Real.exp δ * (L.map v).sum := by
    intro u v L h
    rw [← List.sum_map_mul_left]
    exact List.sum_le_sum h
  have e1 : ∀ h : LassoLarsNode ℝ → ℝ, expMass (T.map (fun t => (t.2.1, t.2.2))) h =
      (T.map (fun t => Real.exp (-t.2.1) * h t.2.2)).sum := by
    intro h; simp [expMass, Function.comp_def]
  have e2 : ∀ h : LassoLarsNode ℝ → ℝ, expMass (T.map (fun t => (t.1, t.2.2))) h =
      (T.map (fun t => Real.exp (-t.1) * h t.2.2)).sum := by
    intro h; simp [expMass, Function.comp_def]
  simp only [e1, e2, mul_one]
  have s1 := hsum (fun t => Real.exp (-t.2.1)) (fun t => Real.exp (-t.1)) T (fun t ht => (hent t ht).1)
  have s2 := hsum (fun t => Real.exp (-t.1)) (fun t => Real.exp (-t.2.1)) T (fun t ht => (hent t ht).2)
  have p1 : 0 < (T.map (fun t => Real.exp (-t.2.1))).sum := by
    refine List.sum_pos _ (fun v hv => ?_) (by simpa using hne)
    obtain ⟨u, -, rfl⟩ := List.mem_map.1 hv
    exact Real.exp_pos _
  have p2 : 0 < (T.map (fun t => Real.exp (-t.1))).sum := by
    refine List.sum_pos _ (fun v hv => ?_) (by simpa using hne)
    obtain ⟨u, -, rfl⟩ := List.mem_map.1 hv
    exact Real.exp_pos _
  generalize (T.map (fun t => Real.exp (-t.2.1))).sum = S1 at *
  -- every term of the difference
  have hterm : ∀ t ∈ T, |Real.exp (-t.2.1) / S1 - Real.exp (-t.1) / (T.map (fun t => Real.exp (-t.1))).sum| ≤
      (Real.exp (2 * δ) - 1) * (Real.exp (-t.1) / (T.map (fun t => Real.exp (-t.1))).sum) := by
    intro t ht
    obtain ⟨a1, a2⟩ := hent t ht
    generalize (T.map (fun t => Real.exp (-t.1))).sum = S2 at *
    have q1 := Real.exp_pos (-t.1)
    have q2 := Real.exp_pos (-t.2.1)
    generalize Real.exp (-t.1) = x at *
    generalize Real.exp (-t.2.1) = x' at *
    generalize Real.exp δ = E at *
    rw [hEE]
    have hE : 0 < E := by linarith
    have u1 : x' / S1 ≤ E * E * (x / S2) := by
      rw [← mul_div_assoc, div_le_div_iff₀ p1 p2]
      have m1 := mul_le_mul a1 s2 p2.le (mul_pos hE q1).le
      nlinarith
    have u2 : x / S2 ≤ E * E * (x' / S1) := by
      rw [← mul_div_assoc, div_le_div_iff₀ p2 p1]
      have m1 := mul_le_mul a2 s1 p1.le (mul_pos hE q2).le
      nlinarith
    have w1 : 0 < x / S2 := div_pos q1 p2
    have w2 : 0 < x' / S1 := div_pos q2 p1
    generalize x / S2 = w at *
    generalize x' / S1 = w' at *
    have hEE1 : 1 ≤ E * E := by nlinarith
    rw [abs_le]
    refine ⟨?_, by linarith⟩
    rcases le_total w' w with h | h
    · nlinarith
    · nlinarith
  generalize hS2 : (T.map (fun t => Real.exp (-t.1))).sum = S2 at *
  have hfin : ∀ L : List (ℝ × ℝ × LassoLarsNode ℝ), (∀ t ∈ L, t ∈ T) →
      |(L.map (fun t => Real.exp (-t.2.1) * f t.2.2)).sum / S1 - (L.map (fun t => Real.exp (-t.1) * f t.2.2)).sum / S2| ≤
        B * (Real.exp (2 * δ) - 1) * ((L.map (fun t => Real.exp (-t.1))).sum / S2) := by
    intro L hL
    induction L with
    | nil => simp
    | cons t L ih =>
      have h1 := ih (fun u hu => hL u (List.mem_cons_of_mem _ hu))
      have ht := hL t List.mem_cons_self
      have h2 := hterm t ht
      have h3 : |(Real.exp (-t.2.1) / S1 - Real.exp (-t.1) / S2) * f t.2.2| ≤
          (Real.exp (2 * δ) - 1) * (Real.exp (-t.1) / S2) * B := by
        rw [abs_mul]
        exact mul_le_mul h2 (hB t ht) (abs_nonneg _) ((abs_nonneg _).trans h2)
      simp only [List.map_cons, List.sum_cons]
      have h4 := (abs_add_le _ _).trans (add_le_add h3 h1)
      refine le_trans (le_of_eq ?_) (h4.trans (le_of_eq ?_))
      · congr 1; ring
      · ring
  have := hfin T (fun t ht => ht)
  rwa [hS2, div_self p2.ne', mul_one] at this

/-- C175: if no criterion changes by more than `δ`, every averaged coefficient and every prediction changes by at most
`B·(exp(2δ) - 1)`, where `B` bounds the coefficient (the prediction) in the single models. -/
theorem C175_change (nc : Nat) (a a' : List ℝ) (nodes : List (LassoLarsNode ℝ)) (hne : nodes ≠ [])
    (hl : a.length = nodes.length) (hl' : a'.length = nodes.length) (hn : ∀ n ∈ nodes, PathNode nc n) (δ : ℝ)
    (hδ : ∀ i < a.length, |a'.getD i 0 - a.getD i 0| ≤ δ) :
    ∃ before after, weightedAveragedCoeff nc (weightsFromAIC a).1 (lassoNodesToSparse nodes) = some before ∧
      weightedAveragedCoeff nc (weightsFromAIC a').1 (lassoNodesToSparse nodes) = some after ∧
      (∀ j < nc, ∀ B, (∀ n ∈ nodes, |coeffOf n j| ≤ B) →
        |after.getD j 0 - before.getD j 0| ≤ B * (Real.exp (2 * δ) - 1)) ∧
      ∀ X : Mat ℝ, X.nc = nc → ∀ r B, (∀ n ∈ nodes, |lin X (coeffOf n) r| ≤ B) →
        |lin X (vec after) r - lin X (vec before) r| ≤ B * (Real.exp (2 * δ) - 1) := by
  let T : List (ℝ × ℝ × LassoLarsNode ℝ) := a.zip (a'.zip nodes)
  have hT1 : T.map (fun t => t.1) = a := List.map_fst_zip (by simp [hl, hl'])
  have hT23 : T.map (fun t => t.2) = a'.zip nodes := List.map_snd_zip (by simp [hl, hl'])
  have hT2 : T.map (fun t => t.2.1) = a' := by
    have : T.map (fun t => t.2.1) = (T.map (fun t => t.2)).map Prod.fst := by simp [Function.comp_def]
    rw [this, hT23]
    exact List.map_fst_zip (by simp [hl'])
  have hT3 : T.map (fun t => t.2.2) = nodes := by
    have : T.map (fun t => t.2.2) = (T.map (fun t => t.2)).map Prod.snd := by simp [Function.comp_def]
    rw [this, hT23]
    exact List.map_snd_zip (by simp [hl'])
  have hTne : T ≠ [] := by
    intro h
    rw [h] at hT3
    exact hne hT3.symm
  have hTδ : ∀ t ∈ T, |t.2.1 - t.1| ≤ δ := by
    intro t ht
    obtain ⟨i, hi, rfl⟩ := List.mem_iff_getElem.1 ht
    have hi' : i < a.length ∧ i < a'.length ∧ i < nodes.length := by
      have : T.length = min a.length (min a'.length nodes.length) := by simp [T]
      omega
    have := hδ i hi'.1
    rw [List.getD_eq_getElem?_getD, List.getD_eq_getElem?_getD, List.getElem?_eq_getElem hi'.1,
      List.getElem?_eq_getElem hi'.2.1] at this
    simpa [T] using this
  have hTn : ∀ t ∈ T, t.2.2 ∈ nodes := by
    intro t ht
    rw [← hT3]
    exact List.mem_map.2 ⟨t, ht, rfl⟩
  have m1 : ∀ t ∈ T.map (fun t => (t.1, t.2.2)), PathNode nc t.2 := by
    intro p hp
    obtain ⟨t, ht, rfl⟩ := List.mem_map.1 hp
    exact hn _ (hTn t ht)
  have m2 : ∀ t ∈ T.map (fun t => (t.2.1, t.2.2)), PathNode nc t.2 := by
    intro p hp
    obtain ⟨t, ht, rfl⟩ := List.mem_map.1 hp
    exact hn _ (hTn t ht)
  have n1 : T.map (fun t => (t.1, t.2.2)) ≠ [] := by simpa using hTne
  have n2 : T.map (fun t => (t.2.1, t.2.2)) ≠ [] := by simpa using hTne
  obtain ⟨before, b1, b2, b3⟩ := average_spec n1 m1
  obtain ⟨after, c1, c2, c3⟩ := average_spec n2 m2
  have key : ∀ (f : LassoLarsNode ℝ → ℝ) (B : ℝ), (∀ n ∈ nodes, |f n| ≤ B) →
      |weightedSum (weightsFromAIC ((T.map (fun t => (t.2.1, t.2.2))).map Prod.fst)).1
          ((T.map (fun t => (t.2.1, t.2.2))).map Prod.snd) f -
        weightedSum (weightsFromAIC ((T.map (fun t => (t.1, t.2.2))).map Prod.fst)).1
          ((T.map (fun t => (t.1, t.2.2))).map Prod.snd) f| ≤ B * (Real.exp (2 * δ) - 1) := by
    intro f B hB
    rw [weightedSum_expMass n1, weightedSum_expMass n2]
    exact mass_change hTδ hTne (fun t ht => hB _ (hTn t ht))
  refine ⟨before, after, ?_, ?_, fun j hj B hB => ?_, fun X hX r B hB => ?_⟩
  · have := b1
    unfold IsAverage at this
    simpa only [List.map_map, Function.comp_def, hT1, hT3] using this
  · have := c1
    unfold IsAverage at this
    simpa only [List.map_map, Function.comp_def, hT2, hT3] using this
  · rw [b2 j hj, c2 j hj]
    exact key (fun n => coeffOf n j) B hB
  · rw [b3 X hX r, c3 X hX r]
    exact key (fun n => lin X (coeffOf n) r) B hB

/-- Hypotheses of C175: two kept models with criteria 1 and 2, one left out with criterion 21. -/
example : (∀ p ∈ [((1 : ℝ), (⟨[5], 2, [2]⟩ : LassoLarsNode ℝ)), (2, ⟨[1, 3], 1, [0, 2]⟩)] ++ [(21, ⟨[7], 3, [1]⟩)],
      PathNode 3 p.2) ∧
    ((1 : ℝ), (⟨[5], 2, [2]⟩ : LassoLarsNode ℝ)) ∈ [((1 : ℝ), (⟨[5], 2, [2]⟩ : LassoLarsNode ℝ)), (2, ⟨[1, 3], 1, [0, 2]⟩)] ∧
    ∀ q ∈ [((21 : ℝ), (⟨[7], 3, [1]⟩ : LassoLarsNode ℝ))], (1 : ℝ) + 20 ≤ q.1 := by
  refine ⟨?_, by simp, ?_⟩
  · simp only [List.cons_append, List.nil_append, List.mem_cons, List.not_mem_nil, or_false, forall_eq_or_imp, forall_eq]
    exact ⟨⟨by simp, by simp, by simp⟩, ⟨by simp, by simp, by simp⟩, by simp, by simp, by simp⟩
  · simp only [List.mem_cons, List.not_mem_nil, or_false, forall_eq]
    norm_num

/-- Hypotheses of C175: criteria that change by at most 1/10. -/
example : ∀ i < [(1 : ℝ), 2].length, |[(11 : ℝ) / 10, 2].getD i 0 - [(1 : ℝ), 2].getD i 0| ≤ 1 / 10 := by
  intro i hi
  have : i = 0 ∨ i = 1 := by simp at hi; omega
  rcases this with rfl | rfl
  · norm_num [abs_le]
  · norm_num

end GoSelect
