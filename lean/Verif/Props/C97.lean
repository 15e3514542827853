import Verif.Model.PathAverage
import Verif.Props.C37_C38
import Verif.Props.C67_C68
import Verif.Props.C71

/-! # C97: averaging the models of a path -/

namespace GoSelect

open Finset Spec

/-- Sum over the nodes, weighted. -/
noncomputable def Spec.weightedSum (w : List ℝ) (nodes : List (LassoLarsNode ℝ)) (f : LassoLarsNode ℝ → ℝ) : ℝ :=
  ((w.zip nodes).map (fun p => p.1 * f p.2)).sum

/-- A node over `nc` features. -/
structure Spec.PathNode (nc : Nat) (n : LassoLarsNode ℝ) : Prop where
  nodup : n.selection.Nodup
  range : ∀ f ∈ n.selection, f < nc
  coeff : n.coeff.length = n.selection.length

theorem weightedSum_cons (w : ℝ) (ws : List ℝ) (n : LassoLarsNode ℝ) (nodes : List (LassoLarsNode ℝ))
    (f : LassoLarsNode ℝ → ℝ) : weightedSum (w :: ws) (n :: nodes) f = w * f n + weightedSum ws nodes f := by
  unfold weightedSum
  rw [List.zip_cons_cons, List.map_cons, List.sum_cons]

theorem weightedSum_sum (w : List ℝ) (nodes : List (LassoLarsNode ℝ)) {ι : Type} (s : Finset ι)
    (f : ι → LassoLarsNode ℝ → ℝ) :
    weightedSum w nodes (fun n => ∑ i ∈ s, f i n) = ∑ i ∈ s, weightedSum w nodes (f i) := by
  induction w generalizing nodes with
  | nil => simp [weightedSum]
  | cons w ws ih =>
    cases nodes with
    | nil => simp [weightedSum]
    | cons n nodes =>
      simp only [weightedSum_cons]
      rw [ih, mul_sum, ← sum_add_distrib]

theorem weightedSum_mul (w : List ℝ) (nodes : List (LassoLarsNode ℝ)) (c : ℝ) (f : LassoLarsNode ℝ → ℝ) :
    weightedSum w nodes (fun n => c * f n) = c * weightedSum w nodes f := by
  induction w generalizing nodes with
  | nil => simp [weightedSum]
  | cons w ws ih =>
    cases nodes with
    | nil => simp [weightedSum]
    | cons n nodes =>
      simp only [weightedSum_cons]
      rw [ih]
      ring

theorem weightedSum_nonneg {w : List ℝ} (hw : ∀ v ∈ w, 0 ≤ v) {nodes : List (LassoLarsNode ℝ)}
    {f : LassoLarsNode ℝ → ℝ} (hf : ∀ n, 0 ≤ f n) : 0 ≤ weightedSum w nodes f := by
  unfold weightedSum
  refine List.sum_nonneg (fun v hv => ?_)
  obtain ⟨p, hp, rfl⟩ := List.mem_map.1 hv
  exact mul_nonneg (hw _ (List.of_mem_zip hp).1) (hf _)

theorem weightedSum_one {w : List ℝ} {nodes : List (LassoLarsNode ℝ)} (h : w.length = nodes.length) :
    weightedSum w nodes (fun _ => 1) = w.sum := by
  induction w generalizing nodes with
  | nil => simp [weightedSum]
  | cons w ws ih =>
    cases nodes with
    | nil => simp at h
    | cons n nodes =>
      rw [weightedSum_cons, ih (by simpa using h), List.sum_cons, mul_one]

/-- The second moment about `t` from that about `m`. -/
theorem weightedSum_shift (w : List ℝ) (nodes : List (LassoLarsNode ℝ)) (f : LassoLarsNode ℝ → ℝ) (m t : ℝ) :
    weightedSum w nodes (fun n => (f n - t) ^ 2) = weightedSum w nodes (fun n => (f n - m) ^ 2) +
      2 * (m - t) * (weightedSum w nodes f - weightedSum w nodes (fun _ => 1) * m) +
      weightedSum w nodes (fun _ => 1) * (m - t) ^ 2 := by
  induction w generalizing nodes with
  | nil => simp [weightedSum]
  | cons w ws ih =>
    cases nodes with
    | nil => simp [weightedSum]
    | cons n nodes =>
      simp only [weightedSum_cons]
      rw [ih]
      ring

theorem jensen_sq {w : List ℝ} {nodes : List (LassoLarsNode ℝ)} (h : w.length = nodes.length) (hw : ∀ v ∈ w, 0 ≤ v)
    (hs : w.sum = 1) (f : LassoLarsNode ℝ → ℝ) (t : ℝ) :
    (weightedSum w nodes f - t) ^ 2 ≤ weightedSum w nodes (fun n => (f n - t) ^ 2) := by
  have h1 := weightedSum_shift w nodes f (weightedSum w nodes f) t
  rw [weightedSum_one h, hs] at h1
  have h2 := weightedSum_nonneg hw (nodes := nodes) (f := fun n => (f n - weightedSum w nodes f) ^ 2)
    (fun n => sq_nonneg _)
  rw [h1]
  linarith

/-- C97: the average of the nodes of a path has as coefficient of every feature the weighted sum of the coefficients of
the feature in the nodes, where a feature that is not selected counts 0. -/
theorem C97_coefficients (nc : Nat) (w : List ℝ) (nodes : List (LassoLarsNode ℝ)) (hlen : w.length = nodes.length)
    (hn : ∀ n ∈ nodes, PathNode nc n) :
    ∃ avg, weightedAveragedCoeff nc w (lassoNodesToSparse nodes) = some avg ∧ avg.length = nc ∧
      ∀ j < nc, avg.getD j 0 = weightedSum w nodes (fun n => coeffOf n j) := by
  have hg : ∀ c ∈ lassoNodesToSparse nodes, GoodSparse nc c := by
    intro c hc
    obtain ⟨n, hm, rfl⟩ := List.mem_map.1 hc
    have h := hn n hm
    refine ⟨h.nodup.map (fun a b hab => Int.ofNat.inj hab), ?_, by simp [h.coeff]⟩
    intro v hv
    obtain ⟨f, hf, rfl⟩ := List.mem_map.1 hv
    have := h.range f hf
    exact ⟨Int.natCast_nonneg f, Int.ofNat_lt.2 this⟩
  obtain ⟨avg, fulls, h1, h2, h3, h4⟩ := C71_average nc w (lassoNodesToSparse nodes)
    (by simp [lassoNodesToSparse, hlen]) hg
  refine ⟨avg, h1, h3, fun j hj => ?_⟩
  rw [h4 j hj]
  clear h1 h3 h4 hg
  unfold lassoNodesToSparse at h2
  unfold weightedSum
  induction nodes generalizing w fulls with
  | nil =>
    rw [List.eq_nil_of_length_eq_zero hlen]
    simp
  | cons n nodes ih =>
    cases w with
    | nil => simp at hlen
    | cons v w =>
      rw [List.map_cons, List.mapM_cons] at h2
      obtain ⟨full, e1, h2⟩ := Option.bind_eq_some_iff.1 h2
      obtain ⟨rest, e2, h2⟩ := Option.bind_eq_some_iff.1 h2
      cases h2
      have hnn := hn n (List.mem_cons_self ..)
      obtain ⟨full', g1, g2, g3⟩ := fullCoeffVector_some (coeff := n.coeff) hnn.nodup hnn.range hnn.coeff.ge
      rw [g1, Option.some.injEq] at e1
      subst e1
      rw [List.zip_cons_cons, List.zip_cons_cons, List.map_cons, List.map_cons, List.sum_cons, List.sum_cons,
        ih w (by simpa using hlen) (fun m hm => hn m (List.mem_cons_of_mem _ hm)) rest e2]
      congr 2
      exact g3 j hj

/-- C97: the predictions of the average are the weighted sums of the predictions. -/
theorem C97_predictions (X : Mat ℝ) (w : List ℝ) (nodes : List (LassoLarsNode ℝ)) (hlen : w.length = nodes.length)
    (hn : ∀ n ∈ nodes, PathNode X.nc n) (avg : List ℝ)
    (h : weightedAveragedCoeff X.nc w (lassoNodesToSparse nodes) = some avg) (r : Nat) :
    lin X (vec avg) r = weightedSum w nodes (fun n => lin X (coeffOf n) r) := by
  obtain ⟨avg', h1, h2, h3⟩ := C97_coefficients X.nc w nodes hlen hn
  rw [h, Option.some.injEq] at h1
  subst h1
  unfold lin
  rw [weightedSum_sum]
  refine sum_congr rfl (fun j hj => ?_)
  rw [weightedSum_mul]
  congr 1
  exact h3 j (mem_range.1 hj)

/-- C97: averaging with AIC weights never gives a larger sum of squared errors than the weighted mean of those of the
nodes; in particular not more than the worst node. -/
theorem C97_errors (X : Mat ℝ) (y : List ℝ) (aic : List ℝ) (nodes : List (LassoLarsNode ℝ)) (hne : nodes ≠ [])
    (hlen : aic.length = nodes.length) (hn : ∀ n ∈ nodes, PathNode X.nc n) :
    ∃ avg, weightedAveragedCoeff X.nc (weightsFromAIC aic).1 (lassoNodesToSparse nodes) = some avg ∧
      sse X (vec avg) (vec y) ≤ weightedSum (weightsFromAIC aic).1 nodes (fun n => sse X (coeffOf n) (vec y)) ∧
      ∀ worst, (∀ n ∈ nodes, sse X (coeffOf n) (vec y) ≤ worst) → sse X (vec avg) (vec y) ≤ worst := by
  have ha : aic ≠ [] := by
    rintro rfl
    exact hne (List.eq_nil_of_length_eq_zero hlen.symm)
  obtain ⟨w1, w2, w3⟩ := C37_distribution aic ha
  set w := (weightsFromAIC aic).1
  have hl : w.length = nodes.length := by rw [w1, hlen]
  obtain ⟨avg, h1, -, -⟩ := C97_coefficients X.nc w nodes hl hn
  have key : sse X (vec avg) (vec y) ≤ weightedSum w nodes (fun n => sse X (coeffOf n) (vec y)) := by
    unfold sse
    rw [weightedSum_sum]
    refine sum_le_sum (fun r _ => ?_)
    rw [C97_predictions X w nodes hl hn avg h1 r]
    exact jensen_sq hl (fun v hv => (w2 v hv).le) w3 _ _
  refine ⟨avg, h1, key, fun worst hw => key.trans ?_⟩
  have h2 : weightedSum w nodes (fun n => sse X (coeffOf n) (vec y)) ≤ weightedSum w nodes (fun _ => 1) * worst := by
    clear key h1 w3 w1 hlen ha hne
    clear_value w
    induction w generalizing nodes with
    | nil => simp [weightedSum]
    | cons v w ih =>
      cases nodes with
      | nil => simp [weightedSum]
      | cons n nodes =>
        rw [weightedSum_cons, weightedSum_cons, add_mul, mul_one]
        refine add_le_add (mul_le_mul_of_nonneg_left (hw n (List.mem_cons_self ..)) ((w2 v (List.mem_cons_self ..)).le))
          (ih nodes (fun m hm => hn m (List.mem_cons_of_mem _ hm)) (fun u hu => w2 u (List.mem_cons_of_mem _ hu))
            (by simpa using hl) (fun m hm => hw m (List.mem_cons_of_mem _ hm)))
  rw [weightedSum_one hl, w3, one_mul] at h2
  exact h2

/-- Akaike weights: proportional to `exp (-aic / 2)`. -/
noncomputable def Spec.akaike (aic : List ℝ) (i : Nat) : ℝ :=
  Real.exp (-(aic.getD i 0) / 2) / (aic.map (fun v => Real.exp (-v / 2))).sum

/-- C97: the weights are not those of Akaike but proportional to their squares. -/
theorem C97_squared_akaike (aic : List ℝ) (i j : Nat) (hi : i < aic.length) (hj : j < aic.length) :
    ∃ wi wj, (weightsFromAIC aic).1[i]? = some wi ∧ (weightsFromAIC aic).1[j]? = some wj ∧ 0 < wj ∧
      wi / wj = (akaike aic i / akaike aic j) ^ 2 := by
  obtain ⟨wi, wj, h1, h2, h3, -⟩ := C37_monotone aic i j hi hj
  have hne : aic ≠ [] := by rintro rfl; simp at hi
  refine ⟨wi, wj, h1, h2, (C37_distribution aic hne).2.1 wj (List.mem_of_getElem? h2), ?_⟩
  have hs : (0 : ℝ) < (aic.map (fun v => Real.exp (-v / 2))).sum := by
    refine List.sum_pos _ (fun v hv => ?_) (by simpa using hne)
    obtain ⟨u, -, rfl⟩ := List.mem_map.1 hv
    exact Real.exp_pos _
  rw [h3]
  unfold akaike
  rw [div_div_div_cancel_right₀ hs.ne', ← Real.exp_sub, ← Real.exp_nat_mul]
  congr 1
  rw [List.getD_eq_getElem?_getD, List.getD_eq_getElem?_getD, List.getElem?_eq_getElem hi, List.getElem?_eq_getElem hj]
  simp only [Option.getD_some]
  push_cast
  ring

/-- C97: `NewLassoLarsNode` keeps what it is given, and panics exactly for different lengths. -/
theorem C97_node {K : Type} (coeff : List K) (lamb : K) (selection : List Nat) :
    (newLassoLarsNode coeff lamb selection = none ↔ coeff.length ≠ selection.length) ∧
    ∀ n, newLassoLarsNode coeff lamb selection = some n → n.coeff = coeff ∧ n.lamb = lamb ∧ n.selection = selection := by
  unfold newLassoLarsNode
  split
  · rename_i h
    simp [h]
  · rename_i h
    refine ⟨iff_of_false (by simp) h, fun n hn => ?_⟩
    cases hn
    exact ⟨rfl, rfl, rfl⟩

/-- Hypotheses of C97: two nodes over three features with equal criteria. -/
example : (∀ n ∈ [(⟨[5], 2, [2]⟩ : LassoLarsNode ℝ), ⟨[1, 3], 1, [0, 2]⟩], PathNode 3 n) ∧
    weightedAveragedCoeff 3 [1 / 2, 1 / 2] (lassoNodesToSparse [(⟨[5], 2, [2]⟩ : LassoLarsNode ℝ), ⟨[1, 3], 1, [0, 2]⟩]) =
      some [1 / 2, 0, 4] := by
  refine ⟨?_, ?_⟩
  · simp only [List.mem_cons, List.not_mem_nil, or_false, forall_eq_or_imp, forall_eq]
    exact ⟨⟨by simp, by simp, by simp⟩, by simp, by simp, by simp⟩
  · simp [weightedAveragedCoeff, lassoNodesToSparse, addSparse, List.replicate]
    norm_num

end GoSelect
