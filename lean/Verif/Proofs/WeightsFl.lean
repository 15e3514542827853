import Verif.Model.WeightsFl
import Verif.Proofs.Log2Float
import Mathlib.Analysis.SpecialFunctions.Exp
import Mathlib.Algebra.Order.BigOperators.Group.List

/-!
The weights of `WeightsFromAIC` in floating point.
-/

namespace GoSelect

open Spec Real

/-- Every value is a number of at most `math.MaxFloat64` or plus infinity, and one of them is a number. -/
structure Spec.Usable (a : List (Fl ℝ)) : Prop where
  vals : ∀ v ∈ a, v = .posInf ∨ ∃ x, v = .fin x ∧ x ≤ maxFloat64
  number : ∃ x, Fl.fin x ∈ a

/-- Rounding is monotone and idempotent and exact on integers up to `2 ^ 53`; the exponential function is monotone, not
negative, 1 at 0, and its values are rounded. -/
structure Spec.ExpMonotone (rnd expf : ℝ → ℝ) : Prop where
  mono : Monotone rnd
  idem : ∀ x, rnd (rnd x) = rnd x
  exact : ∀ n : Nat, n ≤ 2 ^ 53 → rnd n = n
  exp_mono : Monotone expf
  exp_zero : expf 0 = 1
  exp_nonneg : ∀ x, 0 ≤ expf x
  exp_rnd : ∀ x, rnd (expf x) = expf x

/-- Rounding has relative error `u` plus `t` for underflow; the exponential function of numbers that are not positive has
error `e`. -/
structure Spec.ExpAccurate (rnd expf : ℝ → ℝ) (u e t : ℝ) : Prop where
  rel : ∀ x, |rnd x - x| ≤ u * |x| + t
  exp : ∀ x, x ≤ 0 → |expf x - Real.exp x| ≤ e

theorem Spec.ExpMonotone.rnd_zero {rnd expf : ℝ → ℝ} (h : ExpMonotone rnd expf) : rnd 0 = 0 := by
  simpa using h.exact 0 (by positivity)

theorem Spec.ExpMonotone.rnd_nonneg {rnd expf : ℝ → ℝ} (h : ExpMonotone rnd expf) {x : ℝ} (hx : 0 ≤ x) : 0 ≤ rnd x := by
  rw [← h.rnd_zero]; exact h.mono hx

theorem Spec.ExpMonotone.rnd_le_one {rnd expf : ℝ → ℝ} (h : ExpMonotone rnd expf) {x : ℝ} (hx : x ≤ 1) : rnd x ≤ 1 := by
  have h1 : rnd 1 = 1 := by simpa using h.exact 1 (by norm_num)
  rw [← h1]; exact h.mono hx

theorem Spec.ExpMonotone.exp_le_one {rnd expf : ℝ → ℝ} (h : ExpMonotone rnd expf) {x : ℝ} (hx : x ≤ 0) : expf x ≤ 1 := by
  rw [← h.exp_zero]; exact h.exp_mono hx

/-! ### The smallest value -/

theorem fl_lt_fin {x y : ℝ} : (Fl.fin x < Fl.fin y) ↔ x < y := by
  show decide (x < y) = true ↔ _
  exact decide_eq_true_iff

theorem not_posInf_lt (c : Fl ℝ) : ¬ Fl.posInf < c := by
  cases c <;> simp [LT.lt, Fl.ltB]

theorem minFl_fold (a : List (Fl ℝ)) (ha : ∀ v ∈ a, v = .posInf ∨ ∃ x, v = Fl.fin x) (c : ℝ) :
    ∃ m, a.foldl (fun min v => if v < min then v else min) (.fin c) = .fin m ∧ m ≤ c ∧ (∀ x, Fl.fin x ∈ a → m ≤ x) ∧
      (m = c ∨ Fl.fin m ∈ a) := by
  induction a generalizing c with
  | nil => exact ⟨c, rfl, le_rfl, by simp, Or.inl rfl⟩
  | cons v a ih =>
    have ha' : ∀ v ∈ a, v = .posInf ∨ ∃ x, v = Fl.fin x := fun w hw => ha w (by simp [hw])
    rw [List.foldl_cons]
    rcases ha v (by simp) with rfl | ⟨y, rfl⟩
    · rw [if_neg (not_posInf_lt _)]
      obtain ⟨m, h1, h2, h3, h4⟩ := ih ha' c
      refine ⟨m, h1, h2, fun x hx => ?_, h4.imp_right (fun h => by simp [h])⟩
      simp only [List.mem_cons] at hx
      rcases hx with hx | hx
      · cases hx
      · exact h3 x hx
    · by_cases hy : y < c
      · rw [if_pos (fl_lt_fin.2 hy)]
        obtain ⟨m, h1, h2, h3, h4⟩ := ih ha' y
        refine ⟨m, h1, by linarith, fun x hx => ?_, Or.inr ?_⟩
        · simp only [List.mem_cons, Fl.fin.injEq] at hx
          rcases hx with rfl | hx
          · exact h2
          · exact h3 x hx
        · rcases h4 with rfl | h4
          · simp
          · simp [h4]
      · rw [if_neg (fun h => hy (fl_lt_fin.1 h))]
        obtain ⟨m, h1, h2, h3, h4⟩ := ih ha' c
        refine ⟨m, h1, h2, fun x hx => ?_, h4.imp_right (fun h => by simp [h])⟩
        simp only [List.mem_cons, Fl.fin.injEq] at hx
        rcases hx with rfl | hx
        · push Not at hy; linarith
        · exact h3 x hx

theorem minFl_usable {a : List (Fl ℝ)} (ha : Usable a) :
    ∃ m, minFloatFl a = .fin m ∧ Fl.fin m ∈ a ∧ ∀ x, Fl.fin x ∈ a → m ≤ x := by
  obtain ⟨m, h1, h2, h3, h4⟩ := minFl_fold a (fun v hv => (ha.vals v hv).imp_right (fun ⟨x, hx, _⟩ => ⟨x, hx⟩)) maxFloat64
  refine ⟨m, h1, ?_, h3⟩
  rcases h4 with rfl | h4
  · obtain ⟨x, hx⟩ := ha.number
    rcases ha.vals _ hx with h | ⟨y, h, hy⟩
    · cases h
    · cases h
      have := h3 x hx
      rwa [le_antisymm hy this] at hx
  · exact h4

/-! ### The sum -/

/-- The sum of numbers. -/
def sumRnd (rnd : ℝ → ℝ) (s : ℝ) (zs : List ℝ) : ℝ := zs.foldl (fun s z => rnd (s + z)) s

theorem sumRnd_ge {rnd expf : ℝ → ℝ} (h : ExpMonotone rnd expf) (zs : List ℝ) (hz : ∀ z ∈ zs, 0 ≤ z) (s : ℝ)
    (hs : rnd s = s) : s ≤ sumRnd rnd s zs := by
  induction zs generalizing s with
  | nil => exact le_rfl
  | cons z zs ih =>
    have h1 : s ≤ rnd (s + z) := by
      calc s = rnd s := hs.symm
        _ ≤ _ := h.mono (by linarith [hz z (by simp)])
    exact h1.trans (ih (fun w hw => hz w (by simp [hw])) _ (h.idem _))

theorem sumRnd_mem {rnd expf : ℝ → ℝ} (h : ExpMonotone rnd expf) (zs : List ℝ) (hz : ∀ z ∈ zs, 0 ≤ z) (s : ℝ)
    (hs0 : 0 ≤ s) {z : ℝ} (hzm : z ∈ zs) (hzr : rnd z = z) : z ≤ sumRnd rnd s zs := by
  induction zs generalizing s with
  | nil => cases hzm
  | cons y zs ih =>
    have hz' : ∀ w ∈ zs, 0 ≤ w := fun w hw => hz w (by simp [hw])
    rcases List.mem_cons.1 hzm with rfl | hm
    · have h1 : z ≤ rnd (s + z) := by
        calc z = rnd z := hzr.symm
          _ ≤ _ := h.mono (by linarith)
      exact h1.trans (sumRnd_ge h zs hz' _ (h.idem _))
    · exact ih hz' _ (h.rnd_nonneg (by linarith [hz y (by simp)])) hm

theorem sumRnd_le {rnd expf : ℝ → ℝ} (h : ExpMonotone rnd expf) (zs : List ℝ) (hz1 : ∀ z ∈ zs, z ≤ 1) (s : ℝ) (k : Nat)
    (hs : s ≤ k) (hk : k + zs.length ≤ 2 ^ 53) : sumRnd rnd s zs ≤ (k + zs.length : Nat) := by
  induction zs generalizing s k with
  | nil => simpa [sumRnd] using hs
  | cons z zs ih =>
    simp only [List.length_cons] at hk ⊢
    have h1 : rnd (s + z) ≤ (k + 1 : Nat) := by
      rw [← h.exact (k + 1) (by omega)]
      refine h.mono ?_
      push_cast
      linarith [hz1 z (by simp)]
    have := ih (fun w hw => hz1 w (by simp [hw])) (rnd (s + z)) (k + 1) h1 (by omega)
    rw [show k + (zs.length + 1) = k + 1 + zs.length by omega]
    exact this

/-- The sum as computed. -/
theorem sum_fl {rnd expf : ℝ → ℝ} (h : ExpMonotone rnd expf) (zs : List ℝ) (hz : ∀ z ∈ zs, 0 ≤ z) (hz1 : ∀ z ∈ zs, z ≤ 1)
    (s : ℝ) (k : Nat) (hs0 : 0 ≤ s) (hs : s ≤ k) (hk : k + zs.length ≤ 2 ^ 53) :
    zs.foldl (fun s z => roundFl rnd (Fl.add s (.fin z))) (.fin s) = .fin (sumRnd rnd s zs) := by
  induction zs generalizing s k with
  | nil => rfl
  | cons z zs ih =>
    simp only [List.length_cons] at hk
    have h0 : 0 ≤ rnd (s + z) := h.rnd_nonneg (by linarith [hz z (by simp)])
    have h1 : rnd (s + z) ≤ (k + 1 : Nat) := by
      rw [← h.exact (k + 1) (by omega)]
      refine h.mono ?_
      push_cast
      linarith [hz1 z (by simp)]
    have h2 : roundFl rnd (Fl.add (.fin s) (.fin z)) = .fin (rnd (s + z)) := by
      refine ovf_fin ?_
      rw [abs_of_nonneg h0]
      refine lt_of_le_of_lt h1 ?_
      have h3 : ((k + 1 : Nat) : ℝ) ≤ 2 ^ 53 := by exact_mod_cast (by omega : k + 1 ≤ 2 ^ 53)
      exact lt_of_le_of_lt h3 (pow_lt_pow_right₀ (by norm_num) (by norm_num))
    rw [List.foldl_cons, h2]
    exact ih (fun w hw => hz w (by simp [hw])) (fun w hw => hz1 w (by simp [hw])) _ (k + 1) h0 h1 (by omega)

theorem sum_err {rnd expf : ℝ → ℝ} (h : ExpMonotone rnd expf) {u t W : ℝ} (hrel : ∀ x, |rnd x - x| ≤ u * |x| + t)
    (hu : 0 ≤ u) (ht : 0 ≤ t) (hu8 : u ≤ 1 / 8) (ht8 : t ≤ 1 / 8) (hW : 1 ≤ W) (zs : List ℝ) (hz : ∀ z ∈ zs, 0 ≤ z)
    (s : ℝ) (hs : 0 ≤ s) (hle : sumRnd rnd s zs ≤ W) :
    |sumRnd rnd s zs - (s + zs.sum)| ≤ zs.length * (13 / 10 * (u + t) * W) := by
  induction zs generalizing s with
  | nil => simp [sumRnd]
  | cons z zs ih =>
    have hz0 := hz z (by simp)
    have hz' : ∀ w ∈ zs, 0 ≤ w := fun w hw => hz w (by simp [hw])
    have hle' : sumRnd rnd (rnd (s + z)) zs ≤ W := hle
    have h1 := ih hz' (rnd (s + z)) (h.rnd_nonneg (by linarith)) hle'
    have h2 : rnd (s + z) ≤ W := (sumRnd_ge h zs hz' _ (h.idem _)).trans hle'
    have h3 := hrel (s + z)
    rw [abs_of_nonneg (show 0 ≤ s + z by linarith)] at h3
    have h3' := abs_le.1 h3
    have h4 : u * (s + z) ≤ 1 / 8 * (s + z) := mul_le_mul_of_nonneg_right hu8 (by linarith)
    have h5 : s + z ≤ 9 / 7 * W := by linarith
    have h6 : u * (s + z) ≤ u * (9 / 7 * W) := mul_le_mul_of_nonneg_left h5 hu
    have h7 : t * 1 ≤ t * W := mul_le_mul_of_nonneg_left hW ht
    have h8 : 0 ≤ u * W := by positivity
    have h9 : |rnd (s + z) - (s + z)| ≤ 13 / 10 * (u + t) * W := by
      refine h3.trans ?_
      nlinarith
    have h9' := abs_le.1 h9
    have h1' := abs_le.1 h1
    have e1 : sumRnd rnd s (z :: zs) = sumRnd rnd (rnd (s + z)) zs := rfl
    rw [e1]
    simp only [List.length_cons, List.sum_cons, Nat.cast_add, Nat.cast_one]
    rw [abs_le]
    constructor <;> linarith

/-! ### The weights -/

open Classical in
/-- The numerator of the weight of a value, when `m` is the smallest one. -/
noncomputable def numer (rnd expf : ℝ → ℝ) (m : ℝ) : Fl ℝ → ℝ
  | .fin x => if rnd (x - m) < 2 ^ 1024 then expf (-rnd (x - m)) else 0
  | _ => 0

theorem numer_nonneg {rnd expf : ℝ → ℝ} (h : ExpMonotone rnd expf) (m : ℝ) (v : Fl ℝ) : 0 ≤ numer rnd expf m v := by
  unfold numer
  split
  · split
    · exact h.exp_nonneg _
    · exact le_rfl
  · exact le_rfl

theorem numer_rnd {rnd expf : ℝ → ℝ} (h : ExpMonotone rnd expf) (m : ℝ) (v : Fl ℝ) :
    rnd (numer rnd expf m v) = numer rnd expf m v := by
  unfold numer
  split
  · split
    · exact h.exp_rnd _
    · exact h.rnd_zero
  · exact h.rnd_zero

theorem numer_le_one {rnd expf : ℝ → ℝ} (h : ExpMonotone rnd expf) {m : ℝ} {v : Fl ℝ}
    (hm : ∀ x, v = .fin x → m ≤ x) : numer rnd expf m v ≤ 1 := by
  unfold numer
  split
  · rename_i x
    split
    · exact h.exp_le_one (by linarith [h.rnd_nonneg (sub_nonneg.2 (hm x rfl))])
    · norm_num
  · norm_num

theorem numer_min {rnd expf : ℝ → ℝ} (h : ExpMonotone rnd expf) (m : ℝ) : numer rnd expf m (.fin m) = 1 := by
  unfold numer
  simp only
  rw [sub_self, h.rnd_zero, if_pos (by positivity), neg_zero, h.exp_zero]

theorem numer_anti {rnd expf : ℝ → ℝ} (h : ExpMonotone rnd expf) (m : ℝ) {x y : ℝ} (hxy : x ≤ y) :
    numer rnd expf m (.fin y) ≤ numer rnd expf m (.fin x) := by
  have h1 : rnd (x - m) ≤ rnd (y - m) := h.mono (by linarith)
  unfold numer
  simp only
  split
  · rename_i hy
    rw [if_pos (lt_of_le_of_lt h1 hy)]
    exact h.exp_mono (by linarith)
  · split
    · exact h.exp_nonneg _
    · exact le_rfl

theorem numer_exp {rnd expf : ℝ → ℝ} (h : ExpMonotone rnd expf) {m : ℝ} {v : Fl ℝ}
    (hv : v = .posInf ∨ ∃ x, v = Fl.fin x ∧ m ≤ x) :
    expFl expf (Fl.neg (roundFl rnd (Fl.sub v (.fin m)))) = .fin (numer rnd expf m v) := by
  rcases hv with rfl | ⟨x, rfl, hx⟩
  · rfl
  · have h0 : 0 ≤ rnd (x - m) := h.rnd_nonneg (by linarith)
    have e : roundFl rnd (Fl.sub (.fin x) (.fin m)) = Log2Lib.ovf (rnd (x - m)) := by
      simp only [Fl.sub, Fl.neg, Fl.add, roundFl, sub_eq_add_neg]
    rw [e]
    unfold numer
    simp only
    by_cases hb : rnd (x - m) < 2 ^ 1024
    · rw [if_pos hb, ovf_fin (by rwa [abs_of_nonneg h0])]
      simp only [Fl.neg, expFl]
      refine ovf_fin ?_
      rw [abs_of_nonneg (h.exp_nonneg _)]
      refine lt_of_le_of_lt (h.exp_le_one (by linarith)) ?_
      exact one_lt_pow₀ (by norm_num) (by norm_num)
    · rw [if_neg hb]
      unfold Log2Lib.ovf
      rw [if_pos (not_lt.1 hb)]
      rfl

/-- What `WeightsFromAIC` returns. -/
theorem weights_fl {rnd expf : ℝ → ℝ} (h : ExpMonotone rnd expf) {a : List (Fl ℝ)} (ha : Usable a) (hn : a.length ≤ 2 ^ 53) :
    ∃ m, Fl.fin m ∈ a ∧ (∀ x, Fl.fin x ∈ a → m ≤ x) ∧
      1 ≤ sumRnd rnd 0 (a.map (numer rnd expf m)) ∧ sumRnd rnd 0 (a.map (numer rnd expf m)) ≤ a.length ∧
      (∀ v ∈ a, numer rnd expf m v ≤ sumRnd rnd 0 (a.map (numer rnd expf m))) ∧
      (weightsFromAICFl rnd expf a).1 =
        a.map (fun v => .fin (rnd (numer rnd expf m v / sumRnd rnd 0 (a.map (numer rnd expf m))))) := by
  obtain ⟨m, h1, h2, h3⟩ := minFl_usable ha
  have hv : ∀ v ∈ a, v = .posInf ∨ ∃ x, v = Fl.fin x ∧ m ≤ x := by
    intro v hv
    rcases ha.vals v hv with h | ⟨x, rfl, -⟩
    · exact Or.inl h
    · exact Or.inr ⟨x, rfl, h3 x hv⟩
  have hz : ∀ z ∈ a.map (numer rnd expf m), 0 ≤ z := by
    intro z hz
    obtain ⟨v, -, rfl⟩ := List.mem_map.1 hz
    exact numer_nonneg h m v
  have hz1 : ∀ z ∈ a.map (numer rnd expf m), z ≤ 1 := by
    intro z hz
    obtain ⟨v, hv', rfl⟩ := List.mem_map.1 hz
    exact numer_le_one h fun x hx => h3 x (hx ▸ hv')
  have hmem : ∀ v ∈ a, numer rnd expf m v ≤ sumRnd rnd 0 (a.map (numer rnd expf m)) := fun v hv' =>
    sumRnd_mem h _ hz 0 le_rfl (List.mem_map_of_mem hv') (numer_rnd h m v)
  have hW1 : 1 ≤ sumRnd rnd 0 (a.map (numer rnd expf m)) := by
    have := hmem _ h2
    rwa [numer_min h] at this
  have hWn : sumRnd rnd 0 (a.map (numer rnd expf m)) ≤ a.length := by
    have := sumRnd_le h (a.map (numer rnd expf m)) hz1 0 0 (by simp) (by simpa using hn)
    simpa using this
  refine ⟨m, h2, h3, hW1, hWn, hmem, ?_⟩
  have hsum := sum_fl h (a.map (numer rnd expf m)) hz hz1 0 0 le_rfl (by simp) (by simpa using hn)
  have hfold : (a.map (fun v => roundFl rnd (Fl.sub v (.fin m)))).foldl
      (fun s v => roundFl rnd (Fl.add s (expFl expf (Fl.neg v)))) (.fin 0) =
      .fin (sumRnd rnd 0 (a.map (numer rnd expf m))) := by
    rw [← hsum, List.foldl_map, List.foldl_map]
    exact List.foldl_ext _ _ _ fun s v hv' => by rw [numer_exp h (hv v hv')]
  unfold weightsFromAICFl
  simp only [h1, hfold, List.map_map]
  refine List.map_congr_left fun v hv' => ?_
  simp only [Function.comp]
  rw [numer_exp h (hv v hv')]
  have hz0 := numer_nonneg h m v
  have hle := hmem v hv'
  generalize numer rnd expf m v = z at *
  generalize sumRnd rnd 0 (a.map (numer rnd expf m)) = W at *
  have hd : z / W ≤ 1 := by rw [div_le_one (by linarith)]; exact hle
  simp only [Fl.div, Fl.divFin]
  rw [if_neg (by linarith)]
  refine ovf_fin ?_
  rw [abs_of_nonneg (h.rnd_nonneg (by positivity))]
  exact lt_of_le_of_lt (h.rnd_le_one hd) (one_lt_pow₀ (by norm_num) (by norm_num))

/-! ### Accuracy -/

theorem exp_neg_diff {a b : ℝ} : |Real.exp (-a) - Real.exp (-b)| ≤ |a - b| * Real.exp (-min a b) := by
  have key : ∀ {a b : ℝ}, a ≤ b → |Real.exp (-a) - Real.exp (-b)| ≤ |a - b| * Real.exp (-a) := by
    intro a b hab
    have h1 : Real.exp (-b) ≤ Real.exp (-a) := Real.exp_le_exp.2 (by linarith)
    have h2 : Real.exp (-b) = Real.exp (-a) * Real.exp (a - b) := by rw [← Real.exp_add]; congr 1; ring
    have h3 := Real.add_one_le_exp (a - b)
    have h4 := Real.exp_pos (-a)
    rw [abs_of_nonneg (by linarith), abs_of_nonpos (by linarith), h2]
    nlinarith
  rcases le_total a b with h | h
  · rw [min_eq_left h]; exact key h
  · rw [min_eq_right h, abs_sub_comm, abs_sub_comm a b]; exact key h

/-- The error of the difference does not hurt the exponential function. -/
theorem exp_round {u t d d' : ℝ} (hu : 0 ≤ u) (ht : 0 ≤ t) (hu8 : u ≤ 1 / 8) (ht8 : t ≤ 1 / 8) (hd : 0 ≤ d)
    (h : |d' - d| ≤ u * d + t) : |Real.exp (-d') - Real.exp (-d)| ≤ 2 * (u + t) := by
  have h1 := exp_neg_diff (a := d') (b := d)
  have h2 := abs_le.1 h
  have hud : u * d ≤ 1 / 8 * d := mul_le_mul_of_nonneg_right hu8 hd
  have hmin : 7 / 8 * d - 1 / 8 ≤ min d' d := le_min (by linarith) (by linarith)
  have h3 : Real.exp (-min d' d) ≤ Real.exp (1 / 8) * Real.exp (-(7 / 8 * d)) := by
    rw [← Real.exp_add]
    exact Real.exp_le_exp.2 (by linarith)
  have h4 : Real.exp (1 / 8) ≤ 8 / 7 := by
    have := Real.add_one_le_exp (-(1 / 8) : ℝ)
    rw [Real.exp_neg] at this
    have hp := Real.exp_pos (1 / 8)
    rw [le_inv_comm₀ (by norm_num) hp] at this
    exact this.trans (by norm_num)
  have h5 : 7 / 8 * d * Real.exp (-(7 / 8 * d)) ≤ 1 := by
    have := Real.add_one_le_exp (7 / 8 * d)
    rw [Real.exp_neg, ← div_eq_mul_inv, div_le_one (Real.exp_pos _)]
    linarith
  have h6 : Real.exp (-(7 / 8 * d)) ≤ 1 := Real.exp_le_one_iff.2 (by linarith)
  have h7 := Real.exp_pos (-(7 / 8 * d))
  have h8 := Real.exp_pos (1 / 8)
  have h9 := Real.exp_pos (-min d' d)
  generalize Real.exp (-(7 / 8 * d)) = E at *
  generalize Real.exp (1 / 8) = F at *
  have h10 : d * E ≤ 8 / 7 := by linarith
  have h11 : u * (d * E) ≤ u * (8 / 7) := mul_le_mul_of_nonneg_left h10 hu
  have h12 : t * E ≤ t * 1 := mul_le_mul_of_nonneg_left h6 ht
  have hud0 : 0 ≤ u * d := mul_nonneg hu hd
  calc |Real.exp (-d') - Real.exp (-d)| ≤ |d' - d| * Real.exp (-min d' d) := h1
    _ ≤ (u * d + t) * (F * E) := mul_le_mul h h3 h9.le (by linarith)
    _ = F * (u * (d * E) + t * E) := by ring
    _ ≤ 8 / 7 * (u * (8 / 7) + t) := mul_le_mul h4 (by linarith) (by positivity) (by norm_num)
    _ ≤ 2 * (u + t) := by linarith

/-- The likelihood of a model: 0 for a criterion that is plus infinity. -/
noncomputable def Spec.likelihood : Fl ℝ → ℝ
  | .fin x => Real.exp (-x)
  | _ => 0

/-- The share of the likelihood. -/
noncomputable def Spec.trueWeight (a : List (Fl ℝ)) (v : Fl ℝ) : ℝ := likelihood v / (a.map likelihood).sum

theorem trueWeight_shift (a : List (Fl ℝ)) (v : Fl ℝ) (m : ℝ) :
    trueWeight a v = (likelihood v * Real.exp m) / (a.map (fun v => likelihood v * Real.exp m)).sum := by
  unfold trueWeight
  rw [List.sum_map_mul_right, mul_div_mul_right _ _ (Real.exp_pos m).ne']

theorem sum_map_diff {f g : Fl ℝ → ℝ} {c : ℝ} (a : List (Fl ℝ)) (h : ∀ v ∈ a, |f v - g v| ≤ c) :
    |(a.map f).sum - (a.map g).sum| ≤ a.length * c := by
  induction a with
  | nil => simp
  | cons v a ih =>
    have h1 := abs_le.1 (h v (by simp))
    have h2 := abs_le.1 (ih fun w hw => h w (by simp [hw]))
    simp only [List.map_cons, List.sum_cons, List.length_cons, Nat.cast_add, Nat.cast_one]
    rw [abs_le]
    constructor <;> linarith

theorem numer_err {rnd expf : ℝ → ℝ} {u e t m : ℝ} (h : ExpMonotone rnd expf) (hacc : ExpAccurate rnd expf u e t)
    (hu : 0 ≤ u) (he : 0 ≤ e) (ht : 0 ≤ t) (hu8 : u ≤ 1 / 8) (ht8 : t ≤ 1 / 8) {v : Fl ℝ}
    (hv : v = .posInf ∨ ∃ x, v = Fl.fin x ∧ m ≤ x ∧ x - m ≤ 2 ^ 1023) :
    |numer rnd expf m v - likelihood v * Real.exp m| ≤ 2 * (u + e + t) := by
  rcases hv with rfl | ⟨x, rfl, hx, hb⟩
  · simp only [numer, likelihood, zero_mul, sub_zero, abs_zero]
    linarith
  · have hrel := hacc.rel (x - m)
    have hd : 0 ≤ x - m := by linarith
    rw [abs_of_nonneg hd] at hrel
    have hr := abs_le.1 hrel
    have hub : u * (x - m) ≤ 1 / 8 * (x - m) := mul_le_mul_of_nonneg_right hu8 hd
    have hlt : rnd (x - m) < 2 ^ 1024 := by
      have hbig : (2 : ℝ) ^ 1024 = 2 * 2 ^ 1023 := by rw [pow_succ]; ring
      have hbig2 : (1 : ℝ) ≤ 2 ^ 1023 := one_le_pow₀ (by norm_num)
      rw [hbig]
      clear hbig
      generalize (2 : ℝ) ^ 1023 = Q at *
      linarith
    have e1 : likelihood (.fin x) * Real.exp m = Real.exp (-(x - m)) := by
      unfold likelihood
      simp only
      rw [← Real.exp_add]
      congr 1
      ring
    have e2 : numer rnd expf m (.fin x) = expf (-rnd (x - m)) := by
      unfold numer
      simp only
      rw [if_pos hlt]
    rw [e1, e2]
    have h1 := abs_le.1 (hacc.exp (-rnd (x - m)) (by linarith [h.rnd_nonneg hd]))
    have h2 := abs_le.1 (exp_round hu ht hu8 ht8 hd hrel)
    rw [abs_le]
    constructor <;> linarith

theorem quot_err {n z z' W S r u t hh : ℝ} (hn : 1 ≤ n) (hh0 : 0 ≤ hh) (hnh : n * hh ≤ 1 / 8) (hu : 0 ≤ u) (ht : 0 ≤ t)
    (hut : u + t ≤ hh) (hz0 : 0 ≤ z) (hW : 1 ≤ W) (hS : 1 ≤ S) (hzW : z ≤ W) (hz : |z - z'| ≤ 2 * hh)
    (hWS : |W - S| ≤ n * (2 * hh) + n * (13 / 10 * hh * W)) (hr : |r - z / W| ≤ u * |z / W| + t) :
    |r - z' / S| ≤ 4 * (n + 1) * hh := by
  have hWp : 0 < W := by linarith
  have hSp : 0 < S := by linarith
  have hq0 : 0 ≤ z / W := by positivity
  have hq1 : z / W ≤ 1 := by rw [div_le_one hWp]; exact hzW
  rw [abs_of_nonneg hq0] at hr
  have hnh0 : 0 ≤ n * hh := by positivity
  have hr' : |r - z / W| ≤ hh := by
    refine hr.trans ?_
    have : u * (z / W) ≤ u * 1 := mul_le_mul_of_nonneg_left hq1 hu
    linarith
  have hWS' := abs_le.1 hWS
  have hWle : W ≤ 3 / 2 * S := by
    have : n * (13 / 10 * hh * W) = 13 / 10 * (n * hh) * W := by ring
    have h3 : 13 / 10 * (n * hh) * W ≤ 13 / 10 * (1 / 8) * W := by gcongr
    linarith
  have hWS2 : |W - S| ≤ (4 * (n * hh)) * S := by
    refine hWS.trans ?_
    have h3 : n * (13 / 10 * hh * W) ≤ 13 / 10 * (n * hh) * (3 / 2 * S) := by
      have : n * (13 / 10 * hh * W) = 13 / 10 * (n * hh) * W := by ring
      rw [this]
      gcongr
    have h4 : n * hh * 1 ≤ n * hh * S := mul_le_mul_of_nonneg_left hS hnh0
    linarith
  have hmain : |z / W - z' / S| ≤ 4 * (n * hh) + 2 * hh := by
    have e : z / W - z' / S = (z / W) * ((S - W) / S) + (z - z') / S := by
      field_simp
      ring
    rw [e]
    refine (abs_add_le _ _).trans ?_
    have h5 : |z / W * ((S - W) / S)| ≤ 4 * (n * hh) := by
      rw [abs_mul, abs_of_nonneg hq0, abs_div, abs_of_pos hSp, abs_sub_comm]
      have h6 : |W - S| / S ≤ 4 * (n * hh) := by rw [div_le_iff₀ hSp]; exact hWS2
      calc z / W * (|W - S| / S) ≤ 1 * (4 * (n * hh)) := by gcongr
        _ = _ := one_mul _
    have h7 : |(z - z') / S| ≤ 2 * hh := by
      rw [abs_div, abs_of_pos hSp, div_le_iff₀ hSp]
      have : 2 * hh * 1 ≤ 2 * hh * S := mul_le_mul_of_nonneg_left hS (by linarith)
      linarith
    linarith
  have h8 := abs_le.1 hmain
  have h9 := abs_le.1 hr'
  rw [abs_le]
  constructor <;> nlinarith

end GoSelect
