import Verif.Proofs.WeightsFl
import Verif.Props.C145

/-!
C146: the weights of `WeightsFromAIC` in floating point, also for criteria that are infinite or NaN.
-/

namespace GoSelect

open Spec Real

/-- Full claim: for any values of a criterion the weights are numbers between 0 and 1, ordered as the criterion orders the
models.  Proved for numbers and plus infinity, at least one of them a number; a model with plus infinity has weight 0, and the
best one at least the rounded `1/n`.  Minus infinity and NaN: `C146_refuted`. -/
theorem C146_range_partial (rnd expf : ℝ → ℝ) (h : ExpMonotone rnd expf) (a : List (Fl ℝ)) (ha : Usable a)
    (hn : a.length ≤ 2 ^ 53) :
    ∃ w : Fl ℝ → ℝ, (weightsFromAICFl rnd expf a).1 = a.map (fun v => .fin (w v)) ∧
      (∀ v ∈ a, 0 ≤ w v ∧ w v ≤ 1) ∧ w .posInf = 0 ∧
      (∀ x y, Fl.fin x ∈ a → Fl.fin y ∈ a → x ≤ y → w (.fin y) ≤ w (.fin x)) ∧
      (∀ x, Fl.fin x ∈ a → (∀ y, Fl.fin y ∈ a → x ≤ y) → rnd (1 / a.length) ≤ w (.fin x)) := by
  obtain ⟨m, h1, h2, h3, h4, h5, h6⟩ := weights_fl h ha hn
  refine ⟨_, h6, fun v hv => ⟨h.rnd_nonneg (div_nonneg (numer_nonneg h m v) (by linarith)), h.rnd_le_one ?_⟩, ?_,
    fun x y _ _ hxy => h.mono ?_, fun x hx hmin => h.mono ?_⟩
  · rw [div_le_one (by linarith)]
    exact h5 v hv
  · show rnd (0 / _) = 0
    rw [zero_div, h.rnd_zero]
  · exact div_le_div_of_nonneg_right (numer_anti h m hxy) (by linarith)
  · have : x = m := le_antisymm (hmin m h1) (h2 x hx)
    rw [this, numer_min h]
    exact one_div_le_one_div_of_le (by linarith) h4

/-- The weights sum up to 1 up to rounding: by at most `3 (n + 1) (u + t)`. -/
theorem C146_sum (rnd expf : ℝ → ℝ) (h : ExpMonotone rnd expf) {u e t : ℝ} (hacc : ExpAccurate rnd expf u e t) (hu : 0 ≤ u)
    (ht : 0 ≤ t) (a : List (Fl ℝ)) (ha : Usable a) (hn : a.length ≤ 2 ^ 53) (hsmall : a.length * (u + t) ≤ 1 / 8) :
    ∃ ws : List ℝ, (weightsFromAICFl rnd expf a).1 = ws.map .fin ∧ |ws.sum - 1| ≤ 3 * (a.length + 1) * (u + t) := by
  obtain ⟨m, h1, h2, h3, h4, h5, h6⟩ := weights_fl h ha hn
  have hlen : (1 : ℝ) ≤ a.length := by
    cases a with
    | nil => simp at h1
    | cons v a => simp
  have hut : u + t ≤ 1 / 8 := by nlinarith
  refine ⟨a.map (fun v => rnd (numer rnd expf m v / sumRnd rnd 0 (a.map (numer rnd expf m)))), by
    rw [h6, List.map_map]; rfl, ?_⟩
  have hz : ∀ z ∈ a.map (numer rnd expf m), 0 ≤ z := by
    intro z hz
    obtain ⟨v, -, rfl⟩ := List.mem_map.1 hz
    exact numer_nonneg h m v
  have herr := sum_err h hacc.rel hu ht (by linarith) (by linarith) h3 (a.map (numer rnd expf m)) hz 0 le_rfl le_rfl
  rw [List.length_map, zero_add] at herr
  have hsum : |(a.map (fun v => rnd (numer rnd expf m v / sumRnd rnd 0 (a.map (numer rnd expf m))))).sum -
      (a.map (numer rnd expf m)).sum / sumRnd rnd 0 (a.map (numer rnd expf m))| ≤
      u * ((a.map (numer rnd expf m)).sum / sumRnd rnd 0 (a.map (numer rnd expf m))) + a.length * t := by
    generalize sumRnd rnd 0 (a.map (numer rnd expf m)) = W at *
    clear h1 h2 h4 h5 h6 ha hn hsmall hlen hz herr
    induction a with
    | nil => simp
    | cons v a ih =>
      have h7 := hacc.rel (numer rnd expf m v / W)
      rw [abs_of_nonneg (div_nonneg (numer_nonneg h m v) (by linarith))] at h7
      have h7' := abs_le.1 h7
      have h8 := abs_le.1 ih
      simp only [List.map_cons, List.sum_cons, List.length_cons, Nat.cast_add, Nat.cast_one, add_div]
      rw [abs_le]
      constructor <;> linarith
  generalize (a.map (fun v => rnd (numer rnd expf m v / sumRnd rnd 0 (a.map (numer rnd expf m))))).sum = T at *
  generalize sumRnd rnd 0 (a.map (numer rnd expf m)) = W at *
  generalize (a.map (numer rnd expf m)).sum = S at *
  have hWp : 0 < W := by linarith
  have hq : |S / W - 1| ≤ 13 / 10 * (a.length * (u + t)) := by
    have e1 : S / W - 1 = (S - W) / W := by field_simp
    rw [e1, abs_div, abs_of_pos hWp, div_le_iff₀ hWp, abs_sub_comm]
    refine herr.trans (le_of_eq (by ring))
  have hq' := abs_le.1 hq
  have hs' := abs_le.1 hsum
  have hu1 : u * (S / W) ≤ u * (6 / 5) := mul_le_mul_of_nonneg_left (by linarith) hu
  have hnu : 0 ≤ (a.length : ℝ) * u := by positivity
  have hnt : 0 ≤ (a.length : ℝ) * t := by positivity
  rw [abs_le]
  constructor <;> nlinarith

/-- Each weight is the share of the likelihood, up to `4 (n + 1) (u + e + t)`. -/
theorem C146_accurate (rnd expf : ℝ → ℝ) (h : ExpMonotone rnd expf) {u e t : ℝ} (hacc : ExpAccurate rnd expf u e t)
    (hu : 0 ≤ u) (he : 0 ≤ e) (ht : 0 ≤ t) (a : List (Fl ℝ)) (ha : Usable a) (hn : a.length ≤ 2 ^ 53)
    (hsmall : a.length * (u + e + t) ≤ 1 / 8) (hbound : ∀ x, Fl.fin x ∈ a → |x| ≤ 2 ^ 1022) :
    ∃ w : Fl ℝ → ℝ, (weightsFromAICFl rnd expf a).1 = a.map (fun v => .fin (w v)) ∧
      ∀ v ∈ a, |w v - trueWeight a v| ≤ 4 * (a.length + 1) * (u + e + t) := by
  obtain ⟨m, h1, h2, h3, h4, h5, h6⟩ := weights_fl h ha hn
  have hlen : (1 : ℝ) ≤ a.length := by
    cases a with
    | nil => simp at h1
    | cons v a => simp
  have hh0 : 0 ≤ u + e + t := by linarith
  have hh : u + e + t ≤ 1 / 8 := by nlinarith
  refine ⟨_, h6, fun v hv => ?_⟩
  have hz : ∀ z ∈ a.map (numer rnd expf m), 0 ≤ z := by
    intro z hz
    obtain ⟨v, -, rfl⟩ := List.mem_map.1 hz
    exact numer_nonneg h m v
  have herr := sum_err h hacc.rel hu ht (by linarith) (by linarith) h3 (a.map (numer rnd expf m)) hz 0 le_rfl le_rfl
  rw [List.length_map, zero_add] at herr
  have hnum : ∀ v ∈ a, |numer rnd expf m v - likelihood v * Real.exp m| ≤ 2 * (u + e + t) := by
    intro v hv
    refine numer_err h hacc hu he ht (by linarith) (by linarith) ?_
    rcases ha.vals v hv with h | ⟨x, rfl, -⟩
    · exact Or.inl h
    · refine Or.inr ⟨x, rfl, h2 x hv, ?_⟩
      have b1 := (abs_le.1 (hbound x hv)).2
      have b2 := (abs_le.1 (hbound m h1)).1
      have hbig : (2 : ℝ) ^ 1023 = 2 * 2 ^ 1022 := by rw [pow_succ]; ring
      rw [hbig]
      clear hbig
      generalize (2 : ℝ) ^ 1022 = Q at *
      linarith
  have hS := sum_map_diff a hnum
  have hS1 : 1 ≤ (a.map (fun v => likelihood v * Real.exp m)).sum := by
    have hl : ∀ w ∈ a.map (fun v => likelihood v * Real.exp m), 0 ≤ w := by
      intro w hw
      obtain ⟨v, -, rfl⟩ := List.mem_map.1 hw
      refine mul_nonneg ?_ (Real.exp_pos m).le
      unfold likelihood
      split
      · exact (Real.exp_pos _).le
      · exact le_rfl
    have hm : (1 : ℝ) ∈ a.map (fun v => likelihood v * Real.exp m) := by
      refine List.mem_map.2 ⟨.fin m, h1, ?_⟩
      show Real.exp (-m) * Real.exp m = 1
      rw [← Real.exp_add, neg_add_cancel, Real.exp_zero]
    exact List.single_le_sum hl 1 hm
  rw [trueWeight_shift a v m]
  refine quot_err (u := u) (t := t) hlen hh0 hsmall hu ht (by linarith) (numer_nonneg h m v) h3 hS1 (h5 v hv) (hnum v hv) ?_
    (hacc.rel _)
  have h7 := abs_le.1 herr
  have h8 := abs_le.1 hS
  generalize sumRnd rnd 0 (a.map (numer rnd expf m)) = W at *
  have h9 : (a.length : ℝ) * (13 / 10 * (u + t) * W) ≤ a.length * (13 / 10 * (u + e + t) * W) := by
    have : 0 ≤ W := by linarith
    gcongr
    linarith
  rw [abs_le]
  constructor <;> linarith

/-! ### Minus infinity and NaN -/

theorem add_nan (x : Fl ℝ) : Fl.add x .nan = .nan := by cases x <;> rfl

theorem fl_div_nan (x : Fl ℝ) : Fl.div x .nan = .nan := by cases x <;> rfl

theorem fl_fold_nan (f : Fl ℝ → Fl ℝ) (rnd : ℝ → ℝ) (l : List (Fl ℝ)) (s : Fl ℝ) (h : s = .nan ∨ ∃ v ∈ l, f v = .nan) :
    l.foldl (fun s v => roundFl rnd (Fl.add s (f v))) s = .nan := by
  induction l generalizing s with
  | nil =>
    rcases h with h | ⟨v, hv, -⟩
    · exact h
    · cases hv
  | cons w l ih =>
    rw [List.foldl_cons]
    rcases h with rfl | ⟨v, hv, hf⟩
    · exact ih _ (Or.inl rfl)
    · rcases List.mem_cons.1 hv with rfl | hv
      · refine ih _ (Or.inl ?_)
        rw [hf, add_nan]
        rfl
      · exact ih _ (Or.inr ⟨v, hv, hf⟩)

theorem min_negInf (a : List (Fl ℝ)) (c : Fl ℝ) (h : (c = .negInf ∨ .negInf ∈ a) ∧ c ≠ .nan) :
    a.foldl (fun min v => if v < min then v else min) c = .negInf := by
  induction a generalizing c with
  | nil =>
    rcases h.1 with h | h
    · exact h
    · cases h
  | cons v a ih =>
    rw [List.foldl_cons]
    refine ih _ ?_
    have hnan : ¬ Fl.nan < c := by cases c <;> simp [LT.lt, Fl.ltB]
    refine ⟨?_, ?_⟩
    · rcases h.1 with rfl | h1
      · left
        rw [if_neg]
        cases v <;> simp [LT.lt, Fl.ltB]
      · rcases List.mem_cons.1 h1 with h1 | h1
        · left
          subst h1
          by_cases hc : c = .negInf
          · subst hc
            simp
          · rw [if_pos]
            have h2 := h.2
            cases c <;> simp_all [LT.lt, Fl.ltB]
        · exact Or.inr h1
    · split
      · rename_i hlt
        intro hv
        subst hv
        exact hnan hlt
      · exact h.2

/-- One minus infinity (the criterion of an exact fit) or one NaN: all weights are NaN. -/
theorem C146_nan (rnd expf : ℝ → ℝ) (a : List (Fl ℝ)) (h : .negInf ∈ a ∨ .nan ∈ a) :
    (weightsFromAICFl rnd expf a).1 = a.map (fun _ => .nan) := by
  have hd : ∃ v ∈ a.map (fun v => roundFl rnd (Fl.sub v (minFloatFl a))), expFl expf (Fl.neg v) = .nan := by
    by_cases hnan : Fl.nan ∈ a
    · exact ⟨_, List.mem_map_of_mem hnan, rfl⟩
    · have h1 : .negInf ∈ a := h.resolve_right hnan
      have h2 : minFloatFl a = .negInf := min_negInf a _ ⟨Or.inr h1, by simp⟩
      refine ⟨_, List.mem_map_of_mem h1, ?_⟩
      rw [h2]
      rfl
  have hs := fl_fold_nan (fun v => expFl expf (Fl.neg v)) rnd _ (.fin 0) (Or.inr hd)
  unfold weightsFromAICFl
  simp only [hs, List.map_map]
  refine List.map_congr_left fun v _ => ?_
  simp only [Function.comp, fl_div_nan]
  rfl

/-- The claim is false: if one of two models fits exactly, neither weight is a number. -/
theorem C146_refuted (rnd expf : ℝ → ℝ) : (weightsFromAICFl rnd expf [.negInf, .fin 0]).1 = [.nan, .nan] :=
  C146_nan rnd expf _ (Or.inl (by simp))

/-! ### binary64 with a correctly rounded exponential function -/

theorem exp64_monotone : ExpMonotone rnd64 (fun x => rnd64 (Real.exp x)) where
  mono := rnd64_mono
  idem := rnd64_idem
  exact := fun _ h => rnd64_nat h
  exp_mono := fun _ _ h => rnd64_mono (Real.exp_le_exp.2 h)
  exp_zero := by simp [rnd64_one]
  exp_nonneg := fun x => rnd64_nonneg (Real.exp_pos x).le
  exp_rnd := fun x => rnd64_idem _

theorem exp64_accurate : ExpAccurate rnd64 (fun x => rnd64 (Real.exp x)) (1 / 2 ^ 53) (1 / 2 ^ 53) (1 / 2 ^ 60) where
  rel := fun x => by
    have h1 := rnd64_rel x
    have h2 : (2 : ℝ) ^ (-1075 : Int) ≤ 2 ^ (-60 : Int) := zpow_le_zpow_right₀ (by norm_num) (by norm_num)
    have h3 : (2 : ℝ) ^ (-60 : Int) = 1 / 2 ^ 60 := by norm_num
    rw [h3] at h2
    clear h3
    generalize (2 : ℝ) ^ (-1075 : Int) = a at *
    have h4 : |x| / 2 ^ 53 = 1 / 2 ^ 53 * |x| := by ring
    rw [h4] at h1
    exact h1.trans (by linarith)
  exp := fun x hx => by
    have h1 := rnd64_max (Real.exp x)
    rw [abs_of_pos (Real.exp_pos x), max_eq_left (Real.exp_le_one_iff.2 hx), mul_one] at h1
    exact h1

/-- Three models, one of them with too many features for the criterion. -/
example : Usable [.fin 3, .posInf, .fin (-1)] ∧
    ∃ w : Fl ℝ → ℝ, (weightsFromAICFl rnd64 (fun x => rnd64 (Real.exp x)) [.fin 3, .posInf, .fin (-1)]).1 =
      [.fin (w (.fin 3)), .fin (w .posInf), .fin (w (.fin (-1)))] ∧
      |w (.fin (-1)) - Real.exp 1 / (Real.exp (-3) + Real.exp 1)| < 1 / 10 ^ 14 := by
  have hbig : (3 : ℝ) ≤ 2 ^ 1022 := by
    calc (3 : ℝ) ≤ 2 ^ 2 := by norm_num
      _ ≤ 2 ^ 1022 := pow_le_pow_right₀ (by norm_num) (by norm_num)
  have hmax : (3 : ℝ) ≤ maxFloat64 := by
    unfold maxFloat64
    have h1 : (2 : ℝ) ^ 1023 = 2 * 2 ^ 1022 := by rw [pow_succ]; ring
    rw [h1]
    clear h1
    generalize (2 : ℝ) ^ 1022 = Q at *
    have : (1 : ℝ) ≤ 2 - 1 / 2 ^ 52 := by norm_num
    nlinarith
  have hu : Usable [.fin 3, .posInf, .fin (-1)] := by
    refine ⟨fun v hv => ?_, 3, by simp⟩
    simp only [List.mem_cons, List.not_mem_nil, or_false] at hv
    rcases hv with rfl | rfl | rfl
    · exact Or.inr ⟨3, rfl, hmax⟩
    · exact Or.inl rfl
    · exact Or.inr ⟨-1, rfl, by linarith⟩
  refine ⟨hu, ?_⟩
  obtain ⟨w, h1, h2⟩ := C146_accurate _ _ exp64_monotone exp64_accurate (by norm_num) (by norm_num) (by norm_num)
    [.fin 3, .posInf, .fin (-1)] hu (by simp) (by norm_num) (fun x hx => by
      simp only [List.mem_cons, Fl.fin.injEq, List.not_mem_nil, or_false, reduceCtorEq, false_or] at hx
      rcases hx with rfl | rfl
      · rw [abs_of_pos (by norm_num)]; exact hbig
      · rw [abs_neg, abs_one]; exact le_trans (by norm_num) hbig)
  refine ⟨w, by simpa using h1, ?_⟩
  have h3 := h2 (.fin (-1)) (by simp)
  have h4 : trueWeight [.fin 3, .posInf, .fin (-1)] (.fin (-1)) = Real.exp 1 / (Real.exp (-3) + Real.exp 1) := by
    simp [trueWeight, likelihood]
  rw [h4] at h3
  refine lt_of_le_of_lt h3 ?_
  simp only [List.length_cons, List.length_nil]
  norm_num

end GoSelect
