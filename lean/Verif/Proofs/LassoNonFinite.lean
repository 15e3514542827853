import Verif.Model.NonFinite
import Verif.Proofs.FloatArith
import Mathlib.Tactic.Linarith
import Mathlib.Algebra.Order.Group.Unbundled.Abs

/-! The start of the lasso command for any response. -/

namespace GoSelect

open Spec

namespace Fl

variable {K : Type}

def NotFin (x : Fl K) : Prop := ∀ a, x ≠ fin a

theorem add_notFin [Add K] {x : Fl K} (h : NotFin x) (y : Fl K) : NotFin (add x y) := by
  intro a
  cases x with
  | fin b => exact absurd rfl (h b)
  | _ => cases y <;> simp [add]

theorem add_notFin' [Add K] (x : Fl K) {y : Fl K} (h : NotFin y) : NotFin (add x y) := by
  intro a
  cases y with
  | fin b => exact absurd rfl (h b)
  | _ => cases x <;> simp [add]

theorem foldl_notFin [Add K] {l : List (Fl K)} {a : Fl K} (h : NotFin a ∨ ∃ x ∈ l, NotFin x) :
    NotFin (l.foldl add a) := by
  induction l generalizing a with
  | nil =>
    rcases h with h | ⟨x, hx, -⟩
    · exact h
    · cases hx
  | cons x l ih =>
    rw [List.foldl_cons]
    refine ih ?_
    rcases h with h | ⟨y, hy, h⟩
    · exact Or.inl (add_notFin h x)
    · rcases List.mem_cons.1 hy with rfl | hy
      · exact Or.inl (add_notFin' a h)
      · exact Or.inr ⟨y, hy, h⟩

theorem foldl_posInf [Add K] {l : List (Fl K)} {a : Fl K} (h : l.foldl add a = posInf) : a = posInf ∨ posInf ∈ l := by
  induction l generalizing a with
  | nil => exact Or.inl h
  | cons x l ih =>
    rw [List.foldl_cons] at h
    rcases ih h with h | h
    · cases a <;> cases x <;> simp_all [add]
    · exact Or.inr (List.mem_cons_of_mem _ h)

theorem foldl_negInf [Add K] {l : List (Fl K)} {a : Fl K} (h : l.foldl add a = negInf) : a = negInf ∨ negInf ∈ l := by
  induction l generalizing a with
  | nil => exact Or.inl h
  | cons x l ih =>
    rw [List.foldl_cons] at h
    rcases ih h with h | h
    · cases a <;> cases x <;> simp_all [add]
    · exact Or.inr (List.mem_cons_of_mem _ h)

end Fl

/-- The mean of values of which one is not finite: one of the values minus the mean is NaN. -/
theorem sub_mean_nan {y : List (Fl ℝ)} (hy : NotFinite y) : ∃ x ∈ y, Fl.sub x (meanFl y) = .nan := by
  have hex : ∃ x ∈ y, Fl.NotFin x := hy
  obtain ⟨x0, hx0, -⟩ := id hex
  have hlen : (0 : ℝ) < y.length := by
    have := List.length_pos_of_mem hx0
    exact_mod_cast this
  have hs : Fl.NotFin (Fl.sum y) := Fl.foldl_notFin (Or.inr hex)
  unfold meanFl
  rcases hsum : Fl.sum y with a | _ | _ | _
  · exact absurd hsum (hs a)
  · have h1 : Fl.div (.posInf : Fl ℝ) (.fin (y.length : ℝ)) = .posInf := if_neg (by linarith)
    rw [h1]
    rcases Fl.foldl_posInf hsum with h | h
    · cases h
    · exact ⟨_, h, rfl⟩
  · have h1 : Fl.div (.negInf : Fl ℝ) (.fin (y.length : ℝ)) = .negInf := if_neg (by linarith)
    rw [h1]
    rcases Fl.foldl_negInf hsum with h | h
    · cases h
    · exact ⟨_, h, rfl⟩
  · refine ⟨x0, hx0, ?_⟩
    have h1 : Fl.div (.nan : Fl ℝ) (.fin (y.length : ℝ)) = .nan := rfl
    rw [h1]
    cases x0 <;> rfl

theorem nan_div (x : Fl ℝ) : Fl.div .nan x = .nan := by cases x <;> rfl
theorem div_nan (x : Fl ℝ) : Fl.div x .nan = .nan := by cases x <;> rfl

/-- After normalisation every value is NaN. -/
theorem normalizedResponse_nan {y : List (Fl ℝ)} (hy : NotFinite y) :
    normalizedResponse y = List.replicate y.length .nan := by
  obtain ⟨x, hx, hn⟩ := sub_mean_nan hy
  rw [List.eq_replicate_iff]
  unfold normalizedResponse
  refine ⟨by simp, ?_⟩
  intro v hv
  simp only at hv
  obtain ⟨w, hw, rfl⟩ := List.mem_map.1 hv
  by_cases h1 : y.length ≤ 1
  · have hone : y = [x] := by
      match y, hx, h1 with
      | [a], hx, _ => rw [List.mem_singleton.1 hx]
    rw [hone, List.mem_singleton] at hw
    rw [hw, hn]
    exact nan_div _
  · have hs : stdFl y = .nan := by
      unfold stdFl
      rw [if_neg h1]
      simp only
      rw [Fl.sum_nan]
      · rw [nan_div]; rfl
      · refine List.mem_map.2 ⟨x, hx, ?_⟩
        rw [hn]; rfl
    rw [hs]
    exact div_nan _

theorem goMean_list (y : List ℝ) : goMean y = y.sum / y.length := by
  unfold goMean
  have : ∀ (l : List ℝ) (a : ℝ), l.foldl (fun mu x => mu + x) a = a + l.sum := by
    intro l
    induction l with
    | nil => simp
    | cons x l ih => intro a; rw [List.foldl_cons, ih, List.sum_cons, add_assoc]
  rw [this, zero_add]

theorem meanFl_fin {y : List ℝ} (h : y ≠ []) : meanFl (y.map .fin) = .fin (goMean y) := by
  unfold meanFl
  rw [Fl.sum_fin, List.length_map, goMean_list]
  have : (y.length : ℝ) ≠ 0 := by
    have := List.length_pos_iff.2 h
    exact_mod_cast this.ne'
  exact if_neg this

theorem foldl_sq (y : List ℝ) (mu a : ℝ) :
    y.foldl (fun s x => s + (x - mu) * (x - mu)) a = a + (y.map (fun x => (x - mu) * (x - mu))).sum := by
  induction y generalizing a with
  | nil => simp
  | cons x l ih => rw [List.foldl_cons, ih, List.map_cons, List.sum_cons, add_assoc]

theorem stdFl_fin (y : List ℝ) : stdFl (y.map .fin) = .fin (goStd y) := by
  unfold stdFl goStd
  rw [List.length_map]
  split
  · rfl
  · rename_i h
    have hne : y ≠ [] := by rintro rfl; simp at h
    simp only
    rw [meanFl_fin hne, List.map_map]
    have h1 : ((fun x : Fl ℝ => Fl.mul (Fl.sub x (.fin (goMean y))) (Fl.sub x (.fin (goMean y)))) ∘ Fl.fin) =
        Fl.fin ∘ (fun x : ℝ => (x - goMean y) * (x - goMean y)) := by
      funext x
      show Fl.fin ((x + -goMean y) * (x + -goMean y)) = Fl.fin ((x - goMean y) * (x - goMean y))
      rw [sub_eq_add_neg]
    rw [h1, ← List.map_map, Fl.sum_fin, foldl_sq, zero_add]
    have hlen : (0 : ℝ) < (y.length : ℝ) - 1 := by
      have h2 : (2 : ℕ) ≤ y.length := by omega
      have : (2 : ℝ) ≤ (y.length : ℝ) := by exact_mod_cast h2
      linarith
    have h2 : Fl.div (.fin (y.map (fun x => (x - goMean y) * (x - goMean y))).sum) (.fin ((y.length : ℝ) - 1)) =
        .fin ((y.map (fun x => (x - goMean y) * (x - goMean y))).sum / ((y.length : ℝ) - 1)) := if_neg hlen.ne'
    rw [h2]
    refine if_pos (div_nonneg (List.sum_nonneg ?_) hlen.le)
    intro v hv
    obtain ⟨w, -, rfl⟩ := List.mem_map.1 hv
    exact mul_self_nonneg _

/-- On finite responses: what `NewNormalizedData` stores. -/
theorem normalizedResponse_fin (y : List ℝ) :
    normalizedResponse (y.map .fin) = y.map (fun v => Fl.divFin (v - goMean y) (goStd y)) := by
  by_cases h : y = []
  · subst h; rfl
  unfold normalizedResponse
  simp only
  rw [meanFl_fin h, stdFl_fin, List.map_map]
  refine List.map_congr_left fun v _ => ?_
  show Fl.divFin (v + -goMean y) (goStd y) = _
  rw [← sub_eq_add_neg]

/-- A response of equal values. -/
theorem normalizedResponse_const (n : Nat) (c : ℝ) :
    normalizedResponse (List.replicate n (.fin c)) = List.replicate n .nan := by
  by_cases hn : n = 0
  · subst hn; rfl
  have h1 : (List.replicate n c).map Fl.fin = List.replicate n (Fl.fin c) := List.map_replicate
  rw [← h1, normalizedResponse_fin, List.map_replicate]
  have hm : goMean (List.replicate n c) = c := by
    rw [goMean_list, List.sum_replicate, List.length_replicate, nsmul_eq_mul]
    have : (n : ℝ) ≠ 0 := by exact_mod_cast hn
    field_simp
  have hs : goStd (List.replicate n c) = 0 := by
    unfold goStd
    split
    · rfl
    · simp only
      rw [hm, foldl_sq]
      simp
  rw [hm, hs, sub_self]
  congr 1
  exact (if_pos rfl).trans (if_pos rfl)

theorem larsXyFl_nan (X : Mat ℝ) (n i : Nat) (h : 0 < X.nr) : larsXyFl X (List.replicate n .nan) i = .nan := by
  unfold larsXyFl
  refine Fl.sum_nan (List.mem_map.2 ⟨0, List.mem_range.2 h, ?_⟩)
  have : (List.replicate n (Fl.nan : Fl ℝ)).getD 0 .nan = .nan := by
    cases n <;> rfl
  rw [this]
  rfl

theorem larsFirstLamb_nan (X : Mat ℝ) (n : Nat) (h : 0 < X.nr) : larsFirstLamb X (List.replicate n .nan) = .fin 0 := by
  unfold larsFirstLamb
  have : ∀ (l : List Nat), l.foldl (fun maxTime i =>
      let v := Fl.abs (larsXyFl X (List.replicate n .nan) i)
      if maxTime < v then v else maxTime) (.fin 0) = .fin 0 := by
    intro l
    induction l with
    | nil => rfl
    | cons i l ih =>
      rw [List.foldl_cons]
      simp only
      rw [larsXyFl_nan X n i h, if_neg]
      · exact ih
      · exact fun hh => absurd (show false = true from hh) (by decide)
  exact this _

theorem larsXyFl_fin (X : Mat ℝ) (z : List ℝ) (h : z.length = X.nr) (i : Nat) :
    larsXyFl X (z.map .fin) i = .fin ((List.range X.nr).map (fun r => X.get r i * z.getD r 0)).sum := by
  unfold larsXyFl
  rw [← Fl.sum_fin, List.map_map]
  congr 1
  refine List.map_congr_left fun r hr => ?_
  have hr := List.mem_range.1 hr
  have h1 : (z.map Fl.fin).getD r .nan = .fin (z.getD r 0) := by
    have hz : r < z.length := by omega
    simp [List.getD_eq_getElem?_getD, List.getElem?_eq_getElem hz]
  rw [h1]
  rfl

theorem fin_lt_fin (a b : ℝ) : (Fl.fin a : Fl ℝ) < .fin b ↔ a < b := by
  show decide (a < b) = true ↔ _
  rw [decide_eq_true_eq]

theorem foldl_max_abs (l : List Nat) (f : Nat → ℝ) (a : ℝ) :
    l.foldl (fun maxTime i => let v := Fl.abs (.fin (f i)); if maxTime < v then v else maxTime) (Fl.fin a) =
      .fin ((l.map (fun i => |f i|)).foldl max a) := by
  induction l generalizing a with
  | nil => rfl
  | cons i l ih =>
    rw [List.foldl_cons, List.map_cons, List.foldl_cons]
    have h1 : Fl.abs (.fin (f i) : Fl ℝ) = .fin |f i| := by
      show Fl.fin (if f i < 0 then -f i else f i) = _
      split
      · rename_i h; rw [abs_of_neg h]
      · rename_i h; rw [abs_of_nonneg (not_lt.1 h)]
    simp only
    rw [h1]
    have h2 : (if (Fl.fin a : Fl ℝ) < .fin |f i| then Fl.fin |f i| else .fin a) = .fin (max a |f i|) := by
      by_cases h : a < |f i|
      · rw [if_pos ((fin_lt_fin _ _).2 h), max_eq_right h.le]
      · rw [if_neg (fun hh => h ((fin_lt_fin _ _).1 hh)), max_eq_left (not_lt.1 h)]
    rw [h2]
    exact ih _

theorem larsFirstLamb_fin (X : Mat ℝ) (z : List ℝ) (h : z.length = X.nr) :
    larsFirstLamb X (z.map .fin) = .fin (((List.range X.nc).map (fun i =>
      |((List.range X.nr).map (fun r => X.get r i * z.getD r 0)).sum|)).foldl max 0) := by
  unfold larsFirstLamb
  simp only [larsXyFl_fin X z h]
  exact foldl_max_abs _ _ _

theorem lt_foldl_max (l : List ℝ) (a m : ℝ) : m < l.foldl max a ↔ m < a ∨ ∃ x ∈ l, m < x := by
  induction l generalizing a with
  | nil => simp
  | cons x l ih =>
    rw [List.foldl_cons, ih, lt_max_iff]
    constructor
    · rintro ((h | h) | ⟨y, hy, h⟩)
      · exact Or.inl h
      · exact Or.inr ⟨x, List.mem_cons_self, h⟩
      · exact Or.inr ⟨y, List.mem_cons_of_mem _ hy, h⟩
    · rintro (h | ⟨y, hy, h⟩)
      · exact Or.inl (Or.inl h)
      · rcases List.mem_cons.1 hy with rfl | hy
        · exact Or.inl (Or.inr h)
        · exact Or.inr ⟨y, hy, h⟩

end GoSelect
