import Verif.Model.FloatArith
import Mathlib.Tactic.Ring
import Mathlib.Tactic.Positivity

/-! Sums, residuals and criteria with infinities and NaN. -/

namespace GoSelect

namespace Spec
end Spec

open Spec

namespace Fl

variable {K : Type}

/-- Plus infinity or NaN. -/
def Big (x : Fl K) : Prop := x = posInf ∨ x = nan

/-- A finite number, plus infinity or NaN. -/
def NotNeg (x : Fl K) : Prop := x ≠ negInf

theorem nan_add [Add K] (x : Fl K) : add nan x = nan := by cases x <;> rfl
theorem add_nan [Add K] (x : Fl K) : add x nan = nan := by cases x <;> rfl

theorem foldl_nan [Add K] (l : List (Fl K)) : l.foldl add nan = nan := by
  induction l with
  | nil => rfl
  | cons x l ih => rw [List.foldl_cons, nan_add]; exact ih

theorem foldl_mem_nan [Add K] {l : List (Fl K)} (h : nan ∈ l) (a : Fl K) : l.foldl add a = nan := by
  induction l generalizing a with
  | nil => cases h
  | cons x l ih =>
    rw [List.foldl_cons]
    rcases List.mem_cons.1 h with h | h
    · rw [← h, add_nan]; exact foldl_nan l
    · exact ih h _

theorem sum_nan [Zero K] [Add K] {l : List (Fl K)} (h : nan ∈ l) : sum l = nan := foldl_mem_nan h _

theorem foldl_fin [AddCommMonoid K] (l : List K) (a : K) : (l.map fin).foldl add (fin a) = fin (a + l.sum) := by
  induction l generalizing a with
  | nil => simp
  | cons x l ih =>
    rw [List.map_cons, List.foldl_cons]
    show (l.map fin).foldl add (fin (a + x)) = _
    rw [ih, List.sum_cons, add_assoc]

theorem sum_fin [AddCommMonoid K] (l : List K) : sum (l.map fin) = fin l.sum := by
  unfold sum; rw [foldl_fin, zero_add]

theorem big_add [Add K] {x y : Fl K} (h : Big x) (hy : NotNeg y) : Big (add x y) := by
  rcases h with rfl | rfl
  · cases y
    · exact Or.inl rfl
    · exact Or.inl rfl
    · exact absurd rfl hy
    · exact Or.inr rfl
  · exact Or.inr (nan_add y)

theorem add_big [Add K] {x y : Fl K} (h : Big y) (hx : NotNeg x) : Big (add x y) := by
  rcases h with rfl | rfl
  · cases x
    · exact Or.inl rfl
    · exact Or.inl rfl
    · exact absurd rfl hx
    · exact Or.inr rfl
  · exact Or.inr (add_nan x)

theorem big_notNeg {x : Fl K} (h : Big x) : NotNeg x := by
  rcases h with rfl | rfl <;> exact fun h => nomatch h

theorem notNeg_add [Add K] {x y : Fl K} (hx : NotNeg x) (hy : NotNeg y) : NotNeg (add x y) := by
  cases x <;> cases y <;> first | exact absurd rfl hx | exact absurd rfl hy | exact fun h => nomatch h

theorem foldl_big [Add K] {l : List (Fl K)} (hl : ∀ x ∈ l, NotNeg x) {a : Fl K} (ha : Big a) : Big (l.foldl add a) := by
  induction l generalizing a with
  | nil => exact ha
  | cons x l ih =>
    exact ih (fun z hz => hl z (List.mem_cons_of_mem _ hz)) (big_add ha (hl x List.mem_cons_self))

theorem foldl_mem_big [Add K] {l : List (Fl K)} (hl : ∀ x ∈ l, NotNeg x) (h : ∃ x ∈ l, Big x) {a : Fl K}
    (ha : NotNeg a) : Big (l.foldl add a) := by
  induction l generalizing a with
  | nil => obtain ⟨x, hx, -⟩ := h; cases hx
  | cons z l ih =>
    obtain ⟨x, hx, hb⟩ := h
    rw [List.foldl_cons]
    have hl' : ∀ x ∈ l, NotNeg x := fun w hw => hl w (List.mem_cons_of_mem _ hw)
    rcases List.mem_cons.1 hx with rfl | hx
    · exact foldl_big hl' (add_big hb ha)
    · exact ih hl' ⟨x, hx, hb⟩ (notNeg_add ha (hl z List.mem_cons_self))

theorem sum_big [Zero K] [Add K] {l : List (Fl K)} (hl : ∀ x ∈ l, NotNeg x) (h : ∃ x ∈ l, Big x) : Big (sum l) :=
  foldl_mem_big hl h (fun h => nomatch h)

/-- The difference to a value that is not finite is not finite. -/
theorem sub_not_fin [Add K] [Neg K] {x y : Fl K} (hy : ∀ a, y ≠ fin a) (a : K) : sub x y ≠ fin a := by
  cases y
  · exact absurd rfl (hy _)
  all_goals cases x <;> exact fun h => nomatch h

section
variable [Field K] [LinearOrder K]

theorem sq_notNeg (x : Fl K) : NotNeg (mul x x) := by
  cases x <;> exact fun h => nomatch h

theorem sq_big {x : Fl K} (h : ∀ a, x ≠ fin a) : Big (mul x x) := by
  cases x
  · exact absurd rfl (h _)
  · exact Or.inl rfl
  · exact Or.inl rfl
  · exact Or.inr rfl

theorem mul_nan (x : Fl K) : mul x nan = nan := by cases x <;> rfl

theorem big_max {x : Fl K} (h : Big x) (a : K) : Big (max x (fin a)) := by
  rcases h with rfl | rfl
  · exact Or.inl rfl
  · exact Or.inr rfl

end

end Fl

theorem finValues_ofFin (l : List ℝ) : finValues (l.map Fl.fin) = some l := by
  induction l with
  | nil => rfl
  | cons x l ih =>
    unfold finValues at ih ⊢
    rw [List.map_cons, List.mapM_cons, ih]
    rfl

theorem finValues_isFin {v : List (Fl ℝ)} {w : List ℝ} (h : finValues v = some w) : v = w.map Fl.fin := by
  induction v generalizing w with
  | nil => cases h; rfl
  | cons x v ih =>
    unfold finValues at h ih
    rw [List.mapM_cons] at h
    cases x with
    | fin a =>
      simp only [Option.pure_def, Option.bind_eq_bind, Option.bind_some, Option.bind_eq_some_iff] at h
      obtain ⟨w', h1, h2⟩ := h
      cases h2
      rw [ih h1]; rfl
    | _ => cases h

/-- A response with a value that is not finite. -/
def Spec.NotFinite (y : List (Fl ℝ)) : Prop := ∃ v ∈ y, ∀ a : ℝ, v ≠ .fin a

theorem finValues_none {v : List (Fl ℝ)} : finValues v = none ↔ NotFinite v := by
  constructor
  · intro h
    by_contra hcon
    unfold Spec.NotFinite at hcon
    push Not at hcon
    have : ∃ w : List ℝ, v = w.map Fl.fin := by
      clear h
      induction v with
      | nil => exact ⟨[], rfl⟩
      | cons x v ih =>
        obtain ⟨a, ha⟩ := hcon x List.mem_cons_self
        obtain ⟨w, hw⟩ := ih (fun z hz => hcon z (List.mem_cons_of_mem _ hz))
        exact ⟨a :: w, by rw [ha, hw]; rfl⟩
    obtain ⟨w, hw⟩ := this
    rw [hw, finValues_ofFin] at h
    cases h
  · rintro ⟨x, hx, hn⟩
    rcases h : finValues v with _ | w
    · rfl
    · rw [finValues_isFin h] at hx
      obtain ⟨a, -, ha⟩ := List.mem_map.1 hx
      exact absurd ha.symm (hn a)

/-- A residual sum of squares of a response that is not finite is plus infinity or NaN, whatever the coefficients and
predictions are. -/
theorem rssFl_big {B : Blas} {X : Mat ℝ} {coeff data : List (Fl ℝ)} (hd : NotFinite data) {r : Fl ℝ}
    (h : rssFl B X coeff data = some r) : r.Big := by
  unfold rssFl at h
  split at h
  · cases h
  · rename_i pred _
    split at h
    · cases h
    · cases h
      obtain ⟨v, hv, hn⟩ := hd
      refine Fl.sum_big ?_ ?_
      · intro x hx
        obtain ⟨i, -, rfl⟩ := List.mem_map.1 hx
        exact Fl.sq_notNeg _
      · obtain ⟨i, hi, rfl⟩ := List.getElem_of_mem hv
        refine ⟨_, List.mem_map.2 ⟨i, List.mem_range.2 hi, rfl⟩, Fl.sq_big (fun a => ?_)⟩
        refine Fl.sub_not_fin (fun a => ?_) a
        rw [List.getD_eq_getElem?_getD, List.getElem?_eq_getElem hi]
        exact hn a

theorem fitModelFl_big {B : Blas} {svd : Mat ℝ → SVD ℝ} {X : Mat ℝ} {y : List (Fl ℝ)} (hy : NotFinite y) {m : List Bool}
    {c : List (Fl ℝ)} {r : Fl ℝ} (h : fitModelFl B svd X y m = some (c, r)) : r.Big := by
  unfold fitModelFl at h
  split at h
  · cases h
  · split at h
    · cases h
    · split at h
      · cases h
      · rename_i h1
        cases h
        exact rssFl_big hy h1

/-! ## Criteria -/

theorem log_big {r : Fl ℝ} (h : r.Big) : (Fl.log r).Big := by
  rcases h with rfl | rfl
  · exact Or.inl rfl
  · exact Or.inr rfl

theorem mul_big {a : ℝ} (ha : 0 ≤ a) {r : Fl ℝ} (h : r.Big) : (Fl.mul (.fin a) r).Big := by
  rcases h with rfl | rfl
  · rcases ha.eq_or_lt with rfl | ha
    · right
      show Fl.infOf _ = _
      simp [Fl.infOf]
    · left
      show Fl.infOf _ = _
      simp [Fl.infOf, ha]
  · exact Or.inr rfl

theorem aicFl_big (k n : Nat) {r : Fl ℝ} (h : r.Big) : (aicFl k n r).Big :=
  Fl.add_big (mul_big (Nat.cast_nonneg n) (log_big h)) (fun h => nomatch h)

theorem aiccFl_big (k n : Nat) {r : Fl ℝ} (h : r.Big) : (aiccFl k n r).Big :=
  Fl.big_add (aicFl_big k n h) (fun h => nomatch h)

theorem aiccFl_fin (k n : Nat) {r : ℝ} (h : 0 < r) : aiccFl k n (.fin r) = .fin (aicc k n r) := by
  unfold aiccFl aicFl aicc aic
  rw [Fl.log, if_pos h]
  rfl

theorem aicFl_fin (k n : Nat) {r : ℝ} (h : 0 < r) : aicFl k n (.fin r) = .fin (aic k n r) := by
  unfold aicFl aic
  rw [Fl.log, if_pos h]
  rfl

/-! ## Finite data -/

theorem predictFl_fin (B : Blas) (X : Mat ℝ) (c : List ℝ) :
    predictFl B X (c.map .fin) = (predict X c).map (List.map .fin) := by
  unfold predictFl
  rw [List.length_map, finValues_ofFin]
  by_cases h : c.length = X.nc
  · rw [if_neg (not_not.2 h)]
  · rw [if_pos h]
    unfold predict
    rw [if_pos h]
    rfl

theorem fitFl_fin (B : Blas) (d : SVD ℝ) (X : Mat ℝ) (y : List ℝ) :
    fitFl B d X (y.map .fin) = (fit d X y).map (List.map .fin) := by
  unfold fitFl
  rw [List.length_map, finValues_ofFin]
  by_cases h : X.nr = y.length
  · rw [if_neg (not_not.2 h)]
  · rw [if_pos h]
    unfold fit
    rw [if_pos h]
    rfl

theorem rssFl_fin (B : Blas) (X : Mat ℝ) (c y : List ℝ) : rssFl B X (c.map .fin) (y.map .fin) = (rss X c y).map .fin := by
  unfold rssFl rss
  rw [predictFl_fin]
  rcases hp : predict X c with _ | pred
  · rfl
  · simp only [Option.map_some, List.length_map]
    by_cases h : y.length = pred.length
    · rw [if_neg (not_not.2 h), if_neg (not_not.2 h), Option.map_some, Option.some.injEq, Finset.sum_range,
        ← List.sum_ofFn, ← Fl.sum_fin]
      congr 1
      apply List.ext_getElem
      · simp
      · intro i h1 h2
        have hi : i < y.length := by simpa using h1
        have hx : i < pred.length := by omega
        simp only [List.getElem_map, List.getElem_range, List.getElem_ofFn, List.getD_eq_getElem?_getD,
          List.getElem?_map, List.getElem?_eq_getElem hi, List.getElem?_eq_getElem hx, Option.map_some, Option.getD_some]
        show Fl.fin _ = Fl.fin _
        simp only [sub_eq_add_neg]
    · rw [if_pos h, if_pos h]
      rfl

theorem fitModelFl_fin (B : Blas) (svd : Mat ℝ → SVD ℝ) (X : Mat ℝ) (y : List ℝ) (m : List Bool) :
    fitModelFl B svd X (y.map .fin) m = (fitModel svd X y m).map (fun p => (p.1.map .fin, .fin p.2)) := by
  unfold fitModelFl fitModel
  rcases getDesignMatrix m X with _ | design
  · rfl
  · simp only [fitFl_fin]
    rcases fit (svd design) design y with _ | c
    · rfl
    · simp only [Option.map_some]
      rw [rssFl_fin]
      rcases rss design c y with _ | r
      · rfl
      · rfl

end GoSelect
