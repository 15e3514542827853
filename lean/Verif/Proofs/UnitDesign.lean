import Verif.Proofs.Orthonormal
import Mathlib.Tactic.Linarith

/-! Fits on unit vectors, used in examples. -/

namespace GoSelect

open Finset Spec

variable {K : Type} [Field K] [LinearOrder K] [IsStrictOrderedRing K]

/-- The prediction for a row whose feature is not selected. -/
theorem unitX_lin_zero {n k : Nat} {m : List Bool} (c : Nat → K) {i : Nat} (hi : ¬ HasFeature m i) :
    lin (designOf (unitX n k : Mat K) m) c i = 0 := by
  refine sum_eq_zero fun j hj => ?_
  have hj' : j < (features m).length := mem_range.1 hj
  have hmem : (features m).getD j 0 ∈ features m := by
    rw [List.getD_eq_getElem?_getD, List.getElem?_eq_getElem hj', Option.getD_some]
    exact List.getElem_mem hj'
  have hne : i ≠ (features m).getD j 0 := by
    rintro rfl
    exact hi ((mem_features m _).1 hmem)
  simp only [designOf, unitX]
  rw [if_neg hne, zero_mul]

/-- The prediction for a row whose feature is selected, when every coefficient is `y` of its feature. -/
theorem unitX_lin_feature {n k : Nat} {m : List Bool} (y : Nat → K) {i : Nat} (hi : HasFeature m i) :
    lin (designOf (unitX n k : Mat K) m) (fun j => y ((features m).getD j 0)) i = y i := by
  obtain ⟨j, hj, hji⟩ := List.getElem_of_mem ((mem_features m i).2 hi)
  have e : (features m).getD j 0 = i := by
    rw [List.getD_eq_getElem?_getD, List.getElem?_eq_getElem hj, Option.getD_some, hji]
  unfold lin
  rw [sum_eq_single_of_mem (s := range (designOf (unitX n k : Mat K) m).nc) j (mem_range.2 hj)]
  · simp only [designOf, unitX]
    rw [e, if_pos rfl, one_mul]
  · intro b hb hbj
    have hb' : b < (features m).length := mem_range.1 hb
    have hne : i ≠ (features m).getD b 0 := by
      rw [List.getD_eq_getElem?_getD, List.getElem?_eq_getElem hb', Option.getD_some, ← hji]
      intro hc
      exact hbj ((features_nodup m).getElem_inj_iff.1 hc).symm
    simp only [designOf, unitX]
    rw [if_neg hne, zero_mul]

/-- The least sum of squares leaves exactly the rows without a selected feature. -/
theorem unitX_sse {n k : Nat} {m : List Bool} {c y : Nat → K}
    (h : IsLeastSquares (designOf (unitX n k : Mat K) m) c y) :
    sse (designOf (unitX n k : Mat K) m) c y = ∑ i ∈ range n, if HasFeature m i then 0 else y i ^ 2 := by
  apply le_antisymm
  · refine (h (fun j => y ((features m).getD j 0))).trans (le_of_eq (sum_congr rfl fun i _ => ?_))
    by_cases hi : HasFeature m i
    · rw [unitX_lin_feature y hi, if_pos hi, sub_self]; norm_num
    · rw [unitX_lin_zero _ hi, if_neg hi]; ring
  · refine sum_le_sum fun i _ => ?_
    by_cases hi : HasFeature m i
    · rw [if_pos hi]; exact sq_nonneg _
    · rw [unitX_lin_zero _ hi, if_neg hi]; exact le_of_eq (by ring)

/-- The RSS of a model on unit vectors. -/
theorem unitX_fitModel {n k : Nat} (h : k ≤ n) {y : List K} (hy : y.length = n) {m : List Bool} (hm : m.length = k)
    (hpos : 0 < card m) :
    ∃ c, fitModel orthSvd (unitX n k : Mat K) y m =
        some (c, ∑ i ∈ range n, if HasFeature m i then 0 else vec y i ^ 2) ∧
      fit (orthSvd (designOf (unitX n k : Mat K) m)) (designOf (unitX n k : Mat K) m) y = some c ∧
      c.length = card m := by
  obtain ⟨c, h1, h2, h3⟩ := fitModel_eq_some (svd := orthSvd) (X := (unitX n k : Mat K)) hy hpos hm.le
  refine ⟨c, ?_, h2, h3⟩
  rw [h1, unitX_sse (fit_leastSquares (unitX_exact h hm) h2)]

end GoSelect
