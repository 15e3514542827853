import Verif.Proofs.FitModel

/-! Data sets with orthonormal columns, used in examples. -/

namespace GoSelect

open Finset Spec

variable {K : Type} [Field K] [LinearOrder K] [IsStrictOrderedRing K]

/-- A decomposition of matrices with orthonormal columns. -/
def orthSvd (M : Mat K) : SVD K := ⟨M.nc, M.get, fun _ => 1, fun j k => if j = k then 1 else 0⟩

theorem orthSvd_untruncated {X : Mat K} (h : X.nc ≤ X.nr)
    (ho : ∀ k l, k < X.nc → l < X.nc →
      ∑ i ∈ range X.nr, X.get i k * X.get i l = if k = l then 1 else 0) :
    Untruncated (orthSvd X) X := by
  refine ⟨⟨(min_eq_right h).symm, ?_, ho, ?_, fun _ _ => zero_le_one, fun _ _ _ _ => le_refl _⟩,
    fun k _ => Or.inr ?_⟩
  · intro i j hi hj
    simp only [orthSvd, mul_one, mul_ite, mul_zero]
    rw [sum_ite_eq (range X.nc) j, if_pos (mem_range.2 hj)]
  · intro k l hk hl
    simp only [orthSvd, mul_ite, mul_one, mul_zero] at *
    rw [sum_ite_eq' (range X.nc) l, if_pos (mem_range.2 hl)]
    by_cases h : k = l
    · simp [h]
    · simp [h, Ne.symm h]
  · show (1 : K) / 10 ^ 6 < 1
    rw [div_lt_one (by positivity)]
    norm_num

/-- The first `k` unit vectors of length `n` as columns. -/
def unitX (n k : Nat) : Mat K := ⟨n, k, fun i j => if i = j then 1 else 0⟩

theorem unitX_exact {n k : Nat} (h : k ≤ n) {m : List Bool} (hm : m.length = k) :
    ExactFit orthSvd (unitX n k : Mat K) m := by
  have hc : card m ≤ k := by
    rw [card_eq_count, ← hm]; exact List.count_le_length
  refine orthSvd_untruncated (hc.trans h) fun a b ha hb => ?_
  have ha' : a < (features m).length := ha
  have hb' : b < (features m).length := hb
  have ea : (features m).getD a 0 = (features m)[a] := by simp [List.getD_eq_getElem?_getD, ha']
  have eb : (features m).getD b 0 = (features m)[b] := by simp [List.getD_eq_getElem?_getD, hb']
  simp only [designOf, unitX, ea, eb, mul_ite, mul_one, mul_zero]
  rw [sum_ite_eq' (range n), if_pos]
  · simp only [(features_nodup m).getElem_inj_iff]
    by_cases hab : a = b
    · simp [hab]
    · simp [hab, Ne.symm hab]
  · exact mem_range.2 ((features_lt (List.getElem_mem hb')).trans_le (hm ▸ h))

end GoSelect
