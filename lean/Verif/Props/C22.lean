import Verif.Model.Progress
import Mathlib.Algebra.BigOperators.Group.List.Basic

/-! C22: `NewLog2Pruned` adds counts in the log domain. -/

namespace GoSelect

/-- One call adds `2 ^ n`. -/
theorem C22_adds (c : ℝ) (n : Int) :
    (2 : ℝ) ^ newLog2Pruned c n = (2 : ℝ) ^ c + (2 : ℝ) ^ (n : ℝ) := by
  have h2 : (0 : ℝ) < 2 := by norm_num
  have hpos : (0 : ℝ) < 1 + 2 ^ ((n : ℝ) - c) := by positivity
  unfold newLog2Pruned
  simp only
  rw [Real.rpow_add h2, Real.rpow_logb h2 (by norm_num) hpos, mul_add, mul_one,
    ← Real.rpow_add h2]
  congr 2
  ring

/-- Folding it over any sequence gives the logarithm of the sum. -/
theorem C22_fold (c : ℝ) (ns : List Int) :
    (2 : ℝ) ^ (ns.foldl newLog2Pruned c) = (2 : ℝ) ^ c + (ns.map (fun n : Int => (2 : ℝ) ^ (n : ℝ))).sum := by
  induction ns generalizing c with
  | nil => simp
  | cons n ns ih => rw [List.foldl_cons, ih, C22_adds, List.map_cons, List.sum_cons, add_assoc]

/-- The order of the sequence does not matter. -/
theorem C22_order (c : ℝ) (ns ms : List Int) (h : ns.Perm ms) :
    ns.foldl newLog2Pruned c = ms.foldl newLog2Pruned c := by
  have h2 : (0 : ℝ) < 2 := by norm_num
  have : (2 : ℝ) ^ (ns.foldl newLog2Pruned c) = (2 : ℝ) ^ (ms.foldl newLog2Pruned c) := by
    rw [C22_fold, C22_fold, (h.map _).sum_eq]
  have := congrArg (Real.logb 2) this
  rwa [Real.logb_rpow h2 (by norm_num), Real.logb_rpow h2 (by norm_num)] at this

/-- Starting from 0 (one model) and pruning 8 and then 4 models gives log2 of 13. -/
example : [3, 2].foldl newLog2Pruned 0 = Real.logb 2 13 := by
  have h := C22_fold 0 [3, 2]
  rw [← Real.logb_rpow (b := 2) (x := [3, 2].foldl newLog2Pruned 0) (by norm_num) (by norm_num), h]
  congr 1
  norm_num

end GoSelect
