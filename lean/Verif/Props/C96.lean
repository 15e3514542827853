import Verif.Model.MemCommand
import Verif.Model.Regression
import Verif.Props.C12_regression
import Verif.Props.C93
import Verif.Proofs.Annealing

/-! # C96: the buffer size for a given memory -/

namespace GoSelect

open Spec

/-- Memory of a node in bytes: one byte for each entry of the model, 8 for each coefficient, and 29 for the level, three
scores and a flag. -/
def Spec.nodeBytes {α : Type} (n : Node α) : Nat := n.model.length + 8 * n.coeff.length + 29

/-- A node of a search over `nfeat` features: one flag per feature, and no more coefficients than features. -/
structure Spec.NodeOver {α : Type} (nfeat : Nat) (n : Node α) : Prop where
  model : n.model.length = nfeat
  coeff : n.coeff.length ≤ nfeat

/-- Memory of a queue. -/
def Spec.queueBytes {α : Type} (q : List (Node α)) : Nat := (q.map nodeBytes).sum

/-- `EstimateMemory` is that number of bytes. -/
theorem C96_estimate {α : Type} (n : Node α) : estimateMemory n = nodeBytes n := by
  unfold estimateMemory nodeBytes
  simp only

theorem numFeatures_all (k : Nat) : numFeatures (allFeatures k) = k := by
  rw [numFeatures_eq_card]
  induction k with
  | zero => rfl
  | succ k ih =>
    unfold allFeatures at *
    rw [List.replicate_succ]
    simp only [Spec.card, features_cons, List.length_cons, List.length_map] at *
    simpa using ih

theorem bufferSize_eq (mem : Int) (nfeat : Nat) (hm : 0 ≤ mem) :
    bufferSize mem nfeat = some (mem * 1000000000 / ((9 * nfeat + 29 : Nat) : Int)) := by
  unfold bufferSize
  rw [if_neg (by omega)]
  have h : estimateMemory (newNode 0 (allFeatures (nfeat : Int).toNat) : Node Int) = 9 * nfeat + 29 := by
    rw [C96_estimate]
    unfold nodeBytes newNode goCopy
    simp only [List.length_replicate, numFeatures_all]
    simp [allFeatures]
    omega
  simp only [h]
  rw [Int.tdiv_eq_ediv_of_nonneg (by positivity)]

/-- C96: the command panics exactly for a negative number of features. -/
theorem C96_panics (mem nfeat : Int) : bufferSize mem nfeat = none ↔ nfeat < 0 := by
  unfold bufferSize
  split
  · simp [*]
  · simp [*]

/-- C96: every queue of at most that many nodes fits in the memory, and the number is the largest with this property. -/
theorem C96_largest {α : Type} [Inhabited α] (mem : Int) (nfeat : Nat) (hm : 0 ≤ mem) :
    ∃ k : Nat, bufferSize mem nfeat = some (k : Int) ∧
      (∀ q : List (Node α), (∀ n ∈ q, NodeOver nfeat n) → q.length ≤ k → (queueBytes q : Int) ≤ mem * 1000000000) ∧
      ∃ q : List (Node α), (∀ n ∈ q, NodeOver nfeat n) ∧ q.length = k + 1 ∧ mem * 1000000000 < queueBytes q := by
  set size : Nat := 9 * nfeat + 29 with hsize
  have hpos : (0 : Int) < (size : Nat) := by omega
  have hk0 : 0 ≤ mem * 1000000000 / (size : Int) := Int.ediv_nonneg (by positivity) hpos.le
  obtain ⟨k, hk⟩ := Int.eq_ofNat_of_zero_le hk0
  have h1 : (k : Int) * size ≤ mem * 1000000000 := by
    rw [← hk]; exact Int.ediv_mul_le _ hpos.ne'
  have h2 : mem * 1000000000 < ((k : Int) + 1) * size := by
    rw [← hk]; exact Int.lt_ediv_add_one_mul_self _ hpos
  refine ⟨k, by rw [bufferSize_eq mem nfeat hm, ← hsize, hk], fun q hq hlen => ?_, ?_⟩
  · have hb : queueBytes q ≤ q.length * size := by
      clear hlen
      unfold queueBytes
      induction q with
      | nil => simp
      | cons n q ih =>
        have hn := hq n (List.mem_cons_self ..)
        have := ih (fun m hm => hq m (List.mem_cons_of_mem _ hm))
        rw [List.map_cons, List.sum_cons, List.length_cons, Nat.add_mul, Nat.one_mul]
        have h3 : nodeBytes n ≤ size := by
          have := hn.model
          have := hn.coeff
          unfold nodeBytes
          omega
        omega
    have h3 : q.length * size ≤ k * size := Nat.mul_le_mul_right _ hlen
    have h4 : (queueBytes q : Int) ≤ ((k * size : Nat) : Int) := by exact_mod_cast hb.trans h3
    push_cast at h4
    push_cast at h1
    exact h4.trans h1
  · refine ⟨List.replicate (k + 1) ⟨List.replicate nfeat true, List.replicate nfeat default, 0, default, default, default,
      false⟩, ?_, List.length_replicate, ?_⟩
    · intro n hn
      rw [List.eq_of_mem_replicate hn]
      exact ⟨by simp, by simp⟩
    · unfold queueBytes
      rw [List.map_replicate, List.sum_replicate]
      have h5 : nodeBytes (⟨List.replicate nfeat true, List.replicate nfeat default, 0, default, default, default,
          false⟩ : Node α) = size := by
        unfold nodeBytes
        simp only [List.length_replicate]
        omega
      rw [h5]
      push_cast
      push_cast at h2
      simpa using h2

/-- C96: the nodes in the queue of a search are such nodes, in every state that a run can reach. -/
theorem C96_nodes (svd : Mat ℝ → SVD ℝ) (X : Mat ℝ) (y : List ℝ) (hy : y.length = X.nr) (root : List Bool) (maxQueue : Int)
    (cutoff : ℝ) (M : Int) (hM : M ≠ 1) (pre : List (Node ℝ)) (s : SState ℝ)
    (h : SelectReaches (regressionSearch svd X y root maxQueue cutoff) M pre s) :
    ∀ n ∈ s.queue, NodeOver X.nc n := by
  intro n hn
  obtain ⟨⟨n₀, ⟨p, f, hp, hc⟩, rfl⟩, -⟩ := (SInv.reach hM h).queueOk n hn
  have hmod := (boundedChild_some hp hc).1
  have hlen : n₀.model.length = X.nc := by
    rw [hmod]
    split
    · rw [flipAt_length]; exact hp.len
    · exact hp.len
  have hcoeff : n₀.coeff = [] := by
    have hl : p.level < p.model.length := by rw [hp.len]; exact hp.lvl
    unfold boundedChild at hc
    cases f with
    | false =>
      rw [getChildNode_false] at hc
      simp only at hc
      split at hc
      · split at hc <;> · cases hc; rfl
      · cases hc
    | true =>
      rw [getChildNode_true _ hl] at hc
      simp only at hc
      split at hc
      · split at hc <;> · cases hc; rfl
      · cases hc
  refine ⟨by rw [scoreWorker_model]; exact hlen, ?_⟩
  unfold scoreWorker
  split
  · rename_i hnew
    show ((regressionProblem svd X y).fit n₀.model).length ≤ X.nc
    have hcard : 0 < Spec.card n₀.model := by rw [← numFeatures_eq_card]; exact hnew.1
    obtain ⟨c, h1, -, h2⟩ := fitModel_eq_some (svd := svd) hy hcard hlen.le
    unfold regressionProblem
    simp only [h1, Option.map_some, Option.getD_some, h2]
    have : Spec.card n₀.model ≤ n₀.model.length := card_le_length _
    omega
  · rw [hcoeff]
    exact Nat.zero_le _

/-- C96: if the buffer size for `mem` GB is at least `2 ^ (columns - 1)`, then with that size the search drops nothing, and
the nodes in its queue never need more than the memory. -/
theorem C96_search (svd : Mat ℝ → SVD ℝ) (X : Mat ℝ) (y : List ℝ) (hy : y.length = X.nr) (root : List Bool) (mem : Int)
    (hm : 0 ≤ mem) (k : Int) (hk : bufferSize mem X.nc = some k) (hlarge : (2 : Int) ^ (X.nc - 1) ≤ k)
    (cutoff : ℝ) (M : Int) (hM : M ≠ 1) (pre : List (Node ℝ)) (s : SState ℝ)
    (h : SelectReaches (regressionSearch svd X y root k cutoff) M pre s) :
    s.overflows = 0 ∧ (queueBytes s.queue : Int) ≤ mem * 1000000000 := by
  refine ⟨C93_no_eviction _ M hM pre s h hlarge, ?_⟩
  obtain ⟨k', h1, h2, -⟩ := C96_largest (α := ℝ) mem X.nc hm
  rw [hk, Option.some.injEq] at h1
  refine h2 s.queue (C96_nodes svd X y hy root k cutoff M hM pre s h) ?_
  have hq : s.queue.length ≤ 2 ^ (X.nc - 1) := C93_queue_length _ M hM pre s h
  have : ((2 ^ (X.nc - 1) : Nat) : Int) ≤ (k' : Int) := by push_cast; rw [← h1]; exact hlarge
  exact hq.trans (by exact_mod_cast this)

/-- Hypotheses of C96: 1 GB is enough for a search over 20 features. -/
example : bufferSize 1 7 = some 10869565 ∧ bufferSize 1 20 = some 4784688 ∧ (2 : Int) ^ (20 - 1) ≤ 4784688 := by
  decide +kernel

end GoSelect
