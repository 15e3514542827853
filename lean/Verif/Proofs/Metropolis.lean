import Verif.Spec.Metropolis
import Verif.Proofs.MarkovChain
import Verif.Proofs.SaPath
import Mathlib.MeasureTheory.Measure.Lebesgue.Basic
import Mathlib.Tactic.FieldSimp

/-! Simulated annealing as a Metropolis chain. -/

namespace GoSelect

open Spec

variable {nc nr : Nat}

theorem saFlip_inj {m : List Bool} {i j : Nat} (hi : i < m.length) (hj : j < m.length) (h : saFlip m i = saFlip m j) :
    i = j := by
  by_contra hne
  have h1 := getD_saFlip hi i
  have h2 := getD_saFlip hj i
  rw [h, h2, if_pos rfl, if_neg hne] at h1
  cases m.getD i false <;> simp at h1

theorem saFlip_ne {m : List Bool} {i : Nat} (hi : i < m.length) : saFlip m i ≠ m := by
  intro h
  have h1 := getD_saFlip hi i
  rw [h, if_pos rfl] at h1
  cases m.getD i false <;> simp at h1

/-- Neighbours are the models one flip away. -/
theorem neighbours_iff {a b : SaModel nc nr} : Neighbours a b ↔ ∃ i < nc, b.1 = saFlip a.1 i := by
  have hl : a.1.length = b.1.length := a.2.1.trans b.2.1.symm
  have hget : ∀ i : Nat, a.1[i]? = b.1[i]? ↔ a.1.getD i false = b.1.getD i false := by
    intro i
    rw [List.getD_eq_getElem?_getD, List.getD_eq_getElem?_getD]
    by_cases hi : i < a.1.length
    · rw [List.getElem?_eq_getElem hi, List.getElem?_eq_getElem (hl ▸ hi)]
      simp
    · rw [List.getElem?_eq_none (by omega), List.getElem?_eq_none (by omega)]; simp
  constructor
  · rintro ⟨i, hi, hu⟩
    have hil : i < a.1.length := by
      by_contra h
      exact hi (by rw [List.getElem?_eq_none (by omega), List.getElem?_eq_none (by omega)])
    refine ⟨i, a.2.1 ▸ hil, ext_getD (by rw [saFlip_length]; exact hl.symm) fun j => ?_⟩
    rw [getD_saFlip hil]
    split
    · rename_i hj
      subst hj
      simp only [ne_eq, hget] at hi
      cases h1 : a.1.getD j false <;> cases h2 : b.1.getD j false <;> simp_all
    · rename_i hj
      by_contra h
      exact hj (hu j (by simp only [ne_eq, hget]; exact fun h' => h h'.symm))
  · rintro ⟨i, hi, hb⟩
    have hil : i < a.1.length := by rw [a.2.1]; exact hi
    refine ⟨i, ?_, fun j hj => ?_⟩
    · simp only [ne_eq, hget]
      rw [hb, getD_saFlip hil, if_pos rfl]
      cases a.1.getD i false <;> simp
    · by_contra hne
      apply hj
      rw [hget, hb, getD_saFlip hil, if_neg hne]

theorem Spec.Neighbours.symm {a b : SaModel nc nr} (h : Neighbours a b) : Neighbours b a := by
  obtain ⟨i, hi, hu⟩ := h
  exact ⟨i, hi.symm, fun j hj => hu j hj.symm⟩

open Classical in
/-- At most one flip leads to a given model. -/
theorem neighbours_sum (a b : SaModel nc nr) (x : ℝ) :
    (if Neighbours a b then x else 0) = ∑ i ∈ Finset.range nc, if b.1 = saFlip a.1 i then x else 0 := by
  by_cases h : Neighbours a b
  · rw [if_pos h]
    obtain ⟨i, hi, hb⟩ := neighbours_iff.1 h
    rw [Finset.sum_eq_single i]
    · rw [if_pos hb]
    · intro j hj hne
      rw [if_neg]
      intro h'
      exact hne (saFlip_inj (by rw [a.2.1]; exact Finset.mem_range.1 hj) (by rw [a.2.1]; exact hi) (h'.symm.trans hb))
    · intro h'; exact absurd (Finset.mem_range.2 hi) h'
  · rw [if_neg h]
    refine (Finset.sum_eq_zero fun i hi => ?_).symm
    rw [if_neg]
    intro hb
    exact h (neighbours_iff.2 ⟨i, Finset.mem_range.1 hi, hb⟩)

theorem acceptance_pos (T e e' : ℝ) : 0 < acceptance T e e' := lt_min one_pos (Real.exp_pos _)

theorem acceptance_le (T e e' : ℝ) : acceptance T e e' ≤ 1 := min_le_left _ _

/-- The balance of one step. -/
theorem acceptance_balance (T e e' : ℝ) :
    Real.exp (-e / T) * acceptance T e e' = Real.exp (-e' / T) * acceptance T e' e := by
  unfold acceptance
  rw [mul_min_of_nonneg _ _ (Real.exp_pos _).le, mul_min_of_nonneg _ _ (Real.exp_pos _).le, ← Real.exp_add,
    ← Real.exp_add, mul_one, mul_one, min_comm]
  congr 2 <;> ring

open Classical in
theorem metropolis_stochastic (hnc : 0 < nc) (E : SaModel nc nr → ℝ) (T : ℝ) : Stochastic (metropolis E T) := by
  have hn : (0 : ℝ) < nc := by exact_mod_cast hnc
  have hsum : ∀ a, ∑ c, (if Neighbours a c then acceptance T (E a) (E c) / nc else 0) ≤ (1 : ℝ) := by
    intro a
    simp only [neighbours_sum]
    rw [Finset.sum_comm]
    calc _ ≤ ∑ i ∈ Finset.range nc, (1 : ℝ) / nc := by
          refine Finset.sum_le_sum fun i _ => ?_
          by_cases h : ∃ b : SaModel nc nr, b.1 = saFlip a.1 i
          · obtain ⟨b, hb⟩ := h
            rw [Finset.sum_eq_single b]
            · rw [if_pos hb]
              exact div_le_div_of_nonneg_right (acceptance_le _ _ _) hn.le
            · intro c _ hc
              rw [if_neg]
              intro h
              exact hc (Subtype.ext (h.trans hb.symm))
            · intro h; exact absurd (Finset.mem_univ b) h
          · rw [Finset.sum_eq_zero]
            · positivity
            · intro b _
              rw [if_neg fun hb => h ⟨b, hb⟩]
      _ = 1 := by
          rw [Finset.sum_const, Finset.card_range, nsmul_eq_mul]
          field_simp
  refine ⟨fun a b => ?_, fun a => ?_⟩
  · unfold metropolis
    split
    · linarith [hsum a]
    · split
      · exact div_nonneg (acceptance_pos _ _ _).le hn.le
      · exact le_rfl
  · rw [← Finset.add_sum_erase _ _ (Finset.mem_univ a)]
    have h1 : metropolis E T a a = 1 - ∑ c, (if Neighbours a c then acceptance T (E a) (E c) / nc else 0) := by
      unfold metropolis; rw [if_pos rfl]
    have h2 : ∑ b ∈ Finset.univ.erase a, metropolis E T a b =
        ∑ c, (if Neighbours a c then acceptance T (E a) (E c) / nc else 0) := by
      rw [← Finset.add_sum_erase _ _ (Finset.mem_univ a), if_neg, zero_add]
      · refine Finset.sum_congr rfl fun b hb => ?_
        unfold metropolis
        rw [if_neg (Finset.ne_of_mem_erase hb).symm]
      · rintro ⟨i, hi, -⟩; exact hi rfl
    rw [h1, h2]
    ring

theorem metropolis_balance (E : SaModel nc nr → ℝ) (T : ℝ) (a b : SaModel nc nr) :
    Real.exp (-E a / T) * metropolis E T a b = Real.exp (-E b / T) * metropolis E T b a := by
  by_cases h : a = b
  · subst h; rfl
  · unfold metropolis
    have h' : ¬ b = a := fun h' => h h'.symm
    rw [if_neg h, if_neg h']
    by_cases hn : Neighbours a b
    · rw [if_pos hn, if_pos hn.symm, ← mul_div_assoc, ← mul_div_assoc, acceptance_balance]
    · have hn' : ¬ Neighbours b a := fun h' => hn h'.symm
      rw [if_neg hn, if_neg hn', mul_zero, mul_zero]

theorem boltzmann_balance (E : SaModel nc nr → ℝ) (T : ℝ) (a b : SaModel nc nr) :
    boltzmann E T a * metropolis E T a b = boltzmann E T b * metropolis E T b a := by
  unfold boltzmann
  rw [div_mul_eq_mul_div, div_mul_eq_mul_div, metropolis_balance]

theorem boltzmann_sum (E : SaModel nc nr → ℝ) (T : ℝ) (a : SaModel nc nr) : ∑ b, boltzmann E T b = 1 := by
  unfold boltzmann
  rw [← Finset.sum_div]
  exact div_self (Finset.sum_pos (fun b _ => Real.exp_pos _) ⟨a, Finset.mem_univ a⟩).ne'

theorem boltzmann_stationary (hnc : 0 < nc) (E : SaModel nc nr → ℝ) (T : ℝ) (b : SaModel nc nr) :
    ∑ a, boltzmann E T a * metropolis E T a b = boltzmann E T b := by
  simp only [boltzmann_balance E T _ b, ← Finset.mul_sum, (metropolis_stochastic hnc E T).sum, mul_one]

/-- The first model, as a state of the chain. -/
def saStart (hnc : 0 < nc) (h4 : 4 ≤ nr) : SaModel nc nr :=
  ⟨startModel nc, length_startModel nc, by rw [card_startModel hnc]; exact one_pos,
    by rw [card_startModel hnc]; omega⟩

open Classical in
/-- A proposal that is not skipped is made with positive probability, if it moves. -/
theorem metropolis_pos_of_ne (hnc : 0 < nc) (E : SaModel nc nr → ℝ) (T : ℝ) {a b : SaModel nc nr} {i : Nat} (hi : i < nc)
    (hb : b.1 = saFlip a.1 i) : 0 < metropolis E T a b := by
  have hn : (0 : ℝ) < nc := by exact_mod_cast hnc
  unfold metropolis
  rw [if_neg, if_pos (neighbours_iff.2 ⟨i, hi, hb⟩)]
  · exact div_pos (acceptance_pos _ _ _) hn
  · rintro rfl
    exact saFlip_ne (by rw [a.2.1]; exact hi) hb.symm

/-- A draw that leads to no model leaves the chain where it is. -/
theorem metropolis_self_pos (hnc : 0 < nc) (E : SaModel nc nr → ℝ) (T : ℝ) {a : SaModel nc nr} {i : Nat} (hi : i < nc)
    (hb : ∀ b : SaModel nc nr, b.1 ≠ saFlip a.1 i) : 0 < metropolis E T a a := by
  classical
  have hn : (0 : ℝ) < nc := by exact_mod_cast hnc
  unfold metropolis
  rw [if_pos rfl]
  simp only [neighbours_sum]
  rw [Finset.sum_comm, sub_pos]
  have hle : ∀ j, ∑ b : SaModel nc nr, (if b.1 = saFlip a.1 j then acceptance T (E a) (E b) / nc else 0) ≤ (1 : ℝ) / nc := by
    intro j
    by_cases h : ∃ b : SaModel nc nr, b.1 = saFlip a.1 j
    · obtain ⟨b, hb⟩ := h
      rw [Finset.sum_eq_single b]
      · rw [if_pos hb]
        exact div_le_div_of_nonneg_right (acceptance_le _ _ _) hn.le
      · intro c _ hc
        rw [if_neg]
        intro h
        exact hc (Subtype.ext (h.trans hb.symm))
      · intro h; exact absurd (Finset.mem_univ b) h
    · rw [Finset.sum_eq_zero]
      · positivity
      · intro b _
        rw [if_neg fun hb => h ⟨b, hb⟩]
  have hlt : ∑ b : SaModel nc nr, (if b.1 = saFlip a.1 i then acceptance T (E a) (E b) / nc else 0) < (1 : ℝ) / nc := by
    rw [Finset.sum_eq_zero]
    · positivity
    · intro b _
      rw [if_neg (hb b)]
  calc _ < ∑ j ∈ Finset.range nc, (1 : ℝ) / nc :=
        Finset.sum_lt_sum (fun j _ => hle j) ⟨i, Finset.mem_range.2 hi, hlt⟩
    _ = 1 := by
        rw [Finset.sum_const, Finset.card_range, nsmul_eq_mul]
        field_simp

theorem pow_pos_mul {A : Matrix (SaModel nc nr) (SaModel nc nr) ℝ} (hA : Stochastic A) {k l : ℕ}
    {a b c : SaModel nc nr} (h1 : 0 < (A ^ k) a b) (h2 : 0 < (A ^ l) b c) : 0 < (A ^ (k + l)) a c := by
  have e : (A ^ (k + l)) a c = ∑ z, (A ^ k) a z * (A ^ l) z c := by rw [pow_add, Matrix.mul_apply]
  rw [e]
  exact (mul_pos h1 h2).trans_le (Finset.single_le_sum (f := fun z => (A ^ k) a z * (A ^ l) z c)
    (fun z _ => mul_nonneg ((hA.pow k).nonneg a z) ((hA.pow l).nonneg z c)) (Finset.mem_univ b))

/-- Draws none of which is skipped have positive probability. -/
theorem path_pos (hnc : 0 < nc) (E : SaModel nc nr → ℝ) (T : ℝ) (ds : List Nat) (hds : ∀ i ∈ ds, i < nc)
    (a b : SaModel nc nr) (hl : Legal nr a.1 ds) (hb : ds.foldl proposal a.1 = b.1) :
    0 < (metropolis E T ^ ds.length) a b := by
  induction ds generalizing a with
  | nil =>
    have : a = b := Subtype.ext hb
    subst this
    rw [List.length_nil, pow_zero, Matrix.one_apply, if_pos rfl]
    exact one_pos
  | cons i ds ih =>
    have hi := hds i List.mem_cons_self
    have hil : i < a.1.length := by rw [a.2.1]; exact hi
    have hS := metropolis_stochastic hnc E T
    rw [List.foldl_cons] at hb
    rw [List.length_cons, add_comm]
    by_cases h0 : card (saFlip a.1 i) = 0
    · have hp : proposal a.1 i = a.1 := by unfold proposal; rw [if_pos h0]
      have hl2 := hl.2
      rw [hp] at hb hl2
      refine pow_pos_mul hS ?_ (ih (fun j hj => hds j (List.mem_cons_of_mem _ hj)) a hl2 hb)
      rw [pow_one]
      exact metropolis_self_pos hnc E T hi (fun c hc => by have := c.2.2.1; rw [hc] at this; omega)
    · have hp : proposal a.1 i = saFlip a.1 i := by unfold proposal; rw [if_neg h0]
      have hl2 := hl.2
      rw [hp] at hb hl2
      let c : SaModel nc nr := ⟨saFlip a.1 i, by rw [saFlip_length]; exact a.2.1, by omega, by
        rcases hl.1 with h | h
        · exact absurd h h0
        · exact h⟩
      refine pow_pos_mul hS ?_ (ih (fun j hj => hds j (List.mem_cons_of_mem _ hj)) c hl2 hb)
      rw [pow_one]
      exact metropolis_pos_of_ne hnc E T hi rfl

/-- Everything is reached from the first model in `nc` steps. -/
theorem start_pos (hnc : 0 < nc) (h6 : 6 ≤ nr) (E : SaModel nc nr → ℝ) (T : ℝ) (b : SaModel nc nr) :
    0 < (metropolis E T ^ nc) (saStart hnc (by omega)) b := by
  obtain ⟨ds, -, hlen, hds, hl, hb⟩ := path_exists h6 b.2.1 b.2.2.1 b.2.2.2
  have hS := metropolis_stochastic hnc E T
  have h1 := path_pos hnc E T ds hds (saStart hnc (by omega)) b hl hb
  have hself : ∀ k, 0 < (metropolis E T ^ k) (saStart (nr := nr) hnc (by omega)) (saStart hnc (by omega)) := by
    intro k
    induction k with
    | zero => rw [pow_zero, Matrix.one_apply, if_pos rfl]; exact one_pos
    | succ k ih =>
      refine pow_pos_mul hS ih ?_
      rw [pow_one]
      refine metropolis_self_pos hnc E T (i := 0) hnc fun c hc => ?_
      have h2 := card_saFlip_remove (m := startModel nc) (i := 0) (by rw [length_startModel]; exact hnc)
        (by rw [getD_startModel hnc]; rfl)
      rw [card_startModel hnc] at h2
      have := c.2.2.1
      rw [hc] at this
      change 0 < card (saFlip (startModel nc) 0) at this
      omega
  have := pow_pos_mul hS (hself (nc - ds.length)) h1
  rwa [Nat.sub_add_cancel hlen] at this

/-- The chain converges to the Boltzmann distribution. -/
theorem metropolis_tendsto (hnc : 0 < nc) (h6 : 6 ≤ nr) (E : SaModel nc nr → ℝ) (T : ℝ) (a b : SaModel nc nr) :
    Filter.Tendsto (fun n => (metropolis E T ^ n) a b) Filter.atTop (nhds (boltzmann E T b)) := by
  have hS := metropolis_stochastic hnc E T
  let z : SaModel nc nr := saStart hnc (by omega)
  have hpos : ∀ x, 0 < (metropolis E T ^ nc) x z := by
    intro x
    have h1 := balance_pow (metropolis_balance E T) nc x z
    have h2 := mul_pos (Real.exp_pos (-E z / T)) (start_pos hnc h6 E T x)
    rw [← h1] at h2
    exact (mul_pos_iff_of_pos_left (Real.exp_pos _)).1 h2
  obtain ⟨w, -, hw⟩ := Finset.exists_min_image Finset.univ (fun x => (metropolis E T ^ nc) x z) ⟨z, Finset.mem_univ z⟩
  exact hS.tendsto (boltzmann_sum E T a) (boltzmann_stationary hnc E T) (hpos w) (fun x => hw x (Finset.mem_univ x)) a b

end GoSelect
