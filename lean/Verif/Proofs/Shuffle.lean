import Verif.Model.Shuffle
import Mathlib.Data.List.Perm.Basic
import Mathlib.Data.List.Nodup
import Mathlib.Data.List.GetD
import Mathlib.Data.Nat.Factorial.BigOperators
import Mathlib.Algebra.BigOperators.Field
import Mathlib.Algebra.Order.BigOperators.Group.Finset
import Mathlib.Tactic.LinearCombination
import Mathlib.Data.Fintype.Perm
import Mathlib.Data.Fintype.BigOperators
import Mathlib.Algebra.BigOperators.Fin
import Mathlib.Algebra.Order.Field.Basic
import Mathlib.Tactic.Linarith
import Mathlib.Tactic.Ring
import Mathlib.Tactic.FieldSimp

/-!
# Shuffles with fair random numbers give every order of the slice equally often
-/

namespace GoSelect

open scoped List
open Finset

namespace Spec

/-- The random numbers of one shuffle of `n` elements: an index up to `i` for every `i`. -/
abbrev Draws (n : Nat) : Type := (i : Fin n) → Fin (i.val + 1)

/-- The list of the values of a permutation. -/
def orderList {n : Nat} (σ : Equiv.Perm (Fin n)) : List Nat := List.ofFn (fun i => (σ i).val)

end Spec

open Spec

/-- The random numbers as a function. -/
def drawFn {n : Nat} (d : Draws n) (i : Nat) : Nat := if h : i < n then (d ⟨i, h⟩).val else 0

theorem drawFn_le {n : Nat} (d : Draws n) (i : Nat) : drawFn d i ≤ i := by
  unfold drawFn
  split
  · have := (d ⟨i, by assumption⟩).2
    simp only at this
    omega
  · omega

@[simp] theorem swapAt_length (l : List Nat) (i j : Nat) : (swapAt l i j).length = l.length := by
  simp [swapAt]

theorem swapAt_first {l : List Nat} {i j : Nat} (hi : i < l.length) (hj : j < l.length) : (swapAt l i j)[i]? = l[j]? := by
  unfold swapAt
  rw [List.getElem?_set]
  split
  · subst j
    simp [hi]
  · simp [List.getElem?_set, hi, hj]

theorem swapAt_other {l : List Nat} {i j p : Nat} (hi : p ≠ i) (hj : p ≠ j) : (swapAt l i j)[p]? = l[p]? := by
  unfold swapAt
  rw [List.getElem?_set_ne hj.symm, List.getElem?_set_ne hi.symm]

theorem swapAt_perm {l : List Nat} {i j : Nat} (hi : i < l.length) (hj : j < l.length) : swapAt l i j ~ l := by
  unfold swapAt
  rw [List.getD_eq_getElem _ _ hi, List.getD_eq_getElem _ _ hj]
  exact List.set_set_perm hi hj

theorem shuffleLoop_perm {draw : Nat → Nat} (hd : ∀ i, draw i ≤ i) (i : Nat) (l : List Nat) (hi : i < l.length ∨ i = 0) :
    shuffleLoop draw i l ~ l := by
  induction i generalizing l with
  | zero => exact List.Perm.refl _
  | succ i ih =>
    have hi' : i + 1 < l.length := by omega
    exact (ih _ (.inl (by rw [swapAt_length]; omega))).trans (swapAt_perm hi' (lt_of_le_of_lt (hd _) hi'))

theorem shuffleLoop_high {draw : Nat → Nat} (hd : ∀ i, draw i ≤ i) (i : Nat) (l : List Nat) {p : Nat} (hp : i < p) :
    (shuffleLoop draw i l)[p]? = l[p]? := by
  induction i generalizing l with
  | zero => rfl
  | succ i ih =>
    have := hd (i + 1)
    rw [shuffleLoop, ih _ (by omega), swapAt_other (by omega) (by omega)]

theorem shuffleLoop_inj {d d' : Nat → Nat} (hd : ∀ i, d i ≤ i) (hd' : ∀ i, d' i ≤ i) (i : Nat) (l : List Nat)
    (hn : l.Nodup) (hi : i < l.length ∨ i = 0) (h : shuffleLoop d i l = shuffleLoop d' i l) :
    ∀ m, 1 ≤ m → m ≤ i → d m = d' m := by
  induction i generalizing l with
  | zero => intro m h1 h2; omega
  | succ i ih =>
    have hi' : i + 1 < l.length := by omega
    have h1 := lt_of_le_of_lt (hd (i + 1)) hi'
    have h2 := lt_of_le_of_lt (hd' (i + 1)) hi'
    have e : d (i + 1) = d' (i + 1) := by
      have := congrArg (fun x : List Nat => x[i + 1]?) h
      simp only [shuffleLoop] at this
      rw [shuffleLoop_high hd _ _ (by omega), shuffleLoop_high hd' _ _ (by omega), swapAt_first hi' h1,
        swapAt_first hi' h2, List.getElem?_eq_getElem h1, List.getElem?_eq_getElem h2, Option.some.injEq,
        hn.getElem_inj_iff] at this
      exact this
    intro m hm1 hm2
    rcases Nat.lt_or_ge i m with hm | hm
    · have : m = i + 1 := by omega
      rw [this]
      exact e
    · refine ih (swapAt l (i + 1) (d (i + 1))) ((swapAt_perm hi' h1).nodup_iff.2 hn)
        (.inl (by rw [swapAt_length]; omega)) ?_ m hm1 hm
      simp only [shuffleLoop] at h
      rw [h, e]

theorem goShuffle_perm {draw : Nat → Nat} (hd : ∀ i, draw i ≤ i) (l : List Nat) : goShuffle draw l ~ l :=
  shuffleLoop_perm hd _ _ (by omega)

theorem goShuffle_inj {n : Nat} {d d' : Draws n} {l : List Nat} (hn : l.Nodup) (hl : l.length = n)
    (h : goShuffle (drawFn d) l = goShuffle (drawFn d') l) : d = d' := by
  have := shuffleLoop_inj (drawFn_le d) (drawFn_le d') (l.length - 1) l hn (by omega) h
  funext i
  rcases Nat.eq_zero_or_pos i.val with h0 | h0
  · have h1 := (d i).2
    have h2 := (d' i).2
    exact Fin.ext (by omega)
  · have := this i.val h0 (by have := i.2; omega)
    unfold drawFn at this
    rw [dif_pos i.2, dif_pos i.2] at this
    exact Fin.ext this

/-! ### Lists and permutations -/

theorem orderList_injective {n : Nat} : Function.Injective (orderList : Equiv.Perm (Fin n) → List Nat) := by
  intro σ τ h
  have := List.ofFn_injective h
  ext i
  exact congrFun this i

theorem orderList_perm {n : Nat} (σ : Equiv.Perm (Fin n)) : orderList σ ~ List.range n := by
  rw [List.perm_ext_iff_of_nodup]
  · intro a
    simp only [orderList, List.mem_ofFn', Set.mem_range, List.mem_range]
    constructor
    · rintro ⟨i, rfl⟩
      exact (σ i).2
    · intro h
      exact ⟨σ.symm ⟨a, h⟩, by simp⟩
  · rw [orderList, List.nodup_ofFn]
    exact Fin.val_injective.comp σ.injective
  · exact List.nodup_range

theorem exists_orderList {n : Nat} {l : List Nat} (h : l ~ List.range n) : ∃ σ : Equiv.Perm (Fin n), orderList σ = l := by
  have hlen : l.length = n := by rw [h.length_eq, List.length_range]
  have hnd : l.Nodup := h.nodup_iff.2 List.nodup_range
  have hlt : ∀ i (hi : i < l.length), l[i] < n := fun i hi => List.mem_range.1 (h.mem_iff.1 (List.getElem_mem hi))
  let f : Fin n → Fin n := fun i => ⟨l[i.val]'(by rw [hlen]; exact i.2), hlt _ _⟩
  have hf : Function.Injective f := by
    intro i j hij
    have := Fin.mk.inj hij
    rw [hnd.getElem_inj_iff] at this
    exact Fin.ext this
  refine ⟨Equiv.ofBijective f ⟨hf, Finite.injective_iff_surjective.1 hf⟩, ?_⟩
  apply List.ext_getElem
  · simp [orderList, hlen]
  · intro i h1 h2
    simp only [orderList, List.getElem_ofFn]
    rfl

theorem card_draws (n : Nat) : Fintype.card (Draws n) = n.factorial := by
  rw [Fintype.card_pi]
  simp only [Fintype.card_fin]
  rw [Fin.prod_univ_eq_prod_range (fun i => i + 1), Finset.prod_range_add_one_eq_factorial]

theorem card_draws_seq (n N : Nat) : Fintype.card (Fin N → Draws n) = n.factorial ^ N := by
  rw [Fintype.card_fun, card_draws, Fintype.card_fin]

/-- The random numbers of several shuffles as a function. -/
def drawSeq {n N : Nat} (d : Fin N → Draws n) (k i : Nat) : Nat := if h : k < N then drawFn (d ⟨k, h⟩) i else 0

theorem drawSeq_le {n N : Nat} (d : Fin N → Draws n) (k i : Nat) : drawSeq d k i ≤ i := by
  unfold drawSeq
  split
  · exact drawFn_le _ _
  · omega

theorem shuffledIndices_perm {draw : Nat → Nat → Nat} (hd : ∀ k i, draw k i ≤ i) (nr k : Nat) :
    shuffledIndices draw nr k ~ List.range nr := by
  induction k with
  | zero => exact List.Perm.refl _
  | succ k ih => exact (goShuffle_perm (hd k) _).trans ih

/-- The sequences of random numbers and the sequences of permutations correspond to each other. -/
theorem exists_shuffle_equiv (n N : Nat) : ∃ e : (Fin N → Draws n) ≃ (Fin N → Equiv.Perm (Fin n)),
    ∀ d (k : Fin N), shuffledIndices (drawSeq d) n (k.val + 1) = orderList (e d k) := by
  have h : ∀ (d : Fin N → Draws n) (k : Fin N), ∃ σ : Equiv.Perm (Fin n),
      orderList σ = shuffledIndices (drawSeq d) n (k.val + 1) :=
    fun d k => exists_orderList (shuffledIndices_perm (drawSeq_le d) n _)
  choose f hf using h
  have hinj : Function.Injective f := by
    intro d d' hdd
    have hs : ∀ k, k ≤ N → shuffledIndices (drawSeq d) n k = shuffledIndices (drawSeq d') n k := by
      intro k hk
      cases k with
      | zero => rfl
      | succ k => rw [← hf d ⟨k, hk⟩, ← hf d' ⟨k, hk⟩, hdd]
    funext k
    have h1 := hs (k.val + 1) k.2
    rw [shuffledIndices, shuffledIndices, ← hs k.val k.2.le] at h1
    have h2 : ∀ d : Fin N → Draws n, drawSeq d k.val = drawFn (d k) := by
      intro d
      funext i
      simp [drawSeq, k.2]
    rw [h2, h2] at h1
    have hp := shuffledIndices_perm (drawSeq_le d) n k.val
    exact goShuffle_inj (hp.nodup_iff.2 List.nodup_range) (by rw [hp.length_eq, List.length_range]) h1
  have hcard : Fintype.card (Fin N → Draws n) = Fintype.card (Fin N → Equiv.Perm (Fin n)) := by
    rw [card_draws_seq, Fintype.card_fun, Fintype.card_perm, Fintype.card_fin, Fintype.card_fin]
  exact ⟨Equiv.ofBijective f ((Fintype.bijective_iff_injective_and_card f).2 ⟨hinj, hcard⟩), fun d k => (hf d k).symm⟩

/-! ### Sample means -/

section Mean
variable {K : Type} [Field K] {P : Type} [Fintype P] {N : Nat}

theorem sum_at (k : Fin N) (g : P → K) :
    (Fintype.card P : K) * ∑ p : Fin N → P, g (p k) = (Fintype.card P : K) ^ N * ∑ a, g a := by
  have h := Fintype.sum_equiv (Equiv.funSplitAt k P) (fun p => g (p k)) (fun x => g x.1) (fun p => rfl)
  rw [h, Fintype.sum_prod_type]
  simp only [Finset.sum_const, Finset.card_univ, nsmul_eq_mul]
  rw [← Finset.mul_sum, Fintype.card_fun, ← mul_assoc]
  have : Fintype.card {j : Fin N // j ≠ k} = N - 1 := by
    rw [Fintype.card_subtype_compl, Fintype.card_fin, Fintype.card_subtype_eq]
  rw [this, Nat.cast_pow, ← pow_succ', Nat.sub_add_cancel (Nat.one_le_of_lt k.2)]

theorem sum_at_ne {k l : Fin N} (hkl : l ≠ k) (g : P → K) (hg : ∑ a, g a = 0) :
    ∑ p : Fin N → P, g (p k) * g (p l) = 0 := by
  have h := Fintype.sum_equiv (Equiv.funSplitAt k P) (fun p => g (p k) * g (p l))
    (fun x => g x.1 * g (x.2 ⟨l, hkl⟩)) (fun p => rfl)
  rw [h, Fintype.sum_prod_type]
  simp only [← Finset.mul_sum]
  rw [← Finset.sum_mul, hg, zero_mul]

theorem sum_sq (g : P → K) (hg : ∑ a, g a = 0) :
    (Fintype.card P : K) * ∑ p : Fin N → P, (∑ k, g (p k)) ^ 2 = N * ((Fintype.card P : K) ^ N * ∑ a, g a ^ 2) := by
  have h1 : ∑ p : Fin N → P, (∑ k, g (p k)) ^ 2 = ∑ k : Fin N, ∑ p : Fin N → P, g (p k) ^ 2 := by
    rw [Finset.sum_comm' (t' := univ) (s' := fun _ => univ) (by simp)]
    have : ∀ p : Fin N → P, (∑ k, g (p k)) ^ 2 = ∑ k, ∑ l, g (p k) * g (p l) := by
      intro p
      rw [sq, Finset.sum_mul_sum]
    simp only [this]
    rw [Finset.sum_comm]
    rw [Finset.sum_comm (s := (univ : Finset (Fin N → P)))]
    refine Finset.sum_congr rfl (fun k _ => ?_)
    rw [Finset.sum_comm, Finset.sum_eq_single k]
    · simp only [sq]
    · intro l _ hl
      exact sum_at_ne hl g hg
    · simp
  rw [h1, Finset.mul_sum]
  have : ∀ k : Fin N, (Fintype.card P : K) * ∑ p : Fin N → P, g (p k) ^ 2 = (Fintype.card P : K) ^ N * ∑ a, g a ^ 2 :=
    fun k => sum_at k (fun a => g a ^ 2)
  simp only [this]
  rw [Finset.sum_const, Finset.card_univ, Fintype.card_fin, nsmul_eq_mul]

end Mean

section Chebyshev
variable {K : Type} [Field K] [LinearOrder K] [IsStrictOrderedRing K] {P : Type} [Fintype P] [Nonempty P] {N : Nat}

theorem mean_of_means (hN : 0 < N) (g : P → K) :
    (∑ p : Fin N → P, (∑ k, g (p k)) / N) / (Fintype.card P : K) ^ N = (∑ a, g a) / Fintype.card P := by
  have hM : (0 : K) < Fintype.card P := Nat.cast_pos.2 Fintype.card_pos
  have hN' : (0 : K) < N := Nat.cast_pos.2 hN
  have h : (Fintype.card P : K) * ∑ p : Fin N → P, ∑ k, g (p k) = N * ((Fintype.card P : K) ^ N * ∑ a, g a) := by
    rw [Finset.sum_comm, Finset.mul_sum]
    simp only [sum_at]
    rw [Finset.sum_const, Finset.card_univ, Fintype.card_fin, nsmul_eq_mul]
  rw [← Finset.sum_div, div_div, div_eq_div_iff (by positivity) hM.ne']
  linear_combination h

theorem chebyshev (hN : 0 < N) (g : P → K) (hg : ∀ a, |g a| ≤ 1) {t : K} (ht : 0 < t) :
    ((univ.filter (fun p : Fin N → P => t ≤ |(∑ k, g (p k)) / N - (∑ a, g a) / Fintype.card P|)).card : K) ≤
      (Fintype.card P : K) ^ N / (N * t ^ 2) := by
  have hM : (0 : K) < Fintype.card P := Nat.cast_pos.2 Fintype.card_pos
  have hN' : (0 : K) < N := Nat.cast_pos.2 hN
  set m := (∑ a, g a) / Fintype.card P with hm
  have hm' : ∑ a, g a = Fintype.card P * m := by rw [hm]; field_simp
  have h0 : ∑ a, (g a - m) = 0 := by
    rw [Finset.sum_sub_distrib, Finset.sum_const, Finset.card_univ, nsmul_eq_mul, hm']
    ring
  have h1 : ∑ a, (g a - m) ^ 2 ≤ Fintype.card P := by
    have e : ∑ a, (g a - m) ^ 2 = ∑ a, g a ^ 2 - Fintype.card P * m ^ 2 := by
      have : ∀ a, (g a - m) ^ 2 = g a ^ 2 - 2 * m * g a + m ^ 2 := fun a => by ring
      simp only [this]
      rw [Finset.sum_add_distrib, Finset.sum_sub_distrib, ← Finset.mul_sum, hm', Finset.sum_const, Finset.card_univ,
        nsmul_eq_mul]
      ring
    have h2 : ∑ a, g a ^ 2 ≤ ∑ _a : P, (1 : K) :=
      Finset.sum_le_sum (fun a _ => by rw [← sq_abs]; exact pow_le_one₀ (abs_nonneg _) (hg a))
    rw [Finset.sum_const, Finset.card_univ, nsmul_eq_mul, mul_one] at h2
    rw [e]
    have := mul_nonneg hM.le (sq_nonneg m)
    linarith
  have h2 : ∀ p : Fin N → P, (∑ k, g (p k)) / N - m = (∑ k, (g (p k) - m)) / N := by
    intro p
    rw [Finset.sum_sub_distrib, Finset.sum_const, Finset.card_univ, Fintype.card_fin, nsmul_eq_mul]
    field_simp
  have h3 : ((univ.filter (fun p : Fin N → P => t ≤ |(∑ k, g (p k)) / N - m|)).card : K) * t ^ 2 ≤
      ∑ p : Fin N → P, ((∑ k, (g (p k) - m)) / N) ^ 2 := by
    rw [← nsmul_eq_mul, ← Finset.sum_const]
    refine (Finset.sum_le_sum (fun p hp => ?_)).trans (Finset.sum_le_sum_of_subset_of_nonneg (Finset.filter_subset _ _)
      (fun p _ _ => sq_nonneg _))
    rw [← h2, ← sq_abs ((∑ k, g (p k)) / N - m)]
    exact pow_le_pow_left₀ ht.le (Finset.mem_filter.1 hp).2 2
  have h4 := sum_sq (N := N) (fun a => g a - m) h0
  have h5 : ∑ p : Fin N → P, ((∑ k, (g (p k) - m)) / N) ^ 2 ≤ (Fintype.card P : K) ^ N / N := by
    simp only [div_pow]
    rw [← Finset.sum_div, div_le_div_iff₀ (by positivity) hN']
    have h6 : (N : K) * ((Fintype.card P : K) ^ N * ∑ a, (g a - m) ^ 2) ≤
        N * ((Fintype.card P : K) ^ N * Fintype.card P) :=
      mul_le_mul_of_nonneg_left (mul_le_mul_of_nonneg_left h1 (by positivity)) hN'.le
    rw [← h4] at h6
    have h7 : ∑ p : Fin N → P, (∑ k, (g (p k) - m)) ^ 2 ≤ N * (Fintype.card P : K) ^ N := by
      refine le_of_mul_le_mul_left ?_ hM
      linarith
    nlinarith
  rw [le_div_iff₀ (by positivity)]
  have := h3.trans h5
  rw [le_div_iff₀ hN'] at this
  linarith

end Chebyshev

end GoSelect
