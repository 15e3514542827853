import Verif.Proofs.Shuffle
import Verif.Props.C77
import Verif.Props.C59_C61
import Mathlib.Logic.Equiv.Fintype
import Mathlib.Data.List.Permutation

/-!
# C126: random partitions are uniform, and the sampled kappa is an unbiased and consistent estimate
-/

namespace GoSelect

open scoped List
open Finset Spec

/-- C126: the orders in which the rows are in the samples of `GetCohensKappa` correspond one to one to the random numbers:
every sequence of `N` orders of the rows comes from exactly one of the `(n!)^N` equally likely sequences of random numbers. -/
theorem C126_orders (n N : Nat) (orders : Fin N → List Nat) (h : ∀ k, orders k ~ List.range n) :
    (univ.filter (fun d : Fin N → Draws n => ∀ k : Fin N, shuffledIndices (drawSeq d) n (k.val + 1) = orders k)).card = 1 ∧
    Fintype.card (Fin N → Draws n) = n.factorial ^ N := by
  refine ⟨?_, card_draws_seq n N⟩
  obtain ⟨e, he⟩ := exists_shuffle_equiv n N
  choose σ hσ using fun k => exists_orderList (h k)
  rw [Finset.card_eq_one]
  refine ⟨e.symm σ, ?_⟩
  ext d
  simp only [Finset.mem_filter, Finset.mem_univ, true_and, Finset.mem_singleton]
  constructor
  · intro hd
    rw [Equiv.eq_symm_apply]
    funext k
    apply orderList_injective
    rw [← he, hd, hσ]
  · rintro rfl k
    rw [he, Equiv.apply_symm_apply, hσ]

/-- C126: in `RandomRowSplit` every order of the rows comes from exactly one of the `n!` equally likely sequences of random
numbers. -/
theorem C126_split (n : Nat) (order : List Nat) (h : order ~ List.range n) :
    (univ.filter (fun d : Draws n => splitIndices (drawFn d) n = order)).card = 1 ∧
    Fintype.card (Draws n) = n.factorial := by
  refine ⟨?_, card_draws n⟩
  obtain ⟨h1, -⟩ := C126_orders n 1 (fun _ => order) (fun _ => h)
  refine Eq.trans ?_ h1
  refine Finset.card_bij (fun d _ => fun _ => d) ?_ ?_ ?_
  · intro d hd
    simp only [Finset.mem_filter, Finset.mem_univ, true_and] at hd ⊢
    intro k
    have : k = 0 := Subsingleton.elim _ _
    subst this
    rw [← hd]
    rfl
  · intro d _ d' _ hdd
    exact congrFun hdd 0
  · intro d hd
    simp only [Finset.mem_filter, Finset.mem_univ, true_and] at hd
    refine ⟨d 0, ?_, funext fun k => by rw [Subsingleton.elim k 0]⟩
    simp only [Finset.mem_filter, Finset.mem_univ, true_and]
    exact hd 0

/-- The permutations that put the rows in `A` first. -/
theorem card_first_half {n m : Nat} (A B : Finset (Fin n)) (hA : A.card = m) (hB : B.card = m) :
    (univ.filter (fun σ : Equiv.Perm (Fin n) => ∀ i : Fin n, i.val < m ↔ σ i ∈ A)).card =
    (univ.filter (fun σ : Equiv.Perm (Fin n) => ∀ i : Fin n, i.val < m ↔ σ i ∈ B)).card := by
  classical
  have hle : ∀ (A B : Finset (Fin n)), A.card = m → B.card = m →
      (univ.filter (fun σ : Equiv.Perm (Fin n) => ∀ i : Fin n, i.val < m ↔ σ i ∈ A)).card ≤
      (univ.filter (fun σ : Equiv.Perm (Fin n) => ∀ i : Fin n, i.val < m ↔ σ i ∈ B)).card := by
    intro A B hA hB
    have e : {x // x ∈ A} ≃ {x // x ∈ B} := Fintype.equivOfCardEq (by simp [hA, hB])
    let π : Equiv.Perm (Fin n) := e.extendSubtype
    have hπ : ∀ x, x ∈ A ↔ π x ∈ B :=
      fun x => ⟨fun h => e.extendSubtype_mem x h, fun h => by_contra fun hn => e.extendSubtype_not_mem x hn h⟩
    refine Finset.card_le_card_of_injOn (fun σ => σ.trans π) ?_ ?_
    · intro σ hσ
      simp only [Finset.coe_filter, Finset.mem_univ, true_and, Set.mem_setOf_eq, Equiv.trans_apply] at hσ ⊢
      intro i
      rw [hσ i, hπ]
    · intro σ _ τ _ h
      have := congrArg (fun x : Equiv.Perm (Fin n) => x.trans π.symm) h
      simpa [Equiv.trans_assoc] using this
  exact le_antisymm (hle A B hA hB) (hle B A hB hA)

/-- C126: all sets of rows of the same size are equally likely to be the first part of a split: of the `n!` orders the
fraction `1 / (n choose m)` begins with the rows of the given set. -/
theorem C126_halves (n m : Nat) (hm : m ≤ n) (A : Finset Nat) (hA : A ⊆ range n) (hc : A.card = m) :
    (univ.filter (fun d : Draws n => ((splitIndices (drawFn d) n).take m).toFinset = A)).card * n.choose m = n.factorial := by
  classical
  obtain ⟨e, he⟩ := exists_shuffle_equiv n 1
  -- sets of row numbers as sets of `Fin n`
  have hmem : ∀ (σ : Equiv.Perm (Fin n)) (r : Nat), r ∈ (orderList σ).take m ↔ ∃ i : Fin n, i.val < m ∧ (σ i).val = r := by
    intro σ r
    rw [List.mem_take_iff_getElem]
    constructor
    · rintro ⟨i, hi, rfl⟩
      simp only [orderList, List.length_ofFn] at hi
      exact ⟨⟨i, by omega⟩, by simp only; omega, by simp [orderList]⟩
    · rintro ⟨i, hi, rfl⟩
      exact ⟨i.val, by simp [orderList, hi], by simp [orderList]⟩
  have key : ∀ A : Finset (Fin n), (univ.filter (fun d : Draws n => ((splitIndices (drawFn d) n).take m).toFinset =
      A.map Fin.valEmbedding)).card =
      if A.card = m then (univ.filter (fun σ : Equiv.Perm (Fin n) => ∀ i : Fin n, i.val < m ↔ σ i ∈ A)).card else 0 := by
    intro A
    have h1 : ∀ σ : Equiv.Perm (Fin n), ((orderList σ).take m).toFinset = A.map Fin.valEmbedding ↔
        ∀ i : Fin n, i.val < m ↔ σ i ∈ A := by
      intro σ
      simp only [Finset.ext_iff, List.mem_toFinset]
      constructor
      · intro h i
        have := h (σ i).val
        rw [hmem] at this
        simp only [Finset.mem_map, Fin.valEmbedding_apply] at this
        constructor
        · intro hi
          obtain ⟨a, ha, hai⟩ := this.1 ⟨i, hi, rfl⟩
          rwa [Fin.ext hai] at ha
        · intro hi
          obtain ⟨j, hj, hji⟩ := this.2 ⟨_, hi, rfl⟩
          rwa [σ.injective (Fin.ext hji)] at hj
      · intro h r
        rw [hmem]
        simp only [Finset.mem_map, Fin.valEmbedding_apply]
        constructor
        · rintro ⟨i, hi, rfl⟩
          exact ⟨σ i, (h i).1 hi, rfl⟩
        · rintro ⟨a, ha, rfl⟩
          refine ⟨σ.symm a, (h _).2 (by simpa using ha), by simp⟩
    have h2 : (univ.filter (fun d : Draws n => ((splitIndices (drawFn d) n).take m).toFinset =
        A.map Fin.valEmbedding)).card =
        (univ.filter (fun σ : Equiv.Perm (Fin n) => ∀ i : Fin n, i.val < m ↔ σ i ∈ A)).card := by
      have hs : ∀ d : Draws n, splitIndices (drawFn d) n = orderList (e (fun _ => d) 0) := fun d => he (fun _ => d) 0
      refine Finset.card_bij (fun d _ => e (fun _ => d) 0) ?_ ?_ ?_
      · intro d hd
        simp only [Finset.mem_filter, Finset.mem_univ, true_and] at hd ⊢
        rw [hs] at hd
        exact (h1 _).1 hd
      · intro d _ d' _ hdd
        have : e (fun _ => d) = e (fun _ => d') := funext fun k => by rw [Subsingleton.elim k 0]; exact hdd
        exact congrFun (e.injective this) 0
      · intro σ hσ
        simp only [Finset.mem_filter, Finset.mem_univ, true_and] at hσ
        have hd : (fun _ => e.symm (fun _ => σ) 0) = e.symm (fun _ => σ) := funext fun k => by rw [Subsingleton.elim k 0]
        refine ⟨e.symm (fun _ => σ) 0, ?_, ?_⟩
        · simp only [Finset.mem_filter, Finset.mem_univ, true_and]
          rw [hs, hd, Equiv.apply_symm_apply]
          exact (h1 _).2 hσ
        · rw [hd, Equiv.apply_symm_apply]
    rw [h2]
    split
    · rfl
    · rename_i hne
      rw [Finset.card_eq_zero, Finset.filter_eq_empty_iff]
      intro σ _ h
      apply hne
      have : (univ.filter (fun i : Fin n => i.val < m)).card = A.card := by
        refine Finset.card_bij (fun i _ => σ i) ?_ ?_ ?_
        · intro i hi
          exact (h i).1 (Finset.mem_filter.1 hi).2
        · intro i _ j _ hij
          exact σ.injective hij
        · intro a ha
          exact ⟨σ.symm a, by simpa [h] using ha, by simp⟩
      rw [← this, Fin.card_filter_val_lt]
      omega
  obtain ⟨A, rfl⟩ : ∃ A' : Finset (Fin n), A = A'.map Fin.valEmbedding := by
    refine ⟨univ.filter (fun i : Fin n => i.val ∈ A), ?_⟩
    ext r
    simp only [Finset.mem_map, Finset.mem_filter, Finset.mem_univ, true_and, Fin.valEmbedding_apply]
    constructor
    · intro h
      exact ⟨⟨r, Finset.mem_range.1 (hA h)⟩, h, rfl⟩
    · rintro ⟨i, hi, rfl⟩
      exact hi
  rw [Finset.card_map] at hc
  rw [key, if_pos hc]
  have htot : (univ : Finset (Equiv.Perm (Fin n))).card = n.factorial := by
    rw [Finset.card_univ, Fintype.card_perm, Fintype.card_fin]
  rw [← htot, Finset.card_eq_sum_card_fiberwise (s := univ) (f := fun σ : Equiv.Perm (Fin n) =>
    (univ.filter (fun i : Fin n => i.val < m)).map σ.toEmbedding) (t := Finset.powersetCard m univ)]
  · have : ∀ B ∈ Finset.powersetCard m (univ : Finset (Fin n)),
        (univ.filter (fun σ : Equiv.Perm (Fin n) => (univ.filter (fun i : Fin n => i.val < m)).map σ.toEmbedding = B)).card =
        (univ.filter (fun σ : Equiv.Perm (Fin n) => ∀ i : Fin n, i.val < m ↔ σ i ∈ A)).card := by
      intro B hB
      rw [card_first_half A B hc (Finset.mem_powersetCard.1 hB).2]
      congr 1
      ext σ
      simp only [Finset.mem_filter, Finset.mem_univ, true_and]
      constructor
      · rintro rfl i
        simp
      · intro h
        ext x
        simp only [Finset.mem_map, Finset.mem_filter, Finset.mem_univ, true_and, Equiv.coe_toEmbedding]
        constructor
        · rintro ⟨i, hi, rfl⟩
          exact (h i).1 hi
        · intro hx
          exact ⟨σ.symm x, (h _).2 (by simpa using hx), by simp⟩
    rw [Finset.sum_congr rfl this, Finset.sum_const, Finset.card_powersetCard, Finset.card_univ, Fintype.card_fin,
      smul_eq_mul, mul_comm]
  · intro σ _
    rw [Finset.mem_coe, Finset.mem_powersetCard, Finset.card_map]
    refine ⟨Finset.subset_univ _, ?_⟩
    rw [Fin.card_filter_val_lt]
    omega

variable {K : Type} [Field K] [LinearOrder K] [IsStrictOrderedRing K]

omit [LinearOrder K] [IsStrictOrderedRing K] in
theorem sum_map_range (f : Nat → K) (n : Nat) : ((List.range n).map f).sum = ∑ k ∈ range n, f k := by
  induction n with
  | zero => rfl
  | succ n ih => rw [List.range_succ, List.map_append, List.sum_append, ih, Finset.sum_range_succ]; simp

/-- The kappas of all orders of the rows determine the result of `GetCohensKappa`. -/
theorem sampledKappa_eq (n nc N : Nat) (hN : 0 < N) (sel : List Nat → List Int) (κ : List Nat → K)
    (hκ : ∀ l, l ~ List.range n → cohenKappa (sel (l.take (n / 2))) (sel (l.drop (n / 2))) nc = .fin (κ l))
    (e : (Fin N → Draws n) ≃ (Fin N → Equiv.Perm (Fin n)))
    (he : ∀ d (k : Fin N), shuffledIndices (drawSeq d) n (k.val + 1) = orderList (e d k)) (d : Fin N → Draws n) :
    sampledKappa n nc sel N (drawSeq d) = .fin ((∑ k, κ (orderList (e d k))) / N) := by
  have hN' : (N : K) ≠ 0 := (Nat.cast_pos.2 hN).ne'
  unfold sampledKappa getCohensKappa
  rw [fold_fin n nc sel _ 0 κ, zero_add]
  · simp only [Fl.divNat, Fl.divFin, List.length_map, List.length_range, if_neg hN', List.map_map]
    congr 2
    rw [sum_map_range, Finset.sum_range]
    exact Finset.sum_congr rfl (fun k _ => by rw [Function.comp_apply, he])
  · intro l hl
    obtain ⟨k, -, rfl⟩ := List.mem_map.1 hl
    exact hκ _ (shuffledIndices_perm (drawSeq_le d) n _)

/-- A finite kappa is at most 1 in absolute value. -/
theorem abs_kappa_le (nc : Nat) (s1 s2 : List Int) (h1 : IsSelection s1 nc) (h2 : IsSelection s2 nc) {x : K}
    (h : cohenKappa s1 s2 nc = .fin x) : |x| ≤ 1 := by
  by_cases hf : 0 < nc ∧ s1.length = nc ∧ s2.length = nc
  · rw [(C40_full_refuted (K := K) s1 s2 nc hf.1 h1 h2 hf.2.1 hf.2.2).2] at h
    exact absurd h (by simp)
  · obtain ⟨z, hz, h3, h4, -⟩ := C40_range_partial (K := K) s1 s2 nc h1 h2 hf
    rw [hz] at h
    obtain rfl : z = x := by simpa using h
    exact abs_le.2 ⟨h3, h4⟩

/-- C126: the mean of the results of `GetCohensKappa` over all random numbers is the mean of the kappas of all divisions of
the rows: the estimate is unbiased. -/
theorem C126_unbiased (n nc N : Nat) (hN : 0 < N) (sel : List Nat → List Int) (κ : List Nat → K)
    (hκ : ∀ l, l ~ List.range n → cohenKappa (sel (l.take (n / 2))) (sel (l.drop (n / 2))) nc = .fin (κ l)) :
    ∃ result : (Fin N → Draws n) → K, (∀ d, sampledKappa n nc sel N (drawSeq d) = .fin (result d)) ∧
      (∑ d, result d) / Fintype.card (Fin N → Draws n) = (∑ σ : Equiv.Perm (Fin n), κ (orderList σ)) / n.factorial := by
  obtain ⟨e, he⟩ := exists_shuffle_equiv n N
  refine ⟨_, sampledKappa_eq n nc N hN sel κ hκ e he, ?_⟩
  have h := mean_of_means hN (fun σ : Equiv.Perm (Fin n) => κ (orderList σ))
  rw [Fintype.card_perm, Fintype.card_fin] at h
  rw [card_draws_seq, Nat.cast_pow, ← h]
  congr 1
  exact Equiv.sum_comp e (fun p => (∑ k, κ (orderList (p k))) / (N : K))

/-- C126: by Chebyshev's inequality the result of `GetCohensKappa` differs from this mean by `t` or more for at most the
fraction `1 / (N t²)` of the random numbers: the estimate is consistent. -/
theorem C126_consistent (n nc N : Nat) (hN : 0 < N) (sel : List Nat → List Int) (hsel : ∀ l, IsSelection (sel l) nc)
    (κ : List Nat → K)
    (hκ : ∀ l, l ~ List.range n → cohenKappa (sel (l.take (n / 2))) (sel (l.drop (n / 2))) nc = .fin (κ l))
    {t : K} (ht : 0 < t) :
    ∃ result : (Fin N → Draws n) → K, (∀ d, sampledKappa n nc sel N (drawSeq d) = .fin (result d)) ∧
      ((univ.filter (fun d => t ≤ |result d - (∑ σ : Equiv.Perm (Fin n), κ (orderList σ)) / n.factorial|)).card : K) /
        Fintype.card (Fin N → Draws n) ≤ 1 / (N * t ^ 2) := by
  obtain ⟨e, he⟩ := exists_shuffle_equiv n N
  refine ⟨_, sampledKappa_eq n nc N hN sel κ hκ e he, ?_⟩
  have h := chebyshev hN (fun σ : Equiv.Perm (Fin n) => κ (orderList σ)) 
    (fun σ => abs_kappa_le nc _ _ (hsel _) (hsel _) (hκ _ (orderList_perm σ))) ht
  rw [Fintype.card_perm, Fintype.card_fin] at h
  have hM : (0 : K) < (n.factorial : K) ^ N := by
    have : (0 : K) < n.factorial := Nat.cast_pos.2 n.factorial_pos
    positivity
  rw [card_draws_seq, Nat.cast_pow, div_le_iff₀ hM, one_div_mul_eq_div]
  refine le_trans (le_of_eq ?_) h
  congr 1
  refine Finset.card_bij (fun d _ => e d) ?_ ?_ ?_
  · intro d hd
    simpa using hd
  · intro d _ d' _ h
    exact e.injective h
  · intro p hp
    exact ⟨e.symm p, by simpa using hp, by simp⟩

/-- C126: the mean over `N` partitions of any number that is computed from a partition by `RandomRowSplit` (such as the
errors that `L2ConsistentCovTO` compares) is an unbiased estimate of its mean over all orders of the rows. -/
theorem C126_partitions (n N : Nat) (hN : 0 < N) (f : List Nat → K) :
    (∑ d : Fin N → Draws n, (∑ k, f (splitIndices (drawFn (d k)) n)) / (N : K)) / Fintype.card (Fin N → Draws n) =
      (∑ σ : Equiv.Perm (Fin n), f (orderList σ)) / n.factorial := by
  obtain ⟨e, he⟩ := exists_shuffle_equiv n 1
  have h := mean_of_means (P := Draws n) hN (fun d => f (splitIndices (drawFn d) n))
  rw [card_draws] at h
  rw [card_draws_seq, Nat.cast_pow, h]
  congr 1
  have hs : ∀ d : Draws n, splitIndices (drawFn d) n = orderList (e (fun _ => d) 0) := fun d => he (fun _ => d) 0
  simp only [hs]
  rw [← Equiv.sum_comp (Equiv.funUnique (Fin 1) (Equiv.Perm (Fin n))), ← Equiv.sum_comp e,
    ← Equiv.sum_comp (Equiv.funUnique (Fin 1) (Draws n)).symm]
  rfl

/-- C126: `RandomRowSplit` gives the first `num` rows of the shuffled order, then the others. -/
theorem C126_rows (X : Mat K) (num : Int) (draw : Nat → Nat) (A B : Mat K)
    (h : randomRowSplit X num (splitIndices draw X.nr) = some (A, B)) :
    (∀ i < A.nr, ∀ c, A.get i c = X.get ((splitIndices draw X.nr).getD i 0) c) ∧
    ∀ i < B.nr, ∀ c, B.get i c = X.get ((splitIndices draw X.nr).getD (num.toNat + i) 0) c := by
  unfold randomRowSplit at h
  simp only at h
  split at h
  · simp at h
  · simp only [Option.some.injEq, Prod.mk.injEq] at h
    obtain ⟨rfl, rfl⟩ := h
    exact ⟨fun _ _ _ => rfl, fun i _ c => by rw [Nat.add_comm]⟩

/-! ### Example -/

/-- A target with two features that selects the feature 0 if the rows 0 and 1 are among the data points, and else feature 1.
-/
def shuffleSel (l : List Nat) : List Int := if 0 ∈ l ∧ 1 ∈ l then [0] else [1]

/-- Its kappas: the selections differ if the rows 0 and 1 are in the same half. -/
def shuffleKappa (l : List Nat) : ℚ := if 0 ∈ l.take 2 ↔ 1 ∈ l.take 2 then -1 else 1

theorem shuffleSel_kappa (l : List Nat) (h : l ~ List.range 4) :
    cohenKappa (shuffleSel (l.take 2)) (shuffleSel (l.drop 2)) 2 = .fin (shuffleKappa l) := by
  have h4 : ∀ l ∈ (List.range 4).permutations',
      cohenKappa (shuffleSel (l.take 2)) (shuffleSel (l.drop 2)) 2 = .fin (shuffleKappa l) := by decide +kernel
  exact h4 l (List.mem_permutations'.2 h)

theorem shuffleKappa_mean : (∑ σ : Equiv.Perm (Fin 4), shuffleKappa (orderList σ)) / (Nat.factorial 4) = 1 / 3 := by
  decide +kernel

example : ∃ result : (Fin 10 → Draws 4) → ℚ, (∀ d, sampledKappa 4 2 shuffleSel 10 (drawSeq d) = .fin (result d)) ∧
    (∑ d, result d) / Fintype.card (Fin 10 → Draws 4) = 1 / 3 := by
  obtain ⟨r, h1, h2⟩ := C126_unbiased 4 2 10 (by norm_num) shuffleSel shuffleKappa shuffleSel_kappa
  exact ⟨r, h1, h2.trans shuffleKappa_mean⟩

example : ∃ result : (Fin 10 → Draws 4) → ℚ, (∀ d, sampledKappa 4 2 shuffleSel 10 (drawSeq d) = .fin (result d)) ∧
    ((univ.filter (fun d => 1 / 2 ≤ |result d - 1 / 3|)).card : ℚ) / Fintype.card (Fin 10 → Draws 4) ≤ 2 / 5 := by
  obtain ⟨r, h1, h2⟩ := C126_consistent 4 2 10 (by norm_num) shuffleSel (by
    intro l
    unfold shuffleSel
    split <;> (unfold IsSelection; decide)) shuffleKappa shuffleSel_kappa (t := 1 / 2) (by norm_num)
  rw [shuffleKappa_mean] at h2
  exact ⟨r, h1, h2.trans (by norm_num)⟩

/-- The swaps of a shuffle, and a set of two of four rows: 4 of the 24 sequences of random numbers put it first. -/
example : goShuffle (fun i => i / 2) (List.range 4) = [2, 0, 3, 1] ∧
    (univ.filter (fun d : Draws 4 => ((splitIndices (drawFn d) 4).take 2).toFinset = {1, 3})).card * 6 = 24 :=
  ⟨by decide, C126_halves 4 2 (by norm_num) {1, 3} (by decide) rfl⟩

end GoSelect
