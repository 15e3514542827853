import Verif.Proofs.Log2Float
import Verif.Props.C20

/-!
C145: `Log2NumPruned`, which `SelectModel` reports through `SearchProgress`, in floating point.
-/

namespace GoSelect

open Spec Real
open scoped List

/-- The third argument of a call of `sp.Set`, as computed. -/
noncomputable def reportedLog2Fl {α : Type} (L : Log2Lib) (S : Search α) (p : α × Nat × List Nat) : Fl ℝ :=
  L.log2PrunedFl S.ncols p.2.2

/-- The logarithm of one plus the sum of `2 ^ (ncols - level)` over the pruned branches. -/
noncomputable def Spec.trueLog2 (ncols : Nat) (levels : List Nat) : ℝ :=
  logb 2 (1 + ((levels.map (fun l => 2 ^ (ncols - l))).sum : Nat))

theorem log2Pruned_true (ncols : Nat) (ls : List Nat) (h : ∀ l ∈ ls, l ≤ ncols) :
    log2Pruned ncols ls = trueLog2 ncols ls := by
  unfold trueLog2
  rw [← two_pow_log2Pruned ncols ls h, logb_rpow] <;> norm_num

section
variable {α : Type} [LinearOrder α] [Zero α] [Neg α]

/-- Full claim: every reported `Log2NumPruned` is a number, off by at most `(u + e) * (4 * ncols + 16)` per pruned branch,
where `u` is the accuracy of the arithmetic and `e` that of `math.Pow` and `math.Log2`, if the sum of these errors is at
most 1/2.  Proved for at most 1023 columns; `C145_refuted` shows that 1024 columns are too many. -/
theorem C145_accurate_partial (L : Log2Lib) {u e : ℝ} (hL : Log2Accurate L u e) (hu : 0 ≤ u) (he : 0 ≤ e) (S : Search α)
    (hn : S.ncols ≤ 1023) (M : Int) (hM : M ≠ 1) (pre : List (Node α)) (s : SState α) (h : SelectReaches S M pre s)
    (p : α × Nat × List Nat) (hp : p ∈ s.progress)
    (hδ : p.2.2.length * ((u + e) * (4 * S.ncols + 16)) ≤ 1 / 2) :
    ∃ v, reportedLog2Fl L S p = .fin v ∧
      |v - trueLog2 S.ncols p.2.2| ≤ p.2.2.length * ((u + e) * (4 * S.ncols + 16)) := by
  have hsuf := ((progress_reach hM h).2 p hp).2
  have hle : ∀ l ∈ p.2.2, l ≤ S.ncols := fun l hl => (pruned_lt hM h l (hsuf.subset hl)).le
  have hC : log2Pruned S.ncols p.2.2 ≤ S.ncols + 1 := by
    have h1 := C73_reported_pruned_partial S M hM pre s h p hp
    unfold reportedLog2 at h1
    have h2 : (2 : ℝ) ^ log2Pruned S.ncols p.2.2 ≤ (2 : ℝ) ^ ((S.ncols : ℝ) + 1) := by
      rw [rpow_add (by norm_num), rpow_natCast, rpow_one]
      linarith
    exact (rpow_le_rpow_left_iff (by norm_num)).1 h2
  have hn' : (S.ncols : ℝ) ≤ 1023 := by exact_mod_cast hn
  have hn0 : (0 : ℝ) ≤ S.ncols := Nat.cast_nonneg _
  have e1 : 4 * ((S.ncols : ℝ) + 2) + 8 = 4 * S.ncols + 16 := by ring
  have hbig : (1025 : ℝ) ≤ 2 ^ 1023 := by
    calc (1025 : ℝ) ≤ 2 ^ 11 := by norm_num
      _ ≤ 2 ^ 1023 := pow_le_pow_right₀ (by norm_num) (by norm_num)
  obtain ⟨v, h1, h2, -⟩ := log2_run hL hu he (B := S.ncols + 2) hn (by linarith) (by linarith)
    (le_trans (by linarith) hbig) p.2.2 hle (by linarith) (by rw [e1]; exact hδ)
  rw [e1, log2Pruned_true _ _ hle] at h2
  exact ⟨v, h1, h2⟩

/-- With any number of columns: the reported values are never NaN and never decrease. -/
theorem C145_monotone (L : Log2Lib) (hL : Log2Monotone L) (S : Search α) (M : Int) (hM : M ≠ 1) (pre : List (Node α))
    (s : SState α) (h : SelectReaches S M pre s) :
    (∀ p ∈ s.progress, reportedLog2Fl L S p ≠ .nan ∧ ¬ reportedLog2Fl L S p < .fin 0) ∧
    s.progress.Pairwise (fun later earlier => ¬ reportedLog2Fl L S later < reportedLog2Fl L S earlier) := by
  refine ⟨fun p _ => ?_, (progress_reach hM h).1.imp fun hh => log2_value_mono hL _ hh.2⟩
  unfold reportedLog2Fl
  rcases log2_value hL S.ncols p.2.2 with h | ⟨x, h, hx, -⟩ <;> rw [h]
  · exact ⟨by simp, by simp [LT.lt, Fl.ltB]⟩
  · exact ⟨by simp, fun hlt => absurd (of_decide_eq_true hlt) (not_lt.2 hx)⟩

/-- If the first pruned branch lies 1024 or more levels above the leaves, every later report is plus infinity. -/
theorem C145_overflow (L : Log2Lib) (hL : Log2Monotone L) (hexact : ∀ n : Nat, n ≤ 2 ^ 53 → L.rnd n = n)
    (hpow : ∀ n : Nat, 1024 ≤ n → 2 ^ 1024 ≤ L.pow2 n) (S : Search α) (hcols : S.ncols ≤ 2 ^ 53)
    (p : α × Nat × List Nat) (first : Nat) (hfirst : p.2.2.getLast? = some first) (hlevel : first + 1024 ≤ S.ncols) :
    reportedLog2Fl L S p = .posInf := by
  obtain ⟨t, ht⟩ := List.getLast?_eq_some_iff.1 hfirst
  refine log2_infinite hL S.ncols (a := [first]) ⟨t, ht.symm⟩ ?_
  have hcast : ((S.ncols : Int) - first) = ((S.ncols - first : Nat) : Int) := by omega
  simp only [Log2Lib.log2PrunedFl]
  rw [hcast]
  have hr : L.rnd (S.ncols - first : Nat) = (S.ncols - first : Nat) := hexact _ (by omega)
  refine log2_overflow hL ?_ ?_
  · rw [hr, hr]; exact hpow _ (by omega)
  · rw [hr, hr, abs_of_nonneg (Nat.cast_nonneg _)]
    have h1 : ((S.ncols - first : Nat) : ℝ) ≤ 2 ^ 53 := by exact_mod_cast (by omega : S.ncols - first ≤ 2 ^ 53)
    exact lt_of_le_of_lt h1 (pow_lt_pow_right₀ (by norm_num) (by norm_num))

end

/-! ### binary64 with correctly rounded functions -/

/-- Correctly rounded binary64. -/
noncomputable def lib64 : Log2Lib := ⟨rnd64, fun d => rnd64 ((2 : ℝ) ^ d), fun x => rnd64 (logb 2 x)⟩

theorem rnd64_max (x : ℝ) : |rnd64 x - x| ≤ 1 / 2 ^ 53 * max 1 |x| := by
  rcases le_or_gt (2 ^ (-1022 : Int)) |x| with h | h
  · have h1 := rnd64_std h
    have h2 : |x| ≤ max 1 |x| := le_max_right _ _
    calc |rnd64 x - x| ≤ |x| / 2 ^ 53 := h1
      _ = 1 / 2 ^ 53 * |x| := by ring
      _ ≤ _ := mul_le_mul_of_nonneg_left h2 (by positivity)
  · have h1 := rnd64_rel x
    have h2 : (1 : ℝ) ≤ max 1 |x| := le_max_left _ _
    have h3 : (2 : ℝ) ^ (-1022 : Int) ≤ 2 ^ (-1 : Int) := zpow_le_zpow_right₀ (by norm_num) (by norm_num)
    have h4 : (2 : ℝ) ^ (-1075 : Int) ≤ 2 ^ (-54 : Int) := zpow_le_zpow_right₀ (by norm_num) (by norm_num)
    have h5 : (2 : ℝ) ^ (-1 : Int) = 1 / 2 := by norm_num
    have h6 : (2 : ℝ) ^ (-54 : Int) = 1 / 2 ^ 54 := by norm_num
    rw [h5] at h3
    rw [h6] at h4
    clear h5 h6
    generalize (2 : ℝ) ^ (-1022 : Int) = a at *
    generalize (2 : ℝ) ^ (-1075 : Int) = b at *
    have h7 : |x| ≤ 1 / 2 := by linarith
    have h8 : |x| / 2 ^ 53 ≤ 1 / 2 / 2 ^ 53 := div_le_div_of_nonneg_right h7 (by positivity)
    have h9 : 1 / 2 ^ 53 * 1 ≤ 1 / 2 ^ 53 * max 1 |x| := mul_le_mul_of_nonneg_left h2 (by positivity)
    have h10 : (1 : ℝ) / 2 / 2 ^ 53 + 1 / 2 ^ 54 = 1 / 2 ^ 53 * 1 := by norm_num
    linarith

theorem lib64_accurate : Log2Accurate lib64 (1 / 2 ^ 53) (1 / 2 ^ 53) where
  rel := rnd64_max
  exact := fun _ h => rnd64_nat h
  pow_nonneg := fun d => rnd64_nonneg (by positivity)
  pow := fun d => by
    have hq : (0 : ℝ) < (2 : ℝ) ^ d := by positivity
    refine (rnd64_max _).trans (mul_le_mul_of_nonneg_left ?_ (by positivity))
    rw [abs_of_pos hq]
    exact max_le (by linarith) (by linarith)
  log := fun x _ => (rnd64_max _).trans (mul_le_mul_of_nonneg_left
    (max_le (by linarith [abs_nonneg (logb 2 x)]) (by linarith)) (by positivity))

theorem lib64_monotone : Log2Monotone lib64 where
  mono := rnd64_mono
  idem := rnd64_idem
  zero := rnd64_zero
  one := rnd64_one
  pow_nonneg := lib64_accurate.pow_nonneg
  log_nonneg := fun _ hx => rnd64_nonneg (logb_nonneg (by norm_num) hx)

theorem lib64_pow (n : Nat) (hn : 1024 ≤ n) : 2 ^ 1024 ≤ lib64.pow2 n := by
  have h1 : rnd64 ((2 : ℝ) ^ (1024 : Int)) = 2 ^ (1024 : Int) := rnd64_two_zpow (by norm_num)
  have h2 : (2 : ℝ) ^ (1024 : Int) = 2 ^ (1024 : Nat) := zpow_natCast 2 1024
  show (2 : ℝ) ^ (1024 : Nat) ≤ rnd64 ((2 : ℝ) ^ ((n : Nat) : ℝ))
  rw [rpow_natCast]
  calc (2 : ℝ) ^ (1024 : Nat) = rnd64 ((2 : ℝ) ^ (1024 : Nat)) := by rw [← h2]; exact h1.symm
    _ ≤ _ := rnd64_mono (pow_le_pow_right₀ (by norm_num) hn)

/-- Up to 1023 columns and a billion pruned branches: with correctly rounded functions the value is off by less than 1/1000. -/
theorem C145_billion {α : Type} [LinearOrder α] [Zero α] [Neg α] (S : Search α) (hn : S.ncols ≤ 1023) (M : Int) (hM : M ≠ 1)
    (pre : List (Node α)) (s : SState α) (h : SelectReaches S M pre s) (p : α × Nat × List Nat) (hp : p ∈ s.progress)
    (hm : p.2.2.length ≤ 10 ^ 9) :
    ∃ v, reportedLog2Fl lib64 S p = .fin v ∧ |v - trueLog2 S.ncols p.2.2| < 1 / 1000 := by
  have h1 : (p.2.2.length : ℝ) ≤ 10 ^ 9 := by exact_mod_cast hm
  have h2 : (S.ncols : ℝ) ≤ 1023 := by exact_mod_cast hn
  have h3 : p.2.2.length * ((1 / 2 ^ 53 + 1 / 2 ^ 53) * (4 * (S.ncols : ℝ) + 16)) < 1 / 1000 := by
    calc p.2.2.length * ((1 / 2 ^ 53 + 1 / 2 ^ 53) * (4 * (S.ncols : ℝ) + 16))
        ≤ 10 ^ 9 * ((1 / 2 ^ 53 + 1 / 2 ^ 53) * (4 * 1023 + 16)) := by gcongr
      _ < 1 / 1000 := by norm_num
  obtain ⟨v, e1, e2⟩ := C145_accurate_partial lib64 lib64_accurate (by positivity) (by positivity) S hn M hM pre s h p hp
    (by linarith)
  exact ⟨v, e1, lt_of_le_of_lt e2 h3⟩

/-! ### 1024 columns -/

/-- 1024 columns; models with the first feature are not promising. -/
def wideSearch : Search Int := { exSearch with
  ncols := 1024
  root := List.replicate 1023 false ++ [true]
  rss := fun _ => 5
  fit := fun _ => []
  bounds := fun m _ => if m.head? = some false then (0, 5) else (5, 5)
  huge := 100 }

/-- A run in which the branch of the models with the first feature is pruned. -/
theorem wide_run : ∃ s p, SelectReaches wideSearch 20 [pruneNode] s ∧ p ∈ s.progress ∧ p.2.2 = [0] := by
  obtain ⟨hs, s₀, s, h1, h2, h3, h4⟩ : ∃ hs s₀ s, (newHighscore 20).insertAll [pruneNode] = some hs ∧
      sinit wideSearch hs = some s₀ ∧ srun wideSearch s₀ (greedy wideSearch s₀ 12) = some s ∧
      s.progress.head?.map (fun p => p.2.2) = some [0] := by
    have h : (((newHighscore 20).insertAll [pruneNode]).any fun hs => (sinit wideSearch hs).any fun s₀ =>
        (srun wideSearch s₀ (greedy wideSearch s₀ 12)).any fun s =>
          decide (s.progress.head?.map (fun p => p.2.2) = some [0])) = true := by decide +kernel
    simp only [Option.any_eq_true, decide_eq_true_eq] at h
    obtain ⟨hs, h1, s₀, h2, s, h3, h4⟩ := h
    exact ⟨hs, s₀, s, h1, h2, h3, h4⟩
  cases hp : s.progress with
  | nil => simp [hp] at h4
  | cons p ps =>
    rw [hp] at h4
    simp only [List.head?_cons, Option.map_some, Option.some.injEq] at h4
    exact ⟨s, p, ⟨hs, s₀, h1, h2, srun_reach h3⟩, by simp [hp], h4⟩

/-- The claim is false for 1024 columns: a search reports plus infinity after one pruned branch. -/
theorem C145_refuted : ∃ s p, SelectReaches wideSearch 20 [pruneNode] s ∧ p ∈ s.progress ∧ p.2.2 = [0] ∧
    reportedLog2Fl lib64 wideSearch p = .posInf ∧ trueLog2 wideSearch.ncols p.2.2 < 1025 := by
  obtain ⟨s, p, h1, h2, h3⟩ := wide_run
  have e : wideSearch.ncols = 1024 := rfl
  refine ⟨s, p, h1, h2, h3, C145_overflow lib64 lib64_monotone (fun _ h => rnd64_nat h) lib64_pow wideSearch
    (by rw [e]; norm_num) p 0 (by rw [h3]; rfl) (by rw [e]), ?_⟩
  rw [h3]
  unfold trueLog2
  rw [e, Real.logb_lt_iff_lt_rpow (by norm_num) (add_pos_of_pos_of_nonneg one_pos (Nat.cast_nonneg _))]
  have h4 : ((1025 : ℕ) : ℝ) = 1025 := by norm_num
  rw [← h4, rpow_natCast]
  simp only [List.map_cons, List.map_nil, List.sum_cons, List.sum_nil, Nat.sub_zero, add_zero]
  push_cast
  have h5 : (1 : ℝ) < 2 ^ 1024 := one_lt_pow₀ (by norm_num) (by norm_num)
  have h6 : (2 : ℝ) ^ 1025 = 2 * 2 ^ 1024 := by rw [pow_succ]; ring
  rw [h6]
  clear h6
  generalize (2 : ℝ) ^ 1024 = Q at *
  linarith

/-- The search of `C73_refuted` (3 pruned branches) meets the hypotheses of the accuracy theorem. -/
example : ∃ s p v, SelectReaches pruneSearch 20 [pruneNode] s ∧ p ∈ s.progress ∧
    reportedLog2Fl lib64 pruneSearch p = .fin v ∧ |v - trueLog2 3 p.2.2| < 1 / 1000 ∧ (2 : ℝ) ^ trueLog2 3 p.2.2 = 15 := by
  obtain ⟨s, p, h1, h2, h3, -⟩ := C73_refuted
  have hlt : ∀ l ∈ p.2.2, l < pruneSearch.ncols := fun l hl =>
    pruned_lt (by norm_num) h1 l (((progress_reach (by norm_num) h1).2 p h2).2.subset hl)
  have ht : log2Pruned 3 p.2.2 = trueLog2 3 p.2.2 := log2Pruned_true 3 p.2.2 fun l hl => (hlt l hl).le
  have h15 : (2 : ℝ) ^ trueLog2 3 p.2.2 = 15 := by rw [← ht]; exact h3
  have hlen : p.2.2.length ≤ 10 ^ 9 := by
    have h4 := two_pow_log2Pruned 3 p.2.2 fun l hl => (hlt l hl).le
    rw [ht, h15] at h4
    have h5 : (p.2.2.map (fun l => 2 ^ (3 - l))).sum = 14 := by
      have : (((p.2.2.map (fun l => 2 ^ (3 - l))).sum : Nat) : ℝ) = 14 := by linarith
      exact_mod_cast this
    have h6 : p.2.2.length ≤ (p.2.2.map (fun l => 2 ^ (3 - l))).sum := by
      generalize p.2.2 = ls
      induction ls with
      | nil => simp
      | cons l ls ih =>
        simp only [List.length_cons, List.map_cons, List.sum_cons]
        have : 1 ≤ 2 ^ (3 - l) := Nat.one_le_two_pow
        omega
    omega
  obtain ⟨v, h7, h8⟩ := C145_billion pruneSearch (by simp [pruneSearch, exSearch]) 20 (by norm_num) _ s h1 p h2 hlen
  exact ⟨s, p, v, h1, h2, h7, h8, h15⟩

end GoSelect
