import Verif.Props.C127
import Verif.Props.C108
import Verif.Props.C177

/-!
# C178: leaving out columns that the lasso does not use
-/

namespace GoSelect

open Finset Spec

section
variable {K : Type} [Field K] [LinearOrder K] [IsStrictOrderedRing K] {idx : List Nat} {X X' : Mat K}

theorem Spec.ColumnsOf.getD_mem (_h : ColumnsOf idx X X') {k : Nat} (hk : k < idx.length) : idx.getD k 0 ∈ idx := by
  rw [List.getD_eq_getElem?_getD, List.getElem?_eq_getElem hk]
  exact List.getElem_mem hk

theorem Spec.ColumnsOf.idxOf_getD (h : ColumnsOf idx X X') {k : Nat} (hk : k < idx.length) : idx.idxOf (idx.getD k 0) = k := by
  have hn : idx.Nodup := h.sorted.imp Nat.ne_of_lt
  rw [List.getD_eq_getElem?_getD, List.getElem?_eq_getElem hk]
  exact hn.idxOf_getElem k hk

/-- Sums over the columns of a vector that is 0 outside of the columns kept. -/
theorem Spec.ColumnsOf.sum (h : ColumnsOf idx X X') (f : Nat → K) (hf : ∀ i, i ∉ idx → f i = 0) :
    ∑ i ∈ Finset.range X.nc, f i = ∑ k ∈ Finset.range X'.nc, f (idx.getD k 0) := by
  rw [h.nc]
  have hinj : Set.InjOn (fun k => idx.getD k 0) (Finset.range idx.length : Set Nat) := by
    intro a ha b hb hab
    have ha' : a < idx.length := by simpa using ha
    have hb' : b < idx.length := by simpa using hb
    have := congrArg idx.idxOf hab
    simp only [h.idxOf_getD ha', h.idxOf_getD hb'] at this
    exact this
  rw [← Finset.sum_image (f := f) hinj]
  symm
  refine Finset.sum_subset ?_ ?_
  · intro i hi
    obtain ⟨k, hk, rfl⟩ := Finset.mem_image.1 hi
    exact Finset.mem_range.2 (h.range _ (h.getD_mem (Finset.mem_range.1 hk)))
  · intro i _ hi
    refine hf i fun hmem => hi ?_
    have hlt := List.idxOf_lt_length_iff.2 hmem
    refine Finset.mem_image.2 ⟨idx.idxOf i, Finset.mem_range.2 hlt, ?_⟩
    simp only [List.getD_eq_getElem?_getD, List.getElem?_eq_getElem hlt]
    simp

theorem Spec.ColumnsOf.lin (h : ColumnsOf idx X X') (b : Nat → K) (hb : ∀ i, i ∉ idx → b i = 0) {r : Nat} (hr : r < X.nr) :
    lin X b r = lin X' (fun k => b (idx.getD k 0)) r := by
  unfold Spec.lin
  rw [h.sum (fun j => X.get r j * b j) (fun i hi => by simp [hb i hi])]
  refine sum_congr rfl fun k hk => ?_
  rw [h.get r hr k (h.nc ▸ mem_range.1 hk)]

theorem Spec.ColumnsOf.risk (h : ColumnsOf idx X X') (y : Nat → K) (lamb : K) (b : Nat → K) (hb : ∀ i, i ∉ idx → b i = 0) :
    lassoRisk X y lamb b = lassoRisk X' y lamb (fun k => b (idx.getD k 0)) := by
  unfold lassoRisk
  rw [h.sum (fun j => |b j|) (fun i hi => by simp [hb i hi]), h.nr]
  congr 2
  refine sum_congr rfl fun r hr => ?_
  have := h.lin b hb (mem_range.1 hr)
  unfold Spec.lin at this
  unfold Spec.residual
  rw [this]

/-- **C178.** A lasso solution that uses only the columns kept is, restricted to these, a lasso solution of the data without the others. -/
theorem C178_restrict (h : ColumnsOf idx X X') (y : Nat → K) (lamb : K) (b : Nat → K) (hb : ∀ i, i ∉ idx → b i = 0)
    (hmin : IsLassoMin X y lamb b) : IsLassoMin X' y lamb (fun k => b (idx.getD k 0)) := by
  intro w
  rw [← h.risk y lamb b hb]
  have hz : ∀ i, i ∉ idx → (fun i => if i ∈ idx then w (idx.idxOf i) else 0) i = 0 := fun i hi => by simp [hi]
  have e := h.risk y lamb (fun i => if i ∈ idx then w (idx.idxOf i) else 0) hz
  have e2 : lassoRisk X' y lamb (fun k => if idx.getD k 0 ∈ idx then w (idx.idxOf (idx.getD k 0)) else 0) = lassoRisk X' y lamb w := by
    have hk : ∀ k ∈ Finset.range X'.nc, (if idx.getD k 0 ∈ idx then w (idx.idxOf (idx.getD k 0)) else 0) = w k := by
      intro k hk
      have hk' : k < idx.length := h.nc ▸ Finset.mem_range.1 hk
      rw [if_pos (h.getD_mem hk'), h.idxOf_getD hk']
    unfold lassoRisk Spec.residual
    congr 1
    · congr 1
      refine sum_congr rfl fun r _ => ?_
      rw [Finset.sum_congr rfl fun k hk' => congrArg (X'.get r k * ·) (hk k hk')]
    · rw [Finset.sum_congr rfl fun k hk' => congrArg abs (hk k hk')]
  rw [← e2, ← e]
  exact hmin _

/-- **C178.** Paths of `LassoLars` on all columns and on some of them, without degenerate iterations, at the same regularisation.  If the
first one uses only columns that were kept, both have the same predictions and the same sum of absolute coefficients, and the same
coefficients if the columns kept are independent. -/
theorem C178_path (h : ColumnsOf idx X X') {y : Nat → K} {tol tol' lambMin lambMin' : K}
    {est est' : Nat → List Nat → List K → Option (List K × List K)} {path path' : List (LassoLarsNode K)}
    (hr : CleanRun X y tol lambMin est path) (hr' : CleanRun X' y tol' lambMin' est' path') {lamb : K} {b b' : Nat → K}
    (hb : OnPath path lamb b) (hb' : OnPath path' lamb b') (hused : ∀ i, i ∉ idx → b i = 0) :
    (∀ r < X.nr, lin X b r = lin X' b' r) ∧
    (0 < lamb → ∑ j ∈ Finset.range X.nc, |b j| = ∑ k ∈ Finset.range X'.nc, |b' k|) ∧
    (Independent X' (List.range X'.nc) → ∀ k < X'.nc, b' k = b (idx.getD k 0)) := by
  obtain ⟨hl, m1⟩ := CleanRun.onPath hr hb
  obtain ⟨-, m2⟩ := CleanRun.onPath hr' hb'
  obtain ⟨r1, r2, r3⟩ := C108_unique X' y _ hl _ _ m2 (C178_restrict h y _ _ hused m1)
  refine ⟨fun r hr => ?_, fun hlp => ?_, r3⟩
  · rw [h.lin _ hused hr]
    exact (r1 r (h.nr ▸ hr)).symm
  · rw [r2 hlp]
    exact h.sum _ (fun i hi => by rw [hused i hi, abs_zero])

end

namespace LarsExample

/-- The second column is enough for the path down to where the first one joins. -/
theorem second_column : ColumnsOf [1] X ⟨2, 1, fun i _ => X.get i 1⟩ := by
  refine ⟨rfl, rfl, by simp, ?_, fun i _ j hj => ?_⟩
  · intro f hf
    show f < 2
    simp at hf
    omega
  · have : j = 0 := by simpa using hj
    subst this
    rfl

theorem second_used (i : Nat) (hi : i ∉ [1]) :
    (1 - 1 / 2 : ℚ) * spread [1] [0] i + 1 / 2 * spread [0, 1] [0, -2] i = 0 := by
  have h1 : i ≠ 1 := by simpa using hi
  rcases eq_or_ne i 0 with rfl | h0
  · decide +kernel
  · simp [spread, h1, h0]

/-- Between the two nodes of the path only the second column is used. -/
example : ∃ b, IsLassoMin X y 2 b ∧ b 1 = -1 ∧ (∀ i, i ∉ [1] → b i = 0) ∧
    IsLassoMin ⟨2, 1, fun i _ => X.get i 1⟩ y 2 (fun k => b ([1].getD k 0)) := by
  have h1 : OnPath [⟨[0], 3, [1]⟩, ⟨[0, -2], 1, [0, 1]⟩] (2 : ℚ) _ :=
    ⟨0, _, _, 1 / 2, rfl, .inr rfl, by norm_num, by norm_num, by norm_num, rfl⟩
  have hm := (CleanRun.onPath cleanRun h1).2
  have hr := C178_restrict second_column y 2 _ second_used hm
  refine ⟨fun i => (1 - 1 / 2 : ℚ) * spread [1] [0] i + 1 / 2 * spread [0, 1] [0, -2] i, hm, ?_, second_used, hr⟩
  decide +kernel

/-! The path on the second column alone. -/

def X1 : Mat ℚ := ⟨2, 1, fun i _ => X.get i 1⟩
abbrev est1 := larsToyEst (fun _ => -3)
def t0 : LarsState ℚ := (larsInit X1 y).getD ⟨0, [], fun _ => 0, none, []⟩
def t1 : LarsState ℚ :=
  match larsBody X1 y lassoTol (1 / 2) est1 t0 with
  | .next s' => s'
  | _ => t0

theorem reach1 {s : LarsState ℚ} (h : LarsReach X1 y lassoTol (1 / 2) est1 s) : s = t0 ∨ s.lamb = 0 := by
  have h1 : t1.lamb = 0 := by decide +kernel
  induction h with
  | init h => left; unfold t0; rw [h]; rfl
  | step _ hb ih =>
    rcases ih with rfl | h0
    · right
      unfold t1 at h1
      rw [hb] at h1
      exact h1
    · unfold larsBody at hb
      rw [if_pos (by rw [h0]; norm_num)] at hb
      cases hb

theorem indep1 : Independent X1 [0] := by
  intro w hw h0 i
  by_cases hi : i = 0
  · subst hi
    have h1 := h0 1 (by simp [X1])
    simpa [X1, X, Finset.sum_range_succ] using h1
  · exact hw i (by simpa using hi)

theorem ok_t0 : LarsStepOk X1 y lassoTol (1 / 2) est1 t0 := by
  intro _ c d he
  have hE : t0.activeSet.insertionSort (· ≤ ·) = [0] := by decide +kernel
  have hs : t0.allSigns 0 = -1 := by decide +kernel
  have hl : t0.lamb = 3 := by decide +kernel
  rw [hE] at he ⊢
  simp only [List.map_cons, List.map_nil, hs, larsToyEst, Option.some.injEq, Prod.mk.injEq] at he ⊢
  obtain ⟨rfl, rfl⟩ := he
  rw [hl]
  constructor
  · constructor <;> decide +kernel
  · have hC : (spread [0] [(-3 : ℚ)] 0 : ℚ) = -3 := by decide +kernel
    have hD : (spread [0] [(-1 : ℚ)] 0 : ℚ) = -1 := by decide +kernel
    have hin : ∀ i < X1.nc, i ∈ [0] := by
      intro i hi
      simp only [X1] at hi
      simp only [List.mem_singleton]
      omega
    have hcross : ∀ i ∈ [0], ∀ t : ℚ, spread [0] [-3] i = t * spread [0] [-1] i → 3 ≤ t := by
      intro i hi t hc
      rw [List.mem_singleton.1 hi, hC, hD] at hc
      linarith
    refine ⟨indep1, fun i hi hiE => absurd (hin i hi) hiE, fun i hi t _ hc _ => hcross i hi t hc, ?_⟩
    intro i j t h0 h1 hi _
    exfalso
    rcases hi.2 with ⟨hiE, -⟩ | ⟨hiE, -, hc⟩
    · exact hiE (hin i hi.1)
    · linarith [hcross i hiE t hc]

theorem cleanRun1 : CleanRun X1 y lassoTol (1 / 2) est1 [⟨[0], 3, [0]⟩] := by
  refine ⟨by norm_num [lassoTol], by norm_num [lassoTol], by norm_num, ?_, ?_, _, rfl, runs_of_runFuel (n := 2) ?_⟩
  · intro i hi j hj hij
    simp only [X1] at hi hj
    omega
  · intro s h
    rcases reach1 h with rfl | h0
    · exact ok_t0
    · intro hl
      rw [h0] at hl
      norm_num at hl
  · decide +kernel

/-- Where the paths start. -/
example : ∃ b b', OnPath [⟨[0], 3, [1]⟩, ⟨[0, -2], 1, [0, 1]⟩] (3 : ℚ) b ∧ OnPath [⟨[0], 3, [0]⟩] (3 : ℚ) b' ∧
    ∀ r < 2, lin X b r = lin X1 b' r := by
  have h1 : OnPath [⟨[0], 3, [1]⟩, ⟨[0, -2], 1, [0, 1]⟩] (3 : ℚ) _ :=
    ⟨0, _, _, 0, rfl, .inl rfl, le_rfl, by norm_num, by norm_num, rfl⟩
  have h2 : OnPath [⟨[0], 3, [0]⟩] (3 : ℚ) _ := ⟨0, _, _, 0, rfl, .inl rfl, le_rfl, by norm_num, by norm_num, rfl⟩
  refine ⟨_, _, h1, h2, (C178_path second_column cleanRun cleanRun1 h1 h2 fun i hi => ?_).1⟩
  have : i ≠ 1 := by simpa using hi
  simp [spread, this]

end LarsExample

end GoSelect
