import Verif.Props.C178

/-!
# C181: the lasso on repeated rows
-/

namespace GoSelect

open Finset Spec

/-- All rows of the data `k` times. -/
structure Spec.RepeatedRows {K : Type} (k : Nat) (X X' : Mat K) (y y' : Nat → K) : Prop where
  nr : X'.nr = k * X.nr
  nc : X'.nc = X.nc
  get : ∀ i < X'.nr, ∀ j < X.nc, X'.get i j = X.get (i % X.nr) j
  resp : ∀ i < X'.nr, y' i = y (i % X.nr)

section
variable {K : Type} [Field K] [LinearOrder K] [IsStrictOrderedRing K] {k : Nat} {X X' : Mat K} {y y' : Nat → K}

omit [LinearOrder K] [IsStrictOrderedRing K] in
theorem sum_repeated (k n : Nat) (f : Nat → K) : ∑ i ∈ range (k * n), f (i % n) = k * ∑ i ∈ range n, f i := by
  induction k with
  | zero => simp
  | succ k ih =>
    have : ∑ x ∈ range n, f ((k * n + x) % n) = ∑ i ∈ range n, f i := by
      refine sum_congr rfl fun x hx => ?_
      rw [Nat.mul_comm, Nat.mul_add_mod, Nat.mod_eq_of_lt (mem_range.1 hx)]
    rw [Nat.succ_mul, sum_range_add, ih, this]
    push_cast
    ring

theorem Spec.RepeatedRows.lin (h : RepeatedRows k X X' y y') (b : Nat → K) {i : Nat} (hi : i < X'.nr) :
    lin X' b i = lin X b (i % X.nr) := by
  unfold Spec.lin
  rw [h.nc]
  exact sum_congr rfl fun j hj => by rw [h.get i hi j (mem_range.1 hj)]

theorem Spec.RepeatedRows.squares (h : RepeatedRows k X X' y y') (b : Nat → K) :
    ∑ r ∈ Finset.range X'.nr, Spec.residual X' y' b r ^ 2 = k * ∑ r ∈ Finset.range X.nr, Spec.residual X y b r ^ 2 := by
  rw [← sum_repeated k X.nr (fun r => Spec.residual X y b r ^ 2), ← h.nr]
  refine sum_congr rfl fun r hr => ?_
  have e := h.lin b (mem_range.1 hr)
  unfold Spec.lin at e
  unfold Spec.residual
  rw [e, h.resp r (mem_range.1 hr)]

/-- **C181.** The objective of `LassoCrdDesc` is the same on the repeated rows. -/
theorem C181_objective (hk : 1 ≤ k) (h : RepeatedRows k X X' y y') (lamb : K) (b : Nat → K) :
    lassoObjective X' y' lamb b = lassoObjective X y lamb b := by
  have hk0 : (k : K) ≠ 0 := by exact_mod_cast (by omega : k ≠ 0)
  unfold lassoObjective
  rw [h.squares, h.nr, h.nc]
  congr 1
  rcases Nat.eq_zero_or_pos X.nr with h0 | h0
  · simp [h0]
  · have : (X.nr : K) ≠ 0 := by exact_mod_cast h0.ne'
    push_cast
    field_simp

/-- **C181.** The lasso solutions of `LassoLars` on the repeated rows are those on the data, with `k` times the regularisation. -/
theorem C181_solutions (hk : 1 ≤ k) (h : RepeatedRows k X X' y y') (lamb : K) (b : Nat → K) :
    IsLassoMin X' y' (k * lamb) b ↔ IsLassoMin X y lamb b := by
  have hk0 : (0 : K) < k := by exact_mod_cast hk
  have e : ∀ b, lassoRisk X' y' (k * lamb) b = k * lassoRisk X y lamb b := by
    intro b
    unfold lassoRisk
    rw [h.squares, h.nc]
    ring
  unfold IsLassoMin
  refine forall_congr' fun b' => ?_
  rw [e, e, mul_le_mul_iff_right₀ hk0]

/-- **C181.** Paths of `LassoLars` on the data and on the repeated rows, without degenerate iterations: the point of the second at `k`
times the regularisation has the same predictions and the same sum of absolute coefficients, and the same coefficients if the columns are
independent. -/
theorem C181_path (hk : 1 ≤ k) (h : RepeatedRows k X X' y y') {tol tol' lambMin lambMin' : K}
    {est est' : Nat → List Nat → List K → Option (List K × List K)} {path path' : List (LassoLarsNode K)}
    (hr : CleanRun X y tol lambMin est path) (hr' : CleanRun X' y' tol' lambMin' est' path') {lamb : K} {b b' : Nat → K}
    (hb : OnPath path lamb b) (hb' : OnPath path' (k * lamb) b') :
    (∀ i < X'.nr, lin X' b' i = lin X b (i % X.nr)) ∧
    (0 < lamb → ∑ j ∈ Finset.range X.nc, |b j| = ∑ j ∈ Finset.range X.nc, |b' j|) ∧
    (Independent X (List.range X.nc) → ∀ j < X.nc, b j = b' j) := by
  obtain ⟨hl, m1⟩ := CleanRun.onPath hr hb
  obtain ⟨-, m2⟩ := CleanRun.onPath hr' hb'
  obtain ⟨r1, r2, r3⟩ := C108_unique X y _ hl _ _ m1 ((C181_solutions hk h _ _).1 m2)
  refine ⟨fun i hi => ?_, r2, r3⟩
  have hpos : 0 < X.nr := by
    rcases Nat.eq_zero_or_pos X.nr with h0 | h0
    · rw [h.nr, h0] at hi
      simp at hi
    · exact h0
  rw [h.lin _ hi, r1 _ (Nat.mod_lt _ hpos)]

end

/-! ### Example: one column, both rows twice -/

namespace RepeatExample

open LarsExample

def X2 : Mat ℚ := ⟨4, 1, fun i _ => X1.get (i % 2) 0⟩
def y2 (i : Nat) : ℚ := y (i % 2)
def est2 (_ : Nat) (active : List Nat) (signs : List ℚ) : Option (List ℚ × List ℚ) :=
  some (active.map (fun _ => -3), signs.map (· / 2))
def t0 : LarsState ℚ := (larsInit X2 y2).getD ⟨0, [], fun _ => 0, none, []⟩
def t1 : LarsState ℚ :=
  match larsBody X2 y2 lassoTol 1 est2 t0 with
  | .next s' => s'
  | _ => t0

theorem repeated : RepeatedRows 2 X1 X2 y y2 := by
  refine ⟨rfl, rfl, fun i _ j hj => ?_, fun i _ => rfl⟩
  have : j = 0 := by
    simp only [X1] at hj
    omega
  subst this
  rfl

theorem reach2 {s : LarsState ℚ} (h : LarsReach X2 y2 lassoTol 1 est2 s) : s = t0 ∨ s.lamb = 0 := by
  have h1 : t1.lamb = 0 := by decide +kernel
  induction h with
  | init h => left; unfold t0; rw [h]; rfl
  | step _ hb ih =>
    rcases ih with rfl | h0
    · right
      unfold t1 at h1
      rw [hb] at h1
      exact h1
    · unfold larsBody at hb
      rw [if_pos (by rw [h0]; norm_num)] at hb
      cases hb

theorem indep2 : Independent X2 [0] := by
  intro w hw h0 i
  by_cases hi : i = 0
  · subst hi
    have h1 := h0 1 (by simp [X2])
    simpa [X2, X1, X, Finset.sum_range_succ] using h1
  · exact hw i (by simpa using hi)

theorem ok_t0 : LarsStepOk X2 y2 lassoTol 1 est2 t0 := by
  intro _ c d he
  have hE : t0.activeSet.insertionSort (· ≤ ·) = [0] := by decide +kernel
  have hs : t0.allSigns 0 = -1 := by decide +kernel
  have hl : t0.lamb = 6 := by decide +kernel
  rw [hE] at he ⊢
  simp only [List.map_cons, List.map_nil, hs, est2, Option.some.injEq, Prod.mk.injEq] at he ⊢
  obtain ⟨rfl, rfl⟩ := he
  rw [hl]
  constructor
  · constructor <;> decide +kernel
  · have hC : (spread [0] [(-3 : ℚ)] 0 : ℚ) = -3 := by decide +kernel
    have hD : (spread [0] [(-1 / 2 : ℚ)] 0 : ℚ) = -1 / 2 := by decide +kernel
    have hin : ∀ i < X2.nc, i ∈ [0] := by
      intro i hi
      simp only [X2] at hi
      simp only [List.mem_singleton]
      omega
    have hcross : ∀ i ∈ [0], ∀ t : ℚ, spread [0] [-3] i = t * spread [0] [-1 / 2] i → 6 ≤ t := by
      intro i hi t hc
      rw [List.mem_singleton.1 hi, hC, hD] at hc
      linarith
    refine ⟨indep2, fun i hi hiE => absurd (hin i hi) hiE, fun i hi t _ hc _ => hcross i hi t hc, ?_⟩
    intro i j t h0 h1 hi _
    exfalso
    rcases hi.2 with ⟨hiE, -⟩ | ⟨hiE, -, hc⟩
    · exact hiE (hin i hi.1)
    · linarith [hcross i hiE t hc]

theorem cleanRun2 : CleanRun X2 y2 lassoTol 1 est2 [⟨[0], 6, [0]⟩] := by
  refine ⟨by norm_num [lassoTol], by norm_num [lassoTol], by norm_num, ?_, ?_, _, rfl, runs_of_runFuel (n := 2) ?_⟩
  · intro i hi j hj hij
    simp only [X2] at hi hj
    omega
  · intro s h
    rcases reach2 h with rfl | h0
    · exact ok_t0
    · intro hl
      rw [h0] at hl
      norm_num at hl
  · decide +kernel

/-- The paths start at 3 and at 6. -/
example : ∃ b b', OnPath [⟨[0], 3, [0]⟩] (3 : ℚ) b ∧ OnPath [⟨[0], 6, [0]⟩] ((2 : Nat) * (3 : ℚ)) b' ∧
    ∀ i < 4, lin X2 b' i = lin X1 b (i % 2) := by
  have h1 : OnPath [⟨[0], 3, [0]⟩] (3 : ℚ) _ := ⟨0, _, _, 0, rfl, .inl rfl, le_rfl, by norm_num, by norm_num, rfl⟩
  have h2 : OnPath [⟨[0], 6, [0]⟩] ((2 : Nat) * (3 : ℚ)) _ :=
    ⟨0, _, _, 0, rfl, .inl rfl, le_rfl, by norm_num, by norm_num, rfl⟩
  exact ⟨_, _, h1, h2, (C181_path (by omega) repeated cleanRun1 cleanRun2 h1 h2).1⟩

/-- The solution at 2 is the one at 4 on the repeated rows. -/
example : ∃ b, IsLassoMin X1 y 2 b ∧ IsLassoMin X2 y2 ((2 : Nat) * 2) b ∧ b 0 = -1 := by
  have h1 : OnPath [⟨[0], 3, [1]⟩, ⟨[0, -2], 1, [0, 1]⟩] (2 : ℚ) _ :=
    ⟨0, _, _, 1 / 2, rfl, .inr rfl, by norm_num, by norm_num, by norm_num, rfl⟩
  have hm := (CleanRun.onPath cleanRun h1).2
  have hr := C178_restrict second_column y 2 _ second_used hm
  refine ⟨fun k => (1 - 1 / 2 : ℚ) * spread [1] [0] ([1].getD k 0) + 1 / 2 * spread [0, 1] [0, -2] ([1].getD k 0), hr,
    (C181_solutions (by omega) repeated 2 _).2 hr, ?_⟩
  decide +kernel

end RepeatExample

end GoSelect
