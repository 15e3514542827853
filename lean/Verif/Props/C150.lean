import Verif.Model.CohenCommandFl
import Verif.Props.C98
import Verif.Props.C141
import Verif.Props.C147
import Verif.Props.C148

/-!
# C150: the regularisation that `goselect-cohenlasso` recommends is a positive number

This holds for positive ends of the grid.  Otherwise a target without a number as regularisation has the largest possible kappa.
-/

namespace GoSelect

open Spec
open scoped List

/-! ### The targets -/

theorem logspaceFl_length {rnd logf expf : ℝ → ℝ} {min max : Fl ℝ} {num : Int} {l : List (Fl ℝ)}
    (h : logspaceFl rnd logf expf min max num = some l) : l.length = num.toNat := by
  unfold logspaceFl at h
  split at h
  · rename_i h0; cases h; simp [h0]
  split at h
  · rename_i h0; cases h; simp [h0]
  split at h
  · cases h
  cases h
  simp

theorem cohenTargetsFl_spec {rnd logf expf : ℝ → ℝ} {f : CohenFlagsFl} {X : Mat (Fl ℝ)} {y : List (Fl ℝ)}
    {targets : List CohenTargetFl} (h : cohenTargetsFl rnd logf expf f X y = some targets) :
    ∃ Z lambs, normalizedMatrixFl X = some Z ∧ logspaceFl rnd logf expf f.lambMin f.lambMax f.numLamb = some lambs ∧
      targets.map (fun t => t.lamb) = lambs.reverse ∧ ∀ t ∈ targets, t.X = Z ∧ t.y = normalizedResponse y ∧ t.tol = f.tol := by
  unfold cohenTargetsFl at h
  obtain ⟨Z, h1, h⟩ := Option.bind_eq_some_iff.1 h
  split at h
  · cases h
  obtain ⟨lambs, h2, h⟩ := Option.bind_eq_some_iff.1 h
  have hlen := logspaceFl_length h2
  have hg : ∀ i ∈ List.range f.numLamb.toNat, (lambs[lambs.length - i - 1]?).map (fun lamb =>
      (⟨Z, normalizedResponse y, lamb, f.tol⟩ : CohenTargetFl)) =
      some ⟨Z, normalizedResponse y, lambs.reverse.getD i .nan, f.tol⟩ := by
    intro i hi
    have hi := List.mem_range.1 hi
    have h3 : lambs.length - i - 1 < lambs.length := by omega
    rw [List.getElem?_eq_getElem h3, Option.map_some]
    have : lambs.reverse.getD i .nan = lambs[lambs.length - i - 1] := by
      rw [List.getD_eq_getElem _ _ (by rw [List.length_reverse]; omega), List.getElem_reverse]
      congr 1
      omega
    rw [this]
  rw [mapM_of_forall hg, Option.some.injEq] at h
  subst h
  refine ⟨Z, lambs, h1, h2, ?_, ?_⟩
  · rw [List.map_map]
    apply List.ext_getElem
    · simp [hlen]
    · intro i g1 g2
      simp only [List.getElem_map, List.getElem_range, Function.comp]
      rw [List.getD_eq_getElem _ _ g2]
  · intro t ht
    obtain ⟨i, -, rfl⟩ := List.mem_map.1 ht
    exact ⟨rfl, rfl, rfl⟩

theorem CohenRunFl.reach {rnd : ℝ → ℝ} {dot : Nat → (Nat → Fl ℝ) → (Nat → Fl ℝ) → Fl ℝ} {targets : List CohenTargetFl} {n : Nat}
    {s : Pool (CohenMain ℝ) Nat (Nat × Fl ℝ)} (h : CohenRunFl rnd dot targets n s) : CohenReach targets.length s :=
  PoolReach.mono (fun _ _ hr => hr.1) h

/-! ### Positive ends -/

/-- The claim in full: with at least one regularisation, what a finished run recommends is a positive number. -/
def Spec.RecommendsNumber (rnd logf expf : ℝ → ℝ) (dot : Nat → (Nat → Fl ℝ) → (Nat → Fl ℝ) → Fl ℝ) : Prop :=
  ∀ (f : CohenFlagsFl) (X : Mat (Fl ℝ)) (y : List (Fl ℝ)) (targets : List CohenTargetFl)
    (s : Pool (CohenMain ℝ) Nat (Nat × Fl ℝ)), 1 ≤ f.numSamples → y.length = X.nr →
    cohenTargetsFl rnd logf expf f X y = some targets → CohenRunFl rnd dot targets f.numSamples s →
    CohenDone targets.length s → ∀ lamb, cohenResultFl targets s = some lamb → PosNumber lamb

theorem cohenResultFl_mem {targets : List CohenTargetFl} {s : Pool (CohenMain ℝ) Nat (Nat × Fl ℝ)} {lamb : Fl ℝ}
    (h : cohenResultFl targets s = some lamb) : ∃ j t, s.main.bestHyper = some j ∧ targets[j]? = some t ∧ t.lamb = lamb := by
  unfold cohenResultFl at h
  obtain ⟨j, h1, h2⟩ := Option.bind_eq_some_iff.1 h
  obtain ⟨t, h3, h4⟩ := Option.map_eq_some_iff.1 h2
  exact ⟨j, t, h1, h3, h4⟩

/-- With ends between `1e-300` and `1e300`, in binary64 with correctly rounded functions, every target has a positive number close to a
value of the exact grid as its regularisation; so what is recommended is such a number. -/
theorem C150_positive_partial (dot : Nat → (Nat → Fl ℝ) → (Nat → Fl ℝ) → Fl ℝ) (f : CohenFlagsFl) (min max : ℝ)
    (hmin : 1 / 10 ^ 300 ≤ min) (hle : min ≤ max) (hmax : max ≤ 10 ^ 300) (e1 : f.lambMin = .fin min) (e2 : f.lambMax = .fin max)
    (hn : f.numLamb ≤ 2 ^ 53) (X : Mat (Fl ℝ)) (y : List (Fl ℝ)) (targets : List CohenTargetFl)
    (ht : cohenTargetsFl rnd64 (fun x => rnd64 (Real.log x)) (fun x => rnd64 (Real.exp x)) f X y = some targets)
    (s : Pool (CohenMain ℝ) Nat (Nat × Fl ℝ)) (h : CohenRunFl rnd64 dot targets f.numSamples s) (lamb : Fl ℝ)
    (hres : cohenResultFl targets s = some lamb) :
    PosNumber lamb ∧ ∃ v : ℝ, lamb = .fin v ∧ (f.numLamb = 1 ∧ v = min ∨ 2 ≤ f.numLamb ∧ ∃ i < f.numLamb.toNat,
      |v - gridPoint min max f.numLamb.toNat i| ≤ 1 / 10 ^ 11 * gridPoint min max f.numLamb.toNat i) := by
  have h0 : 0 < min := lt_of_lt_of_le (by positivity) hmin
  obtain ⟨Z, lambs, -, h2, h3, -⟩ := cohenTargetsFl_spec ht
  obtain ⟨j, t, -, h5, h6⟩ := cohenResultFl_mem hres
  have hmem : lamb ∈ lambs := by
    rw [← List.mem_reverse, ← h3, ← h6]
    exact List.mem_map_of_mem (List.mem_of_getElem? h5)
  rw [e1, e2] at h2
  have hlen := logspaceFl_length h2
  have hpos := List.length_pos_of_mem hmem
  rcases (show f.numLamb = 1 ∨ 2 ≤ f.numLamb by omega) with hc | hc
  · rw [hc] at h2
    have : lambs = [.fin min] := by
      simp only [logspaceFl] at h2
      simpa using h2.symm
    rw [this, List.mem_singleton] at hmem
    exact ⟨⟨min, h0, hmem⟩, min, hmem, .inl ⟨hc, rfl⟩⟩
  · obtain ⟨num, hnum⟩ : ∃ num : Nat, f.numLamb = num := ⟨f.numLamb.toNat, by omega⟩
    rw [hnum] at h2 hn hc ⊢
    obtain ⟨v, g1, g2, -⟩ := C147_binary64 min max hmin hle hmax num (by omega) (by exact_mod_cast hn)
    rw [g1, Option.some.injEq] at h2
    rw [← h2] at hmem
    obtain ⟨i, hi, rfl⟩ := List.mem_map.1 hmem
    have hi := List.mem_range.1 hi
    have hg : 0 < gridPoint min max num i := by
      rw [gridPoint_exp h0 (h0.trans_le hle)]
      exact Real.exp_pos _
    refine ⟨⟨v i, ?_, rfl⟩, v i, rfl, .inr ⟨hc, i, by simpa using hi, by simpa using g2 i hi⟩⟩
    have := (abs_le.1 (g2 i hi)).1
    have h8 : 1 / 10 ^ 11 * gridPoint min max num i < gridPoint min max num i := by
      have : (1 : ℝ) / 10 ^ 11 < 1 := by norm_num
      exact mul_lt_of_lt_one_left hg this
    linarith

/-! ### Other ends -/

/-- Without a number as regularisation nothing is selected. -/
theorem selection_nan {dot : Nat → (Nat → Fl ℝ) → (Nat → Fl ℝ) → Fl ℝ} {t : CohenTargetFl} (hl : t.lamb = .nan) {indices l : List Nat}
    (h : t.selection dot indices = some l) : l = [] := by
  unfold CohenTargetFl.selection at h
  split at h
  · cases h
  obtain ⟨Z, -, rfl⟩ := Option.map_eq_some_iff.1 h
  unfold selectionFl
  rw [List.filter_eq_nil_iff]
  intro j _
  rw [crd_nan _ hl]
  simp

theorem sample_nan {dot : Nat → (Nat → Fl ℝ) → (Nat → Fl ℝ) → Fl ℝ} {t : CohenTargetFl} (hl : t.lamb = .nan) {indices : List Nat}
    {x : List Int × List Int} (h : t.sample dot indices = some x) : x = ([], []) := by
  unfold CohenTargetFl.sample at h
  obtain ⟨a, h1, h2⟩ := Option.bind_eq_some_iff.1 h
  obtain ⟨b, h3, rfl⟩ := Option.map_eq_some_iff.1 h2
  rw [selection_nan hl h1, selection_nan hl h3]
  rfl

theorem round_nat {rnd : ℝ → ℝ} (hexact : ∀ n : Nat, n ≤ 2 ^ 53 → rnd n = n) {k : Nat} (hk : k ≤ 2 ^ 53) :
    roundFl rnd (.fin (k : ℝ)) = .fin (k : ℝ) := by
  have h1 : |(k : ℝ)| < 2 ^ 1024 := by
    rw [abs_of_nonneg (Nat.cast_nonneg k)]
    have : (k : ℝ) ≤ 2 ^ 53 := by exact_mod_cast hk
    exact this.trans_lt (pow_lt_pow_right₀ (by norm_num) (by norm_num))
  show Log2Lib.ovf (rnd k) = _
  rw [hexact k hk, ovf_fin h1]

theorem kappa_empty {rnd : ℝ → ℝ} (hexact : ∀ n : Nat, n ≤ 2 ^ 53 → rnd n = n) (nc N : Nat) (h1 : 1 ≤ N) (h2 : N ≤ 2 ^ 53) :
    getCohensKappaFl rnd nc (List.replicate N ([], [])) = .fin 1 := by
  have hfold : ∀ m k : Nat, m + k ≤ 2 ^ 53 → (List.replicate m (([], []) : List Int × List Int)).foldl
      (fun kappa s => roundFl rnd (Fl.add kappa (cohenKappaFl rnd s.1 s.2 nc))) (.fin (k : ℝ)) = .fin ((m + k : Nat) : ℝ) := by
    intro m
    induction m with
    | zero => intro k _; simp
    | succ m ih =>
      intro k hk
      rw [List.replicate_succ, List.foldl_cons]
      have : Fl.add (.fin (k : ℝ)) (cohenKappaFl rnd [] [] nc) = .fin ((k + 1 : Nat) : ℝ) := by
        simp [cohenKappaFl, Fl.add]
      rw [this, round_nat hexact (by omega), ih (k + 1) (by omega)]
      congr 2
      omega
  unfold getCohensKappaFl natFl quotFl
  have := hfold N 0 (by omega)
  simp only [Nat.cast_zero, Nat.add_zero] at this
  rw [this, List.length_replicate, hexact N h2]
  have hN : (N : ℝ) ≠ 0 := by
    have : N ≠ 0 := by omega
    exact_mod_cast this
  rw [div_fin hN, div_self hN]
  have := round_nat hexact (k := 1) (by norm_num)
  simpa using this

/-- Without a number as regularisation, Cohen's kappa is exactly 1 whatever the data and the samples. -/
theorem C150_kappa_nan {rnd : ℝ → ℝ} (hexact : ∀ n : Nat, n ≤ 2 ^ 53 → rnd n = n)
    (dot : Nat → (Nat → Fl ℝ) → (Nat → Fl ℝ) → Fl ℝ) (t : CohenTargetFl) (hl : t.lamb = .nan) (shuffles : List (List Nat))
    (h1 : 1 ≤ shuffles.length) (h2 : shuffles.length ≤ 2 ^ 53) (k : Fl ℝ) (hk : t.kappa rnd dot shuffles = some k) : k = .fin 1 := by
  unfold CohenTargetFl.kappa at hk
  obtain ⟨samples, h3, rfl⟩ := Option.map_eq_some_iff.1 hk
  rw [mapM_some_iff] at h3
  have hlen : samples.length = shuffles.length := by
    have := congrArg List.length h3
    simpa using this.symm
  have hall : samples = List.replicate samples.length ([], []) := by
    rw [List.eq_replicate_iff]
    refine ⟨rfl, fun x hx => ?_⟩
    have : some x ∈ shuffles.map (t.sample dot) := by rw [h3]; exact List.mem_map_of_mem hx
    obtain ⟨indices, -, hi⟩ := List.mem_map.1 this
    exact sample_nan hl hi
  rw [hall]
  exact kappa_empty hexact _ _ (by omega) (by omega)

/-- As soon as an end of the grid is not a positive number, the last target has no number as its regularisation and always the kappa
1; every finished run recommends a target whose kappa is at least that. -/
theorem C150_best {rnd logf expf : ℝ → ℝ} (hexact : ∀ n : Nat, n ≤ 2 ^ 53 → rnd n = n)
    (dot : Nat → (Nat → Fl ℝ) → (Nat → Fl ℝ) → Fl ℝ) (f : CohenFlagsFl) (h2 : 2 ≤ f.numLamb) (hn : f.numLamb ≤ 2 ^ 53)
    (hs1 : 1 ≤ f.numSamples) (hs2 : f.numSamples ≤ 2 ^ 53) (hbad : ¬ (PosNumber f.lambMin ∧ PosNumber f.lambMax)) (X : Mat (Fl ℝ))
    (y : List (Fl ℝ)) (targets : List CohenTargetFl) (ht : cohenTargetsFl rnd logf expf f X y = some targets)
    (s : Pool (CohenMain ℝ) Nat (Nat × Fl ℝ)) (h : CohenRunFl rnd dot targets f.numSamples s) (hd : CohenDone targets.length s) :
    ∃ t, targets.getLast? = some t ∧ t.lamb = .nan ∧ (∃ p ∈ s.got, p.2.1 = targets.length - 1 ∧ p.2.2 = .fin 1) ∧
      ∃ p ∈ s.got, s.main.bestHyper = some p.2.1 ∧ ¬ p.2.2 < .fin 1 := by
  obtain ⟨num, hnum⟩ : ∃ num : Nat, f.numLamb = num := ⟨f.numLamb.toNat, by omega⟩
  obtain ⟨Z, lambs, -, g2, g3, -⟩ := cohenTargetsFl_spec ht
  rw [hnum] at g2
  obtain ⟨l, g4, g5⟩ := C147_nan_first (rnd := rnd) (logf := logf) (expf := expf) hexact f.lambMin f.lambMax num (by omega)
    (by rw [hnum] at hn; exact_mod_cast hn) hbad
  rw [g4, Option.some.injEq] at g2
  have hlen : targets.length = l.length + 1 := by
    have := congrArg List.length g3
    rw [← g2] at this
    simpa using this
  have hne : targets ≠ [] := by
    rintro rfl
    simp at hlen
  obtain ⟨t, hlast⟩ : ∃ t, targets.getLast? = some t := ⟨_, List.getLast?_eq_getLast_of_ne_nil hne⟩
  have hlamb : t.lamb = .nan := by
    have := congrArg List.getLast? g3
    rw [List.getLast?_map, hlast, ← g2, List.getLast?_reverse] at this
    simpa using this
  have hreach := CohenRunFl.reach h
  have hperm := (C41_each_once _ s hreach hd).2
  have hk : targets.length - 1 < targets.length := by omega
  obtain ⟨q, hq, hqk⟩ := List.mem_map.1 (hperm.mem_iff.2 (List.mem_range.2 hk))
  have hqv : q.2.2 = .fin 1 := by
    obtain ⟨e, t', shuffles, a1, a2, a3⟩ := (PoolInv.reach h).got q hq
    rw [← e, hqk, ← List.getLast?_eq_getElem?, hlast, Option.some.injEq] at a1
    subst a1
    exact C150_kappa_nan hexact dot t hlamb shuffles (by rw [a2.1]; exact hs1) (by rw [a2.1]; exact hs2) _ a3
  refine ⟨t, hlast, hlamb, ⟨q, hq, hqk, hqv⟩, ?_⟩
  obtain ⟨hb1, hb2⟩ := C41_best _ s hreach
  cases hbest : s.main.bestHyper with
  | none =>
    exfalso
    exact hb2.1 hbest q hq (by rw [hqv]; exact fl_lt_fin.2 one_pos)
  | some j =>
    obtain ⟨p, hp, hpj, -, hmax⟩ := hb1 j hbest
    refine ⟨p, hp, by rw [hpj], ?_⟩
    rw [← hqv]
    exact hmax q hq

/-- With 0 or a negative number as the smaller end, no target has a number as its regularisation: all have the kappa 1, and a finished
run recommends NaN. -/
theorem C150_all {rnd logf expf : ℝ → ℝ} (hexact : ∀ n : Nat, n ≤ 2 ^ 53 → rnd n = n)
    (dot : Nat → (Nat → Fl ℝ) → (Nat → Fl ℝ) → Fl ℝ) (f : CohenFlagsFl) (h2 : 2 ≤ f.numLamb) (hn : f.numLamb ≤ 2 ^ 53)
    (hs1 : 1 ≤ f.numSamples) (hs2 : f.numSamples ≤ 2 ^ 53) (min max : ℝ) (e1 : f.lambMin = .fin min) (e2 : f.lambMax = .fin max)
    (hmin : min ≤ 0) (X : Mat (Fl ℝ)) (y : List (Fl ℝ)) (targets : List CohenTargetFl)
    (ht : cohenTargetsFl rnd logf expf f X y = some targets) (s : Pool (CohenMain ℝ) Nat (Nat × Fl ℝ))
    (h : CohenRunFl rnd dot targets f.numSamples s) :
    (∀ t ∈ targets, t.lamb = .nan) ∧ (∀ p ∈ s.got, p.2.2 = .fin 1) ∧
      (CohenDone targets.length s → cohenResultFl targets s = some .nan) := by
  obtain ⟨num, hnum⟩ : ∃ num : Nat, f.numLamb = num := ⟨f.numLamb.toNat, by omega⟩
  have hbad : ¬ (PosNumber f.lambMin ∧ PosNumber f.lambMax) := by
    rintro ⟨⟨x, h1, h2⟩, -⟩
    rw [e1] at h2
    cases h2
    exact absurd h1 (not_lt.2 hmin)
  have hall : ∀ t ∈ targets, t.lamb = .nan := by
    obtain ⟨Z, lambs, -, g2, g3, -⟩ := cohenTargetsFl_spec ht
    rw [hnum, e1, e2] at g2
    rw [C147_nan_all hexact min max num (by omega) (by rw [hnum] at hn; exact_mod_cast hn) hmin, Option.some.injEq] at g2
    intro t htm
    have : t.lamb ∈ lambs := by
      rw [← List.mem_reverse, ← g3]
      exact List.mem_map_of_mem htm
    rw [← g2] at this
    exact List.eq_of_mem_replicate this
  refine ⟨hall, ?_, ?_⟩
  · intro p hp
    obtain ⟨-, t, shuffles, a1, a2, a3⟩ := (PoolInv.reach h).got p hp
    exact C150_kappa_nan hexact dot t (hall t (List.mem_of_getElem? a1)) shuffles (by rw [a2.1]; exact hs1)
      (by rw [a2.1]; exact hs2) _ a3
  · intro hd
    obtain ⟨-, -, -, -, p, hp, hbest, -⟩ := C150_best hexact dot f h2 hn hs1 hs2 hbad X y targets ht s h hd
    obtain ⟨e, t, -, a1, -⟩ := (PoolInv.reach h).got p hp
    rw [← e] at a1
    unfold cohenResultFl
    rw [hbest, Option.bind_some, a1, Option.map_some, hall t (List.mem_of_getElem? a1)]

/-! ### A finished run -/

/-- If no half of the rows makes the normalisation panic, some run ends. -/
theorem cohenRunFl_ends (rnd : ℝ → ℝ) (dot : Nat → (Nat → Fl ℝ) → (Nat → Fl ℝ) → Fl ℝ) (targets : List CohenTargetFl) (n : Nat)
    (hk : ∀ t ∈ targets, ∃ k, t.kappa rnd dot (List.replicate n (List.range t.X.nr)) = some k) :
    ∃ s, CohenRunFl rnd dot targets n s ∧ CohenDone targets.length s := by
  by_contra hcon
  push Not at hcon
  have hstep : ∀ s : {s // CohenRunFl rnd dot targets n s}, ∃ s' : {s // CohenRunFl rnd dot targets n s},
      PoolStep (cohenAct cohenWorkers targets.length) (cohenKappaOfFl rnd dot targets n) s.1 s'.1 := by
    rintro ⟨s, h⟩
    suffices ∃ s', PoolStep (cohenAct cohenWorkers targets.length) (cohenKappaOfFl rnd dot targets n) s s' by
      obtain ⟨s', h'⟩ := this
      exact ⟨⟨s', .step h h'⟩, h'⟩
    obtain ⟨s', hs⟩ := C41_no_deadlock targets.length s (CohenRunFl.reach h) (hcon s h)
    cases hs with
    | spawn m h => exact ⟨_, .spawn m h⟩
    | tau m h => exact ⟨_, .tau m h⟩
    | send w m i h hi => exact ⟨_, .send w m i h hi⟩
    | recv g w i r h hi => exact ⟨_, .recv g w i r h hi⟩
    | compute w i r hi hr =>
      have hw : w < targets.length := by
        have hinv := cohen_inv (by decide) (CohenRunFl.reach h)
        have hmem : w ∈ s.sent := by
          have h1 : w ∈ s.workers.filterMap Worker.held := List.mem_filterMap.2 ⟨_, List.mem_of_getElem? hi, rfl⟩
          have h2 : w ∈ (s.sent : Multiset Nat) := by
            rw [hinv.pool.sent]
            exact Multiset.mem_add.2 (.inr (Multiset.mem_coe.2 h1))
          exact Multiset.mem_coe.1 h2
        rw [hinv.sent, List.mem_range] at hmem
        have hle : s.main.nextTarget ≤ targets.length := by
          have := hinv.phase
          unfold CohenPhaseInv at this
          split at this <;> omega
        omega
      have hget : targets[w]? = some targets[w] := List.getElem?_eq_getElem hw
      have hS : Shuffles targets[w].X.nr n (List.replicate n (List.range targets[w].X.nr)) :=
        ⟨by simp, fun j hj => by rw [List.eq_of_mem_replicate hj]⟩
      obtain ⟨k, hk⟩ := hk _ (List.getElem_mem hw)
      exact ⟨_, .compute w i (w, k) hi ⟨rfl, _, _, hget, hS, hk⟩⟩
  choose next hnext using hstep
  refine C41_terminates targets.length (fun k => (next^[k] ⟨poolInit cohenInit, .init⟩).1) rfl
    (fun k => PoolStep.mono (fun _ _ hr => hr.1) (?_ : PoolStep _ (cohenKappaOfFl rnd dot targets n) _ _))
  simp only [Function.iterate_succ', Function.comp]
  exact hnext _

namespace CohenExample

/-- Two rows for each half: the rows of `dataOf [0, 1, 2, 3]`. -/
noncomputable def rowsFl : Mat (Fl ℝ) := finMat (dataOf [0, 1, 2, 3]).X

theorem rowsFl_col : colOf rowsFl 1 = ([0, 1, 2, 3] : List ℝ).map .fin := by
  simp [colOf, rowsFl, finMat, dataOf, List.range_succ]

theorem rowsFl_normal : ∃ Z, normalizedMatrixFl rowsFl = some Z ∧ Z.nr = 4 ∧ Z.nc = 2 ∧ ∀ r < 4,
    Z.get r 1 = .fin (((r : ℝ) - goMean [0, 1, 2, 3]) / goStd [0, 1, 2, 3]) := by
  have hstd : stdFl (colOf rowsFl 1) = .fin (goStd [0, 1, 2, 3]) := by rw [rowsFl_col, stdFl_fin]
  have hno : ¬ ∃ c < rowsFl.nc, c ≠ 0 ∧ stdFl (colOf rowsFl c) < .fin (1 / 10 ^ 10) := by
    rintro ⟨c, hc, h0, hs⟩
    have hc : c < 2 := hc
    obtain rfl : c = 1 := by omega
    rw [hstd, fl_lt_fin] at hs
    exact absurd hs (not_lt.2 std_01.1)
  unfold normalizedMatrixFl
  rw [if_neg hno]
  refine ⟨_, rfl, rfl, rfl, fun r hr => ?_⟩
  have h1 : ¬ (Fl.fin (goStd [0, 1, 2, 3]) < Fl.fin (1 / 10 ^ 10 : ℝ)) := by
    rw [fl_lt_fin]
    exact not_lt.2 std_01.1
  have h2 : rowsFl.get r 1 = .fin (r : ℝ) := by
    have : r = 0 ∨ r = 1 ∨ r = 2 ∨ r = 3 := by omega
    rcases this with rfl | rfl | rfl | rfl <;> simp [rowsFl, finMat, dataOf]
  simp only [hstd, if_neg h1]
  rw [rowsFl_col, meanFl_fin (by simp), h2]
  have : Fl.sub (.fin (r : ℝ)) (.fin (goMean [0, 1, 2, 3])) = .fin ((r : ℝ) - goMean [0, 1, 2, 3]) := by
    simp [Fl.sub, Fl.neg, Fl.add, sub_eq_add_neg]
  rw [this, div_fin std_y.ne']

/-- The flags `-lambMin 0 -numLamb 3 -numSamp 5`, otherwise the defaults. -/
noncomputable def flagsFl : CohenFlagsFl := ⟨.fin 0, .fin 1, 3, 5, .fin (1 / 10 ^ 4)⟩

theorem pair_ok {Z : Mat (Fl ℝ)} (h1 : Z.nr = 4) (h2 : Z.nc = 2)
    (h3 : ∀ r < 4, Z.get r 1 = .fin (((r : ℝ) - goMean [0, 1, 2, 3]) / goStd [0, 1, 2, 3])) (y : List (Fl ℝ)) (hy : y.length = 4)
    (dot : Nat → (Nat → Fl ℝ) → (Nat → Fl ℝ) → Fl ℝ) (lamb tol : Fl ℝ) (a b : Nat) (ha : a < 4) (hb : b < 4) (hab : a ≠ b) :
    ∃ l, (⟨Z, y, lamb, tol⟩ : CohenTargetFl).selection dot [a, b] = some l := by
  unfold CohenTargetFl.selection
  rw [if_neg]
  · have hno : ¬ ∃ c < (subRows Z [a, b]).nc, c ≠ 0 ∧ stdFl (colOf (subRows Z [a, b]) c) < .fin (1 / 10 ^ 10) := by
      rintro ⟨c, hc, h0, hs⟩
      have hc : c < Z.nc := hc
      obtain rfl : c = 1 := by omega
      have hcol : colOf (subRows Z [a, b]) 1 = [((a : ℝ) - goMean [0, 1, 2, 3]) / goStd [0, 1, 2, 3],
          ((b : ℝ) - goMean [0, 1, 2, 3]) / goStd [0, 1, 2, 3]].map .fin := by
        simp [colOf, subRows, List.range_succ, h3 a ha, h3 b hb]
      rw [hcol, stdFl_fin, fl_lt_fin] at hs
      refine absurd hs (std_pair _ _ ?_)
      rw [← sub_div, sub_sub_sub_cancel_right, abs_div, abs_of_pos std_y, le_div_iff₀ std_y]
      have h1 : (1 : ℝ) ≤ |(a : ℝ) - b| := by
        have : (1 : Int) ≤ |(a : Int) - b| := Int.one_le_abs (by omega)
        exact_mod_cast this
      have := std_01.2
      linarith
    unfold normalizedMatrixFl
    rw [if_neg hno]
    exact ⟨_, rfl⟩
  · rintro (h | h | ⟨i, hi, h⟩)
    · cases h
    · simp only at h; omega
    · simp only [List.mem_cons, List.not_mem_nil, or_false] at hi
      simp only [h1, hy] at h
      rcases hi with rfl | rfl <;> omega

/-- Some run of the command on these rows ends, for all flags. -/
theorem run_ends (f : CohenFlagsFl) (hf : 0 ≤ f.numLamb) (dot : Nat → (Nat → Fl ℝ) → (Nat → Fl ℝ) → Fl ℝ) : ∃ targets s,
    cohenTargetsFl rnd64 (fun x => rnd64 (Real.log x)) (fun x => rnd64 (Real.exp x)) f rowsFl
      (([0, 1, 2, 3] : List ℝ).map .fin) = some targets ∧ CohenRunFl rnd64 dot targets f.numSamples s ∧
    CohenDone targets.length s := by
  obtain ⟨Z, hZ, h1, h2, h3⟩ := rowsFl_normal
  obtain ⟨targets, ht⟩ : ∃ targets, cohenTargetsFl rnd64 (fun x => rnd64 (Real.log x)) (fun x => rnd64 (Real.exp x)) f rowsFl
      (([0, 1, 2, 3] : List ℝ).map .fin) = some targets := by
    unfold cohenTargetsFl
    rw [hZ, Option.bind_some, if_neg (by omega)]
    obtain ⟨l, hg⟩ : ∃ l, logspaceFl rnd64 (fun x => rnd64 (Real.log x)) (fun x => rnd64 (Real.exp x)) f.lambMin f.lambMax
        f.numLamb = some l := by
      unfold logspaceFl
      split
      · exact ⟨_, rfl⟩
      split
      · exact ⟨_, rfl⟩
      rw [if_neg (by omega)]
      exact ⟨_, rfl⟩
    have hlen := logspaceFl_length hg
    rw [hg, Option.bind_some]
    refine mapM_isSome (fun i hi => ?_)
    have hi := List.mem_range.1 hi
    rw [List.getElem?_eq_getElem (by omega)]
    exact ⟨_, rfl⟩
  obtain ⟨Z', -, g1, -, -, g4⟩ := cohenTargetsFl_spec ht
  rw [hZ, Option.some.injEq] at g1
  subst g1
  obtain ⟨s, h, hd⟩ := cohenRunFl_ends rnd64 dot targets f.numSamples (by
    rintro ⟨X, y, lamb, tol⟩ htm
    obtain ⟨rfl, rfl, -⟩ := g4 _ htm
    unfold CohenTargetFl.kappa
    suffices ∃ x, (⟨X, normalizedResponse (([0, 1, 2, 3] : List ℝ).map .fin), lamb, tol⟩ : CohenTargetFl).sample dot
        (List.range X.nr) = some x by
      obtain ⟨x, hx⟩ := this
      obtain ⟨out, ho⟩ := mapM_isSome (l := List.replicate f.numSamples (List.range X.nr)) (fun i hi => by
        rw [List.eq_of_mem_replicate hi]
        exact ⟨x, hx⟩)
      rw [ho]
      exact ⟨_, rfl⟩
    unfold CohenTargetFl.sample
    simp only at h1 h2 h3
    simp only [h1]
    have hy : (normalizedResponse (([0, 1, 2, 3] : List ℝ).map .fin)).length = 4 := by
      simp [normalizedResponse]
    obtain ⟨l1, e1⟩ := pair_ok h1 h2 h3 _ hy dot lamb tol 0 1 (by decide) (by decide) (by decide)
    obtain ⟨l2, e2⟩ := pair_ok h1 h2 h3 _ hy dot lamb tol 2 3 (by decide) (by decide) (by decide)
    have k1 : (kappaHalves 4 (List.range 4)).1 = [0, 1] := by decide
    have k2 : (kappaHalves 4 (List.range 4)).2 = [2, 3] := by decide
    rw [k1, k2, e1, e2]
    exact ⟨_, rfl⟩)
  exact ⟨targets, s, ht, h, hd⟩

/-- Hypotheses of the theorem for positive ends: the default flags. -/
example (dot : Nat → (Nat → Fl ℝ) → (Nat → Fl ℝ) → Fl ℝ) : (1 : ℝ) / 10 ^ 300 ≤ 1 / 10 ^ 5 ∧ (1 : ℝ) / 10 ^ 5 ≤ 1 ∧ (1 : ℝ) ≤ 10 ^ 300 ∧
    ∃ targets s, cohenTargetsFl rnd64 (fun x => rnd64 (Real.log x)) (fun x => rnd64 (Real.exp x))
      ⟨.fin (1 / 10 ^ 5), .fin 1, 20, 100, .fin (1 / 10 ^ 4)⟩ rowsFl (([0, 1, 2, 3] : List ℝ).map .fin) = some targets ∧
      CohenRunFl rnd64 dot targets 100 s ∧ CohenDone targets.length s :=
  ⟨one_div_le_one_div_of_le (by positivity) (pow_le_pow_right₀ (by norm_num) (by norm_num)), by norm_num, one_le_pow₀ (by norm_num),
    run_ends ⟨.fin (1 / 10 ^ 5), .fin 1, 20, 100, .fin (1 / 10 ^ 4)⟩ (by decide) dot⟩

end CohenExample

open CohenExample in
/-- C150: `goselect-cohenlasso -lambMin 0` recommends NaN. -/
theorem C150_refuted (dot : Nat → (Nat → Fl ℝ) → (Nat → Fl ℝ) → Fl ℝ) :
    ¬ RecommendsNumber rnd64 (fun x => rnd64 (Real.log x)) (fun x => rnd64 (Real.exp x)) dot := by
  intro hall
  obtain ⟨targets, s, ht, h, hd⟩ := run_ends flagsFl (by decide) dot
  have := (C150_all (fun _ h => rnd64_nat h) dot flagsFl (by decide) (by decide) (by decide) (by decide) 0 1 rfl rfl le_rfl _ _
    targets ht s h).2.2 hd
  obtain ⟨x, -, hx⟩ := hall _ _ _ targets s (by decide) (by simp [rowsFl, finMat, dataOf]) ht h hd _ this
  cases hx

end GoSelect
