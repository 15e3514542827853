import Verif.Model.CohenCommand
import Verif.Props.C37_C38
import Verif.Props.C41
import Verif.Props.C77
import Verif.Props.C85
import Verif.Proofs.MapM
import Mathlib.Data.List.GetD

/-! # C98: the command `goselect-cohenlasso` -/

namespace GoSelect

open Spec
open scoped List

/-! ### Specification -/

/-- The lasso selection on the rows `rows`, as `GetSelection` of a new target gives it. -/
noncomputable def Spec.selectionOn {S : Type} [Inhabited S] (t : CohenTarget S) (rows : List Nat) : List Int :=
  (((t.getSelection ⟨[], default⟩ rows).map Prod.fst).getD []).map Int.ofNat

/-- `x` is the mean, over the shuffles, of the agreement between the selections on the first and the second half. -/
def Spec.MeanAgreement {S : Type} [Inhabited S] (t : CohenTarget S) (shuffles : List (List Nat)) (x : ℝ) : Prop :=
  ∃ agreement : List Nat → ℝ,
    (∀ i ∈ shuffles, cohenKappa (selectionOn t (i.take (t.X.nr / 2))) (selectionOn t (i.drop (t.X.nr / 2))) t.X.nc =
      .fin (agreement i)) ∧
    x = (shuffles.map agreement).sum / shuffles.length

/-- Among the rows `rows` a column other than the first is constant (its deviation is below 1e-10). -/
def Spec.ConstantOn (X : Mat ℝ) (rows : List Nat) : Prop :=
  ∃ c < X.nc, c ≠ 0 ∧ goStd (rows.map (fun i => X.get i c)) < 1 / 10 ^ 10

/-- One of the two halves is without rows, or has a constant column. -/
def Spec.BadShuffle (X : Mat ℝ) (shuffle : List Nat) : Prop :=
  ∃ half, (half = shuffle.take (X.nr / 2) ∨ half = shuffle.drop (X.nr / 2)) ∧ (half = [] ∨ ConstantOn X half)

/-! ### One target -/

section
variable {S : Type}

/-- `GetSelection` with the empirical covariance panics only for a bad sample. -/
theorem getSelection_none (t : CohenTarget S) (hcov : t.cov = .empirical) (hy : t.y.length = t.X.nr) (hnc : 0 < t.X.nc)
    (m : CohenMemory S) (rows : List Nat) (hr : ∀ i ∈ rows, i < t.X.nr) :
    t.getSelection m rows = none ↔ rows = [] ∨ ConstantOn t.X rows := by
  have e : t.getSelection m rows = none ↔ (t.getSelection m rows).map Prod.fst = none := by simp
  rw [e, getSelection_fst]
  by_cases hne : rows = []
  · simp [hne]
  have hc : ¬ (rows = [] ∨ t.X.nc = 0 ∨ ∃ i ∈ rows, t.X.nr ≤ i ∨ t.y.length ≤ i) := by
    rintro (h | h | ⟨i, hi, h⟩)
    · exact hne h
    · omega
    · have := hr i hi
      omega
  rw [if_neg hc]
  have hcol : ∀ c, colOf (subRows t.X rows) c = rows.map (fun i => t.X.get i c) := colOf_subRows t.X rows
  rcases newNormalizedData_inv (subRows t.X rows) (rows.map (fun i => t.y.getD i 0)) with ⟨⟨c, h1, h2, h3⟩, hn⟩ | ⟨d, hn, hd, -⟩
  · rw [hn]
    rw [hcol] at h3
    simp only [Option.bind_none, true_iff]
    exact .inr ⟨c, h1, h2, h3⟩
  · rw [hn]
    simp only [Option.bind_some, hcov, CovKind.get, hne, false_or]
    refine iff_of_false ?_ ?_
    · split
      · simp
      · unfold lassoCrdDesc
        have hdn : d.X.nc = t.X.nc := hd.nc
        rw [if_neg (by simp only [empiricalCov]; omega)]
        simp
    · rintro ⟨c, h1, h2, h3⟩
      rw [← hcol] at h3
      exact absurd h3 (not_lt.2 (hd.later c h1 h2))

variable [Inhabited S]

/-- A selection does not depend on earlier calls. -/
theorem getSelection_selectionOn (t : CohenTarget S) (hc : Memoryless t.corr) (m : CohenMemory S) (rows : List Nat)
    (r : List Nat × CohenMemory S) (h : t.getSelection m rows = some r) : selectionOn t rows = r.1.map Int.ofNat := by
  have := C85_no_memory t hc m ⟨[], default⟩ rows
  rw [h] at this
  unfold selectionOn
  rw [← this]
  rfl

/-- The selections are sets of existing features without the first. -/
theorem selectionOn_valid (t : CohenTarget S) (rows : List Nat) :
    IsSelection (selectionOn t rows) t.X.nc ∧ (0 < t.X.nc → (selectionOn t rows).length ≠ t.X.nc) := by
  unfold selectionOn
  cases h : t.getSelection ⟨[], default⟩ rows with
  | none =>
    refine ⟨⟨by simp, by simp⟩, ?_⟩
    simp only [Option.map_none, Option.getD_none, List.map_nil, List.length_nil]
    omega
  | some r =>
    obtain ⟨h1, h2⟩ := C85_valid t _ r.2 rows r.1 h
    simp only [Option.map_some, Option.getD_some]
    have hnd : r.1.Nodup := h1.imp (fun h => Nat.ne_of_lt h)
    refine ⟨⟨hnd.map (fun a b hab => Int.ofNat.inj hab), ?_⟩, ?_⟩
    · intro v hv
      obtain ⟨f, hf, rfl⟩ := List.mem_map.1 hv
      exact ⟨Int.natCast_nonneg f, Int.ofNat_lt.2 (h2 f hf).1⟩
    · intro hpos hlen
      rw [List.length_map] at hlen
      have hsub : r.1 ⊆ (List.range t.X.nc).erase 0 := by
        intro f hf
        rw [List.mem_erase_of_ne (h2 f hf).2, List.mem_range]
        exact (h2 f hf).1
      have := (hnd.subperm hsub).length_le
      rw [List.length_erase_of_mem (List.mem_range.2 hpos), List.length_range] at this
      omega

/-- The loop of `GetCohensKappa`. -/
theorem kappaLoop_eq (t : CohenTarget S) (hc : Memoryless t.corr) (hcov : t.cov = .empirical)
    (hy : t.y.length = t.X.nr) (hnc : 0 < t.X.nc) (shuffles : List (List Nat))
    (hs : ∀ i ∈ shuffles, i ~ List.range t.X.nr) (k : Fl ℝ) (m : CohenMemory S) :
    (t.kappaLoop shuffles k m = none ↔ ∃ i ∈ shuffles, BadShuffle t.X i) ∧
    ∀ k', t.kappaLoop shuffles k m = some k' →
      k' = shuffles.foldl (fun kappa i => Fl.add kappa (cohenKappa (selectionOn t (kappaHalves t.X.nr i).1)
        (selectionOn t (kappaHalves t.X.nr i).2) t.X.nc)) k := by
  induction shuffles generalizing k m with
  | nil => simp [CohenTarget.kappaLoop]
  | cons i rest ih =>
    have hi := hs i (List.mem_cons_self ..)
    have hlt : ∀ r ∈ i, r < t.X.nr := fun r hr => List.mem_range.1 (hi.mem_iff.1 hr)
    have n1 := fun m => getSelection_none t hcov hy hnc m (kappaHalves t.X.nr i).1
      (fun r hr => hlt r (List.mem_of_mem_take hr))
    have n2 := fun m => getSelection_none t hcov hy hnc m (kappaHalves t.X.nr i).2
      (fun r hr => hlt r (List.mem_of_mem_drop hr))
    have hbad : BadShuffle t.X i ↔ ((kappaHalves t.X.nr i).1 = [] ∨ ConstantOn t.X (kappaHalves t.X.nr i).1) ∨
        ((kappaHalves t.X.nr i).2 = [] ∨ ConstantOn t.X (kappaHalves t.X.nr i).2) := by
      constructor
      · rintro ⟨half, rfl | rfl, h⟩
        · exact .inl h
        · exact .inr h
      · rintro (h | h)
        · exact ⟨_, .inl rfl, h⟩
        · exact ⟨_, .inr rfl, h⟩
    rw [CohenTarget.kappaLoop]
    simp only [List.mem_cons, exists_eq_or_imp, hbad, List.foldl_cons]
    cases h1 : t.getSelection m (kappaHalves t.X.nr i).1 with
    | none => simp [(n1 m).1 h1]
    | some r1 =>
      have b1 : ¬ _ := fun h => by rw [(n1 m).2 h] at h1; cases h1
      simp only [Option.bind_some]
      cases h2 : t.getSelection r1.2 (kappaHalves t.X.nr i).2 with
      | none => simp [(n2 r1.2).1 h2]
      | some r2 =>
        have b2 : ¬ _ := fun h => by rw [(n2 r1.2).2 h] at h2; cases h2
        simp only [Option.bind_some, b1, b2, false_or]
        rw [getSelection_selectionOn t hc m _ r1 h1, getSelection_selectionOn t hc r1.2 _ r2 h2]
        exact ih (fun j hj => hs j (List.mem_cons_of_mem _ hj)) _ _

/-- C98: `GetCohensKappa` of a lasso target panics exactly when in one of the shuffles a half is without rows or has a
constant column.  Otherwise it gives the mean agreement, a number from -1 to 1, whatever calls were made before. -/
theorem C98_kappa (t : CohenTarget S) (hc : Memoryless t.corr) (hcov : t.cov = .empirical)
    (hy : t.y.length = t.X.nr) (hnc : 0 < t.X.nc) (shuffles : List (List Nat)) (n : Nat) (hn : 0 < n)
    (hs : Shuffles t.X.nr n shuffles) (m : CohenMemory S) :
    (t.kappa m shuffles = none ↔ ∃ i ∈ shuffles, BadShuffle t.X i) ∧
    ∀ k, t.kappa m shuffles = some k →
      ∃ x, k = .fin x ∧ MeanAgreement t shuffles x ∧ -1 ≤ x ∧ x ≤ 1 ∧
        (x = 1 ↔ ∀ i ∈ shuffles, ∀ v, v ∈ selectionOn t (i.take (t.X.nr / 2)) ↔ v ∈ selectionOn t (i.drop (t.X.nr / 2))) := by
  obtain ⟨h1, h2⟩ := kappaLoop_eq t hc hcov hy hnc shuffles hs.2 (.fin 0) m
  refine ⟨?_, fun k hk => ?_⟩
  · rw [← h1]
    simp [CohenTarget.kappa]
  · unfold CohenTarget.kappa at hk
    obtain ⟨k', hk', rfl⟩ := Option.map_eq_some_iff.1 hk
    have hne : shuffles ≠ [] := by
      rintro rfl
      have := hs.1
      simp at this
      omega
    obtain ⟨x, f, g1, g2, g3, g4, g5, g6⟩ := C77_mean (K := ℝ) t.X.nr t.X.nc (selectionOn t) shuffles hne
      (fun l => (selectionOn_valid t l).1) (fun i _ h => (selectionOn_valid t _).2 h.1 h.2.1)
    refine ⟨x, ?_, ⟨f, g2, g3⟩, g4, g5, g6⟩
    rw [h2 k' hk', ← g1]
    rfl

end

/-! ### The command -/

/-- The targets of the command: the same normalised data, and the regularisations from the largest index down. -/
theorem cohenTargets_spec {f : CohenFlags} {d : Dataset ℝ} {targets : List (CohenTarget Unit)}
    (h : cohenTargets f d = some targets) :
    ∃ n d' lambs, normalizeInPlace d = some (n, d') ∧ logspace f.lambMin f.lambMax f.numLamb = some lambs ∧
      targets.map (fun t => t.lamb) = lambs.reverse ∧
      ∀ t ∈ targets, t.X = d'.X ∧ t.y = d'.Y ∧ t.cov = .empirical ∧ t.corr = pureLasso := by
  unfold cohenTargets at h
  obtain ⟨⟨n, d'⟩, h1, h⟩ := Option.bind_eq_some_iff.1 h
  split at h
  · cases h
  rename_i hneg
  obtain ⟨lambs, h2, h⟩ := Option.bind_eq_some_iff.1 h
  have hlen : lambs.length = f.numLamb.toNat := by
    unfold logspace at h2
    split at h2
    · rename_i h0; cases h2; simp [h0]
    split at h2
    · rename_i h0; cases h2; simp [h0]
    split at h2
    · cases h2
    cases h2
    simp
  have hg : ∀ i ∈ List.range f.numLamb.toNat, (lambs[lambs.length - i - 1]?).map (fun lamb =>
      (⟨d'.X, d'.Y, lamb, .empirical, 100000, f.tol, pureLasso⟩ : CohenTarget Unit)) =
      some ⟨d'.X, d'.Y, lambs.reverse.getD i 0, .empirical, 100000, f.tol, pureLasso⟩ := by
    intro i hi
    have hi := List.mem_range.1 hi
    have h3 : lambs.length - i - 1 < lambs.length := by omega
    rw [List.getElem?_eq_getElem h3, Option.map_some]
    have : lambs.reverse.getD i 0 = lambs[lambs.length - i - 1] := by
      rw [List.getD_eq_getElem _ _ (by rw [List.length_reverse]; omega), List.getElem_reverse]
      congr 1
      omega
    rw [this]
  rw [mapM_of_forall hg, Option.some.injEq] at h
  subst h
  refine ⟨n, d', lambs, h1, h2, ?_, ?_⟩
  · rw [List.map_map]
    apply List.ext_getElem
    · simp [hlen]
    · intro i g1 g2
      simp only [List.getElem_map, List.getElem_range, Function.comp]
      rw [List.getD_eq_getElem _ _ g2]
  · intro t ht
    obtain ⟨i, -, rfl⟩ := List.mem_map.1 ht
    exact ⟨rfl, rfl, rfl, rfl⟩

theorem PoolStep.mono {M W R : Type} {act : M → Act M W R} {comp comp' : W → R → Prop} (hc : ∀ w r, comp w r → comp' w r)
    {s s' : Pool M W R} (h : PoolStep act comp s s') : PoolStep act comp' s s' := by
  cases h with
  | spawn m h => exact .spawn m h
  | tau m h => exact .tau m h
  | send w m i h hi => exact .send w m i h hi
  | compute w i r hi hr => exact .compute w i r hi (hc w r hr)
  | recv f w i r h hi => exact .recv f w i r h hi

theorem PoolReach.mono {M W R : Type} {act : M → Act M W R} {comp comp' : W → R → Prop} (hc : ∀ w r, comp w r → comp' w r)
    {m : M} {s : Pool M W R} (h : PoolReach act comp m s) : PoolReach act comp' m s := by
  induction h with
  | init => exact .init
  | step _ h' ih => exact .step ih (h'.mono hc)

theorem CohenRun.reach {targets : List (CohenTarget Unit)} {n : Nat} {s : Pool (CohenMain ℝ) Nat (Nat × Fl ℝ)}
    (h : CohenRun targets n s) : CohenReach targets.length s := PoolReach.mono (fun _ _ hr => hr.1) h

/-- What the command prints and returns: `rows` are the lines of the summary, `best` the regularisation that is returned.
Each regularisation of the grid has one line, with the mean agreement over `n` shuffles of the rows; the lines ascend. -/
structure Spec.CohenReport (targets : List (CohenTarget Unit)) (grid : List ℝ) (n : Nat) (rows : List (ℝ × Fl ℝ))
    (best : Option ℝ) : Prop where
  lambdas : rows.map Prod.fst ~ grid
  row : ∀ row ∈ rows, ∃ t ∈ targets, ∃ shuffles x, t.lamb = row.1 ∧ Shuffles t.X.nr n shuffles ∧ row.2 = .fin x ∧
    MeanAgreement t shuffles x ∧ -1 ≤ x ∧ x ≤ 1
  sorted : rows.Pairwise (fun a b => ¬ b.2 < a.2)
  largest : ∀ l, best = some l → ∃ row ∈ rows, row.1 = l ∧ .fin 0 < row.2 ∧ ∀ row' ∈ rows, ¬ row.2 < row'.2
  nothing : best = none ↔ ∀ row ∈ rows, ¬ .fin 0 < row.2

/-- What the results of a run are. -/
theorem CohenRun.got {f : CohenFlags} {d : Dataset ℝ} (hnr : 0 < d.X.nr) (hy : d.Y.length = d.X.nr) (hnc : 0 < d.X.nc)
    (hn : 0 < f.numSamples) {targets : List (CohenTarget Unit)} (ht : cohenTargets f d = some targets)
    {s : Pool (CohenMain ℝ) Nat (Nat × Fl ℝ)} (h : CohenRun targets f.numSamples s) :
    ∀ p ∈ s.got, ∃ t, targets[p.2.1]? = some t ∧ ∃ shuffles x, Shuffles t.X.nr f.numSamples shuffles ∧ p.2.2 = .fin x ∧
      MeanAgreement t shuffles x ∧ -1 ≤ x ∧ x ≤ 1 ∧ ¬ ∃ i ∈ shuffles, BadShuffle t.X i := by
  obtain ⟨nd, d', lambs, h1, h2, h3, h4⟩ := cohenTargets_spec ht
  obtain ⟨-, -, -, -, -, e1, e2, hnormal⟩ := normalizeInPlace_some hnr hy h1
  intro p hp
  obtain ⟨e, t, shuffles, g1, g2, g3⟩ := (PoolInv.reach h).got p hp
  obtain ⟨t1, t2, t3, t4⟩ := h4 t (List.mem_of_getElem? g1)
  have hk := C98_kappa t (by rw [t4]; exact pureLasso_memoryless) t3 (by rw [t2, t1]; exact hnormal.ylen)
    (by rw [t1]; omega) shuffles f.numSamples hn g2 ⟨[], ()⟩
  obtain ⟨x, k1, k2, k3, k4, -⟩ := hk.2 _ g3
  refine ⟨t, by rw [e]; exact g1, shuffles, x, g2, k1, k2, k3, k4, fun hb => ?_⟩
  rw [hk.1.2 hb] at g3
  cases g3

/-- C98: when the command ends, it has printed a summary with one line for every regularisation of the grid, ordered by
kappa, and has found the regularisation with the largest kappa, if that is positive. -/
theorem C98_report (sort : List (Fl ℝ × Nat) → List (Fl ℝ × Nat))
    (hsort : ∀ l, (∀ p ∈ l, p.1 ≠ .nan) → (sort l).Perm l ∧ (sort l).Pairwise (fun a b => ¬ b.1 < a.1))
    (f : CohenFlags) (d : Dataset ℝ) (hnr : 0 < d.X.nr) (hy : d.Y.length = d.X.nr) (hnc : 0 < d.X.nc)
    (hn : 0 < f.numSamples) (targets : List (CohenTarget Unit)) (ht : cohenTargets f d = some targets)
    (s : Pool (CohenMain ℝ) Nat (Nat × Fl ℝ)) (h : CohenRun targets f.numSamples s) (hd : CohenDone targets.length s) :
    ∃ grid rows, logspace f.lambMin f.lambMax f.numLamb = some grid ∧ cohenSummary sort targets s = some rows ∧
      CohenReport targets grid f.numSamples rows (cohenResult targets s) := by
  have hgot := h.got hnr hy hnc hn ht
  obtain ⟨nd, d', lambs, -, h2, h3, -⟩ := cohenTargets_spec ht
  set kappas := s.got.map (fun p => p.2.2) with hkap
  have hfin : ∀ p ∈ kappas.zipIdx, p.1 ≠ .nan := by
    intro p hp hnan
    have := List.fst_mem_of_mem_zipIdx hp
    rw [hnan, hkap, List.mem_map] at this
    obtain ⟨q, hq, e⟩ := this
    obtain ⟨t, -, sh, x, -, e', -⟩ := hgot q hq
    rw [e] at e'
    cases e'
  obtain ⟨s1, s2⟩ := hsort kappas.zipIdx hfin
  -- the row of a result
  let rowOf : Nat × (Nat × Fl ℝ) → ℝ × Fl ℝ := fun p => (((targets[p.2.1]?).map (fun t => t.lamb)).getD 0, p.2.2)
  have hperm : (argsort sort kappas).Perm (List.range s.got.length) := by
    have := s1.map (·.2)
    rw [List.zipIdx_map_snd, ← List.range_eq_range'] at this
    simpa [argsort, hkap] using this
  have hlook : ∀ k ∈ argsort sort kappas, (s.got[k]?).bind (fun p => (targets[p.2.1]?).map (fun t => (t.lamb, p.2.2))) =
      some (rowOf (s.got.getD k (0, 0, .nan))) := by
    intro k hk
    have hk : k < s.got.length := List.mem_range.1 (hperm.mem_iff.1 hk)
    rw [List.getD_eq_getElem _ _ hk, List.getElem?_eq_getElem hk, Option.bind_some]
    obtain ⟨t, e, -⟩ := hgot _ (List.getElem_mem hk)
    simp only [rowOf]
    rw [e]
    rfl
  have hsum : cohenSummary sort targets s =
      some ((argsort sort kappas).map (fun k => rowOf (s.got.getD k (0, 0, .nan)))) := mapM_of_forall hlook
  have hrows : (argsort sort kappas).map (fun k => rowOf (s.got.getD k (0, 0, .nan))) ~ s.got.map rowOf := by
    refine (hperm.map _).trans (List.Perm.of_eq ?_)
    apply List.ext_getElem
    · simp
    · intro i g1 g2
      simp only [List.length_map, List.length_range] at g1
      simp only [List.getElem_map, List.getElem_range]
      rw [List.getD_eq_getElem _ _ g1]
  have hmem : ∀ row ∈ (argsort sort kappas).map (fun k => rowOf (s.got.getD k (0, 0, .nan))), ∃ p ∈ s.got, rowOf p = row :=
    fun row hr => List.mem_map.1 (hrows.mem_iff.1 hr)
  refine ⟨lambs, _, h2, hsum, ?_, ?_, ?_, ?_, ?_⟩
  · refine ((hrows.map Prod.fst).trans ?_).trans lambs.reverse_perm
    rw [← h3, List.map_map]
    have hp2 := (C41_each_once targets.length s h.reach hd).2
    have e1 : s.got.map (Prod.fst ∘ rowOf) =
        (s.got.map (fun p => p.2.1)).map (fun w => ((targets[w]?).map (fun t => t.lamb)).getD 0) := by
      rw [List.map_map]
      rfl
    rw [e1]
    refine (hp2.map _).trans (List.Perm.of_eq ?_)
    apply List.ext_getElem
    · simp
    · intro i g1 g2
      simp only [List.length_map, List.length_range] at g1
      simp only [List.getElem_map, List.getElem_range]
      rw [List.getElem?_eq_getElem g1]
      rfl
  · intro row hr
    obtain ⟨p, hp, rfl⟩ := hmem row hr
    obtain ⟨t, e, sh, x, g1, g2, g3, g4, g5, -⟩ := hgot p hp
    refine ⟨t, List.mem_of_getElem? e, sh, x, ?_, g1, g2, g3, g4, g5⟩
    simp only [rowOf]
    rw [e]
    rfl
  · rw [List.pairwise_map]
    unfold argsort
    rw [List.pairwise_map]
    have key : ∀ a ∈ sort kappas.zipIdx, (rowOf (s.got.getD a.2 (0, 0, .nan))).2 = a.1 := by
      intro a ha
      have := List.mem_zipIdx_iff_getElem?.1 (s1.mem_iff.1 ha)
      rw [hkap, List.getElem?_map] at this
      obtain ⟨p, hp, e⟩ := Option.map_eq_some_iff.1 this
      rw [List.getD_eq_getElem?_getD, hp]
      exact e
    refine s2.imp_of_mem (fun ha hb hab => ?_)
    rw [key _ ha, key _ hb]
    exact hab
  · intro l hl
    unfold cohenResult at hl
    obtain ⟨w, hw, hl⟩ := Option.bind_eq_some_iff.1 hl
    obtain ⟨p, hp, e, hpos, htop⟩ := (C41_best targets.length s h.reach).1 w hw
    refine ⟨rowOf p, hrows.mem_iff.2 (List.mem_map_of_mem hp), ?_, hpos, ?_⟩
    · simp only [rowOf]
      rw [e, hl]
      rfl
    · intro row' hr
      obtain ⟨q, hq, rfl⟩ := hmem row' hr
      exact htop q hq
  · have hb := (C41_best targets.length s h.reach).2
    have hbest : cohenResult targets s = none ↔ s.main.bestHyper = none := by
      unfold cohenResult
      constructor
      · intro hnone
        cases hw : s.main.bestHyper with
        | none => rfl
        | some w =>
          obtain ⟨p, hp, e, -⟩ := (C41_best targets.length s h.reach).1 w hw
          obtain ⟨t, et, -⟩ := hgot p hp
          rw [e] at et
          rw [hw, Option.bind_some, et] at hnone
          cases hnone
      · intro hnone
        rw [hnone]
        rfl
    rw [hbest, hb]
    constructor
    · intro hall row hr
      obtain ⟨q, hq, rfl⟩ := hmem row hr
      exact hall q hq
    · intro hall q hq
      exact hall (rowOf q) (hrows.mem_iff.2 (List.mem_map_of_mem hq))

/-! ### Panics -/

/-- C98: the command can panic during the sampling exactly when some division of the normalised rows in two halves leaves
a half without rows or with a constant column. -/
theorem C98_panics (f : CohenFlags) (d d' : Dataset ℝ) (nd : NormalizedData) (hnr : 0 < d.X.nr)
    (hy : d.Y.length = d.X.nr) (hnc : 0 < d.X.nc) (hn : 0 < f.numSamples) (targets : List (CohenTarget Unit))
    (ht : cohenTargets f d = some targets) (hne : targets ≠ []) (hnd : normalizeInPlace d = some (nd, d')) :
    (∃ s, CohenRun targets f.numSamples s ∧ CohenMayPanic targets f.numSamples s) ↔
      ∃ i, i ~ List.range d.X.nr ∧ BadShuffle d'.X i := by
  obtain ⟨nd', d'', lambs, h1, -, -, h4⟩ := cohenTargets_spec ht
  rw [hnd, Option.some.injEq, Prod.mk.injEq] at h1
  obtain ⟨rfl, rfl⟩ := h1
  obtain ⟨-, -, -, -, -, e1, e2, hnormal⟩ := normalizeInPlace_some hnr hy hnd
  have hk : ∀ t ∈ targets, ∀ shuffles, Shuffles t.X.nr f.numSamples shuffles →
      (t.kappa ⟨[], ()⟩ shuffles = none ↔ ∃ i ∈ shuffles, BadShuffle t.X i) := by
    intro t htm shuffles hs
    obtain ⟨t1, t2, t3, t4⟩ := h4 t htm
    exact (C98_kappa t (by rw [t4]; exact pureLasso_memoryless) t3 (by rw [t2, t1]; exact hnormal.ylen)
      (by rw [t1]; omega) shuffles f.numSamples hn hs ⟨[], ()⟩).1
  constructor
  · rintro ⟨s, -, j, w, t, shuffles, -, g1, g2, g3⟩
    have htm := List.mem_of_getElem? g1
    obtain ⟨i, hi, hb⟩ := (hk t htm shuffles g2).1 g3
    rw [(h4 t htm).1] at hb
    refine ⟨i, ?_, hb⟩
    have := g2.2 i hi
    rwa [(h4 t htm).1, e1] at this
  · rintro ⟨i, hi, hb⟩
    have hpos : 0 < targets.length := List.length_pos_iff.2 hne
    have h0 : targets[0]? = some targets[0] := List.getElem?_eq_getElem hpos
    have htm : targets[0] ∈ targets := List.getElem_mem hpos
    have hS : Shuffles targets[0].X.nr f.numSamples (List.replicate f.numSamples i) := by
      refine ⟨by simp, fun j hj => ?_⟩
      rw [List.eq_of_mem_replicate hj, (h4 _ htm).1, e1]
      exact hi
    refine ⟨_, .step (.step .init (.spawn ⟨.sendFirst 0, 0, 0, .fin 0, none⟩ ?_))
      (.send 0 ⟨.spawning 1, 1, 0, .fin 0, none⟩ 0 ?_ rfl), 0, 0, targets[0],
      List.replicate f.numSamples i, rfl, h0, hS, ?_⟩
    · simp [cohenAct, poolInit, cohenInit, cohenWorkers, hpos]
    · rfl
    · refine (hk _ htm _ hS).2 ⟨i, List.mem_replicate.2 ⟨by omega, rfl⟩, ?_⟩
      rw [(h4 _ htm).1]
      exact hb

/-- C98: as long as no worker panics, the command goes on until it is done, and it does not go on forever. -/
theorem C98_progress (f : CohenFlags) (targets : List (CohenTarget Unit)) :
    (∀ s, CohenRun targets f.numSamples s → ¬ CohenDone targets.length s → ¬ CohenMayPanic targets f.numSamples s →
      ∃ s', PoolStep (cohenAct cohenWorkers targets.length) (cohenKappaOf targets f.numSamples) s s') ∧
    ∀ run : Nat → Pool (CohenMain ℝ) Nat (Nat × Fl ℝ), run 0 = poolInit cohenInit →
      ¬ ∀ k, PoolStep (cohenAct cohenWorkers targets.length) (cohenKappaOf targets f.numSamples) (run k) (run (k + 1)) := by
  constructor
  · intro s h hd hp
    obtain ⟨s', hs⟩ := C41_no_deadlock targets.length s h.reach hd
    cases hs with
    | spawn m h => exact ⟨_, .spawn m h⟩
    | tau m h => exact ⟨_, .tau m h⟩
    | send w m i h hi => exact ⟨_, .send w m i h hi⟩
    | recv g w i r h hi => exact ⟨_, .recv g w i r h hi⟩
    | compute w i r hi hr =>
      have hw : w < targets.length := by
        have hinv := cohen_inv (by decide) h.reach
        have hmem : w ∈ s.sent := by
          have h1 : w ∈ s.workers.filterMap Worker.held := List.mem_filterMap.2 ⟨_, List.mem_of_getElem? hi, rfl⟩
          have h2 : w ∈ (s.sent : Multiset Nat) := by
            rw [hinv.pool.sent]
            exact Multiset.mem_add.2 (.inr (Multiset.mem_coe.2 h1))
          exact Multiset.mem_coe.1 h2
        rw [hinv.sent, List.mem_range] at hmem
        have hle : s.main.nextTarget ≤ targets.length := by
          have := hinv.phase
          unfold CohenPhaseInv at this
          split at this <;> omega
        omega
      have hget : targets[w]? = some targets[w] := List.getElem?_eq_getElem hw
      have hS : Shuffles targets[w].X.nr f.numSamples
          (List.replicate f.numSamples (List.range targets[w].X.nr)) :=
        ⟨by simp, fun j hj => by rw [List.eq_of_mem_replicate hj]⟩
      cases hk : targets[w].kappa ⟨[], ()⟩ (List.replicate f.numSamples (List.range targets[w].X.nr)) with
      | none => exact absurd ⟨i, w, _, _, hi, hget, hS, hk⟩ hp
      | some k => exact ⟨_, .compute w i (w, k) hi ⟨rfl, _, _, hget, hS, hk⟩⟩
  · intro run h0 hs
    exact C41_terminates targets.length run h0 (fun k => (hs k).mono (fun _ _ hr => hr.1))

/-- All rows but one agree in column `c`. -/
def Spec.SingleDeviation (X : Mat ℝ) (c : Nat) : Prop := ∃ v r₀, ∀ r < X.nr, r ≠ r₀ → X.get r c = v

/-- C98: if in a column other than the first all rows but one agree, the command never ends normally. -/
theorem C98_single_deviation (f : CohenFlags) (d : Dataset ℝ) (hnr : 0 < d.X.nr) (hy : d.Y.length = d.X.nr)
    (hn : 0 < f.numSamples) (targets : List (CohenTarget Unit)) (ht : cohenTargets f d = some targets) (hne : targets ≠ [])
    (c : Nat) (hc : c < d.X.nc) (h0 : c ≠ 0) (hdev : SingleDeviation d.X c)
    (s : Pool (CohenMain ℝ) Nat (Nat × Fl ℝ)) (h : CohenRun targets f.numSamples s) : ¬ CohenDone targets.length s := by
  intro hd
  have hlen := (C41_count targets.length s h.reach).2 hd
  have hpos : 0 < targets.length := List.length_pos_iff.2 hne
  have hp : s.got[0]'(by omega) ∈ s.got := List.getElem_mem _
  obtain ⟨t, et, sh, x, hS, -, -, -, -, hgood⟩ := h.got hnr hy (by omega) hn ht _ hp
  obtain ⟨nd, d', lambs, h1, -, -, h4⟩ := cohenTargets_spec ht
  obtain ⟨hnorm, -, eX, -, -, e1, e2, -⟩ := normalizeInPlace_some hnr hy h1
  have hX : t.X = d'.X := (h4 t (List.mem_of_getElem? et)).1
  rw [hX] at hgood hS
  obtain ⟨v, r₀, hv⟩ := hdev
  obtain ⟨i, hi⟩ : ∃ i, i ∈ sh := by
    have := hS.1
    exact List.exists_mem_of_length_pos (by omega)
  apply hgood
  refine ⟨i, hi, ?_⟩
  have hperm := hS.2 i hi
  rw [e1] at hperm
  have hnd : i.Nodup := hperm.nodup_iff.2 List.nodup_range
  -- a half without the row `r₀` is constant
  have hconst : ∀ half : List Nat, (∀ r ∈ half, r ∈ i) → r₀ ∉ half → ConstantOn d'.X half := by
    intro half hsub hr
    refine ⟨c, by omega, h0, ?_⟩
    have hmap : ∀ r ∈ half, d'.X.get r c = (v - goMean (colOf d.X c)) /
        (if goStd (colOf d.X c) < 1 / 10 ^ 10 then 1 else goStd (colOf d.X c)) := by
      intro r hrm
      have hrn : r < d.X.nr := List.mem_range.1 (hperm.mem_iff.1 (hsub r hrm))
      rcases newNormalizedData_inv d.X d.Y with ⟨-, g⟩ | ⟨m, g, hinv, -⟩
      · rw [hnorm] at g; cases g
      rw [hnorm, Option.some.injEq] at g
      subst g
      rw [eX, hinv.done r c hc hrn, hv r hrn (fun e => hr (e ▸ hrm))]
    rw [goStd_constant]
    · norm_num
    · intro x hx z hz
      obtain ⟨r, hr1, rfl⟩ := List.mem_map.1 hx
      obtain ⟨q, hq1, rfl⟩ := List.mem_map.1 hz
      rw [hmap r hr1, hmap q hq1]
  have hsplit : i.take (d'.X.nr / 2) ++ i.drop (d'.X.nr / 2) = i := List.take_append_drop _ _
  by_cases hr : r₀ ∈ i.take (d'.X.nr / 2)
  · have hr2 : r₀ ∉ i.drop (d'.X.nr / 2) := by
      rw [← hsplit, List.nodup_append] at hnd
      exact fun h => hnd.2.2 r₀ hr r₀ h rfl
    exact ⟨_, .inr rfl, .inr (hconst _ (fun r => List.mem_of_mem_drop) hr2)⟩
  · exact ⟨_, .inl rfl, .inr (hconst _ (fun r => List.mem_of_mem_take) hr)⟩

/-- C98: without bad shuffles the command can end, and cannot panic. -/
theorem C98_ends (f : CohenFlags) (d d' : Dataset ℝ) (nd : NormalizedData) (hnr : 0 < d.X.nr)
    (hy : d.Y.length = d.X.nr) (hnc : 0 < d.X.nc) (hn : 0 < f.numSamples) (targets : List (CohenTarget Unit))
    (ht : cohenTargets f d = some targets) (hnd : normalizeInPlace d = some (nd, d'))
    (hgood : ∀ i, i ~ List.range d.X.nr → ¬ BadShuffle d'.X i) :
    (∀ s, CohenRun targets f.numSamples s → ¬ CohenMayPanic targets f.numSamples s) ∧
    ∃ s, CohenRun targets f.numSamples s ∧ CohenDone targets.length s := by
  have hnp : ∀ s, CohenRun targets f.numSamples s → ¬ CohenMayPanic targets f.numSamples s := by
    intro s h hp
    have hne : targets ≠ [] := by
      rintro rfl
      obtain ⟨_, _, _, _, _, g, _⟩ := hp
      simp at g
    obtain ⟨i, hi, hb⟩ := (C98_panics f d d' nd hnr hy hnc hn targets ht hne hnd).1 ⟨s, h, hp⟩
    exact hgood i hi hb
  refine ⟨hnp, ?_⟩
  by_contra hcon
  push Not at hcon
  have hstep : ∀ s : {s // CohenRun targets f.numSamples s}, ∃ s' : {s // CohenRun targets f.numSamples s},
      PoolStep (cohenAct cohenWorkers targets.length) (cohenKappaOf targets f.numSamples) s.1 s'.1 := by
    rintro ⟨s, h⟩
    obtain ⟨s', h'⟩ := (C98_progress f targets).1 s h (hcon s h) (hnp s h)
    exact ⟨⟨s', .step h h'⟩, h'⟩
  choose next hnext using hstep
  refine (C98_progress f targets).2 (fun k => (next^[k] ⟨poolInit cohenInit, .init⟩).1) rfl (fun k => ?_)
  simp only [Function.iterate_succ', Function.comp]
  exact hnext _

/-- The claim in full: on data that can be normalised, the command cannot panic during the sampling. -/
def Spec.NeverPanics : Prop :=
  ∀ (f : CohenFlags) (d : Dataset ℝ) (targets : List (CohenTarget Unit)) (s : Pool (CohenMain ℝ) Nat (Nat × Fl ℝ)),
    4 ≤ d.X.nr → d.Y.length = d.X.nr → 0 < d.X.nc → 0 < f.numSamples → cohenTargets f d = some targets →
    CohenRun targets f.numSamples s → ¬ CohenMayPanic targets f.numSamples s

namespace CohenExample

/-- Four rows: a column of ones, a second column `c`, and the response 0, 1, 2, 3. -/
noncomputable def dataOf (c : List ℝ) : Dataset ℝ :=
  ⟨⟨4, 2, fun r j => if j = 0 then 1 else c.getD r 0⟩, [0, 1, 2, 3], ["1", "x", "y"], 2⟩

noncomputable def flags : CohenFlags := ⟨1, 1, 1, 1, 0⟩

theorem var_y : variance [(0 : ℝ), 1, 2, 3] = 5 / 3 := by norm_num [variance, mean]

theorem std_y : 0 < goStd [(0 : ℝ), 1, 2, 3] := by
  rw [goStd_eq _ (by simp), var_y]
  exact Real.sqrt_pos.2 (by norm_num)

theorem col_c (a b c e : ℝ) : colOf (dataOf [a, b, c, e]).X 1 = [a, b, c, e] := by
  simp [colOf, dataOf, List.range_succ]

theorem normalizes (a b c e : ℝ) (h : 1 / 10 ^ 10 ≤ goStd [a, b, c, e]) :
    ∃ n d', normalizeInPlace (dataOf [a, b, c, e]) = some (n, d') ∧
      ∀ r < 4, d'.X.get r 1 = ([a, b, c, e].getD r 0 - goMean [a, b, c, e]) / goStd [a, b, c, e] := by
  rcases newNormalizedData_inv (dataOf [a, b, c, e]).X (dataOf [a, b, c, e]).Y with ⟨⟨k, hk, h0, hs⟩, -⟩ | ⟨n, h1, h2, h3, -⟩
  · exfalso
    have hk : k < 2 := hk
    obtain rfl : k = 1 := by omega
    rw [col_c] at hs
    linarith
  · have hfin : ∃ y, finValues n.y = some y := by
      rw [h3]
      refine ⟨[0, 1, 2, 3].map (fun v => (v - goMean [0, 1, 2, 3]) / goStd [0, 1, 2, 3]), ?_⟩
      rw [← finValues_fin, List.map_map]
      congr 1
      unfold normalizeArray
      refine List.map_congr_left (fun v _ => ?_)
      simp [Fl.divFin, dataOf, std_y.ne']
    obtain ⟨y, hy⟩ := hfin
    refine ⟨n, { dataOf [a, b, c, e] with X := n.X, Y := y }, ?_, ?_⟩
    · unfold normalizeInPlace
      rw [h1, Option.bind_some, hy]
      rfl
    · intro r hr
      rw [h2.done r 1 (show 1 < 2 by decide) hr, col_c, if_neg (not_lt.2 h)]
      rfl

theorem targets_of (a b c e : ℝ) (h : 1 / 10 ^ 10 ≤ goStd [a, b, c, e]) :
    ∃ t, cohenTargets flags (dataOf [a, b, c, e]) = some [t] := by
  obtain ⟨n, d', hn, -⟩ := normalizes a b c e h
  unfold cohenTargets
  rw [hn, Option.bind_some]
  simp [flags, logspace, List.range_succ]

theorem std_small : goStd [(0 : ℝ), 0, 0, 1] = 1 / 2 := by
  rw [goStd_eq _ (by simp), show variance [(0 : ℝ), 0, 0, 1] = (1 / 2) ^ 2 by norm_num [variance, mean]]
  exact Real.sqrt_sq (by norm_num)

/-- One deviating value makes every run fail. -/
example : ∃ t, cohenTargets flags (dataOf [0, 0, 0, 1]) = some [t] ∧
    ∀ s, CohenRun [t] flags.numSamples s → ¬ CohenDone 1 s := by
  obtain ⟨t, ht⟩ := targets_of 0 0 0 1 (by rw [std_small]; norm_num)
  refine ⟨t, ht, fun s h => C98_single_deviation flags _ (by decide) rfl (by simp [flags]) [t] ht (by simp) 1 (by decide)
    (by decide) ⟨0, 3, ?_⟩ s h⟩
  intro r hr h3
  have hr : r < 4 := hr
  have : r = 0 ∨ r = 1 ∨ r = 2 := by omega
  rcases this with rfl | rfl | rfl <;> simp [dataOf]

theorem std_01 : 1 / 10 ^ 10 ≤ goStd [(0 : ℝ), 1, 2, 3] ∧ goStd [(0 : ℝ), 1, 2, 3] ≤ 2 := by
  rw [goStd_eq _ (by simp), var_y]
  constructor
  · rw [Real.le_sqrt (by norm_num) (by norm_num)]
    norm_num
  · rw [Real.sqrt_le_left (by norm_num)]
    norm_num

theorem std_pair (a b : ℝ) (h : 1 / 2 ≤ |a - b|) : ¬ goStd [a, b] < 1 / 10 ^ 10 := by
  rw [not_lt, goStd_eq _ (by simp), Real.le_sqrt (by norm_num)
    (by have := variance_nonneg [a, b] (by simp); exact this)]
  have h2 : (1 / 2) ^ 2 ≤ (a - b) ^ 2 := by
    rw [← sq_abs (a - b)]
    exact pow_le_pow_left₀ (by norm_num) h 2
  have : variance [a, b] = (a - b) ^ 2 / 2 := by
    simp [variance, mean]
    ring
  rw [this]
  norm_num at h2 ⊢
  linarith

/-- With four different values no half is constant. -/
theorem no_bad (n : NormalizedData) (d' : Dataset ℝ) (hn : normalizeInPlace (dataOf [0, 1, 2, 3]) = some (n, d')) :
    ∀ i, i ~ List.range 4 → ¬ BadShuffle d'.X i := by
  obtain ⟨n', d'', hn', hx⟩ := normalizes 0 1 2 3 std_01.1
  rw [hn, Option.some.injEq, Prod.mk.injEq] at hn'
  obtain ⟨rfl, rfl⟩ := hn'
  obtain ⟨-, -, -, -, -, e1, e2, -⟩ := normalizeInPlace_some (d := dataOf [0, 1, 2, 3]) (by decide) rfl hn
  have e1 : d'.X.nr = 4 := e1
  have e2 : d'.X.nc = 2 := e2
  intro i hi
  have hi : i ~ List.range 4 := hi
  have hlen : i.length = 4 := by rw [hi.length_eq, List.length_range]
  have hnd : i.Nodup := hi.nodup_iff.2 List.nodup_range
  have hlt : ∀ r ∈ i, r < 4 := fun r hr => List.mem_range.1 (hi.mem_iff.1 hr)
  match i, hlen with
  | [p, q, u, v], _ =>
    have hpair : ∀ a b : Nat, a < 4 → b < 4 → a ≠ b → ¬ ([a, b] = [] ∨ ConstantOn d'.X [a, b]) := by
      rintro a b ha hb hab (h | ⟨c, hc, h0, hs⟩)
      · cases h
      · obtain rfl : c = 1 := by omega
        refine absurd hs (std_pair _ _ ?_)
        have hval : ∀ r < 4, ([0, 1, 2, 3] : List ℝ).getD r 0 = (r : ℝ) := by
          intro r hr
          have : r = 0 ∨ r = 1 ∨ r = 2 ∨ r = 3 := by omega
          rcases this with rfl | rfl | rfl | rfl <;> simp
        simp only
        rw [hx a ha, hx b hb, hval a ha, hval b hb, ← sub_div, sub_sub_sub_cancel_right, abs_div,
          abs_of_pos std_y, le_div_iff₀ std_y]
        have h1 : (1 : ℝ) ≤ |(a : ℝ) - b| := by
          have : (1 : Int) ≤ |(a : Int) - b| := Int.one_le_abs (by omega)
          exact_mod_cast this
        have := std_01.2
        linarith
    simp only [List.nodup_cons, List.mem_cons, List.not_mem_nil, or_false, not_or] at hnd hlt
    rintro ⟨half, hh | hh, hb⟩
    · rw [e1] at hh
      subst hh
      exact hpair p q (hlt p (by simp)) (hlt q (by simp)) hnd.1.1 hb
    · rw [e1] at hh
      subst hh
      exact hpair u v (hlt u (by simp)) (hlt v (by simp)) hnd.2.2.1 hb

/-- The command ends under some schedule, and never panics. -/
example : ∃ t, cohenTargets flags (dataOf [0, 1, 2, 3]) = some [t] ∧
    (∀ s, CohenRun [t] flags.numSamples s → ¬ CohenMayPanic [t] flags.numSamples s) ∧
    ∃ s, CohenRun [t] flags.numSamples s ∧ CohenDone 1 s := by
  obtain ⟨t, ht⟩ := targets_of 0 1 2 3 std_01.1
  obtain ⟨n, d', hn, -⟩ := normalizes 0 1 2 3 std_01.1
  exact ⟨t, ht, C98_ends flags _ d' n (by decide) rfl (by decide) (by simp [flags]) [t] ht hn (no_bad n d' hn)⟩

end CohenExample

open CohenExample in
/-- C98: the command panics on valid data. -/
theorem C98_refuted : ¬ NeverPanics := by
  intro hall
  obtain ⟨t, ht⟩ := targets_of 0 0 0 1 (by rw [std_small]; norm_num)
  obtain ⟨n, d', hn, hx⟩ := normalizes 0 0 0 1 (by rw [std_small]; norm_num)
  obtain ⟨-, -, -, -, -, e1, e2, -⟩ := normalizeInPlace_some (d := dataOf [0, 0, 0, 1]) (by decide) rfl hn
  have e1 : d'.X.nr = 4 := e1
  have e2 : d'.X.nc = 2 := e2
  obtain ⟨s, h, hp⟩ := (C98_panics flags (dataOf [0, 0, 0, 1]) d' n (by decide) rfl (by decide) (by simp [flags]) [t] ht
    (by simp) hn).2 ⟨[0, 1, 2, 3], List.Perm.refl _, [0, 1], .inl (by rw [e1]; rfl), .inr ⟨1, by omega, by decide, by
      rw [goStd_constant]
      · norm_num
      · intro x hx' z hz
        simp only [List.map_cons, List.map_nil, List.mem_cons, List.not_mem_nil, or_false] at hx' hz
        rw [hx 0 (by decide), hx 1 (by decide)] at hx' hz
        simp at hx' hz
        rw [hx', hz]⟩⟩
  exact hall flags _ [t] s (by decide) rfl (by decide) (by simp [flags]) ht h hp

end GoSelect
