import Verif.Model.LassoCommand
import Verif.Props.C87_C88
import Verif.Proofs.MapM
import Mathlib.Data.EReal.Basic
import Mathlib.Data.List.Sort
import Mathlib.Data.List.Infix

/-! # C89: the table of the best models. -/

namespace GoSelect

/-- The table ranks some of the nodes: `order` are the positions of the nodes in the path, from the first row to the
last.  No node occurs twice, a row repeats what is known of its node, no row has a larger criterion than a later one,
and no node that is left out has a smaller criterion than a node of the table. -/
structure Spec.RanksBest {K α : Type} [LT α] (nodes : List (LassoLarsNode K)) (aicc bic : List α)
    (rows : List (HighscoreRow K α)) (order : List Nat) : Prop where
  nodup : order.Nodup
  range : ∀ v ∈ order, v < nodes.length
  length : rows.length = order.length
  row : ∀ (i v : Nat), order[i]? = some v → ∃ node a b, nodes[v]? = some node ∧ aicc[v]? = some a ∧ bic[v]? = some b ∧
    rows[i]? = some ⟨i + 1, node.lamb, node.selection.length, a, b⟩
  sorted : rows.Pairwise (fun p q => ¬ q.aicc < p.aicc)
  best : ∀ w a, w ∉ order → aicc[w]? = some a → ∀ p ∈ rows, ¬ a < p.aicc

open Spec

/-- C89: `PrintHighscore` prints the best `num` nodes of the path, or all when there are fewer, and does not panic. -/
theorem C89_table {K α : Type} [LT α] (sort : List (α × Nat) → List (α × Nat)) (nodes : List (LassoLarsNode K))
    (aicc bic : List α) (num : Int) (hp : (sort aicc.zipIdx).Perm aicc.zipIdx)
    (hs : (sort aicc.zipIdx).Pairwise (fun a b => ¬ b.1 < a.1)) (h1 : aicc.length = nodes.length)
    (h2 : bic.length = nodes.length) :
    ∃ rows order, printHighscore sort nodes aicc bic num = some rows ∧ RanksBest nodes aicc bic rows order ∧
      rows.length = min num.toNat nodes.length := by
  have hz : ∀ p ∈ sort aicc.zipIdx, aicc[p.2]? = some p.1 := fun p hp' =>
    List.mem_zipIdx_iff_getElem?.1 (hp.mem_iff.1 hp')
  have hperm : (argsort sort aicc).Perm (List.range aicc.length) := by
    have := hp.map (·.2)
    rwa [List.zipIdx_map_snd, ← List.range_eq_range'] at this
  have hlen : (argsort sort aicc).length = nodes.length := by rw [hperm.length_eq, List.length_range, h1]
  have hnum : (if (aicc.length : Int) < num then (aicc.length : Int) else num).toNat = min num.toNat nodes.length := by
    split <;> omega
  set k := min num.toNat nodes.length with hk
  have hkl : k ≤ nodes.length := by omega
  -- the row of the node at position `i` of the order
  have hrow : ∀ i < k, ∃ v node a b, (argsort sort aicc)[i]? = some v ∧ nodes[v]? = some node ∧ aicc[v]? = some a ∧
      bic[v]? = some b ∧ (sort aicc.zipIdx)[i]? = some (a, v) := by
    intro i hi
    have hi1 : i < (sort aicc.zipIdx).length := by
      have := hlen
      rw [argsort, List.length_map] at this
      omega
    have hv : (argsort sort aicc)[i]? = some ((sort aicc.zipIdx)[i]).2 := by
      rw [argsort, List.getElem?_map, List.getElem?_eq_getElem hi1, Option.map_some]
    have ha := hz _ (List.getElem_mem hi1)
    have hv' : ((sort aicc.zipIdx)[i]).2 < aicc.length := (List.getElem?_eq_some_iff.1 ha).1
    exact ⟨_, nodes[((sort aicc.zipIdx)[i]).2], _, bic[((sort aicc.zipIdx)[i]).2], hv,
      List.getElem?_eq_getElem (by omega), ha, List.getElem?_eq_getElem (by omega), List.getElem?_eq_getElem hi1⟩
  have hprint : printHighscore sort nodes aicc bic num = (List.range k).mapM (fun i => do
      let v ← (argsort sort aicc)[i]?
      let node ← nodes[v]?
      let a ← aicc[v]?
      let b ← bic[v]?
      return ⟨i + 1, node.lamb, node.selection.length, a, b⟩) := by
    unfold printHighscore
    simp only [hnum]
  obtain ⟨rows, hrows⟩ : ∃ rows, printHighscore sort nodes aicc bic num = some rows := by
    rw [hprint]
    refine mapM_isSome (fun i hi => ?_)
    obtain ⟨v, node, a, b, e1, e2, e3, e4, -⟩ := hrow i (List.mem_range.1 hi)
    simp [e1, e2, e3, e4]
  have hrl : rows.length = k := by
    rw [hprint] at hrows
    rw [mapM_length hrows, List.length_range]
  have hat : ∀ i < k, ∃ v node a b, (argsort sort aicc)[i]? = some v ∧ nodes[v]? = some node ∧ aicc[v]? = some a ∧
      bic[v]? = some b ∧ (sort aicc.zipIdx)[i]? = some (a, v) ∧
      rows[i]? = some ⟨i + 1, node.lamb, node.selection.length, a, b⟩ := by
    intro i hi
    obtain ⟨v, node, a, b, e1, e2, e3, e4, e5⟩ := hrow i hi
    refine ⟨v, node, a, b, e1, e2, e3, e4, e5, ?_⟩
    rw [hprint] at hrows
    have := mapM_getElem hrows i (by simpa using hi)
    simp only [List.getElem_range, e1, e2, e3, e4, Option.bind_eq_bind, Option.bind_some, Option.pure_def] at this
    rw [List.getElem?_eq_getElem (by omega), this]
  refine ⟨rows, (argsort sort aicc).take k, hrows, ?_, hrl⟩
  refine ⟨?_, ?_, ?_, ?_, ?_, ?_⟩
  · exact (hperm.nodup_iff.2 List.nodup_range).sublist (List.take_sublist _ _)
  · intro v hv
    have := hperm.mem_iff.1 (List.mem_of_mem_take hv)
    rw [List.mem_range] at this
    omega
  · rw [hrl, List.length_take]
    omega
  · intro i v h
    have hi : i < k := by
      have := (List.getElem?_eq_some_iff.1 h).1
      rw [List.length_take] at this
      omega
    rw [List.getElem?_take_of_lt hi] at h
    obtain ⟨v', node, a, b, e1, e2, e3, e4, -, e6⟩ := hat i hi
    rw [e1, Option.some.injEq] at h
    subst h
    exact ⟨node, a, b, e2, e3, e4, e6⟩
  · rw [List.pairwise_iff_getElem]
    intro i j hi hj hij
    obtain ⟨v, node, a, b, -, -, -, -, e5, e6⟩ := hat i (by omega)
    obtain ⟨v', node', a', b', -, -, -, -, e5', e6'⟩ := hat j (by omega)
    rw [(List.getElem?_eq_some_iff.1 e6).2, (List.getElem?_eq_some_iff.1 e6').2]
    obtain ⟨li, gi⟩ := List.getElem?_eq_some_iff.1 e5
    obtain ⟨lj, gj⟩ := List.getElem?_eq_some_iff.1 e5'
    have := List.pairwise_iff_getElem.1 hs i j li lj hij
    rw [gi, gj] at this
    exact this
  · intro w a hw ha p hp'
    obtain ⟨i, hi, rfl⟩ := List.getElem_of_mem hp'
    obtain ⟨v, node, a', b, -, -, -, -, e5, e6⟩ := hat i (by omega)
    rw [(List.getElem?_eq_some_iff.1 e6).2]
    have hmem : (a, w) ∈ sort aicc.zipIdx := hp.mem_iff.2 (List.mem_zipIdx_iff_getElem?.2 ha)
    obtain ⟨j, lj, gj⟩ := List.getElem_of_mem hmem
    have hjk : k ≤ j := by
      by_contra hjk
      apply hw
      have : ((argsort sort aicc).take k)[j]? = some w := by
        rw [List.getElem?_take_of_lt (by omega), argsort, List.getElem?_map, List.getElem?_eq_getElem lj, gj]
        rfl
      exact List.mem_of_getElem? this
    obtain ⟨li, gi⟩ := List.getElem?_eq_some_iff.1 e5
    have := List.pairwise_iff_getElem.1 hs i j li lj (by omega)
    rw [gi, gj] at this
    exact this

/-- The value of a criterion that takes the logarithm of `r`. -/
noncomputable def Spec.logged (crit : ℝ → ℝ) (r : ℝ) : Fl ℝ := open Classical in if r = 0 then .negInf else .fin (crit r)

theorem negInf_lt {a : Fl ℝ} (h1 : a ≠ .nan) (h2 : a ≠ .negInf) : (Fl.negInf : Fl ℝ) < a := by
  cases a
  · rfl
  · rfl
  · exact absurd rfl h2
  · exact absurd rfl h1

/-- C89: the lasso command prints the 20 best nodes of the path that it saves, or all when there are fewer. -/
theorem C89_command (svd : Mat ℝ → SVD ℝ) (sort : List (Fl ℝ × Nat) → List (Fl ℝ × Nat))
    (hsort : ∀ l, (∀ p ∈ l, p.1 ≠ .nan) → (sort l).Perm l ∧ (sort l).Pairwise (fun a b => ¬ b.1 < a.1))
    (f : LassoFlags) (dset : Dataset ℝ) (nodes : List (LassoLarsNode ℝ)) (rows : List (HighscoreRow ℝ (Fl ℝ)))
    (file : LassoFile) (h : LassoFit svd sort f dset nodes rows (some file)) :
    ∃ order, RanksBest file.nodes file.aicc file.bic rows order ∧ rows.length = min 20 file.nodes.length := by
  obtain ⟨n, y, hn, hfin, ⟨-, -, -, -, h5⟩ | ⟨raw, a, b, hraw, hp, ha, hb, hrows, hout⟩⟩ := h
  · cases h5
  split at hout
  · rename_i hall
    rw [Option.some.injEq] at hout
    subst hout
    obtain ⟨hs1, hs2⟩ := hsort a.zipIdx (fun p hp' he => by
      have := List.all_eq_true.1 hall p.1 (List.mem_append_left _ (List.fst_mem_of_mem_zipIdx hp'))
      rw [he] at this
      cases this)
    obtain ⟨rows', order, h1, h2, h3⟩ := C89_table sort nodes a b 20 hs1 hs2 (mapM_length ha) (mapM_length hb)
    rw [hrows, Option.some.injEq] at h1
    subst h1
    exact ⟨order, h2, by simpa using h3⟩
  · cases hout

/-- C89: also when no file is written the table ranks the nodes of the path by the two criteria; a node that fits
exactly has the criterion minus infinity and comes before every other node. -/
theorem C89_exact (svd : Mat ℝ → SVD ℝ) (sort : List (Fl ℝ × Nat) → List (Fl ℝ × Nat))
    (hsort : ∀ l, (∀ p ∈ l, p.1 ≠ .nan) → (sort l).Perm l ∧ (sort l).Pairwise (fun a b => ¬ b.1 < a.1))
    (f : LassoFlags) (dset : Dataset ℝ) (hy : dset.Y.length = dset.X.nr) (nodes : List (LassoLarsNode ℝ))
    (rows : List (HighscoreRow ℝ (Fl ℝ))) (out : Option LassoFile) (h : LassoFit svd sort f dset nodes rows out) :
    ∃ order, RanksBest nodes (nodes.map (fun n => logged (savedAicc n.selection.length dset.X.nr)
        (sse dset.X (coeffOf n) (vec dset.Y))))
      (nodes.map (fun n => logged (savedBic n.selection.length dset.X.nr) (sse dset.X (coeffOf n) (vec dset.Y))))
      rows order ∧ rows.length = min 20 nodes.length ∧
      ∀ (i v w : Nat) (n m : LassoLarsNode ℝ), order[i]? = some v → nodes[v]? = some n → nodes[w]? = some m →
        sse dset.X (coeffOf m) (vec dset.Y) = 0 → sse dset.X (coeffOf n) (vec dset.Y) ≠ 0 →
          ∃ k < i, order[k]? = some w := by
  obtain ⟨hok, hcrit⟩ := lassoFit_criteria hy h
  obtain ⟨n, y, hn, hfin, ⟨-, -, rfl, rfl, -⟩ | ⟨raw, a, b, hraw, hp, ha, hb, hrows, hout⟩⟩ := h
  · refine ⟨[], ⟨by simp, by simp, by simp, by simp, by simp, by simp⟩, by simp, by simp⟩
  rw [hcrit, Option.some.injEq] at ha hb
  have hlog : ∀ (n : LassoLarsNode ℝ) (crit : Nat → Nat → ℝ → ℝ), withLog crit n.selection.length dset.X.nr
      (sse dset.X (coeffOf n) (vec dset.Y)) = logged (crit n.selection.length dset.X.nr)
      (sse dset.X (coeffOf n) (vec dset.Y)) := by
    intro n crit
    unfold withLog logged
    rcases (sse_nonneg_real dset.X (coeffOf n) (vec dset.Y)).eq_or_lt with h | h
    · simp [← h]
    · rw [if_pos h, if_neg h.ne']
  have ea : a = nodes.map (fun n => logged (savedAicc n.selection.length dset.X.nr)
      (sse dset.X (coeffOf n) (vec dset.Y))) := by
    rw [← ha]
    refine List.map_congr_left (fun m _ => ?_)
    rw [hlog]
    unfold logged
    simp only [savedAicc_eq]
  have eb : b = nodes.map (fun n => logged (savedBic n.selection.length dset.X.nr)
      (sse dset.X (coeffOf n) (vec dset.Y))) := by
    rw [← hb]
    refine List.map_congr_left (fun m _ => ?_)
    rw [hlog]
    unfold logged bic savedBic
    simp only [add_comm]
  obtain ⟨hs1, hs2⟩ := hsort a.zipIdx (fun p hp' he => by
    have := List.fst_mem_of_mem_zipIdx hp'
    rw [ea, he] at this
    obtain ⟨m, -, hm⟩ := List.mem_map.1 this
    unfold logged at hm
    split at hm <;> cases hm)
  obtain ⟨rows', order, h1, h2, h3⟩ := C89_table sort nodes a b 20 hs1 hs2 (by simp [ea]) (by simp [eb])
  rw [hrows, Option.some.injEq] at h1
  subst h1
  rw [ea, eb] at h2
  have hne : ∀ p ∈ rows, p.aicc ≠ .nan := by
    intro p hp e
    obtain ⟨i, hi, rfl⟩ := List.getElem_of_mem hp
    have hio : i < order.length := by rw [← h2.length]; exact hi
    obtain ⟨node, a', b', -, e2, -, e4⟩ := h2.row i order[i] (List.getElem?_eq_getElem hio)
    rw [List.getElem?_eq_getElem hi, Option.some.injEq] at e4
    rw [e4] at e
    subst e
    have := List.mem_of_getElem? e2
    obtain ⟨m, -, hm⟩ := List.mem_map.1 this
    unfold logged at hm
    split at hm <;> cases hm
  have hfirst : ∀ (i j : Nat) (p q : HighscoreRow ℝ (Fl ℝ)), rows[i]? = some p → rows[j]? = some q → q.aicc = .negInf → p.aicc ≠ .negInf → j < i := by
    intro i j p q hi hj hq hp
    by_contra hij
    obtain ⟨li, gi⟩ := List.getElem?_eq_some_iff.1 hi
    obtain ⟨lj, gj⟩ := List.getElem?_eq_some_iff.1 hj
    rcases (not_lt.1 hij).eq_or_lt with e | e
    · subst e
      rw [gi] at gj
      exact hp (gj ▸ hq)
    · have := List.pairwise_iff_getElem.1 h2.sorted i j li lj e
      rw [gi, gj, hq] at this
      exact this (negInf_lt (hne p (gi ▸ List.getElem_mem li)) hp)
  refine ⟨order, h2, by simpa using h3, ?_⟩
  intro i v w n m hi hv hw hm hn'
  have hio := (List.getElem?_eq_some_iff.1 hi).1
  obtain ⟨node, a', b', e1, e2, -, e4⟩ := h2.row i v hi
  rw [hv, Option.some.injEq] at e1
  subst e1
  rw [List.getElem?_map, hv, Option.map_some, Option.some.injEq] at e2
  have hp1 : a' ≠ .negInf := by
    rw [← e2]
    unfold logged
    rw [if_neg hn']
    simp
  have hwa : (nodes.map (fun n => logged (savedAicc n.selection.length dset.X.nr)
      (sse dset.X (coeffOf n) (vec dset.Y))))[w]? = some .negInf := by
    rw [List.getElem?_map, hw, Option.map_some, logged, if_pos hm]
  have hmem : w ∈ order := by
    by_contra hc
    have hr := List.mem_of_getElem? e4
    exact h2.best w _ hc hwa _ hr (negInf_lt (hne _ hr) hp1)
  obtain ⟨k, hk, hkw⟩ := List.getElem_of_mem hmem
  refine ⟨k, ?_, by rw [List.getElem?_eq_getElem hk, hkw]⟩
  obtain ⟨node', a'', b'', -, f2, -, f4⟩ := h2.row k w (by rw [List.getElem?_eq_getElem hk, hkw])
  rw [hwa, Option.some.injEq] at f2
  exact hfirst i k _ _ e4 f4 f2.symm hp1

/-- Where a criterion stands among the extended numbers. -/
noncomputable def sortKey : Fl ℝ → EReal
  | .fin x => x
  | .posInf => ⊤
  | .negInf => ⊥
  | .nan => ⊥

/-- There is a sort as the theorems demand. -/
example : ∃ sort : List (Fl ℝ × Nat) → List (Fl ℝ × Nat), ∀ l, (∀ p ∈ l, p.1 ≠ .nan) →
    (sort l).Perm l ∧ (sort l).Pairwise (fun a b => ¬ b.1 < a.1) := by
  classical
  refine ⟨fun l => l.insertionSort (fun a b => sortKey a.1 ≤ sortKey b.1), fun l hl => ?_⟩
  have hperm := List.perm_insertionSort (fun a b : Fl ℝ × Nat => sortKey a.1 ≤ sortKey b.1) l
  refine ⟨hperm, ?_⟩
  haveI : Std.Total (fun a b : Fl ℝ × Nat => sortKey a.1 ≤ sortKey b.1) := ⟨fun a b => le_total _ _⟩
  haveI : IsTrans (Fl ℝ × Nat) (fun a b => sortKey a.1 ≤ sortKey b.1) := ⟨fun a b c => le_trans⟩
  have hs := List.pairwise_insertionSort (fun a b : Fl ℝ × Nat => sortKey a.1 ≤ sortKey b.1) l
  refine hs.imp_of_mem (fun {a b} ha hb hab hlt => ?_)
  have h1 := hl a (hperm.mem_iff.1 ha)
  have h2 := hl b (hperm.mem_iff.1 hb)
  obtain ⟨a, i⟩ := a
  obtain ⟨b, j⟩ := b
  change Fl.ltB b a = true at hlt
  clear hs hperm hl ha hb this
  cases a <;> cases b <;> simp_all [sortKey, Fl.ltB]
  exact absurd hlt (not_lt.2 hab)

/-- Three nodes, two rows, ties in any order. -/
example : printHighscore (fun l => l.insertionSort (fun a b => a.1 ≤ b.1))
    ([⟨[1], 5, [0]⟩, ⟨[1, 1], 4, [0, 1]⟩, ⟨[1, 1, 2], 3, [0, 1, 2]⟩] : List (LassoLarsNode ℚ)) [3, -7, 2] [1, 2, 3] 2 =
    some [⟨1, 4, 2, -7, 2⟩, ⟨2, 3, 3, 2, 3⟩] := by decide +kernel

/-- `C89_table` applies to these three nodes. -/
example : ∃ rows order, printHighscore (fun l => l.insertionSort (fun a b => a.1 ≤ b.1))
      ([⟨[1], 5, [0]⟩, ⟨[1, 1], 4, [0, 1]⟩, ⟨[1, 1, 2], 3, [0, 1, 2]⟩] : List (LassoLarsNode ℚ)) [3, -7, 2] [1, 2, 3] 2 =
        some rows ∧ RanksBest [⟨[1], 5, [0]⟩, ⟨[1, 1], 4, [0, 1]⟩, ⟨[1, 1, 2], 3, [0, 1, 2]⟩] [3, -7, 2] [1, 2, 3] rows order ∧
      rows.length = 2 :=
  C89_table (α := Int) (fun l => l.insertionSort (fun a b => a.1 ≤ b.1)) _ [3, -7, 2] [1, 2, 3] 2
    (List.perm_insertionSort _ _) (by decide +kernel) rfl rfl

end GoSelect
