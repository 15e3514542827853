import Verif.Model.IterProduct
import Verif.Spec.Tuples

/-! `IterProduct` in the presence of shared backing arrays. -/

namespace GoSelect

open Spec

/-- Capacity of the rows of length `r`. -/
def capSeq (grow : Nat → Nat) : Nat → Nat
  | 0 => 0
  | r + 1 => if r < capSeq grow r then capSeq grow r else grow r

/-- A row as it is finally read: entries written into spare capacity hold the last value. -/
def blur (grow : Nat → Nat) (last : Int) (t : List Int) : List Int :=
  t.mapIdx (fun s x => if s < capSeq grow s then last else x)

theorem capSeq_ge (grow : Nat → Nat) (hg : ∀ n, n < grow n) (r : Nat) : r ≤ capSeq grow r := by
  induction r with
  | zero => simp
  | succ r ih =>
    rw [capSeq]
    split
    · omega
    · have := hg r; omega

/-- Lexicographic order can also be produced by extending rows on the right. -/
theorem tuples_snoc (values : List Int) (r : Nat) :
    tuples values (r + 1) = (tuples values r).flatMap (fun t => values.map (fun v => t ++ [v])) := by
  induction r with
  | zero =>
    simp only [tuples, List.map_cons, List.map_nil, List.flatMap_cons, List.flatMap_nil,
      List.nil_append, List.append_nil]
    induction values with
    | nil => rfl
    | cons a l ih => rw [List.flatMap_cons, ih]; rfl
  | succ r ih =>
    rw [tuples]
    conv_rhs => rw [tuples]
    rw [List.flatMap_assoc]
    apply List.flatMap_congr
    intro v _
    rw [ih, List.map_flatMap, List.flatMap_map]
    apply List.flatMap_congr
    intro t _
    simp

theorem tuples_length {values : List Int} {r : Nat} {t : List Int} (h : t ∈ tuples values r) :
    t.length = r := by
  induction r generalizing t with
  | zero => simp [tuples] at h; simp [h]
  | succ r ih =>
    rw [tuples, List.mem_flatMap] at h
    obtain ⟨v, -, h⟩ := h
    obtain ⟨u, hu, rfl⟩ := List.mem_map.1 h
    simp [ih hu]

theorem blur_snoc (grow : Nat → Nat) (last : Int) (t : List Int) (v : Int) :
    blur grow last (t ++ [v]) =
      blur grow last t ++ [if t.length < capSeq grow t.length then last else v] := by
  simp [blur, List.mapIdx_append]

/-! ### A round without spare capacity -/

theorem getD_append_left {h g : SliceHeap} {i : Nat} (hi : i < h.length) :
    (h ++ g).getD i [] = h.getD i [] := by
  rw [List.getD_eq_getElem?_getD, List.getD_eq_getElem?_getD, List.getElem?_append_left hi]

/-- What a round keeps true while it allocates. `h₀` is the heap at its start. -/
structure FreshInv (grow : Nat → Nat) (r : Nat) (h₀ : SliceHeap) (rows : List (List Int))
    (st : SliceHeap × List Slice) : Prop where
  pre : h₀ <+: st.1
  read : st.2.map (readSlice st.1) = rows
  ok : ∀ s ∈ st.2, s.len = r + 1 ∧ s.arr < st.1.length ∧ (st.1.getD s.arr []).length = grow r

theorem FreshInv.row {grow : Nat → Nat} (hg : ∀ n, n < grow n) {r : Nat} {h₀ : SliceHeap} {s : Slice}
    (hs : s.len = r) (hsa : s.arr < h₀.length) (hcap : (h₀.getD s.arr []).length = r)
    (values : List Int) {rows : List (List Int)} {st : SliceHeap × List Slice}
    (hi : FreshInv grow r h₀ rows st) :
    FreshInv grow r h₀ (rows ++ values.map (fun v => readSlice h₀ s ++ [v])) (iterRow grow s st values) := by
  induction values generalizing rows st with
  | nil => simpa [iterRow] using hi
  | cons v values ih =>
    have hstep : FreshInv grow r h₀ (rows ++ [readSlice h₀ s ++ [v]])
        ((goAppend grow st.1 s v).1, st.2 ++ [(goAppend grow st.1 s v).2]) := by
      obtain ⟨g, hpre⟩ := hi.pre
      have hget : st.1.getD s.arr [] = h₀.getD s.arr [] := by rw [← hpre, getD_append_left hsa]
      have htake : (h₀.getD s.arr []).take s.len = readSlice h₀ s := rfl
      have hlen : (readSlice h₀ s).length = r := by rw [readSlice, List.length_take, hcap, hs]; simp
      unfold goAppend
      simp only [hget]
      rw [if_neg (by omega), htake]
      have hgr := hg r
      have hrl : (readSlice h₀ s ++ [v]).length = r + 1 := by simp [hlen]
      refine ⟨⟨g ++ [(readSlice h₀ s ++ [v]) ++
          List.replicate (grow s.len - (readSlice h₀ s ++ [v]).length) 0], by rw [← hpre]; simp⟩, ?_, ?_⟩
      · simp only [List.map_append, List.map_cons, List.map_nil]
        congr 1
        · rw [← hi.read]
          apply List.map_congr_left
          intro x hx
          unfold readSlice
          rw [getD_append_left (hi.ok x hx).2.1]
        · congr 1
          unfold readSlice
          simp only [List.getD_eq_getElem?_getD, List.getElem?_concat_length, Option.getD_some]
          rw [List.take_append_of_le_length (by
            have : (readSlice h₀ s ++ [v]).length = r + 1 := hrl
            unfold readSlice at this
            rw [List.getD_eq_getElem?_getD] at this
            omega), List.take_of_length_le (by
            have : (readSlice h₀ s ++ [v]).length = r + 1 := hrl
            unfold readSlice at this
            rw [List.getD_eq_getElem?_getD] at this
            omega)]
      · intro x hx
        rcases List.mem_append.1 hx with hx | hx
        · obtain ⟨a, b, c⟩ := hi.ok x hx
          refine ⟨a, by simp; omega, ?_⟩
          rw [getD_append_left b]; exact c
        · rw [List.mem_singleton.1 hx]
          refine ⟨by simp [hs], by simp, ?_⟩
          simp only [List.getD_eq_getElem?_getD, List.getElem?_concat_length, Option.getD_some]
          rw [List.length_append, List.length_replicate, hrl, hs]
          omega
    have := ih hstep
    simp only [List.append_assoc, List.cons_append, List.nil_append] at this
    simpa [iterRow] using this

/-! ### A round that writes into spare capacity -/

/-- What a round keeps true while it overwrites position `r`. -/
structure SharedInv (r cap : Nat) (last : Int) (h₀ : SliceHeap) (rows : List (List Int))
    (st : SliceHeap × List Slice) : Prop where
  size : st.1.length = h₀.length
  caps : ∀ i, (st.1.getD i []).length = (h₀.getD i []).length
  keep : ∀ i, (st.1.getD i []).take r = (h₀.getD i []).take r
  read : st.2.map (readSlice h₀ ∘ fun s => ⟨s.arr, r⟩) = rows
  ok : ∀ s ∈ st.2, s.len = r + 1 ∧ s.arr < st.1.length ∧ (st.1.getD s.arr []).length = cap
  wrote : ∀ s ∈ st.2, (st.1.getD s.arr [])[r]? = some last

theorem getD_set_self {h : SliceHeap} {i : Nat} {a : List Int} (hi : i < h.length) :
    (h.set i a).getD i [] = a := by
  rw [List.getD_eq_getElem?_getD, List.getElem?_set_self hi, Option.getD_some]

theorem getD_set_ne {h : SliceHeap} {i j : Nat} {a : List Int} (hij : i ≠ j) :
    (h.set i a).getD j [] = h.getD j [] := by
  rw [List.getD_eq_getElem?_getD, List.getElem?_set_ne hij, List.getD_eq_getElem?_getD]

/-- The inner loop when the row has spare capacity: repeated writes to one cell. -/
theorem iterRow_shared {grow : Nat → Nat} {s : Slice} {r : Nat} (hs : s.len = r)
    (values : List Int) (st : SliceHeap × List Slice) (hcap : r < (st.1.getD s.arr []).length)
    (hsa : s.arr < st.1.length) (hne : values ≠ []) :
    iterRow grow s st values =
      (st.1.set s.arr ((st.1.getD s.arr []).set r (values.getLast hne)),
        st.2 ++ List.replicate values.length ⟨s.arr, r + 1⟩) := by
  induction values generalizing st with
  | nil => exact absurd rfl hne
  | cons v values ih =>
    have hap : goAppend grow st.1 s v =
        (st.1.set s.arr ((st.1.getD s.arr []).set r v), ⟨s.arr, r + 1⟩) := by
      unfold goAppend
      simp only
      rw [if_pos (by omega), hs]
    have hun : iterRow grow s st (v :: values) = iterRow grow s
        (st.1.set s.arr ((st.1.getD s.arr []).set r v), st.2 ++ [⟨s.arr, r + 1⟩]) values := by
      unfold iterRow
      rw [List.foldl_cons]
      simp only [hap]
    rw [hun]
    cases values with
    | nil => simp [iterRow]
    | cons w values =>
      have hset := getD_set_self (a := (st.1.getD s.arr []).set r v) hsa
      rw [ih (st.1.set s.arr ((st.1.getD s.arr []).set r v), st.2 ++ [(⟨s.arr, r + 1⟩ : Slice)])
        (by simp only [hset, List.length_set]; exact hcap) (by simpa using hsa) (List.cons_ne_nil _ _)]
      simp only [hset]
      rw [List.set_set, List.set_set, List.getLast_cons (List.cons_ne_nil w values)]
      simp [List.replicate_succ]

theorem SharedInv.row {grow : Nat → Nat} {r cap : Nat} (hcr : r < cap) {h₀ : SliceHeap} {s : Slice}
    (hs : s.len = r) (hsa : s.arr < h₀.length) (hcap : (h₀.getD s.arr []).length = cap)
    (values : List Int) (hne : values ≠ []) {rows : List (List Int)} {st : SliceHeap × List Slice}
    (hi : SharedInv r cap (values.getLast hne) h₀ rows st) :
    SharedInv r cap (values.getLast hne) h₀ (rows ++ values.map (fun _ => readSlice h₀ s))
      (iterRow grow s st values) := by
  have hcap' : (st.1.getD s.arr []).length = cap := by rw [hi.caps, hcap]
  have hsa' : s.arr < st.1.length := by rw [hi.size]; exact hsa
  rw [iterRow_shared hs values st (by omega) hsa' hne]
  have hset := getD_set_self (a := (st.1.getD s.arr []).set r (values.getLast hne)) hsa'
  refine ⟨by simpa using hi.size, ?_, ?_, ?_, ?_, ?_⟩
  · intro i
    by_cases h : s.arr = i
    · subst h; rw [hset, List.length_set, hi.caps]
    · rw [getD_set_ne h, hi.caps]
  · intro i
    by_cases h : s.arr = i
    · subst h; rw [hset, List.take_set_of_le (Nat.le_refl r), hi.keep]
    · rw [getD_set_ne h, hi.keep]
  · rw [List.map_append, hi.read, List.map_replicate, List.map_const']
    congr 2
    simp [Function.comp, ← hs]
  · intro x hx
    rcases List.mem_append.1 hx with hx | hx
    · obtain ⟨a, b, c⟩ := hi.ok x hx
      refine ⟨a, by simpa using b, ?_⟩
      by_cases h : s.arr = x.arr
      · rw [← h, hset, List.length_set]; exact hcap'
      · rw [getD_set_ne h]; exact c
    · rw [List.eq_of_mem_replicate hx]
      refine ⟨rfl, by simpa using hsa', ?_⟩
      rw [hset, List.length_set]; exact hcap'
  · intro x hx
    by_cases h : s.arr = x.arr
    · rw [← h, hset, List.getElem?_set_self (by omega)]
    · rw [getD_set_ne h]
      rcases List.mem_append.1 hx with hx | hx
      · exact hi.wrote x hx
      · rw [List.eq_of_mem_replicate hx] at h
        exact absurd rfl h

/-- The rows of length `r`. -/
structure IterInv (grow : Nat → Nat) (values : List Int) (r : Nat) (st : SliceHeap × List Slice) :
    Prop where
  ok : ∀ s ∈ st.2, s.len = r ∧ s.arr < st.1.length ∧ (st.1.getD s.arr []).length = capSeq grow r
  read : st.2.map (readSlice st.1) = (tuples values r).map (blur grow (values.getLastD 0))

theorem IterInv.round {grow : Nat → Nat} (hg : ∀ n, n < grow n) {values : List Int} {r : Nat}
    {st : SliceHeap × List Slice} (hi : IterInv grow values r st) :
    IterInv grow values (r + 1) (iterRound grow values st) := by
  obtain ⟨h₀, res⟩ := st
  have htup : ∀ rows : List (List Int), rows = res.map (readSlice h₀) →
      (∀ t ∈ tuples values r, t.length = r) →
      (tuples values (r + 1)).map (blur grow (values.getLastD 0)) =
        rows.flatMap (fun t => values.map (fun v =>
          t ++ [if r < capSeq grow r then values.getLastD 0 else v])) := by
    intro rows hrows hlen
    have e : rows = (tuples values r).map (blur grow (values.getLastD 0)) := hrows.trans hi.read
    rw [e, tuples_snoc, List.map_flatMap, List.flatMap_map]
    apply List.flatMap_congr
    intro t ht
    rw [List.map_map]
    apply List.map_congr_left
    intro v _
    simp only [Function.comp]
    rw [blur_snoc, hlen t ht]
  have htup' := htup _ rfl fun t ht => tuples_length ht
  by_cases hr : r < capSeq grow r
  · have hcap : capSeq grow (r + 1) = capSeq grow r := by rw [capSeq, if_pos hr]
    simp only [hr, if_true] at htup'
    by_cases hne : values = []
    · subst hne
      have hz : ∀ (l : List Slice) (acc : SliceHeap × List Slice),
          l.foldl (fun acc s => iterRow grow s acc []) acc = acc := by
        intro l
        induction l with
        | nil => intro _; rfl
        | cons a l ih => intro acc; rw [List.foldl_cons]; exact ih _
      refine ⟨?_, ?_⟩
      · unfold iterRound
        rw [hz]
        simp
      · unfold iterRound
        rw [hz, htup']
        simp
    · have hlast : values.getLastD 0 = values.getLast hne := by
        rw [List.getLastD_eq_getLast?, List.getLast?_eq_getLast_of_ne_nil hne, Option.getD_some]
      have key : ∀ (l : List Slice) (rows : List (List Int)) (acc : SliceHeap × List Slice),
          (∀ s ∈ l, s ∈ res) → SharedInv r (capSeq grow r) (values.getLast hne) h₀ rows acc →
          SharedInv r (capSeq grow r) (values.getLast hne) h₀
            (rows ++ l.flatMap (fun s => values.map (fun _ => readSlice h₀ s)))
            (l.foldl (fun acc s => iterRow grow s acc values) acc) := by
        intro l
        induction l with
        | nil => intro rows acc _ h; simpa using h
        | cons s l ih =>
          intro rows acc hl h
          obtain ⟨a, b, c⟩ := hi.ok s (hl s (by simp))
          have := ih _ _ (fun x hx => hl x (by simp [hx])) (h.row (grow := grow) hr a b c values hne)
          rw [List.foldl_cons, List.flatMap_cons, ← List.append_assoc]
          exact this
      have hfin := key res [] (h₀, []) (fun _ h => h)
        ⟨rfl, fun _ => rfl, fun _ => rfl, rfl, by simp, by simp⟩
      rw [List.nil_append] at hfin
      have hround : iterRound grow values (h₀, res) =
        res.foldl (fun acc s => iterRow grow s acc values) (h₀, []) := rfl
      rw [hround]
      refine ⟨fun s hs => by rw [hcap]; exact hfin.ok s hs, ?_⟩
      rw [htup']
      have hread : ∀ s ∈ (res.foldl (fun acc s => iterRow grow s acc values) (h₀, [])).2,
          readSlice (res.foldl (fun acc s => iterRow grow s acc values) (h₀, [])).1 s =
            readSlice h₀ ⟨s.arr, r⟩ ++ [values.getLastD 0] := by
        intro s hs
        obtain ⟨a, b, c⟩ := hfin.ok s hs
        have hw := hfin.wrote s hs
        have hk := hfin.keep s.arr
        rw [hlast]
        unfold readSlice
        rw [a, List.take_add_one, hk, hw]
        rfl
      rw [List.map_congr_left hread]
      have := congrArg (List.map (fun t => t ++ [values.getLastD 0])) hfin.read
      rw [List.map_map] at this
      simp only [Function.comp_def] at this
      rw [this, List.map_flatMap, List.flatMap_map]
      apply List.flatMap_congr
      intro s _
      rw [List.map_map]
      rfl
  · have hcap : capSeq grow (r + 1) = grow r := by rw [capSeq, if_neg hr]
    have hcr : capSeq grow r = r := Nat.le_antisymm (Nat.not_lt.1 hr) (capSeq_ge grow hg r)
    simp only [hr, if_false] at htup'
    have key : ∀ (l : List Slice) (rows : List (List Int)) (acc : SliceHeap × List Slice),
        (∀ s ∈ l, s ∈ res) → FreshInv grow r h₀ rows acc →
        FreshInv grow r h₀
          (rows ++ l.flatMap (fun s => values.map (fun v => readSlice h₀ s ++ [v])))
          (l.foldl (fun acc s => iterRow grow s acc values) acc) := by
      intro l
      induction l with
      | nil => intro rows acc _ h; simpa using h
      | cons s l ih =>
        intro rows acc hl h
        obtain ⟨a, b, c⟩ := hi.ok s (hl s (by simp))
        rw [hcr] at c
        have := ih _ _ (fun x hx => hl x (by simp [hx])) (FreshInv.row hg a b c values h)
        rw [List.foldl_cons, List.flatMap_cons, ← List.append_assoc]
        exact this
    have hfin := key res [] (h₀, []) (fun _ h => h) ⟨List.prefix_refl _, rfl, by simp⟩
    rw [List.nil_append] at hfin
    have hround : iterRound grow values (h₀, res) =
      res.foldl (fun acc s => iterRow grow s acc values) (h₀, []) := rfl
    rw [hround]
    refine ⟨fun s hs => by rw [hcap]; exact hfin.ok s hs, ?_⟩
    rw [hfin.read, htup', List.flatMap_map]

theorem IterInv.state {grow : Nat → Nat} (hg : ∀ n, n < grow n) (values : List Int) (r : Nat) :
    IterInv grow values r (iterProductState grow values r) := by
  induction r with
  | zero =>
    refine ⟨?_, rfl⟩
    intro s hs
    simp only [iterProductState, List.mem_singleton] at hs
    subst hs
    exact ⟨rfl, by simp [iterProductState], rfl⟩
  | succ r ih => exact ih.round hg

theorem iterProduct_eq {grow : Nat → Nat} (hg : ∀ n, n < grow n) (values : List Int) (r : Nat) :
    iterProduct grow values r = (tuples values r).map (blur grow (values.getLastD 0)) :=
  (IterInv.state hg values r).read

end GoSelect
