import Verif.Model.Csv
import Verif.Spec.Dataset
import Verif.Proofs.MapM
import Verif.Props.C42_C43
import Mathlib.Tactic.Linarith
import Mathlib.Tactic.Ring

/-! C44: CSV files.  C45: JSON files. -/

namespace GoSelect

open Spec

variable {K : Type}

/-- The value of column `j` of the table of a data set: features before and after the target. -/
def cell (d : Dataset K) (t : Nat) (y : K) (i j : Nat) : K :=
  if j = t then y else if j < t then d.X.get i j else d.X.get i (j - 1)

theorem saveRow_eq (fmt : K → String) (d : Dataset K) (i t : Nat) (y : K) (ht : d.targetCol = t)
    (hy : d.Y[i]? = some y) (n a : Nat) (hn : a + n ≤ d.X.nc + 1) (htn : t ≤ d.X.nc) (shift : Nat)
    (hs : shift = if t < a then 1 else 0) :
    saveRow fmt d i (List.range' a n) shift = some ((List.range' a n).map (fun j => fmt (cell d t y i j))) := by
  induction n generalizing a shift with
  | zero => rfl
  | succ n ih =>
    rw [List.range'_succ, List.map_cons, saveRow]
    by_cases hj : a = t
    · rw [if_pos (by omega), hy, ih (a + 1) (by omega) 1 (by rw [if_pos (by omega)])]
      simp [cell, hj]
    · have hs' : shift = if t < a + 1 then 1 else 0 := by
        rw [hs]
        by_cases h : t < a
        · rw [if_pos h, if_pos (by omega)]
        · rw [if_neg h, if_neg (by omega)]
      rw [if_neg (by omega), ih (a + 1) (by omega) shift hs', if_pos]
      · simp only [cell, hj, if_false]
        by_cases h : t < a
        · rw [hs, if_pos h, if_neg (by omega)]
        · rw [hs, if_neg h, if_pos (by omega), Nat.sub_zero]
      · split at hs <;> omega

/-- The records of a well-formed data set. -/
theorem saveRecords_eq (fmt : K → String) (d : Dataset K) (h : WellFormed d) [Zero K] :
    saveRecords fmt d = some (d.names :: (List.range d.X.nr).map (fun i =>
      (List.range (d.X.nc + 1)).map (fun j => fmt (cell d d.targetCol.toNat (d.Y.getD i 0) i j)))) := by
  have h0 := h.target0
  have h1 := h.target1
  unfold saveRecords
  rw [mapM_of_forall (g := fun i => (List.range (d.X.nc + 1)).map
    (fun j => fmt (cell d d.targetCol.toNat (d.Y.getD i 0) i j)))]
  intro i hi
  rw [List.mem_range, ← h.y] at hi
  rw [List.range_eq_range', saveRow_eq fmt d i d.targetCol.toNat (d.Y.getD i 0) (by omega)
    (by simp [List.getElem?_eq_getElem hi]) _ _ (by omega) (by omega) 0 (by simp)]

theorem parseRow_after (t : Nat) (vs : List K) (col : Nat) (h : t < col) (x : List K) (y : K)
    (hx : x.length + 1 = col + vs.length) (hc : 0 < col) :
    parseRow (t : Int) vs col (x, col - 1, y) =
      some (x.take (col - 1) ++ vs, x.length, y) := by
  induction vs generalizing col x with
  | nil =>
    simp only [parseRow, List.append_nil, List.length_nil] at hx ⊢
    rw [List.take_of_length_le (by omega), show col - 1 = x.length by omega]
  | cons v vs ih =>
    simp only [List.length_cons] at hx
    rw [parseRow, if_neg (by omega)]
    unfold goSet
    rw [if_pos (by omega)]
    simp only
    have hlen : (x.set (col - 1) v).length = x.length := by simp
    have := ih (col + 1) (by omega) (x.set (col - 1) v) (by rw [hlen]; omega) (by omega)
    rw [show ((col : Int) + 1) = ((col + 1 : Nat) : Int) by omega,
      show col - 1 + 1 = col + 1 - 1 by omega, this, hlen]
    congr 2
    rw [show col + 1 - 1 = (col - 1) + 1 by omega, List.take_add_one, List.take_set_of_le (Nat.le_refl _),
      List.getElem?_set_self (by omega)]
    simp

theorem parseRow_before (t : Nat) (vs : List K) (col : Nat) (h : col ≤ t) (ht : t < col + vs.length)
    (x : List K) (y : K) (hx : x.length + 1 = col + vs.length) :
    parseRow (t : Int) vs col (x, col, y) =
      some (x.take col ++ vs.eraseIdx (t - col), x.length, (vs[t - col]?).getD y) := by
  induction vs generalizing col x with
  | nil => simp at ht; omega
  | cons v vs ih =>
    simp only [List.length_cons] at hx ht
    rw [parseRow]
    by_cases hc : col = t
    · subst hc
      rw [if_pos rfl]
      have := parseRow_after col vs (col + 1) (by omega) x v (by omega) (by omega)
      rw [Nat.add_sub_cancel] at this
      rw [show ((col : Int) + 1) = ((col + 1 : Nat) : Int) by omega, this]
      simp
    · rw [if_neg (by omega)]
      unfold goSet
      rw [if_pos (by omega)]
      simp only
      have hlen : (x.set col v).length = x.length := by simp
      have := ih (col + 1) (by omega) (by omega) (x.set col v) (by rw [hlen]; omega)
      rw [show ((col : Int) + 1) = ((col + 1 : Nat) : Int) by omega, this, hlen]
      rw [List.take_add_one, List.take_set_of_le (Nat.le_refl _), List.getElem?_set_self (by omega)]
      rw [show t - col = (t - (col + 1)) + 1 by omega]
      simp

/-- A row without the target column does not fit. -/
theorem parseRow_panic (t : Int) (vs : List K) (col : Nat) (ht : t < 0 ∨ (col + vs.length : Int) ≤ t)
    (x : List K) (y : K) (hx : x.length < col + vs.length) (hcol : col ≤ x.length) :
    parseRow t vs col (x, col, y) = none := by
  induction vs generalizing col x with
  | nil => simp at hx; omega
  | cons v vs ih =>
    simp only [List.length_cons] at hx ht
    rw [parseRow, if_neg (by push_cast at ht; omega)]
    unfold goSet
    by_cases hlt : col < x.length
    · rw [if_pos hlt]
      simp only
      exact ih (col + 1) (by push_cast at ht ⊢; omega) (x.set col v) (by simp; omega) (by simp; omega)
    · rw [if_neg hlt]

/-- Records that the CSV reader and writer pass on unchanged. -/
structure CsvContract (write : List (List String) → String) (read : String → Option (List (List String)))
    (clean : List (List String) → Prop) : Prop where
  roundTrip : ∀ rs, clean rs → read (write rs) = some rs

/-- `%f` followed by `ParseFloat` rounds to six decimals (`round6`), and a rounded value prints the
same. -/
structure FmtContract (fmt : K → String) (parse : String → Option K) (round6 : K → K) : Prop where
  parse_fmt : ∀ x, parse (fmt x) = some (round6 x)
  fmt_round : ∀ x, fmt (round6 x) = fmt x

/-- The data set with every value rounded. -/
def roundData (round6 : K → K) (d : Dataset K) : Dataset K :=
  ⟨⟨d.X.nr, d.X.nc, fun r c => round6 (d.X.get r c)⟩, d.Y.map round6, d.names, d.targetCol⟩

/-- Same content: dimensions, entries inside the dimensions, targets, names, target column. -/
structure SameData (a b : Dataset K) : Prop where
  nr : a.X.nr = b.X.nr
  nc : a.X.nc = b.X.nc
  get : ∀ r c, r < b.X.nr → c < b.X.nc → a.X.get r c = b.X.get r c
  Y : a.Y = b.Y
  names : a.names = b.names
  targetCol : a.targetCol = b.targetCol

variable [Zero K]

theorem eraseIdx_map_range {β : Type} (n t : Nat) (ht : t < n) (f : Nat → β) :
    ((List.range n).map f).eraseIdx t =
      (List.range (n - 1)).map (fun c => if c < t then f c else f (c + 1)) := by
  apply List.ext_getElem
  · rw [List.length_eraseIdx]; simp [ht]
  · intro i h1 h2
    rw [List.getElem_eraseIdx]
    simp only [List.getElem_map, List.getElem_range]
    split <;> rfl

/-- The records of `d` parse to `d` with rounded values; a negative target column counts from the
end. -/
theorem parseRecords_save (fmt : K → String) (parse : String → Option K) (round6 : K → K)
    (hf : FmtContract fmt parse round6) (d : Dataset K) (h : WellFormed d) (hnr : 0 < d.X.nr)
    (hnc : 0 < d.X.nc) (tc : Int) (htc : tc = d.targetCol ∨ tc = d.targetCol - d.names.length)
    (rs : List (List String)) (hrs : saveRecords fmt d = some rs) :
    ∃ e, parseRecords parse rs tc = some e ∧ SameData e (roundData round6 d) := by
  have h0 := h.target0
  have h1 := h.target1
  have hn := h.names
  rw [saveRecords_eq fmt d h] at hrs
  obtain rfl := Option.some.inj hrs
  set t := d.targetCol.toNat with htdef
  have ht : d.targetCol = (t : Int) := by omega
  unfold parseRecords
  simp only
  have htarget : (if tc < 0 then tc + (d.names.length : Int) else tc) = (t : Int) := by
    split <;> omega
  rw [htarget]
  -- the data rows
  have hdata : ((List.range d.X.nr).map (fun i => (List.range (d.X.nc + 1)).map
      (fun j => fmt (cell d t (d.Y.getD i 0) i j)))).map (parseFields parse) =
      (List.range d.X.nr).map (fun i => (List.range (d.X.nc + 1)).map
        (fun j => round6 (cell d t (d.Y.getD i 0) i j))) := by
    rw [List.map_map]
    apply List.map_congr_left
    intro i _
    simp only [Function.comp, parseFields, List.map_map]
    apply List.map_congr_left
    intro j _
    simp [hf.parse_fmt]
  rw [hdata]
  set F : Nat → List K := fun i => (List.range (d.X.nc + 1)).map
    (fun j => round6 (cell d t (d.Y.getD i 0) i j)) with hF
  have hFlen : ∀ i, (F i).length = d.X.nc + 1 := by intro i; simp [hF]
  have hhead : ∃ rest, (List.range d.X.nr).map F = F 0 :: rest := by
    obtain ⟨m, hm⟩ : ∃ m, d.X.nr = m + 1 := ⟨d.X.nr - 1, by omega⟩
    rw [hm, List.range_succ_eq_map, List.map_cons]
    exact ⟨_, rfl⟩
  obtain ⟨rest, hrest⟩ := hhead
  have hall : ((List.range d.X.nr).map F).mapM (fun row =>
      parseRow (t : Int) row 0 (List.replicate d.X.nc 0, 0, 0)) =
      some (((List.range d.X.nr).map F).map (fun row => (row.eraseIdx t, d.X.nc, (row[t]?).getD 0))) := by
    apply mapM_of_forall
    intro row hr
    obtain ⟨i, -, rfl⟩ := List.mem_map.1 hr
    have := parseRow_before t (F i) 0 (by omega) (by rw [hFlen]; omega)
        (List.replicate d.X.nc 0) 0 (by rw [hFlen]; simp)
    simpa using this
  have hl : ((List.range d.X.nr).map F).length = d.X.nr := by simp
  rw [hrest] at hall hl ⊢
  simp only [hFlen]
  rw [if_neg (by omega), Nat.add_sub_cancel, hall]
  refine ⟨_, rfl, hl, rfl, ?_, ?_, rfl, ht.symm⟩
  · intro r c hr hc
    simp only [roundData] at hr hc ⊢
    rw [← hrest, List.map_map, List.map_map, List.getD_eq_getElem?_getD, List.getD_eq_getElem?_getD,
      List.getElem?_map, List.getElem?_range hr]
    simp only [Option.map_some, Option.getD_some, Function.comp, hF]
    rw [eraseIdx_map_range _ _ (by omega), Nat.add_sub_cancel, List.getElem?_map,
      List.getElem?_range hc]
    simp only [Option.map_some, Option.getD_some, cell]
    by_cases hct : c < t
    · rw [if_pos hct, if_neg (by omega), if_pos hct]
    · rw [if_neg hct, if_neg (by omega), if_neg (by omega), Nat.add_sub_cancel]
  · simp only [roundData]
    rw [← hrest, List.map_map, List.map_map]
    apply List.ext_getElem
    · simp [h.y]
    · intro i hi1 hi2
      simp only [List.length_map] at hi2
      simp only [Function.comp_def, List.getElem_map, List.getElem_range, hF]
      rw [List.getElem?_map, List.getElem?_range (by omega)]
      simp [cell, List.getElem?_eq_getElem hi2]

/-- **C44 (round trip).** Writing a data set and parsing the text with its target column - or that
column counted from the end - gives the data set with every value rounded to six decimals. -/
theorem C44_round_trip (fmt : K → String) (parse : String → Option K) (round6 : K → K)
    (hf : FmtContract fmt parse round6) (write : List (List String) → String)
    (read : String → Option (List (List String))) (clean : List (List String) → Prop)
    (hc : CsvContract write read clean) (d : Dataset K) (h : WellFormed d) (hnr : 0 < d.X.nr)
    (hnc : 0 < d.X.nc) (hclean : ∀ rs, saveRecords fmt d = some rs → clean rs) :
    ∃ text, saveHandle fmt write d = some text ∧
      ∀ tc, tc = d.targetCol ∨ tc = d.targetCol - d.names.length →
        ∃ e, parseCSV parse read text tc = some e ∧ SameData e (roundData round6 d) := by
  have hrs := saveRecords_eq fmt d h
  refine ⟨_, by unfold saveHandle; rw [hrs]; rfl, ?_⟩
  intro tc htc
  unfold parseCSV
  rw [hc.roundTrip _ (hclean _ hrs)]
  exact parseRecords_save fmt parse round6 hf d h hnr hnc tc htc _ hrs

theorem SameData.saveRecords_eq {fmt : K → String} {a b : Dataset K} (h : SameData a b)
    (ha : WellFormed a) (hb : WellFormed b) : saveRecords fmt a = saveRecords fmt b := by
  rw [GoSelect.saveRecords_eq fmt a ha, GoSelect.saveRecords_eq fmt b hb, h.names, h.nr, h.nc, h.Y, h.targetCol]
  have h0 := hb.target0
  have h1 := hb.target1
  congr 2
  apply List.map_congr_left
  intro i hi
  rw [List.mem_range] at hi
  apply List.map_congr_left
  intro j hj
  rw [List.mem_range] at hj
  congr 1
  unfold cell
  split
  · rfl
  · split
    · exact h.get i j hi (by omega)
    · exact h.get i (j - 1) hi (by omega)

/-- **C44 (idempotent).** Writing the parsed data set gives the same text again. -/
theorem C44_write_again (fmt : K → String) (parse : String → Option K) (round6 : K → K)
    (hf : FmtContract fmt parse round6) (write : List (List String) → String)
    (read : String → Option (List (List String))) (clean : List (List String) → Prop)
    (hc : CsvContract write read clean) (d : Dataset K) (h : WellFormed d) (hnr : 0 < d.X.nr)
    (hnc : 0 < d.X.nc) (hclean : ∀ rs, saveRecords fmt d = some rs → clean rs) :
    ∃ text e, saveHandle fmt write d = some text ∧ parseCSV parse read text d.targetCol = some e ∧
      saveHandle fmt write e = some text := by
  obtain ⟨text, h1, h2⟩ := C44_round_trip fmt parse round6 hf write read clean hc d h hnr hnc hclean
  obtain ⟨e, h3, h4⟩ := h2 d.targetCol (.inl rfl)
  refine ⟨text, e, h1, h3, ?_⟩
  have hwr : WellFormed (roundData round6 d) :=
    ⟨h.names, h.distinct, h.target0, h.target1, by simp [roundData, h.y]⟩
  have hwe : WellFormed e :=
    ⟨by rw [h4.names, h4.nc]; exact hwr.names, by rw [h4.names]; exact hwr.distinct,
      by rw [h4.targetCol]; exact hwr.target0, by rw [h4.targetCol, h4.nc]; exact hwr.target1,
      by rw [h4.Y, h4.nr]; exact hwr.y⟩
  rw [← h1]
  unfold saveHandle
  rw [h4.saveRecords_eq hwe hwr]
  congr 1
  rw [saveRecords_eq fmt _ hwr, saveRecords_eq fmt d h]
  congr 2
  apply List.map_congr_left
  intro i hi
  simp only [roundData, List.mem_range] at hi
  apply List.map_congr_left
  intro j _
  have hi' : i < d.Y.length := by rw [h.y]; exact hi
  unfold cell roundData
  simp only
  by_cases hj : j = d.targetCol.toNat
  · rw [if_pos hj, if_pos hj]
    simp [List.getElem?_eq_getElem hi', hf.fmt_round]
  · rw [if_neg hj, if_neg hj]
    split <;> rw [hf.fmt_round]

/-- **C44 (panic).** A target column out of range makes `ParseCSV` panic. -/
theorem C44_out_of_range (parse : String → Option K) (names : List String)
    (lines : List (List String)) (hl : lines ≠ []) (hw : ∀ l ∈ lines, l.length = names.length)
    (tc : Int) (htc : tc < -names.length ∨ (names.length : Int) ≤ tc) :
    parseRecords parse (names :: lines) tc = none := by
  unfold parseRecords
  simp only
  cases lines with
  | nil => exact absurd rfl hl
  | cons l lines =>
    simp only [List.map_cons]
    split
    · rfl
    · rename_i hlen
      have hll := hw l (by simp)
      have hpl : (parseFields parse l).length = names.length := by simp [parseFields, hll]
      have hnone : parseRow (if tc < 0 then tc + (names.length : Int) else tc) (parseFields parse l) 0
          (List.replicate ((parseFields parse l).length - 1) 0, 0, 0) = none := by
        have := parseRow_panic (if tc < 0 then tc + (names.length : Int) else tc) (parseFields parse l) 0
          (by rw [hpl]; split <;> push_cast <;> omega)
          (List.replicate ((parseFields parse l).length - 1) 0) 0 (by simp; omega) (by omega)
        simpa using this
      rw [List.mapM_cons, hnone]
      rfl

/-- Fields that are not numbers become 0 without notice. -/
theorem C44_unparsable (parse : String → Option K) (line : List String) (j : Nat) (hj : j < line.length)
    (h : parse line[j] = none) : (parseFields parse line)[j]? = some 0 := by
  unfold parseFields
  rw [List.getElem?_map, List.getElem?_eq_getElem hj]
  simp [h]

/-- A contract that is met: unary numbers; records separated as such. -/
example : FmtContract (K := Nat) (fun n => String.ofList (List.replicate n 'x'))
    (fun s => some s.length) id :=
  ⟨fun x => by simp, fun _ => rfl⟩

example : ∃ e, parseRecords (K := Nat) (fun s => some s.length)
    [["a", "y", "b"], ["x", "xxx", "xx"], ["", "xx", "x"]] (-2) = some e ∧ e.Y = [3, 2] ∧
    e.targetCol = 1 ∧ e.X.get 0 1 = 2 := ⟨_, rfl, by decide, by decide, by decide⟩

/-! ### C45 -/

theorem jsonInner (X : Mat K) (i n : Nat) (a : List K) (hn : n ≤ X.nc) (hl : i * X.nc + X.nc ≤ a.length) :
    let b := (List.range n).foldl (fun a j => a.set (i * X.nc + j) (X.get i j)) a
    b.length = a.length ∧ ∀ k, b[k]? =
      if i * X.nc ≤ k ∧ k < i * X.nc + n then some (X.get i (k - i * X.nc)) else a[k]? := by
  induction n with
  | zero => simp
  | succ n ih =>
    obtain ⟨h1, h2⟩ := ih (by omega)
    simp only [List.range_succ, List.foldl_append, List.foldl_cons, List.foldl_nil, List.length_set]
    refine ⟨h1, ?_⟩
    intro k
    rw [List.getElem?_set]
    by_cases hk : i * X.nc + n = k
    · rw [if_pos hk, if_pos (by rw [h1]; omega), if_pos (by omega)]
      rw [← hk, Nat.add_sub_cancel_left]
    · rw [if_neg hk, h2 k]
      by_cases hc : i * X.nc ≤ k ∧ k < i * X.nc + n
      · rw [if_pos hc, if_pos (by omega)]
      · rw [if_neg hc, if_neg (by omega)]

theorem jsonOuter (X : Mat K) (n : Nat) (hn : n ≤ X.nr) :
    let b := (List.range n).foldl (fun a i =>
      (List.range X.nc).foldl (fun a j => a.set (i * X.nc + j) (X.get i j)) a)
      (List.replicate (X.nr * X.nc) 0)
    b.length = X.nr * X.nc ∧ ∀ r c, r < n → c < X.nc → b[r * X.nc + c]? = some (X.get r c) := by
  induction n with
  | zero => simp
  | succ n ih =>
    obtain ⟨h1, h2⟩ := ih (by omega)
    rw [List.range_succ, List.foldl_append, List.foldl_cons, List.foldl_nil]
    simp only
    have hle : n * X.nc + X.nc ≤ X.nr * X.nc := by
      have := Nat.mul_le_mul_right X.nc (show n + 1 ≤ X.nr from hn)
      linarith [this, Nat.succ_mul n X.nc]
    obtain ⟨g1, g2⟩ := jsonInner X n X.nc _ (le_refl _) (by rw [h1]; exact hle)
    refine ⟨by rw [g1, h1], ?_⟩
    intro r c hr hc
    rw [g2]
    by_cases hrn : r = n
    · subst hrn
      rw [if_pos (by omega), Nat.add_sub_cancel_left]
    · have hlt : r * X.nc + c < n * X.nc := by
        have := Nat.mul_le_mul_right X.nc (show r + 1 ≤ n by omega)
        linarith [Nat.succ_mul r X.nc]
      rw [if_neg (by omega)]
      exact h2 r c (by omega) hc

/-- **C45.** Rebuilding a data set from what was marshalled gives the same matrix, targets, names
and target column. -/
theorem C45_struct_round_trip (d : Dataset K) (hnr : 0 < d.X.nr) (hnc : 0 < d.X.nc) :
    ∃ e, ofJSONDataset (toJSONDataset d) = some e ∧ SameData e d := by
  obtain ⟨h1, h2⟩ := jsonOuter d.X d.X.nr (le_refl _)
  unfold ofJSONDataset toJSONDataset
  simp only
  rw [if_neg (by rw [jsonFill, h1]; omega)]
  refine ⟨_, rfl, rfl, rfl, ?_, rfl, rfl, rfl⟩
  intro r c hr hc
  simp only
  rw [List.getD_eq_getElem?_getD, jsonFill, h2 r c hr hc]
  rfl

/-- **C45.** With a JSON codec that round-trips the structure, `UnmarshalJSON(MarshalJSON(d))` is
`d`. -/
theorem C45_round_trip (marshal : JSONDataset K → Option String)
    (unmarshal : String → Option (JSONDataset K))
    (hj : ∀ j text, marshal j = some text → unmarshal text = some j) (d : Dataset K)
    (hnr : 0 < d.X.nr) (hnc : 0 < d.X.nc) (text : String)
    (ht : marshal (toJSONDataset d) = some text) :
    ∃ e, (unmarshal text).bind ofJSONDataset = some e ∧ SameData e d := by
  rw [hj _ _ ht]
  exact C45_struct_round_trip d hnr hnc

example : (toJSONDataset exData).X = [0, 1, 10, 11] := by decide

end GoSelect
