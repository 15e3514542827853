import Verif.Proofs.JsonFiles
import Verif.Proofs.JsonPrefix
import Verif.Props.C44_text
import Verif.Props.C46
import Verif.Props.C94
import Mathlib.Data.List.TakeWhile

/-!
C45, C46, C94 on the level of characters: no contract on `encoding/json`, only on the conversion of numbers.  What is
assumed of it (`Spec.ReadsBack`) is that the digits which are written for a number are read as this number.
-/

namespace GoSelect

open Spec

variable {F : FloatFormat}

/-! ### Data sets -/

theorem numbersJson_floats (D : Digits F) (l : List (FinFloat F)) : ∃ j, numbersJson (floatText D) l = some j := by
  obtain ⟨out, h⟩ := mapM_isSome (f := numberJson (floatText D)) (l := l) (fun a _ => ⟨_, rfl⟩)
  exact ⟨_, by unfold numbersJson; rw [h]; rfl⟩

theorem JSONDataset.map_id {α : Type} (d : JSONDataset α) : d.map id = d := by
  simp [JSONDataset.map]

/-- No proper beginning of the text of an object is accepted. -/
theorem unmarshal_truncated {β : Type} {w : β → Option Json} {r : Json → Option β} {f : β → β} (h : Codes w r f)
    (hobj : ∀ x j, w x = some j → ∃ l, j = .obj l) (x : β) (text part rest : String)
    (ht : marshalText (w x) = some text) (hp : text = part ++ rest) (hne : part ≠ text) :
    unmarshalText r part = none := by
  unfold marshalText at ht
  obtain ⟨j, hj, rfl⟩ := Option.map_eq_some_iff.1 ht
  obtain ⟨l, rfl⟩ := hobj x j hj
  have hp' := congrArg String.toList hp
  rw [String.toList_ofList, String.toList_append] at hp'
  unfold unmarshalText
  rw [jsonParse_truncated (h x _ hj).1 hp']
  · rfl
  · intro h0
    apply hne
    rw [h0, List.append_nil] at hp'
    rw [hp', String.ofList_toList]

/-- Nothing but blanks may follow the text of an object. -/
theorem unmarshal_trailing {β : Type} {w : β → Option Json} {r : Json → Option β} {f : β → β} (h : Codes w r f)
    (hobj : ∀ x j, w x = some j → ∃ l, j = .obj l) (x : β) (text rest : String)
    (ht : marshalText (w x) = some text) (hr : ∃ c ∈ rest.toList, c ∉ [' ', '\n', '\r', '\t']) :
    unmarshalText r (text ++ rest) = none := by
  unfold marshalText at ht
  obtain ⟨j, hj, rfl⟩ := Option.map_eq_some_iff.1 ht
  obtain ⟨l, rfl⟩ := hobj x j hj
  unfold unmarshalText
  rw [String.toList_append, String.toList_ofList, jsonParse_trailing (h x _ hj).1]
  · rfl
  · obtain ⟨c, hc, hn⟩ := hr
    intro h0
    have := List.dropWhile_eq_nil_iff.1 h0 c hc
    apply hn
    simpa [jsonSpace, or_assoc] using this

theorem datasetJson_obj {α : Type} {N : NumberText α} (x : JSONDataset α) (j : Json) (h : datasetJson N x = some j) :
    ∃ l, j = .obj l := by
  unfold datasetJson at h
  obtain ⟨_, -, h⟩ := Option.bind_eq_some_iff.1 h
  obtain ⟨_, -, h⟩ := Option.bind_eq_some_iff.1 h
  cases h
  exact ⟨_, rfl⟩

theorem highscoreJson_obj {α : Type} {N : NumberText α} (x : HighscoreJson α) (j : Json)
    (h : highscoreJson N x = some j) : ∃ l, j = .obj l := by
  unfold highscoreJson at h
  obtain ⟨_, -, h⟩ := Option.bind_eq_some_iff.1 h
  cases h
  exact ⟨_, rfl⟩

theorem lassoFileJson_obj {N : NumberText ℝ} (x : LassoFileJson) (j : Json) (h : lassoFileJson N x = some j) :
    ∃ l, j = .obj l := by
  unfold lassoFileJson at h
  obtain ⟨_, -, h⟩ := Option.bind_eq_some_iff.1 h
  obtain ⟨_, -, h⟩ := Option.bind_eq_some_iff.1 h
  obtain ⟨_, -, h⟩ := Option.bind_eq_some_iff.1 h
  obtain ⟨_, -, h⟩ := Option.bind_eq_some_iff.1 h
  cases h
  exact ⟨_, rfl⟩

/-- **C45 (text).** Every data set of finite numbers with rows and columns can be marshalled, and unmarshalling the text
gives the same matrix, targets (negative zeros included), names and target column. -/
theorem C45_text_round_trip (D : Digits F) (hD : ReadsBack D) (d : Dataset (FinFloat F)) (hnr : 0 < d.X.nr)
    (hnc : 0 < d.X.nc) : ∃ text, marshalText (datasetJson (floatText D) (toJSONDataset d)) = some text ∧
      ∃ e, (unmarshalText (datasetOfJson (floatText D)) text).bind ofJSONDataset = some e ∧ SameData e d := by
  obtain ⟨x, hx⟩ := numbersJson_floats D (toJSONDataset d).X
  obtain ⟨y, hy⟩ := numbersJson_floats D (toJSONDataset d).Y
  have hj : ∃ text, marshalText (datasetJson (floatText D) (toJSONDataset d)) = some text := by
    unfold marshalText datasetJson
    rw [hx, hy]
    exact ⟨_, rfl⟩
  obtain ⟨text, ht⟩ := hj
  exact ⟨text, ht, C45_round_trip (fun j => marshalText (datasetJson (floatText D) j))
    (unmarshalText (datasetOfJson (floatText D)))
    (fun j t h => by rw [(codes_dataset (floatText_roundTrips hD)).text j t h, JSONDataset.map_id]) d hnr hnc text ht⟩

/-- **C45 (damaged text).** Every proper beginning of the text is an error, and so is the text followed by anything but
blanks. -/
theorem C45_text_damaged (D : Digits F) (hD : ReadsBack D) (d : Dataset (FinFloat F)) (text : String)
    (ht : marshalText (datasetJson (floatText D) (toJSONDataset d)) = some text) :
    (∀ part rest, text = part ++ rest → part ≠ text → unmarshalText (datasetOfJson (floatText D)) part = none) ∧
    ∀ rest : String, (∃ c ∈ rest.toList, c ∉ [' ', '\n', '\r', '\t']) →
      unmarshalText (datasetOfJson (floatText D)) (text ++ rest) = none :=
  ⟨fun part rest hp hne =>
    unmarshal_truncated (codes_dataset (floatText_roundTrips hD)) datasetJson_obj _ text part rest ht hp hne,
  fun rest hr => unmarshal_trailing (codes_dataset (floatText_roundTrips hD)) datasetJson_obj _ text rest ht hr⟩

/-! ### Nodes and lists -/

theorem nodeJson_floats (D : Digits F) (j : NodeJson (FinFloat F)) : ∃ v, nodeJson (floatText D) j = some v := by
  obtain ⟨c, hc⟩ := numbersJson_floats D j.coeff
  unfold nodeJson
  rw [hc]
  exact ⟨_, rfl⟩

/-- **C46 (text of a node).** Every node with finite numbers can be marshalled; its text restores everything but
`WasFlipped`. -/
theorem C46_text_node (D : Digits F) (hD : ReadsBack D) (n r : Node (FinFloat F)) :
    ∃ text, (nodeToJson n).bind (fun j => marshalText (nodeJson (floatText D) j)) = some text ∧
      ∃ m, (unmarshalText (nodeOfText (floatText D)) text).bind (nodeOfJson r) = some m ∧ m.model = n.model ∧
        m.coeff = n.coeff ∧ m.level = n.level ∧ m.lower = n.lower ∧ m.upper = n.upper ∧ m.score = n.score ∧
        m.wasFlipped = r.wasFlipped := by
  obtain ⟨j, hj⟩ := C46_node_no_panic n
  obtain ⟨v, hv⟩ := nodeJson_floats D j
  have ht : (nodeToJson n).bind (fun j => marshalText (nodeJson (floatText D) j)) =
      some (String.ofList (jsonText v)) := by
    rw [hj, Option.bind_some, hv]
    rfl
  exact ⟨_, ht, C46_node (fun j => marshalText (nodeJson (floatText D) j)) (unmarshalText (nodeOfText (floatText D)))
    (fun j t h => (codes_node (floatText_roundTrips hD)).text j t h) n r _ ht⟩

/-- The texts of lists: those of the values. -/
theorem highscore_codec (hF : ∀ q, F.rep q → 0 ≤ q) (D : Digits F) (hD : ReadsBack D) :
    ∀ j text, marshalText (highscoreJson (valueText hF D) j) = some text →
      unmarshalText (highscoreOfText (valueText hF D)) text = some j :=
  fun j t h => (codes_highscore (valueText_roundTrips hF hD)).text j t h

theorem highscoreJson_values (hF : ∀ q, F.rep q → 0 ≤ q) (D : Digits F) (h : HighscoreJson (FloatValue F)) :
    ∃ v, highscoreJson (valueText hF D) h = some v := by
  have hn : ∀ x, ∃ v, numberJson (valueText hF D) x = some v := fun x => ⟨_, rfl⟩
  have hl : ∀ l, ∃ v, numbersJson (valueText hF D) l = some v := fun l => by
    obtain ⟨out, h⟩ := mapM_isSome (f := numberJson (valueText hF D)) (l := l) (fun a _ => hn a)
    exact ⟨_, by unfold numbersJson; rw [h]; rfl⟩
  obtain ⟨items, hi⟩ := mapM_isSome (f := nodeJson (valueText hF D)) (l := h.items) (fun n _ => by
    obtain ⟨c, hc⟩ := hl n.coeff
    unfold nodeJson
    rw [hc]
    exact ⟨_, rfl⟩)
  unfold highscoreJson
  rw [hi]
  exact ⟨_, rfl⟩

/-- **C46 (text of a list).** A list of nodes with finite numbers that has room, or ends with equal scores, is restored
from its text. -/
theorem C46_text_list_partial (hF : ∀ q, F.rep q → 0 ≤ q) (D : Digits F) (hD : ReadsBack D) (M M' : Int)
    (ns : List (Node (FloatValue F))) (h : Highscore (FloatValue F)) (hi : (newHighscore M).insertAll ns = some h)
    (z : Node (FloatValue F))
    (hroom : (h.len : Int) < M ∨ ∃ pre a b, h.items = pre ++ [a, b] ∧ a.score = b.score) :
    ∃ text, (highscoreToJson h).bind (fun j => marshalText (highscoreJson (valueText hF D) j)) = some text ∧
      (unmarshalText (highscoreOfText (valueText hF D)) text).bind (highscoreOfJson z (newHighscore M')) =
        some ⟨h.items.map (withFlip z.wasFlipped), M⟩ := by
  obtain ⟨j, hj, -⟩ := highscoreJson_reload M M' ns h hi z
  obtain ⟨v, hv⟩ := highscoreJson_values hF D j
  have ht : (highscoreToJson h).bind (fun j => marshalText (highscoreJson (valueText hF D) j)) =
      some (String.ofList (jsonText v)) := by
    rw [hj, Option.bind_some, hv]
    rfl
  exact ⟨_, ht, C46_list_partial (fun j => marshalText (highscoreJson (valueText hF D) j))
    (unmarshalText (highscoreOfText (valueText hF D))) (highscore_codec hF D hD) M M' ns h hi z _ ht hroom⟩

/-- **C46 (text of a full list).** A full list whose last node is strictly the worst loses exactly this node. -/
theorem C46_text_full_list (hF : ∀ q, F.rep q → 0 ≤ q) (D : Digits F) (hD : ReadsBack D) (M M' : Int)
    (ns : List (Node (FloatValue F))) (h : Highscore (FloatValue F)) (hi : (newHighscore M).insertAll ns = some h)
    (z : Node (FloatValue F)) (hfull : (h.len : Int) = M)
    (pre : List (Node (FloatValue F))) (a b : Node (FloatValue F)) (hitems : h.items = pre ++ [a, b])
    (hab : b.score < a.score) :
    ∃ text, (highscoreToJson h).bind (fun j => marshalText (highscoreJson (valueText hF D) j)) = some text ∧
      (unmarshalText (highscoreOfText (valueText hF D)) text).bind (highscoreOfJson z (newHighscore M')) =
        some ⟨(pre ++ [a]).map (withFlip z.wasFlipped), M⟩ := by
  obtain ⟨j, hj, -⟩ := highscoreJson_reload M M' ns h hi z
  obtain ⟨v, hv⟩ := highscoreJson_values hF D j
  have ht : (highscoreToJson h).bind (fun j => marshalText (highscoreJson (valueText hF D) j)) =
      some (String.ofList (jsonText v)) := by
    rw [hj, Option.bind_some, hv]
    rfl
  exact ⟨_, ht, C46_full_list (fun j => marshalText (highscoreJson (valueText hF D) j))
    (unmarshalText (highscoreOfText (valueText hF D))) (highscore_codec hF D hD) M M' ns h hi z _ ht hfull pre a b
    hitems hab⟩

/-- **C46 (damaged text).** Every proper beginning of the text of a list is an error, and so is the text followed by
anything but blanks: no node is inserted. -/
theorem C46_text_damaged (hF : ∀ q, F.rep q → 0 ≤ q) (D : Digits F) (hD : ReadsBack D)
    (j : HighscoreJson (FloatValue F)) (text : String)
    (ht : marshalText (highscoreJson (valueText hF D) j) = some text) :
    (∀ part rest, text = part ++ rest → part ≠ text → unmarshalText (highscoreOfText (valueText hF D)) part = none) ∧
    ∀ rest : String, (∃ c ∈ rest.toList, c ∉ [' ', '\n', '\r', '\t']) →
      unmarshalText (highscoreOfText (valueText hF D)) (text ++ rest) = none :=
  ⟨fun part rest hp hne =>
    unmarshal_truncated (codes_highscore (valueText_roundTrips hF hD)) highscoreJson_obj _ text part rest ht hp hne,
  fun rest hr => unmarshal_trailing (codes_highscore (valueText_roundTrips hF hD)) highscoreJson_obj _ text rest ht hr⟩

/-! ### Lasso paths -/

/-- What a loaded file and the saved one have in common: everything, with numbers rounded to those of the format. -/
structure Spec.LoadedRounded (rd : ℝ → ℝ) (p : LassoLoaded) (file : LassoFile) : Prop where
  dset : ∃ e, p.dset = some e ∧ SameData e (roundData rd file.dset)
  nodes : p.nodes = file.nodes.map (fun n => ⟨n.coeff.map rd, rd n.lamb, n.selection⟩)
  aicc : ∃ a : List ℝ, file.aicc = a.map .fin ∧ p.aicc = a.map rd
  bic : ∃ b : List ℝ, file.bic = b.map .fin ∧ p.bic = b.map rd

theorem toJSONDataset_round {K : Type} [Zero K] (rd : K → K) (d : Dataset K) :
    toJSONDataset (roundData rd d) = (toJSONDataset d).map rd := by
  obtain ⟨h1, h2⟩ := jsonOuter d.X d.X.nr (le_refl _)
  obtain ⟨g1, g2⟩ := jsonOuter (roundData rd d).X d.X.nr (le_refl _)
  have hX : jsonFill (roundData rd d).X = (jsonFill d.X).map rd := by
    apply List.ext_getElem?
    intro k
    rw [List.getElem?_map]
    by_cases hk : k < d.X.nr * d.X.nc
    · have hnc : 0 < d.X.nc := by
        rcases Nat.eq_zero_or_pos d.X.nc with h | h
        · rw [h, Nat.mul_zero] at hk; omega
        · exact h
      have hr : k / d.X.nc < d.X.nr := (Nat.div_lt_iff_lt_mul hnc).2 hk
      have hc : k % d.X.nc < d.X.nc := Nat.mod_lt _ hnc
      have a := h2 _ _ hr hc
      have b := g2 _ _ hr hc
      rw [Nat.div_add_mod'] at a
      rw [show (roundData rd d).X.nc = d.X.nc from rfl, Nat.div_add_mod'] at b
      exact b.trans (congrArg (Option.map rd) a).symm
    · rw [List.getElem?_eq_none (by unfold jsonFill; exact g1.le.trans (not_lt.1 hk)),
        List.getElem?_eq_none (by unfold jsonFill; exact h1.le.trans (not_lt.1 hk))]
      rfl
  unfold toJSONDataset JSONDataset.map
  rw [hX]
  rfl

theorem lassoFileJson_reals (near : ℝ → FinFloat F) (D : Digits F) (f : LassoFileJson) :
    ∃ v, lassoFileJson (realText near D) f = some v := by
  have hn : ∀ x, ∃ v, numberJson (realText near D) x = some v := fun x => ⟨_, rfl⟩
  have hl : ∀ l, ∃ v, numbersJson (realText near D) l = some v := fun l => by
    obtain ⟨out, h⟩ := mapM_isSome (f := numberJson (realText near D)) (l := l) (fun a _ => hn a)
    exact ⟨_, by unfold numbersJson; rw [h]; rfl⟩
  obtain ⟨nodes, hi⟩ := mapM_isSome (f := larsNodeJson (realText near D)) (l := f.nodes) (fun n _ => by
    obtain ⟨c, hc⟩ := hl n.coeff
    obtain ⟨l, hl⟩ := hn n.lamb
    unfold larsNodeJson
    rw [hc, hl]
    exact ⟨_, rfl⟩)
  obtain ⟨x, hx⟩ := hl f.dset.X
  obtain ⟨y, hy⟩ := hl f.dset.Y
  obtain ⟨a, ha⟩ := hl f.aicc
  obtain ⟨b, hb⟩ := hl f.bic
  unfold lassoFileJson datasetJson
  rw [hx, hy, hi, ha, hb]
  exact ⟨_, rfl⟩

/-- **C94 (text).** What the command saves has a text, and the text is loaded as it was saved, with numbers rounded to
those of the format (`near x` is the number that stands for `x`). -/
theorem C94_text_load (near : ℝ → FinFloat F) (D : Digits F) (hD : ReadsBack D)
    (svd : Mat ℝ → SVD ℝ) (sort : List (Fl ℝ × Nat) → List (Fl ℝ × Nat)) (f : LassoFlags)
    (dset : Dataset ℝ) (nodes : List (LassoLarsNode ℝ)) (rows : List (HighscoreRow ℝ (Fl ℝ))) (file : LassoFile)
    (hy : dset.Y.length = dset.X.nr) (hnr : 0 < dset.X.nr) (hnc : 0 < dset.X.nc)
    (h : LassoFit svd sort f dset nodes rows (some file)) :
    ∃ j text p, lassoFileToJson file = some j ∧ marshalText (lassoFileJson (realText near D) j) = some text ∧
      lassoLarsPathFromBytes (unmarshalText (lassoFileOfJson (realText near D))) text = some p ∧
      LoadedRounded (fun x => ((near x).val : ℝ)) p file := by
  obtain ⟨h1, h2, -, h4, h5⟩ := C87_saved svd sort f dset nodes rows file hy h
  obtain ⟨a, ha⟩ : ∃ a : List ℝ, file.aicc = a.map .fin := ⟨_, by rw [h4]; exact (List.map_map ..).symm⟩
  obtain ⟨b, hb⟩ : ∃ b : List ℝ, file.bic = b.map .fin := ⟨_, by rw [h5]; exact (List.map_map ..).symm⟩
  have hj : lassoFileToJson file = some ⟨toJSONDataset file.dset, file.nodes, a, b⟩ := by
    unfold lassoFileToJson
    rw [ha, hb, jsonNumbers_fin, jsonNumbers_fin]
    rfl
  obtain ⟨v, hv⟩ := lassoFileJson_reals near D ⟨toJSONDataset file.dset, file.nodes, a, b⟩
  have ht : marshalText (lassoFileJson (realText near D) ⟨toJSONDataset file.dset, file.nodes, a, b⟩) =
      some (String.ofList (jsonText v)) := by rw [hv]; rfl
  have hu := (codes_lassoFile (realText_readsAs hD near)).text _ _ ht
  obtain ⟨e, he, hs⟩ := C45_struct_round_trip (roundData (fun x => ((near x).val : ℝ)) file.dset)
    (by rw [h1]; exact hnr) (by rw [h1]; exact hnc)
  rw [toJSONDataset_round] at he
  refine ⟨_, _, ⟨some e, _, _, _⟩, hj, ht, ?_, ⟨e, rfl, hs⟩, rfl, ⟨a, ha, rfl⟩, ⟨b, hb, rfl⟩⟩
  unfold lassoLarsPathFromBytes
  rw [hu]
  simp only [LassoFileJson.map, he, Option.map_some]
  rfl

/-- **C94 (damaged text).** A file that was cut off anywhere, or is followed by anything but blanks, is loaded without an
error, as a path without data and nodes; both plots then panic. -/
theorem C94_text_damaged (near : ℝ → FinFloat F) (D : Digits F) (hD : ReadsBack D) (j : LassoFileJson)
    (text damaged : String) (ht : marshalText (lassoFileJson (realText near D) j) = some text)
    (hd : (∃ rest, text = damaged ++ rest ∧ damaged ≠ text) ∨
      ∃ rest : String, damaged = text ++ rest ∧ ∃ c ∈ rest.toList, c ∉ [' ', '\n', '\r', '\t']) :
    ∃ p, lassoLarsPathFromBytes (unmarshalText (lassoFileOfJson (realText near D))) damaged = some p ∧
      p.dset = none ∧ p.nodes = [] ∧ plotQualityScores p = none ∧ plotDeviations p = none := by
  apply C94_malformed
  rcases hd with ⟨rest, hp, hne⟩ | ⟨rest, rfl, hr⟩
  · exact unmarshal_truncated (codes_lassoFile (realText_readsAs hD near)) lassoFileJson_obj _ text damaged rest ht hp hne
  · exact unmarshal_trailing (codes_lassoFile (realText_readsAs hD near)) lassoFileJson_obj _ text rest ht hr

/-! ### Concrete cases -/

/-- The shortest digits of eighths. -/
def eighthsDigits : Digits eighths where
  digits x := (x.1 * 10 ^ x.1.den.log2).num.natAbs
  exponent x := -(x.1.den.log2 : Int)

theorem eighths_readsBack : ReadsBack eighthsDigits := by
  have hround : ∀ (x : { q : ℚ // eighths.rep q }) (z : ℚ), z = x.1 → eighths.round z = some x := by
    rintro ⟨q, n, rfl⟩ z rfl
    have : roundHalfEven ((n : ℚ) / 8 * 8) = n := by
      rw [div_mul_cancel₀ _ (by norm_num)]
      simp [roundHalfEven]
    simp only [eighths, this]
  have hpos : ∀ x : { q : ℚ // eighths.rep q }, 0 ≤ x.1 := by rintro ⟨_, n, rfl⟩; positivity
  have hden : ∀ x : { q : ℚ // eighths.rep q }, x.1.den ∈ [1, 2, 4, 8] := by
    rintro ⟨q, n, rfl⟩
    show ((n : ℚ) / 8).den ∈ [1, 2, 4, 8]
    have hdvd : ((n : ℚ) / 8).den ∣ 8 := by
      have := Rat.den_dvd (n : Int) 8
      rw [Rat.divInt_eq_div] at this
      rw [show ((n : Int) : ℚ) / ((8 : Int) : ℚ) = (n : ℚ) / 8 by push_cast; rfl] at this
      exact Int.natCast_dvd_natCast.1 this
    have hle := Nat.le_of_dvd (by norm_num) hdvd
    interval_cases hd : ((n : ℚ) / 8).den <;> revert hdvd <;> decide
  have hwhole : ∀ x : { q : ℚ // eighths.rep q }, (((x.1 * 10 ^ x.1.den.log2).num.natAbs : Nat) : ℚ) =
      x.1 * 10 ^ x.1.den.log2 := by
    intro x
    have h0 : 0 ≤ (x.1 * 10 ^ x.1.den.log2).num := Rat.num_nonneg.2 (mul_nonneg (hpos x) (by positivity))
    have h1 : (x.1 * 10 ^ x.1.den.log2).den = 1 := by
      obtain ⟨m, hm⟩ : ∃ m : Int, x.1 * 10 ^ x.1.den.log2 = m := by
        have hx : x.1 * x.1.den = x.1.num := Rat.mul_den_eq_num _
        have hd := hden x
        simp only [List.mem_cons, List.not_mem_nil, or_false] at hd
        rcases hd with h | h | h | h <;> rw [h] at hx ⊢
        · exact ⟨x.1.num, by rw [← hx, show Nat.log2 1 = 0 by decide]; norm_num⟩
        · exact ⟨x.1.num * 5, by push_cast; rw [← hx, show Nat.log2 2 = 1 by decide]; norm_num; ring⟩
        · exact ⟨x.1.num * 25, by push_cast; rw [← hx, show Nat.log2 4 = 2 by decide]; norm_num; ring⟩
        · exact ⟨x.1.num * 125, by push_cast; rw [← hx, show Nat.log2 8 = 3 by decide]; norm_num; ring⟩
      rw [hm]
      exact Rat.den_intCast _
    rw [Nat.cast_natAbs, abs_of_nonneg h0, (Rat.den_eq_one_iff _).1 h1]
  constructor
  · intro x
    apply hround
    unfold eighthsDigits
    simp only
    rw [hwhole, mul_assoc, ← zpow_natCast, ← zpow_add₀ (by norm_num), add_neg_cancel, zpow_zero, mul_one]
  · intro x h
    unfold eighthsDigits at h ⊢
    simp only at h ⊢
    have := hwhole x
    rw [h, Nat.cast_zero] at this
    have hx : x.1 = 0 := by
      rcases mul_eq_zero.1 this.symm with h | h
      · exact h
      · exact absurd h (by positivity)
    rw [hx]
    exact ⟨by decide, rfl⟩

/-- The eighth below a real number. -/
noncomputable def nearEighth (x : ℝ) : FinFloat eighths :=
  ⟨decide (⌊x * 8⌋ < 0), ⟨(⌊x * 8⌋.natAbs : ℚ) / 8, _, rfl⟩⟩

/-- The text of a data set with a quote, a backslash, a line feed and an angle bracket in its names, and a negative
zero. -/
example : marshalText (datasetJson (floatText eighthsDigits) (toJSONDataset
      ⟨⟨1, 2, fun _ j => ⟨true, ⟨((3 * j : Nat) : ℚ) / 8, 3 * j, rfl⟩⟩⟩, [⟨false, ⟨((80 : Nat) : ℚ) / 8, 80, rfl⟩⟩],
        ["\"a\"", "b\\\n", "<y>"], 2⟩)) =
    some "{\"X\":[-0,-0.375],\"Y\":[10],\"TargetCol\":2,\"Names\":[\"\\\"a\\\"\",\"b\\\\\\n\",\"\\u003cy\\u003e\"],\"Nr\":1,\"Nc\":2}" := by
  decide +kernel

/-- Other texts of the same data: blanks, other orders of the members, other case, other notations of numbers. -/
example : ((unmarshalText (datasetOfJson (floatText eighthsDigits))
      " { \"nr\" : 1, \"NC\":2,\n\"X\":[-0.0, -3.75E-1],\"unknown\":{\"a\":[true,null]},\"Y\":[1e+1],\"names\":[\"\\u0041\",\"b\",\"y\"],\"targetCol\":2}").map
      (fun j => (j.X.map (fun x => (x.neg, x.mag.1)), j.Y.map (fun x => (x.neg, x.mag.1)), j.names, j.targetCol))) =
    some ([(true, 0), (true, 3 / 8)], [(false, 10)], ["A", "b", "y"], 2) := by
  decide +kernel

theorem eighths_nonneg : ∀ q, eighths.rep q → 0 ≤ q := eighths_nearest.nonneg

/-- An eighth as a value. -/
def eighth (n : Int) : FloatValue eighths := ⟨(n : ℚ) / 8, n.natAbs, by
  rw [abs_div, abs_of_pos (by norm_num : (0 : ℚ) < 8), Nat.cast_natAbs, Int.cast_abs]⟩

/-- The text of a list. -/
example : ((newHighscore 3).insertAll [⟨[true, false], [eighth 12], 1, eighth (-8), eighth 4, eighth (-4), true⟩,
      ⟨[false, true], [eighth 1], 2, eighth (-8), eighth (-8), eighth (-8), false⟩]).bind (fun h =>
      (highscoreToJson h).bind (fun j => marshalText (highscoreJson (valueText eighths_nonneg eighthsDigits) j))) =
    some ("{\"maxItems\":3,\"items\":[{\"selected\":[0],\"totNumFeatures\":2,\"lower\":-1,\"upper\":0.5,\"score\":-0.5," ++
      "\"level\":1,\"coeff\":[1.5]},{\"selected\":[1],\"totNumFeatures\":2,\"lower\":-1,\"upper\":-1,\"score\":-1," ++
      "\"level\":2,\"coeff\":[0.125]}]}") := by
  decide +kernel

/-- Notations of small and large numbers. -/
example : String.ofList (plainNotation 15 (-6)) = "0.000015" ∧ String.ofList (expNotation 15 (-8)) = "1.5e-7" ∧
    String.ofList (expNotation 1 21) = "1e+21" ∧ String.ofList (plainNotation 125 (-1)) = "12.5" ∧
    String.ofList (plainNotation 3 4) = "30000" := by decide +kernel

/-- A run of the command whose file is loaded from its text; numbers are rounded to eighths. -/
example : ∃ rows file j text p, LassoFit LassoExample.svd id LassoExample.flags NestedExample.data NestedExample.path rows
      (some file) ∧ lassoFileToJson file = some j ∧
    marshalText (lassoFileJson (realText nearEighth eighthsDigits) j) = some text ∧
    lassoLarsPathFromBytes (unmarshalText (lassoFileOfJson (realText nearEighth eighthsDigits))) text = some p ∧
    p.nodes.length = file.nodes.length := by
  obtain ⟨rows, file, h, -⟩ := LassoExample.fit_file
  obtain ⟨j, text, p, h1, h2, h3, h4⟩ := C94_text_load nearEighth eighthsDigits eighths_readsBack _ _ _ _ _ _ _ rfl
    (by decide) (by decide) h
  exact ⟨rows, file, j, text, p, h, h1, h2, h3, by rw [h4.nodes, List.length_map]⟩

end GoSelect
