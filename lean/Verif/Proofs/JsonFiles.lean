import Verif.Proofs.JsonNumbers
import Verif.Proofs.MapM

/-! What is written as JSON is read back. -/

namespace GoSelect

/-- What `w` makes of a value has only proper numbers, and `r` makes `f` of the value of it. -/
def Codes {β : Type} (w : β → Option Json) (r : Json → Option β) (f : β → β) : Prop :=
  ∀ x j, w x = some j → j.Numbers ∧ r j = some (f x)

/-- A data set with other numbers. -/
def JSONDataset.map {α : Type} (rd : α → α) (d : JSONDataset α) : JSONDataset α :=
  ⟨d.X.map rd, d.Y.map rd, d.targetCol, d.names, d.nr, d.nc⟩

/-- A node of a path with other numbers. -/
def LassoLarsNode.map (rd : ℝ → ℝ) (n : LassoLarsNode ℝ) : LassoLarsNode ℝ := ⟨n.coeff.map rd, rd n.lamb, n.selection⟩

/-- A lasso path with other numbers. -/
def LassoFileJson.map (rd : ℝ → ℝ) (f : LassoFileJson) : LassoFileJson :=
  ⟨f.dset.map rd, f.nodes.map (LassoLarsNode.map rd), f.aicc.map rd, f.bic.map rd⟩

theorem Codes.list {β : Type} {w : β → Option Json} {r : Json → Option β} {f : β → β} (h : Codes w r f) (l : List β)
    (out : List Json) (ho : l.mapM w = some out) : numbersList out ∧ out.mapM r = some (l.map f) := by
  induction l generalizing out with
  | nil => cases ho; exact ⟨trivial, rfl⟩
  | cons a l ih =>
    rw [List.mapM_cons] at ho
    cases ha : w a with
    | none => rw [ha] at ho; cases ho
    | some j =>
      cases hl : l.mapM w with
      | none => rw [ha, hl] at ho; cases ho
      | some js =>
        rw [ha, hl] at ho
        cases ho
        obtain ⟨h1, h2⟩ := h a j ha
        obtain ⟨g1, g2⟩ := ih js hl
        refine ⟨⟨h1, g1⟩, ?_⟩
        rw [List.mapM_cons, h2, g2]
        rfl

/-- The text of a value is read as the value. -/
theorem Codes.text {β : Type} {w : β → Option Json} {r : Json → Option β} {f : β → β} (h : Codes w r f) (x : β)
    (text : String) (ht : marshalText (w x) = some text) : unmarshalText r text = some (f x) := by
  unfold marshalText at ht
  cases hw : w x with
  | none => rw [hw] at ht; cases ht
  | some j =>
    rw [hw] at ht
    cases ht
    obtain ⟨h1, h2⟩ := h x j hw
    unfold unmarshalText
    rw [String.toList_ofList, jsonParse_text j h1]
    exact h2

section
variable {α : Type} [Zero α] {N : NumberText α} {rd : α → α}

theorem codes_number (hN : Spec.ReadsAs N rd) : Codes (numberJson N) (numberOfJson N) rd := by
  intro x j hj
  unfold numberJson at hj
  cases hw : N.write x with
  | none => rw [hw] at hj; cases hj
  | some t =>
    rw [hw] at hj
    cases hj
    obtain ⟨h1, h2⟩ := hN x t hw
    exact ⟨h1, h2⟩

theorem codes_numbers (hN : Spec.ReadsAs N rd) : Codes (numbersJson N) (listOfJson (numberOfJson N)) (List.map rd) := by
  intro l j hj
  unfold numbersJson at hj
  cases hw : l.mapM (numberJson N) with
  | none => rw [hw] at hj; cases hj
  | some out =>
    rw [hw] at hj
    cases hj
    exact (codes_number hN).list l out hw

theorem codes_int : Codes (fun n => some (intJson n)) intOfJson id := by
  intro n j hj
  cases hj
  exact ⟨intLiteral_valid n, parseInt_literal n⟩

theorem codes_nat (n : Nat) : (intJson n).Numbers ∧ natOfJson (intJson n) = some n := by
  obtain ⟨h1, h2⟩ := codes_int n _ rfl
  refine ⟨h1, ?_⟩
  unfold natOfJson
  rw [h2, Option.bind_some, id_eq, if_pos (by omega)]
  rfl

theorem codes_string : Codes (fun s => some (stringJson s)) stringOfJson id := by
  intro s j hj
  cases hj
  refine ⟨trivial, ?_⟩
  simp [stringJson, stringOfJson]

theorem codes_ints (l : List Int) : (intsJson l).Numbers ∧ listOfJson intOfJson (intsJson l) = some l := by
  have := codes_int.list l _ (mapM_of_forall fun _ _ => rfl)
  rwa [List.map_id] at this

theorem codes_strings (l : List String) :
    numbersList (l.map stringJson) ∧ (l.map stringJson).mapM stringOfJson = some l := by
  have := codes_string.list l _ (mapM_of_forall fun _ _ => rfl)
  rwa [List.map_id] at this

theorem codes_nats (l : List Nat) : (intsJson (l.map Int.ofNat)).Numbers ∧
    listOfJson natOfJson (intsJson (l.map Int.ofNat)) = some l := by
  have h : Codes (fun n : Nat => some (intJson n)) natOfJson id := fun n j hj => by
    cases hj; exact codes_nat n
  have := h.list l _ (mapM_of_forall fun _ _ => rfl)
  rw [List.map_id] at this
  rw [intsJson, List.map_map]
  exact this

theorem codes_dataset (hN : Spec.ReadsAs N rd) : Codes (datasetJson N) (datasetOfJson N) (JSONDataset.map rd) := by
  intro d j hj
  unfold datasetJson at hj
  obtain ⟨x, hx, hj⟩ := Option.bind_eq_some_iff.1 hj
  obtain ⟨y, hy, hj⟩ := Option.bind_eq_some_iff.1 hj
  cases hj
  obtain ⟨x1, x2⟩ := codes_numbers hN _ _ hx
  obtain ⟨y1, y2⟩ := codes_numbers hN _ _ hy
  obtain ⟨t1, t2⟩ := codes_int d.targetCol _ rfl
  obtain ⟨n1, n2⟩ := codes_strings d.names
  obtain ⟨r1, r2⟩ := codes_nat d.nr
  obtain ⟨c1, c2⟩ := codes_nat d.nc
  refine ⟨⟨x1, y1, t1, n1, r1, c1, trivial⟩, ?_⟩
  change (listOfJson (numberOfJson N) x).bind (fun x => (listOfJson (numberOfJson N) y).bind (fun y =>
    (intOfJson (intJson d.targetCol)).bind (fun t => ((d.names.map stringJson).mapM stringOfJson).bind (fun names =>
      (natOfJson (intJson d.nr)).bind (fun nr => (natOfJson (intJson d.nc)).bind (fun nc =>
        some (JSONDataset.mk x y t names nr nc))))))) = _
  rw [x2, y2, t2, n2, r2, c2]
  rfl

theorem codes_node (hN : Spec.RoundTrips N) : Codes (nodeJson N) (nodeOfText N) id := by
  intro n j hj
  unfold nodeJson at hj
  obtain ⟨lower, hl, hj⟩ := Option.bind_eq_some_iff.1 hj
  obtain ⟨upper, hu, hj⟩ := Option.bind_eq_some_iff.1 hj
  obtain ⟨score, hs, hj⟩ := Option.bind_eq_some_iff.1 hj
  obtain ⟨coeff, hc, hj⟩ := Option.bind_eq_some_iff.1 hj
  cases hj
  obtain ⟨s1, s2⟩ := codes_ints n.selected
  obtain ⟨t1, t2⟩ := codes_int n.totNumFeatures _ rfl
  obtain ⟨l1, l2⟩ := codes_number hN _ _ hl
  obtain ⟨u1, u2⟩ := codes_number hN _ _ hu
  obtain ⟨o1, o2⟩ := codes_number hN _ _ hs
  obtain ⟨v1, v2⟩ := codes_nat n.level
  obtain ⟨c1, c2⟩ := codes_numbers hN _ _ hc
  refine ⟨⟨s1, t1, l1, u1, o1, v1, c1, trivial⟩, ?_⟩
  change (listOfJson intOfJson (intsJson n.selected)).bind (fun selected =>
    (intOfJson (intJson n.totNumFeatures)).bind (fun tot => (numberOfJson N lower).bind (fun lower =>
      (numberOfJson N upper).bind (fun upper => (numberOfJson N score).bind (fun score =>
        (natOfJson (intJson n.level)).bind (fun level => (listOfJson (numberOfJson N) coeff).bind (fun coeff =>
          some (NodeJson.mk selected tot lower upper score level coeff)))))))) = _
  rw [s2, t2, l2, u2, o2, v2, c2, List.map_id]
  rfl

theorem codes_highscore (hN : Spec.RoundTrips N) : Codes (highscoreJson N) (highscoreOfText N) id := by
  intro h j hj
  unfold highscoreJson at hj
  obtain ⟨items, hi, hj⟩ := Option.bind_eq_some_iff.1 hj
  cases hj
  obtain ⟨m1, m2⟩ := codes_int h.maxItems _ rfl
  obtain ⟨i1, i2⟩ := (codes_node hN).list _ _ hi
  refine ⟨⟨m1, i1, trivial⟩, ?_⟩
  change (intOfJson (intJson h.maxItems)).bind (fun m => (items.mapM (nodeOfText N)).bind (fun items =>
    some (HighscoreJson.mk m items))) = _
  rw [m2, i2, List.map_id]
  rfl

end

theorem codes_larsNode {N : NumberText ℝ} {rd : ℝ → ℝ} (hN : Spec.ReadsAs N rd) :
    Codes (larsNodeJson N) (larsNodeOfJson N) (LassoLarsNode.map rd) := by
  intro n j hj
  unfold larsNodeJson at hj
  obtain ⟨coeff, hc, hj⟩ := Option.bind_eq_some_iff.1 hj
  obtain ⟨lamb, hl, hj⟩ := Option.bind_eq_some_iff.1 hj
  cases hj
  obtain ⟨c1, c2⟩ := codes_numbers hN _ _ hc
  obtain ⟨l1, l2⟩ := codes_number hN _ _ hl
  obtain ⟨s1, s2⟩ := codes_nats n.selection
  refine ⟨⟨c1, l1, s1, trivial⟩, ?_⟩
  change (listOfJson (numberOfJson N) coeff).bind (fun coeff => (numberOfJson N lamb).bind (fun lamb =>
    (listOfJson natOfJson (intsJson (n.selection.map Int.ofNat))).bind (fun sel => some (LassoLarsNode.mk coeff lamb sel)))) = _
  rw [c2, l2, s2]
  rfl

theorem codes_lassoFile {N : NumberText ℝ} {rd : ℝ → ℝ} (hN : Spec.ReadsAs N rd) :
    Codes (lassoFileJson N) (lassoFileOfJson N) (LassoFileJson.map rd) := by
  intro f j hj
  unfold lassoFileJson at hj
  obtain ⟨dset, hd, hj⟩ := Option.bind_eq_some_iff.1 hj
  obtain ⟨nodes, hn, hj⟩ := Option.bind_eq_some_iff.1 hj
  obtain ⟨aicc, ha, hj⟩ := Option.bind_eq_some_iff.1 hj
  obtain ⟨bic, hb, hj⟩ := Option.bind_eq_some_iff.1 hj
  cases hj
  obtain ⟨d1, d2⟩ := codes_dataset hN _ _ hd
  obtain ⟨n1, n2⟩ := (codes_larsNode hN).list _ _ hn
  obtain ⟨a1, a2⟩ := codes_numbers hN _ _ ha
  obtain ⟨b1, b2⟩ := codes_numbers hN _ _ hb
  refine ⟨⟨d1, n1, a1, b1, trivial⟩, ?_⟩
  change (datasetOfJson N dset).bind (fun dset => (nodes.mapM (larsNodeOfJson N)).bind (fun nodes =>
    (listOfJson (numberOfJson N) aicc).bind (fun aicc => (listOfJson (numberOfJson N) bic).bind (fun bic =>
      some (LassoFileJson.mk dset nodes aicc bic))))) = _
  rw [d2, n2, a2, b2]
  rfl

end GoSelect
