import Verif.Model.JsonFiles

/-!
# Reading highscore lists from arbitrary texts

highscore.go:95-110 and node.go:110-126 for texts that need not have been written by `MarshalJSON`, with the errors of
`json.Unmarshal` and panics kept apart.  `json.Unmarshal` (encoding/json/decode.go) first checks the syntax of the whole
text.  It then walks through the members in the order of the text: a value of the wrong type is remembered as an error and
the walk goes on, an error returned by the `UnmarshalJSON` of an element ends it, and a panic in there is not recovered.
`null` leaves numbers as they are, makes slices nil and pointers nil (without a call of `UnmarshalJSON`).

Simplifications: if a member name occurs several times within a node the last one counts; a negative level is read as
0 (`Node.level` is a natural number in the model, and nothing here depends on it).
-/

namespace GoSelect

variable {α : Type}

/-- How a call of `UnmarshalJSON` ends; both `ok` and `error` leave a receiver behind. -/
inductive ReadEnd (σ : Type) where
  | ok (s : σ)
  | error (s : σ)
  | panic

def ReadEnd.isPanic {σ : Type} : ReadEnd σ → Bool
  | .panic => true
  | _ => false

/-- highscore.go:9-12 `Highscore` with its pointers: `items = none` is a nil list (the zero value `Highscore{}`), an
element `none` is a nil `*Node`. -/
structure RawHighscore (α : Type) where
  items : Option (List (Option (Node α)))
  maxItems : Int

/-- A list without nil pointers. -/
def Highscore.raw (h : Highscore α) : RawHighscore α := ⟨some (h.items.map some), h.maxItems⟩

/-- The loop highscore.go:31-44 with pointers; outer `none`: nil dereference in line 36 (the check of line 33 never fires,
because `item.Value` is an interface that holds a pointer); inner `none`: `itemInserted == false`. -/
def rawInsertBefore [LT α] [DecidableLT α] (node : Option (Node α)) :
    List (Option (Node α)) → Option (Option (List (Option (Node α))))
  | [] => some none
  | item :: rest =>
    match item, node with
    | some a, some b =>
      if a.score < b.score then some (some (node :: item :: rest))
      else (rawInsertBefore node rest).map (fun r => r.map (item :: ·))
    | _, _ => none

/-- highscore.go:31-48 with pointers. -/
def rawInsertTail [LT α] [DecidableLT α] (l : List (Option (Node α))) (maxItems : Int) (node : Option (Node α)) :
    Option (RawHighscore α) :=
  match rawInsertBefore node l with
  | none => none
  | some (some l') => some ⟨some (if (l'.length : Int) ≥ maxItems then l'.dropLast else l'), maxItems⟩
  | some none => some ⟨some (if (l.length : Int) < maxItems then l ++ [node] else l), maxItems⟩

/-- highscore.go:23-49 `Insert` with pointers.  `none`: nil dereference (of the list in line 53, of its last element or of a
node). -/
def RawHighscore.insert [LT α] [DecidableLT α] (h : RawHighscore α) (node : Option (Node α)) : Option (RawHighscore α) :=
  match h.items with
  | none => none
  | some l =>
    if (l.length : Int) = h.maxItems - 1 then
      match l.getLast?, node with
      | some (some last), some b => if b.score < last.score then some h else rawInsertTail l h.maxItems node
      | _, _ => none
    else rawInsertTail l h.maxItems node

/-- The loop highscore.go:106-108. -/
def RawHighscore.insertAll [LT α] [DecidableLT α] (h : RawHighscore α) (ns : List (Option (Node α))) :
    Option (RawHighscore α) :=
  ns.foldlM RawHighscore.insert h

/-- A number for a variable of type `int` (64 bits) with value `old`. -/
def intInto (old : Int) : Json → Option Int
  | .num lit => (parseInt lit).bind (fun n => if -2 ^ 63 ≤ n ∧ n < 2 ^ 63 then some n else none)
  | .null => some old
  | _ => none

/-- node.go:111-114: decoding into `nodeJsonified`; `none`: an error. -/
def nodeFields [Zero α] (N : NumberText α) : Json → Option (NodeJson α)
  | .obj l => do
    let selected ← listOfJson (intInto 0) (member l "selected")
    let tot ← intInto 0 (member l "totNumFeatures")
    let lower ← numberOfJson N (member l "lower")
    let upper ← numberOfJson N (member l "upper")
    let score ← numberOfJson N (member l "score")
    let level ← intInto 0 (member l "level")
    let coeff ← listOfJson (numberOfJson N) (member l "coeff")
    return ⟨selected, tot, lower, upper, score, level.toNat, coeff⟩
  | _ => none

/-- node.go:115-125, for a new node; `lim` is the largest length that `make` accepts.  `none`: a panic in line 120 or
123. -/
def nodeFill (lim : Nat) (n : NodeJson α) : Option (Node α) :=
  if n.totNumFeatures < 0 ∨ (lim : Int) < n.totNumFeatures then none
  else
    (n.selected.foldlM (fun model v => goSetInt model v true) (List.replicate n.totNumFeatures.toNat false)).map
      (fun model => ⟨model, n.coeff, n.level, n.lower, n.upper, n.score, false⟩)

/-- The elements of the slice `Items`, in order. -/
def readItems [Zero α] (N : NumberText α) (lim : Nat) : List Json → ReadEnd (List (Option (Node α)))
  | [] => .ok []
  | .null :: rest =>
    match readItems N lim rest with
    | .ok ns => .ok (none :: ns)
    | .error ns => .error (none :: ns)
    | .panic => .panic
  | j :: rest =>
    match nodeFields N j with
    | none => .error []
    | some aux =>
      match nodeFill lim aux with
      | none => .panic
      | some n =>
        match readItems N lim rest with
        | .ok ns => .ok (some n :: ns)
        | .error ns => .error (some n :: ns)
        | .panic => .panic

/-- highscore.go:96-99 `aux`, and whether an error is remembered. -/
structure HighscoreAux (α : Type) where
  maxItems : Int
  items : List (Option (Node α))
  failed : Bool

/-- The walk of `json.Unmarshal` through the members of an object (highscore.go:101). -/
def readMembers [Zero α] (N : NumberText α) (lim : Nat) :
    List (List Char × Json) → HighscoreAux α → ReadEnd (HighscoreAux α)
  | [], s => if s.failed then .error s else .ok s
  | (k, v) :: rest, s =>
    if foldName k = foldName "maxItems".toList then
      match intInto s.maxItems v with
      | some m => readMembers N lim rest { s with maxItems := m }
      | none => readMembers N lim rest { s with failed := true }
    else if foldName k = foldName "items".toList then
      match v with
      | .arr l =>
        match readItems N lim l with
        | .ok ns => readMembers N lim rest { s with items := ns }
        | .error ns => .error { s with items := ns, failed := true }
        | .panic => .panic
      | .null => readMembers N lim rest { s with items := [] }
      | _ => readMembers N lim rest { s with failed := true }
    else readMembers N lim rest s

/-- highscore.go:95-110 `UnmarshalJSON` on the characters of any text.  An object is walked through, `null` leaves `aux` as
it is, anything else is an error. -/
def readHighscore [Zero α] [LT α] [DecidableLT α] (N : NumberText α) (lim : Nat) (h : RawHighscore α) (text : String) :
    ReadEnd (RawHighscore α) :=
  match jsonParse text.toList with
  | none => .error h
  | some j =>
    let aux : ReadEnd (HighscoreAux α) :=
      match j with
      | .obj l => readMembers N lim l ⟨0, [], false⟩
      | .null => .ok ⟨0, [], false⟩
      | _ => .error ⟨0, [], true⟩
    match aux with
    | .panic => .panic
    | .error _ => .error h
    | .ok s =>
      match ({ h with maxItems := s.maxItems } : RawHighscore α).insertAll s.items with
      | none => .panic
      | some h' => .ok h'

end GoSelect
