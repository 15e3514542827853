import Verif.Model.Dataset

/-!
# CSV and JSON files of data sets

Model of csvIO.go:119-167 (`ParseCSV`), 180-200 (`SaveHandle`), 203-243 (JSON).

The text formats themselves are those of the standard library and enter as parameters:
`encoding/csv` as a pair `write`/`read` between lists of records and text, `fmt.Sprintf("%f", ·)`
as `fmt`, `strconv.ParseFloat` as `parse`, `encoding/json` as a pair `marshal`/`unmarshal`.  Each
theorem states the contract it needs.
-/

namespace GoSelect

variable {K : Type}

/-- csvIO.go:136-141: a line as numbers; fields that cannot be parsed stay 0. -/
def parseFields [Zero K] (parse : String → Option K) (line : List String) : List K :=
  line.map (fun v => (parse v).getD 0)

/-- csvIO.go:156-165: distribute a row, from column `col` on.  State: the row of `X`, `xcol`, `Y[row]`.
`none`: `X.Set` out of range. -/
def parseRow (targetCol : Int) : List K → Int → List K × Nat × K → Option (List K × Nat × K)
  | [], _, st => some st
  | v :: rest, col, (x, xcol, y) =>
    if col = targetCol then parseRow targetCol rest (col + 1) (x, xcol, v)
    else
      match goSet x xcol v with
      | none => none
      | some x' => parseRow targetCol rest (col + 1) (x', xcol + 1, y)

/-- csvIO.go:129-166 on the records that the CSV reader delivers.  `none`: no data row (`data[0]`),
no feature (`NewDense` with zero columns) or `X.Set` out of range. -/
def parseRecords [Zero K] (parse : String → Option K) (records : List (List String))
    (targetCol : Int) : Option (Dataset K) :=
  match records with
  | [] => none
  | names :: lines =>
    let data := lines.map (parseFields parse)
    let targetCol := if targetCol < 0 then targetCol + names.length else targetCol
    match data with
    | [] => none
    | row0 :: _ =>
      if row0.length ≤ 1 then none
      else
        match data.mapM (fun row =>
          parseRow targetCol row 0 (List.replicate (row0.length - 1) 0, 0, 0)) with
        | none => none
        | some rows => some {
            X := ⟨data.length, row0.length - 1, fun r c => ((rows.map (·.1)).getD r []).getD c 0⟩
            Y := rows.map (·.2.2)
            names := names
            targetCol := targetCol }

/-- csvIO.go:119-167 `ParseCSV`; `read` fails (panic of line 130) on malformed text. -/
def parseCSV [Zero K] (parse : String → Option K) (read : String → Option (List (List String)))
    (text : String) (targetCol : Int) : Option (Dataset K) :=
  match read text with
  | none => none
  | some records => parseRecords parse records targetCol

/-- csvIO.go:189-196: the fields of row `i`, for `js` = the columns still to be written.  `none`:
index out of range. -/
def saveRow (fmt : K → String) (d : Dataset K) (i : Nat) : List Nat → Nat → Option (List String)
  | [], _ => some []
  | j :: js, shift =>
    if (j : Int) = d.targetCol then
      match d.Y[i]?, saveRow fmt d i js 1 with
      | some y, some rest => some (fmt y :: rest)
      | _, _ => none
    else if j - shift < d.X.nc then
      match saveRow fmt d i js shift with
      | some rest => some (fmt (d.X.get i (j - shift)) :: rest)
      | none => none
    else none

/-- csvIO.go:180-200 `SaveHandle`, the records. -/
def saveRecords (fmt : K → String) (d : Dataset K) : Option (List (List String)) :=
  match (List.range d.X.nr).mapM (fun i => saveRow fmt d i (List.range (d.X.nc + 1)) 0) with
  | none => none
  | some rows => some (d.names :: rows)

/-- csvIO.go:180-200 `SaveHandle`, the text. -/
def saveHandle (fmt : K → String) (write : List (List String) → String) (d : Dataset K) :
    Option String :=
  (saveRecords fmt d).map write

/-- csvIO.go:203-209 `JSONDataset`. -/
structure JSONDataset (K : Type) where
  X : List K
  Y : List K
  targetCol : Int
  names : List String
  nr : Nat
  nc : Nat

/-- csvIO.go:212-228: the loops fill `X[i*nc+j]`. -/
def jsonFill [Zero K] (X : Mat K) : List K :=
  (List.range X.nr).foldl (fun a i =>
    (List.range X.nc).foldl (fun a j => a.set (i * X.nc + j) (X.get i j)) a)
    (List.replicate (X.nr * X.nc) 0)

/-- csvIO.go:212-227: what `MarshalJSON` hands to `json.Marshal`. -/
def toJSONDataset [Zero K] (d : Dataset K) : JSONDataset K :=
  ⟨jsonFill d.X, d.Y, d.targetCol, d.names, d.X.nr, d.X.nc⟩

/-- csvIO.go:237-241.  `none`: `mat.NewDense` panics on a zero dimension or a wrong length. -/
def ofJSONDataset [Zero K] (j : JSONDataset K) : Option (Dataset K) :=
  if j.nr = 0 ∨ j.nc = 0 ∨ j.X.length ≠ j.nr * j.nc then none
  else some ⟨⟨j.nr, j.nc, fun r c => j.X.getD (r * j.nc + c) 0⟩, j.Y, j.names, j.targetCol⟩

end GoSelect
