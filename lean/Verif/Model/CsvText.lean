import Verif.Model.Csv

/-!
# The text of CSV files

Model of `encoding/csv` of the standard library as csvIO.go uses it: `csv.NewReader` (csvIO.go:120) and `csv.NewWriter`
(csvIO.go:181) with their defaults, that is, fields separated by commas, no comment character, no trimming of blanks,
quotes as in RFC 4180, and as many fields in every record as in the first.  Texts are sequences of Unicode characters
(no invalid UTF-8).
-/

namespace GoSelect

/-- `Reader.readLine`: `\r\n` is read as `\n`, and a `\r` at the end of the text is dropped. -/
def normalizeNewlines : List Char → List Char
  | [] => []
  | ['\r'] => []
  | '\r' :: '\n' :: t => '\n' :: normalizeNewlines t
  | c :: t => c :: normalizeNewlines t

/-- Where `Reader.readRecord` is: at the start of a line, at the start of another field, in a field without quotes, in a
field with quotes, behind a quote in such a field. -/
inductive CsvState where
  | line | start | plain | quoted | seen
  deriving DecidableEq, Repr

/-- `Reader.Read` until the end of the text; `field` and `record` are what has been read of the field and the record.
Empty lines are skipped.  `none`: `ErrBareQuote` or `ErrQuote`. -/
def csvRecords : CsvState → List Char → List String → List Char → Option (List (List String))
  | .line, _, _, [] => some []
  | .line, _, _, c :: t =>
    if c = '\n' then csvRecords .line [] [] t
    else if c = '"' then csvRecords .quoted [] [] t
    else if c = ',' then csvRecords .start [] [""] t
    else csvRecords .plain [c] [] t
  | .start, _, record, [] => some [record ++ [""]]
  | .start, _, record, c :: t =>
    if c = '\n' then (csvRecords .line [] [] t).map ((record ++ [""]) :: ·)
    else if c = '"' then csvRecords .quoted [] record t
    else if c = ',' then csvRecords .start [] (record ++ [""]) t
    else csvRecords .plain [c] record t
  | .plain, field, record, [] => some [record ++ [String.ofList field]]
  | .plain, field, record, c :: t =>
    if c = '\n' then (csvRecords .line [] [] t).map ((record ++ [String.ofList field]) :: ·)
    else if c = '"' then none
    else if c = ',' then csvRecords .start [] (record ++ [String.ofList field]) t
    else csvRecords .plain (field ++ [c]) record t
  | .quoted, _, _, [] => none
  | .quoted, field, record, c :: t =>
    if c = '"' then csvRecords .seen field record t else csvRecords .quoted (field ++ [c]) record t
  | .seen, field, record, [] => some [record ++ [String.ofList field]]
  | .seen, field, record, c :: t =>
    if c = '\n' then (csvRecords .line [] [] t).map ((record ++ [String.ofList field]) :: ·)
    else if c = '"' then csvRecords .quoted (field ++ ['"']) record t
    else if c = ',' then csvRecords .start [] (record ++ [String.ofList field]) t
    else none

/-- The records of a text.  `none`: some call of `Read` returns an error, the number of fields included
(`ErrFieldCount`). -/
def csvRead (text : String) : Option (List (List String)) :=
  match csvRecords .line [] [] (normalizeNewlines text.toList) with
  | none => none
  | some [] => some []
  | some (first :: rest) => if rest.all (fun r => r.length == first.length) then some (first :: rest) else none

/-- `unicode.IsSpace`. -/
def isSpace (c : Char) : Bool :=
  let n := c.toNat
  (9 ≤ n && n ≤ 13) || n == 32 || n == 0x85 || n == 0xA0 || n == 0x1680 || (0x2000 ≤ n && n ≤ 0x200a) || n == 0x2028 ||
    n == 0x2029 || n == 0x202f || n == 0x205f || n == 0x3000

/-- `Writer.fieldNeedsQuotes`. -/
def fieldNeedsQuotes (field : List Char) : Bool :=
  match field with
  | [] => false
  | c :: _ =>
    field == ['\\', '.'] || field.any (fun c => c == ',' || c == '"' || c == '\n' || c == '\r') || isSpace c

/-- Quotes are doubled. -/
def escapeQuotes : List Char → List Char
  | [] => []
  | c :: t => if c = '"' then '"' :: '"' :: escapeQuotes t else c :: escapeQuotes t

/-- A field in `Writer.Write`. -/
def csvField (field : List Char) : List Char :=
  if fieldNeedsQuotes field then '"' :: (escapeQuotes field ++ ['"']) else field

/-- The fields of a record with commas between. -/
def csvFields : List String → List Char
  | [] => []
  | [f] => csvField f.toList
  | f :: g :: t => csvField f.toList ++ ',' :: csvFields (g :: t)

/-- `Writer.Write` for every record, then `Flush`. -/
def csvWrite (records : List (List String)) : String :=
  String.ofList (records.flatMap (fun r => csvFields r ++ ['\n']))

end GoSelect
