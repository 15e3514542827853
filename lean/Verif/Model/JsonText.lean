import Verif.Model.Json
import Verif.Model.FloatText

/-!
# The text of JSON files

Model of `encoding/json` of the standard library as csvIO.go:227, 233, node.go:98, 112, highscore.go:85, 101,
lassoPlot.go:40 and the commands use it: `json.Marshal` writes no blanks, members in the order of the fields, and
escapes characters as below; `json.Unmarshal` reads any JSON text and takes the members it knows.  Texts are sequences
of Unicode characters (no invalid UTF-8); escaped surrogates (`\ud800` - `\udfff`) are not modelled, `json.Marshal`
never writes them.
-/

namespace GoSelect

/-- A JSON value; numbers are kept as they are written. -/
inductive Json where
  | null
  | bool (b : Bool)
  | num (lit : List Char)
  | str (s : List Char)
  | arr (l : List Json)
  | obj (l : List (List Char × Json))

/-! ## Writing -/

/-- A hexadecimal digit. -/
def hexDigit (n : Nat) : Char := if n < 10 then Char.ofNat (48 + n) else Char.ofNat (87 + n)

/-- `\u` and four hexadecimal digits. -/
def unicodeEscape (n : Nat) : List Char :=
  ['\\', 'u', hexDigit (n / 4096 % 16), hexDigit (n / 256 % 16), hexDigit (n / 16 % 16), hexDigit (n % 16)]

/-- A character in a string written by `json.Marshal` (`appendString` of encoding/json with HTML escapes). -/
def jsonEscape (c : Char) : List Char :=
  if c = '"' then ['\\', '"']
  else if c = '\\' then ['\\', '\\']
  else if c = '\n' then ['\\', 'n']
  else if c = '\r' then ['\\', 'r']
  else if c = '\t' then ['\\', 't']
  else if c.toNat = 8 then ['\\', 'b']
  else if c.toNat = 12 then ['\\', 'f']
  else if c.toNat < 32 ∨ c = '<' ∨ c = '>' ∨ c = '&' ∨ c.toNat = 8232 ∨ c.toNat = 8233 then unicodeEscape c.toNat
  else [c]

/-- A string. -/
def jsonString (s : List Char) : List Char := '"' :: (s.flatMap jsonEscape ++ ['"'])

mutual
/-- `json.Marshal`. -/
def jsonText : Json → List Char
  | .null => ['n', 'u', 'l', 'l']
  | .bool true => ['t', 'r', 'u', 'e']
  | .bool false => ['f', 'a', 'l', 's', 'e']
  | .num lit => lit
  | .str s => jsonString s
  | .arr [] => ['[', ']']
  | .arr (v :: t) => '[' :: (jsonText v ++ jsonMore t)
  | .obj [] => ['{', '}']
  | .obj ((k, v) :: t) => '{' :: (jsonString k ++ ':' :: (jsonText v ++ jsonFields t))

/-- The other elements of an array and its end. -/
def jsonMore : List Json → List Char
  | [] => [']']
  | v :: t => ',' :: (jsonText v ++ jsonMore t)

/-- The other members of an object and its end. -/
def jsonFields : List (List Char × Json) → List Char
  | [] => ['}']
  | (k, v) :: t => ',' :: (jsonString k ++ ':' :: (jsonText v ++ jsonFields t))
end

/-! ## Reading -/

/-- Blanks between tokens. -/
def jsonSpace (c : Char) : Bool := c == ' ' || c == '\n' || c == '\r' || c == '\t'

/-- The value of a hexadecimal digit. -/
def hexValue (c : Char) : Option Nat :=
  if '0' ≤ c ∧ c ≤ '9' then some (c.toNat - 48)
  else if 'a' ≤ c ∧ c ≤ 'f' then some (c.toNat - 87)
  else if 'A' ≤ c ∧ c ≤ 'F' then some (c.toNat - 55)
  else none

/-- The character of `\u` with these digits. -/
def unicodeChar (a b c d : Char) : Option Char := do
  let a ← hexValue a
  let b ← hexValue b
  let c ← hexValue c
  let d ← hexValue d
  let n := a * 4096 + b * 256 + c * 16 + d
  if 0xd800 ≤ n ∧ n ≤ 0xdfff then none else some (Char.ofNat n)

/-- The character of a backslash and this one. -/
def shortEscape (c : Char) : Option Char :=
  if c = '"' then some '"'
  else if c = '\\' then some '\\'
  else if c = '/' then some '/'
  else if c = 'b' then some (Char.ofNat 8)
  else if c = 'f' then some (Char.ofNat 12)
  else if c = 'n' then some '\n'
  else if c = 'r' then some '\r'
  else if c = 't' then some '\t'
  else none

/-- The rest of a string behind its first quote, and what follows it. -/
def parseString : List Char → Option (List Char × List Char)
  | [] => none
  | '"' :: r => some ([], r)
  | '\\' :: 'u' :: a :: b :: c :: d :: r =>
    match unicodeChar a b c d with
    | none => none
    | some x => (parseString r).map (fun p => (x :: p.1, p.2))
  | '\\' :: e :: r =>
    match shortEscape e with
    | none => none
    | some x => (parseString r).map (fun p => (x :: p.1, p.2))
  | c :: r => if c.toNat < 32 ∨ c = '\\' then none else (parseString r).map (fun p => (c :: p.1, p.2))

/-- Characters of numbers. -/
def jsonNumberChar (c : Char) : Bool := c.isDigit || c == '-' || c == '+' || c == '.' || c == 'e' || c == 'E'

/-- An optional exponent. -/
def validExponent : List Char → Bool
  | [] => true
  | e :: t => (e == 'e' || e == 'E') &&
    match t with
    | '+' :: u => !u.isEmpty && u.all Char.isDigit
    | '-' :: u => !u.isEmpty && u.all Char.isDigit
    | u => !u.isEmpty && u.all Char.isDigit

/-- Optional decimals and exponent. -/
def validDecimals : List Char → Bool
  | '.' :: t => !(t.takeWhile Char.isDigit).isEmpty && validExponent (t.dropWhile Char.isDigit)
  | t => validExponent t

/-- A number without sign: no superfluous zero in front. -/
def validUnsigned : List Char → Bool
  | '0' :: t => validDecimals t
  | c :: t => c.isDigit && validDecimals (t.dropWhile Char.isDigit)
  | [] => false

/-- The number literals of JSON. -/
def validNumber : List Char → Bool
  | '-' :: t => validUnsigned t
  | t => validUnsigned t

mutual
/-- A value and what follows it; the first argument bounds the nesting. -/
def parseValue : Nat → List Char → Option (Json × List Char)
  | 0, _ => none
  | n + 1, s =>
    match s.dropWhile jsonSpace with
    | '{' :: t =>
      match t.dropWhile jsonSpace with
      | '}' :: r => some (.obj [], r)
      | t' => (parseMembers n t').map (fun p => (.obj p.1, p.2))
    | '[' :: t =>
      match t.dropWhile jsonSpace with
      | ']' :: r => some (.arr [], r)
      | t' => (parseElements n t').map (fun p => (.arr p.1, p.2))
    | '"' :: t => (parseString t).map (fun p => (.str p.1, p.2))
    | 'n' :: 'u' :: 'l' :: 'l' :: r => some (.null, r)
    | 't' :: 'r' :: 'u' :: 'e' :: r => some (.bool true, r)
    | 'f' :: 'a' :: 'l' :: 's' :: 'e' :: r => some (.bool false, r)
    | t =>
      if validNumber (t.takeWhile jsonNumberChar) then some (.num (t.takeWhile jsonNumberChar), t.dropWhile jsonNumberChar) else none

/-- The elements of an array that is not empty, and its end. -/
def parseElements : Nat → List Char → Option (List Json × List Char)
  | 0, _ => none
  | n + 1, s =>
    match parseValue n s with
    | none => none
    | some (v, r) =>
      match r.dropWhile jsonSpace with
      | ',' :: r' => (parseElements n r').map (fun p => (v :: p.1, p.2))
      | ']' :: r' => some ([v], r')
      | _ => none

/-- The members of an object that is not empty, and its end. -/
def parseMembers : Nat → List Char → Option (List (List Char × Json) × List Char)
  | 0, _ => none
  | n + 1, s =>
    match s.dropWhile jsonSpace with
    | '"' :: t =>
      match parseString t with
      | none => none
      | some (k, r) =>
        match r.dropWhile jsonSpace with
        | ':' :: r' =>
          match parseValue n r' with
          | none => none
          | some (v, r'') =>
            match r''.dropWhile jsonSpace with
            | ',' :: q => (parseMembers n q).map (fun p => ((k, v) :: p.1, p.2))
            | '}' :: q => some ([(k, v)], q)
            | _ => none
        | _ => none
    | _ => none
end

/-- `json.Unmarshal` up to the types: a single value with nothing but blanks around it. -/
def jsonParse (s : List Char) : Option Json :=
  match parseValue (s.length + 1) s with
  | some (v, r) => if r.dropWhile jsonSpace = [] then some v else none
  | none => none

end GoSelect
