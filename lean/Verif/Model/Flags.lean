import Verif.Model.FloatArith

/-!
# The command lines of the three commands

cmd/bnb.go:32-64, cmd/sasearch.go:32-63 and cmd/lasso.go:30-67: which settings the functions that do the work get from
the words after the name of the command.  The words are parsed by the libraries cobra v1.0.0 and pflag v1.0.5 (go.mod),
which are modelled here as far as these commands use them.  Simplified: an underscore between the digits of a whole
number (Go 1.13 and later accepts it) is an error here.  Not modelled: the text of the error messages, the config file
and the environment (cmd/root.go:68-91 reads them but no command looks at them).
-/

namespace GoSelect

/-- What the value of an option is. -/
inductive OptKind
  | text
  | int
  | float
  | bool
  deriving DecidableEq

/-- An option of a command: its name, its one-letter name, its kind and the text of its default. -/
structure Opt where
  name : List Char
  short : Option Char
  kind : OptKind
  dflt : List Char
  deriving DecidableEq

/-- The options every command has: `--config` (cmd/root.go:60) and cobra's `--help`, `-h`. -/
def commonOpts : List Opt :=
  [⟨"config".toList, none, .text, []⟩, ⟨"help".toList, some 'h', .bool, "false".toList⟩]

/-- The options of cmd/bnb.go:56-64. -/
def bnbOpts : List Opt :=
  [⟨"csv".toList, none, .text, []⟩,
   ⟨"target".toList, none, .int, "-1".toList⟩,
   ⟨"out".toList, none, .text, "bnbSearch.json".toList⟩,
   ⟨"cutoff".toList, none, .float, "0.0".toList⟩,
   ⟨"maxqueue".toList, none, .int, "10000000".toList⟩] ++ commonOpts

/-- The options of cmd/sasearch.go:56-63. -/
def saOpts : List Opt :=
  [⟨"csv".toList, none, .text, []⟩,
   ⟨"target".toList, none, .int, "-1".toList⟩,
   ⟨"out".toList, none, .text, "saSearch.json".toList⟩,
   ⟨"sweeps".toList, none, .int, "100".toList⟩] ++ commonOpts

/-- The options of cmd/lasso.go:54-67. -/
def lassoOpts : List Opt :=
  [⟨"csv".toList, none, .text, []⟩,
   ⟨"target".toList, none, .int, "-1".toList⟩,
   ⟨"out".toList, none, .text, "lasso.json".toList⟩,
   ⟨"lmin".toList, none, .float, "1e-10".toList⟩,
   ⟨"lmax".toList, none, .float, "1.0".toList⟩,
   ⟨"num".toList, none, .int, "50".toList⟩,
   ⟨"type".toList, none, .text, "lars".toList⟩,
   ⟨"cov".toList, none, .text, "empirical".toList⟩,
   ⟨"tol".toList, none, .float, "1e-4".toList⟩] ++ commonOpts

/-! ## Values -/

/-- The value of a digit in `strconv.ParseUint`: letters count from ten. -/
def digitValue (c : Char) : Option Nat :=
  if '0' ≤ c ∧ c ≤ '9' then some (c.toNat - '0'.toNat)
  else if 'a' ≤ c ∧ c ≤ 'z' then some (c.toNat - 'a'.toNat + 10)
  else if 'A' ≤ c ∧ c ≤ 'Z' then some (c.toNat - 'A'.toNat + 10)
  else none

/-- The loop of `strconv.ParseUint`. -/
def parseDigits (base : Nat) : Nat → List Char → Option Nat
  | n, [] => some n
  | n, c :: s =>
    match digitValue c with
    | none => none
    | some d => if base ≤ d then none else parseDigits base (n * base + d) s

/-- `strconv.ParseUint` with base 0: the base follows from the beginning of the text. -/
def parseUnsigned (s : List Char) : Option Nat :=
  match s with
  | [] => none
  | '0' :: c :: d :: t =>
    if c.toLower = 'b' then parseDigits 2 0 (d :: t)
    else if c.toLower = 'o' then parseDigits 8 0 (d :: t)
    else if c.toLower = 'x' then parseDigits 16 0 (d :: t)
    else parseDigits 8 0 (c :: d :: t)
  | '0' :: t => parseDigits 8 0 t
  | t => parseDigits 10 0 t

/-- `strconv.ParseInt(s, 0, 64)`, which sets the options that are whole numbers.  `none`: an error. -/
def parseInt64 (s : List Char) : Option Int :=
  match s with
  | '+' :: t => (parseUnsigned t).bind fun n => if n < 2 ^ 63 then some (n : Int) else none
  | '-' :: t => (parseUnsigned t).bind fun n => if n ≤ 2 ^ 63 then some (-(n : Int)) else none
  | t => (parseUnsigned t).bind fun n => if n < 2 ^ 63 then some (n : Int) else none

/-- `strconv.ParseBool` -/
def parseBool (s : List Char) : Option Bool :=
  if s ∈ ["1", "t", "T", "TRUE", "true", "True"].map String.toList then some true
  else if s ∈ ["0", "f", "F", "FALSE", "false", "False"].map String.toList then some false
  else none

/-- Whether `Value.Set` accepts the text for an option of this kind. -/
def acceptsText (F : FloatFormat) (k : OptKind) (s : List Char) : Bool :=
  match k with
  | .text => true
  | .int => (parseInt64 s).isSome
  | .float => (parseFloatFl F (String.ofList s)).isSome
  | .bool => (parseBool s).isSome

/-! ## Parsing -/

/-- The text that every option is set to, by its name. -/
abbrev OptState := List Char → List Char

/-- The defaults. -/
def optDefaults (opts : List Opt) : OptState := fun name =>
  match opts.find? fun o => o.name = name with
  | some o => o.dflt
  | none => []

/-- `FlagSet.Set`: `none` is an error. -/
def setOpt (F : FloatFormat) (o : Opt) (s : List Char) (st : OptState) : Option OptState :=
  if acceptsText F o.kind s then some (fun name => if name = o.name then s else st name) else none

/-- The text before the first `=` and, if there is one, the text behind it (`strings.SplitN(name, "=", 2)`). -/
def splitEq : List Char → List Char × Option (List Char)
  | [] => ([], none)
  | c :: s => if c = '=' then ([], some s) else (c :: (splitEq s).1, (splitEq s).2)

/-- What one word asks for. -/
inductive WordAction
  | set (st : OptState)
  /-- the next word is the value -/
  | needs (o : Opt)
  | error

/-- pflag's `parseLongArg`, without taking the next word: `name` is the word without its two dashes. -/
def longWord (F : FloatFormat) (opts : List Opt) (name : List Char) (st : OptState) : WordAction :=
  if name = [] ∨ name.head? = some '-' ∨ name.head? = some '=' then .error
  else
    match opts.find? fun o => o.name = (splitEq name).1 with
    | none => .error
    | some o =>
      match (splitEq name).2 with
      | some v => ((setOpt F o v st).map .set).getD .error
      | none => if o.kind = .bool then ((setOpt F o "true".toList st).map .set).getD .error else .needs o

/-- pflag's `parseShortArg`, without taking the next word: `s` is the word without its dash. -/
def shortWord (F : FloatFormat) (opts : List Opt) : List Char → OptState → WordAction
  | [], st => .set st
  | c :: s, st =>
    if "test.".toList <+: c :: s then .set st
    else
      match opts.find? fun o => o.short = some c with
      | none => .error
      | some o =>
        if s.head? = some '=' ∧ 1 < s.length then ((setOpt F o s.tail st).map .set).getD .error
        else if o.kind = .bool then
          match setOpt F o "true".toList st with
          | none => .error
          | some st' => shortWord F opts s st'
        else if s ≠ [] then ((setOpt F o s st).map .set).getD .error
        else .needs o

/-- pflag's `parseArgs`: the words in their order.  `pending` is the option whose value the next word is.  Words that
do not begin with a dash are arguments, which the three commands ignore; so are all words after `--`.  `none`: an
error. -/
def parseArgs (F : FloatFormat) (opts : List Opt) : Option Opt → List (List Char) → OptState → Option OptState
  | none, [], st => some st
  | some _, [], _ => none
  | some o, w :: ws, st => (setOpt F o w st).bind fun st' => parseArgs F opts none ws st'
  | none, w :: ws, st =>
    match w with
    | '-' :: '-' :: [] => some st
    | '-' :: '-' :: name =>
      match longWord F opts name st with
      | .error => none
      | .needs o => parseArgs F opts (some o) ws st
      | .set st' => parseArgs F opts none ws st'
    | '-' :: c :: s =>
      match shortWord F opts (c :: s) st with
      | .error => none
      | .needs o => parseArgs F opts (some o) ws st
      | .set st' => parseArgs F opts none ws st'
    | _ => parseArgs F opts none ws st

/-- What a command does with its words: print an error and leave with code 1 (cmd/root.go:46-51), print its help text,
or do its work with the options set like this. -/
inductive CommandRun
  | error
  | help
  | work (st : OptState)

/-- cobra's `execute` of a command with these options. -/
def runCommand (F : FloatFormat) (opts : List Opt) (words : List (List Char)) : CommandRun :=
  match parseArgs F opts none words (optDefaults opts) with
  | none => .error
  | some st => if parseBool (st "help".toList) = some true then .help else .work st

/-! ## The settings -/

/-- pflag's `GetInt` -/
def getInt (st : OptState) (name : String) : Int := (parseInt64 (st name.toList)).getD 0

/-- pflag's `GetFloat64` -/
def getFloat {F : FloatFormat} (zero : Fl (FinFloat F)) (st : OptState) (name : String) : Fl (FinFloat F) :=
  (parseFloatFl F (String.ofList (st name.toList))).getD zero

/-- The arguments of `findOptimalSolution`. -/
structure BnbArgs (F : FloatFormat) where
  csv : List Char
  target : Int
  cutoff : Fl (FinFloat F)
  out : List Char
  maxQueue : Int

/-- cmd/bnb.go:41-52 -/
def bnbArgs {F : FloatFormat} (zero : Fl (FinFloat F)) (st : OptState) : BnbArgs F where
  csv := st "csv".toList
  target := getInt st "target"
  cutoff := getFloat zero st "cutoff"
  out := st "out".toList
  maxQueue := getInt st "maxqueue"

/-- The arguments of `saSearch`. -/
structure SaArgs where
  csv : List Char
  target : Int
  out : List Char
  sweeps : Int
  deriving DecidableEq

/-- cmd/sasearch.go:42-52 -/
def saArgs (st : OptState) : SaArgs where
  csv := st "csv".toList
  target := getInt st "target"
  out := st "out".toList
  sweeps := getInt st "sweeps"

/-- The arguments of `lassoFit`. -/
structure LassoArgs (F : FloatFormat) where
  csv : List Char
  target : Int
  out : List Char
  lmin : Fl (FinFloat F)
  lmax : Fl (FinFloat F)
  num : Int
  type : List Char
  cov : List Char
  tol : Fl (FinFloat F)

/-- cmd/lasso.go:35-50; `none`: no CSV file is given, and nothing is done. -/
def lassoArgs {F : FloatFormat} (zero : Fl (FinFloat F)) (st : OptState) : Option (LassoArgs F) :=
  if st "csv".toList = [] then none
  else some
    { csv := st "csv".toList
      target := getInt st "target"
      out := st "out".toList
      lmin := getFloat zero st "lmin"
      lmax := getFloat zero st "lmax"
      num := getInt st "num"
      type := st "type".toList
      cov := st "cov".toList
      tol := getFloat zero st "tol" }

end GoSelect
