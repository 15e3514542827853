import Verif.Model.Csv

/-!
# Data sets in files

Model of csvIO.go:106-115 (`ReadCSV`) and 170-177 (`Save`), and of the use that the commands make of `ReadCSV`.
-/

namespace GoSelect

variable {K : Type}

/-- The files: the text of those that `os.Open` opens, and the names that `os.Create` accepts. -/
structure Disk where
  text : String → Option String
  creatable : String → Bool

/-- `os.Create` and the writes to the file. -/
def Disk.put (disk : Disk) (fname content : String) : Disk :=
  ⟨fun f => if f = fname then some content else disk.text f, disk.creatable⟩

/-- csvIO.go:106-115 `ReadCSV`.  `none`: a panic, `some none`: a nil pointer. -/
def readCSV [Zero K] (parse : String → Option K) (read : String → Option (List (List String))) (disk : Disk)
    (fname : String) (targetCol : Int) : Option (Option (Dataset K)) :=
  match disk.text fname with
  | none => some none
  | some text => (parseCSV parse read text targetCol).map some

/-- csvIO.go:170-177 `Save`: whether the call returns, and the files afterwards.  `torn` is what has been written when
`SaveHandle` panics. -/
def Dataset.save (fmt : K → String) (write : List (List String) → String) (torn : String) (d : Dataset K) (disk : Disk)
    (fname : String) : Bool × Disk :=
  if disk.creatable fname then
    match saveHandle fmt write d with
    | some text => (true, disk.put fname text)
    | none => (false, disk.put fname torn)
  else (true, disk)

/-- The data set of a command: lasso.go:70-71, bnb.go:79-85, sasearch.go:67-68, goselect-cohenlasso/main.go:10-11,
goselect-nestedlasso/main.go:13-15 use the result of `ReadCSV` without a check; a nil pointer panics. -/
def commandData [Zero K] (parse : String → Option K) (read : String → Option (List (List String))) (disk : Disk)
    (fname : String) (targetCol : Int) : Option (Dataset K) :=
  (readCSV parse read disk fname targetCol).bind id

end GoSelect
