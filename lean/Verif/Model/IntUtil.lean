/-!
# Helpers on integer slices

Model of util.go:34-41, 62-68, 181-238, 425-432.
-/

namespace GoSelect

/-- util.go:34-41 `All`. -/
def allEq : List Int → Int → Bool
  | [], _ => true
  | v :: a, value => if v ≠ value then false else allEq a value

/-- util.go:62-68 `Sum`. -/
def sumInt (a : List Int) : Int := a.foldl (fun s v => s + v) 0

/-- util.go:181-188 `ExistInt`. -/
def existInt : List Int → Int → Bool
  | [], _ => false
  | v :: a, value => if v = value then true else existInt a value

/-- util.go:191-200 `MaxInt`. The start value is `math.MinInt32`. -/
def maxInt (a : List Int) : Int := a.foldl (fun max v => if v > max then v else max) (-2147483648)

/-- util.go:203-212 `MinInt`. The start value is `math.MaxInt32`. -/
def minInt (a : List Int) : Int := a.foldl (fun min v => if v < min then v else min) 2147483647

/-- util.go:227-238 `EqualInt`. -/
def equalInt (a b : List Int) : Bool :=
  if a.length ≠ b.length then false
  else (List.range a.length).all (fun i => a[i]? == b[i]?)

/-- util.go:425-432 `UnionInt`, as a function of the contents.  (The comment in the Go source says
that `s1` is modified in place; `append` may write into spare capacity behind `s1`, the elements of
`s1` itself never change.) -/
def unionInt (s1 s2 : List Int) : List Int :=
  s2.foldl (fun s v => if existInt s v then s else s ++ [v]) s1

end GoSelect
