/-!
# Boolean models, nodes, and small slice helpers

Model of the parts of `featselect/optimize.go` and `featselect/node.go` that do not
depend on data.  A Go panic is `none`.
-/

namespace GoSelect

/-- Go's builtin `copy(dst, src)`: overwrites the first `min(len dst, len src)` entries. -/
def goCopy {α : Type} (dst src : List α) : List α :=
  src.take dst.length ++ dst.drop src.length

/-- Slice `a[:n]`.  Go panics when `n` exceeds the capacity; here capacity = length
(simplification: a caller that passes a re-sliced `model` with spare capacity is not
modelled). -/
def goSliceTo {α : Type} (a : List α) (n : Nat) : Option (List α) :=
  if n ≤ a.length then some (a.take n) else none

/-- `a[i] = v` with Go's bounds check. -/
def goSet {α : Type} (a : List α) (i : Nat) (v : α) : Option (List α) :=
  if i < a.length then some (a.set i v) else none

/-- optimize.go:38-46 `NumFeatures`: counting loop. -/
def numFeatures (model : List Bool) : Nat :=
  model.foldl (fun num flag => if flag then num + 1 else num) 0

/-- The loop `for i := start; i < len(model); i++ { m[i] = v }` of optimize.go:18-20, 31-33. -/
def fillFrom (m : List Bool) (start : Nat) (v : Bool) : List Bool :=
  (List.range' start (m.length - start)).foldl (fun acc i => acc.set i v) m

/-- optimize.go:15-22 `Gcs`. -/
def gcs (model : List Bool) (start : Nat) : Option (List Bool) := do
  let pre ← goSliceTo model start
  let gcsMod := goCopy (List.replicate model.length false) pre
  return fillFrom gcsMod start true

/-- optimize.go:27-35 `Lcs`. -/
def lcs (model : List Bool) (start : Nat) : Option (List Bool) := do
  let pre ← goSliceTo model start
  let lcsMod := goCopy (List.replicate model.length false) pre
  return fillFrom lcsMod start false

/-- node.go:15-23 `Node`.  `α` stands for `float64`. -/
structure Node (α : Type) where
  model : List Bool
  coeff : List α
  level : Nat
  lower : α
  upper : α
  score : α
  wasFlipped : Bool
  deriving DecidableEq, Repr

/-- node.go:67-74 `NewNode`. -/
def newNode {α : Type} [Zero α] (level : Nat) (model : List Bool) : Node α :=
  { model := goCopy (List.replicate model.length false) model
    coeff := List.replicate (numFeatures model) 0
    level := level, lower := 0, upper := 0, score := 0, wasFlipped := false }

/-- node.go:27-37 `GetChildNode`.  `none` is the index panic at
`child.Model[n.Level]`. -/
def getChildNode {α : Type} [Zero α] (n : Node α) (flip : Bool) : Option (Node α) := do
  let m := goCopy (List.replicate n.model.length false) n.model
  let m ← if flip then (do let b ← m[n.level]?; goSet m n.level (!b)) else some m
  return { model := m, coeff := [], level := n.level + 1, lower := 0, upper := 0, score := 0,
           wasFlipped := flip }

/-- optimize.go:210-215 `isNewNode`. -/
def isNewNode {α : Type} (n : Node α) : Bool :=
  if n.level == 0 then true else n.wasFlipped

/-- node.go:129-142 `EstimateMemory`. -/
def estimateMemory {α : Type} (n : Node α) : Nat :=
  let estimate := n.model.length
  let estimate := estimate + 8 * n.coeff.length
  let estimate := estimate + 4
  let estimate := estimate + 3 * 8
  estimate + 1

end GoSelect
