import Verif.Model.Basic

/-!
# The bit array `Model`

Model of model.go:4-45.  A `uint8` is a `BitVec 8`.
-/

namespace GoSelect

/-- model.go:4-7 `Model`. -/
structure BitModel where
  bits : List (BitVec 8)
  size : Int
  deriving DecidableEq, Repr

/-- model.go:10-15 `NewModel`; `make` panics on a negative length. -/
def newBitModel (size : Int) : Option BitModel :=
  let n := size.tdiv 8 + 1
  if n < 0 then none else some ⟨List.replicate n.toNat 0, size⟩

/-- `index / 8` (Go truncates towards zero). -/
def byteIndex (index : Int) : Int := index.tdiv 8

/-- The shift count `uint(index - 8*arrayIndex)`: a negative difference wraps around. -/
def shiftCount (index : Int) : Nat :=
  let reminder := index - 8 * byteIndex index
  if 0 ≤ reminder then reminder.toNat else (2 ^ 64 + reminder).toNat

/-- `0x01 << uint(reminder)` as a `uint8`. -/
def bitMask (index : Int) : BitVec 8 := 1#8 <<< shiftCount index

/-- `m.bits[i]` with Go's bounds check. -/
def byteAt (m : BitModel) (i : Int) : Option (BitVec 8) :=
  if i < 0 then none else m.bits[i.toNat]?

/-- model.go:18-22 `Get`. -/
def BitModel.get (m : BitModel) (index : Int) : Option Bool := do
  let b ← byteAt m (byteIndex index)
  return b &&& bitMask index == bitMask index

/-- model.go:25-29 `Set`. -/
def BitModel.set (m : BitModel) (index : Int) : Option BitModel := do
  let b ← byteAt m (byteIndex index)
  return { m with bits := m.bits.set (byteIndex index).toNat (b ||| bitMask index) }

/-- model.go:32-36 `Flip`. -/
def BitModel.flip (m : BitModel) (index : Int) : Option BitModel := do
  let b ← byteAt m (byteIndex index)
  return { m with bits := m.bits.set (byteIndex index).toNat (b ^^^ bitMask index) }

/-- model.go:39-45 `ToBools`. -/
def BitModel.toBools (m : BitModel) : Option (List Bool) :=
  if m.size < 0 then none
  else (List.range m.size.toNat).mapM (fun i : Nat => m.get (i : Int))

/-- A call that changes the model. -/
inductive BitOp where
  | set (i : Int)
  | flip (i : Int)
  deriving DecidableEq, Repr

/-- Execute a call. -/
def BitOp.apply (m : BitModel) : BitOp → Option BitModel
  | .set i => m.set i
  | .flip i => m.flip i

/-- A sequence of calls on a new model. -/
def bitRun (size : Int) (ops : List BitOp) : Option BitModel :=
  (newBitModel size).bind (fun m => ops.foldlM BitOp.apply m)

end GoSelect
