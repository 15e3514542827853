import Mathlib.Data.List.Basic

/-!
# `IterProduct`

Model of util.go:44-59 with Go's slices: a slice refers to a backing array, and `append` writes
into spare capacity if there is any.  Rows of `res` may therefore share memory.

The capacity that `append` gives a full slice of length `n` is the argument `grow`.  The Go runtime
(64 bit, 8-byte ints) has `grow 0 = 1`, `grow 1 = 2`, `grow 2 = 4`.
-/

namespace GoSelect

/-- A slice that starts at the beginning of the backing array `arr`. -/
structure Slice where
  arr : Nat
  len : Nat
  deriving DecidableEq, Repr

/-- The backing arrays; the length of an array is its capacity. -/
abbrev SliceHeap := List (List Int)

/-- The elements of a slice. -/
def readSlice (h : SliceHeap) (s : Slice) : List Int := (h.getD s.arr []).take s.len

/-- `append(s, v)`. -/
def goAppend (grow : Nat → Nat) (h : SliceHeap) (s : Slice) (v : Int) : SliceHeap × Slice :=
  let a := h.getD s.arr []
  if s.len < a.length then (h.set s.arr (a.set s.len v), ⟨s.arr, s.len + 1⟩)
  else
    let a' := a.take s.len ++ [v]
    (h ++ [a' ++ List.replicate (grow s.len - a'.length) 0], ⟨h.length, s.len + 1⟩)

/-- util.go:51-54: the inner loop, for the row `s`.  State: the heap and `updatedRes`. -/
def iterRow (grow : Nat → Nat) (s : Slice) (st : SliceHeap × List Slice) (values : List Int) :
    SliceHeap × List Slice :=
  values.foldl (fun st v =>
    let (h, newRow) := goAppend grow st.1 s v
    (h, st.2 ++ [newRow])) st

/-- util.go:48-56: one round of the outer loop. -/
def iterRound (grow : Nat → Nat) (values : List Int) (st : SliceHeap × List Slice) :
    SliceHeap × List Slice :=
  st.2.foldl (fun acc s => iterRow grow s acc values) (st.1, [])

/-- util.go:44-59 `IterProduct`.  The initial `make([][]int, 1)` is one nil slice: array 0 has
capacity 0. -/
def iterProductState (grow : Nat → Nat) (values : List Int) : Nat → SliceHeap × List Slice
  | 0 => ([[]], [⟨0, 0⟩])
  | r + 1 => iterRound grow values (iterProductState grow values r)

/-- What the caller of `IterProduct` reads. -/
def iterProduct (grow : Nat → Nat) (values : List Int) (repeat_ : Nat) : List (List Int) :=
  let st := iterProductState grow values repeat_
  st.2.map (readSlice st.1)

end GoSelect
