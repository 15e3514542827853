import Verif.Model.Selection

/-! util.go:82-109 `RearrangeDense`. -/

namespace GoSelect

/-- Local variables: the entries of `newMat`, `inserted`, `numInserted`. -/
structure RearrangeState (K : Type) where
  get : Nat → Nat → K
  inserted : List Bool
  numInserted : Nat

/-- Overwrite column `i` by column `c` of `X` (lines 91-93 and 102-104). -/
def setCol {K : Type} (X : Mat K) (get : Nat → Nat → K) (i c : Nat) : Nat → Nat → K :=
  fun r k => if k = i then X.get r c else get r k

/-- util.go:89-97; `i` is the position in `colOrder`.  `none`: an index out of range. -/
def rearrangeLoop1 {K : Type} (X : Mat K) :
    List Int → Nat → RearrangeState K → Option (RearrangeState K)
  | [], _, s => some s
  | c :: colOrder, i, s =>
    if c ≠ -1 then
      if 0 < X.nr ∧ ¬ (i < X.nc ∧ 0 ≤ c ∧ c < X.nc) then none
      else
        match goSetInt s.inserted c true with
        | none => none
        | some inserted => rearrangeLoop1 X colOrder (i + 1)
            ⟨setCol X s.get i c.toNat, inserted, s.numInserted + 1⟩
    else rearrangeLoop1 X colOrder (i + 1) s

/-- util.go:100-107; `i` is the position of the head of the flags. -/
def rearrangeLoop2 {K : Type} (X : Mat K) :
    List Bool → Nat → (Nat → Nat → K) × Nat → Option ((Nat → Nat → K) × Nat)
  | [], _, s => some s
  | f :: flags, i, (get, numInserted) =>
    if f = false then
      if 0 < X.nr ∧ X.nc ≤ numInserted then none
      else rearrangeLoop2 X flags (i + 1) (setCol X get numInserted i, numInserted + 1)
    else rearrangeLoop2 X flags (i + 1) (get, numInserted)

/-- util.go:82-109 `RearrangeDense`. -/
def rearrangeDense {K : Type} [Zero K] (X : Mat K) (colOrder : List Int) : Option (Mat K) :=
  match rearrangeLoop1 X colOrder 0 ⟨fun _ _ => 0, List.replicate X.nc false, 0⟩ with
  | none => none
  | some s =>
    match rearrangeLoop2 X s.inserted 0 (s.get, s.numInserted) with
    | none => none
    | some (get, _) => some ⟨X.nr, X.nc, get⟩

end GoSelect
