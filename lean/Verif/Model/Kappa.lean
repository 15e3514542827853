import Verif.Model.IntUtil
import Verif.Model.Float
import Mathlib.Algebra.Order.Field.Basic

/-! util.go:435-468 `CohenKappa`, with exact arithmetic and IEEE division by zero. -/

namespace GoSelect

/-- The four counters of util.go:440-463. -/
structure Counts where
  n11 : Nat
  n12 : Nat
  n21 : Nat
  n22 : Nat
  deriving DecidableEq, Repr

/-- util.go:445-463. -/
def kappaCounts (s1 s2 : List Int) (totNum : Nat) : Counts where
  n11 := s1.countP (fun v => existInt s2 v)
  n12 := s1.countP (fun v => !existInt s2 v)
  n21 := s2.countP (fun v => !existInt s1 v)
  n22 := (List.range totNum).countP (fun i : Nat => !existInt s1 (i : Int) && !existInt s2 (i : Int))

/-- util.go:465-466 `PrA`, for `totNum > 0`. -/
def prA {K : Type} [Field K] (c : Counts) (tot : Nat) : K := ((c.n11 + c.n22 : Nat) : K) / (tot : K)

/-- util.go:466 `PrE`, for `totNum > 0`. -/
def prE {K : Type} [Field K] (c : Counts) (tot : Nat) : K :=
  (((c.n11 + c.n12) * (c.n11 + c.n21) : Nat) : K) / ((tot * tot : Nat) : K) +
    (((c.n12 + c.n22) * (c.n21 + c.n22) : Nat) : K) / ((tot * tot : Nat) : K)

/-- util.go:435-468 `CohenKappa` for `totNum ≥ 0`.  With `totNum = 0` and a non-empty selection
the first division is already 0/0 or n/0; the result is then NaN in Go as well, because `PrE` is NaN
or infinite (`Inf - Inf`, `Inf / Inf`). -/
def cohenKappa {K : Type} [Field K] [LinearOrder K] (s1 s2 : List Int) (totNum : Nat) : Fl K :=
  if s1.length = 0 ∧ s2.length = 0 then .fin 1
  else if totNum = 0 then .nan
  else
    let c := kappaCounts s1 s2 totNum
    Fl.divFin (prA c totNum - prE c totNum) (1 - prE c totNum)

end GoSelect
