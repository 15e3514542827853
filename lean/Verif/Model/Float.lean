
/-!
# IEEE-like extended numbers

Only what the model needs from `float64` beyond exact arithmetic: NaN and infinities, the
comparison rules and division by zero.  Rounding and signed zeros are not modelled.
-/

namespace GoSelect

/-- A number, an infinity, or NaN. -/
inductive Fl (K : Type) where
  | fin (x : K)
  | posInf
  | negInf
  | nan
  deriving DecidableEq, Repr

namespace Fl

variable {K : Type}

/-- IEEE `<`: false as soon as one side is NaN. -/
def ltB [LT K] [DecidableLT K] : Fl K → Fl K → Bool
  | nan, _ => false
  | _, nan => false
  | negInf, negInf => false
  | negInf, _ => true
  | _, negInf => false
  | posInf, _ => false
  | fin _, posInf => true
  | fin a, fin b => decide (a < b)

instance [LT K] [DecidableLT K] : LT (Fl K) := ⟨fun a b => ltB a b = true⟩

instance [LT K] [DecidableLT K] : DecidableLT (Fl K) := fun a b =>
  inferInstanceAs (Decidable (ltB a b = true))

instance [Zero K] : Zero (Fl K) := ⟨fin 0⟩

/-- IEEE addition: opposite infinities give NaN. -/
def add [Add K] : Fl K → Fl K → Fl K
  | fin a, fin b => fin (a + b)
  | nan, _ => nan
  | _, nan => nan
  | posInf, negInf => nan
  | negInf, posInf => nan
  | posInf, _ => posInf
  | _, posInf => posInf
  | _, _ => negInf

/-- IEEE division of two finite numbers. -/
def divFin [Zero K] [Div K] [LT K] [DecidableLT K] [DecidableEq K] (a b : K) : Fl K :=
  if b = 0 then (if a = 0 then nan else if 0 < a then posInf else negInf) else fin (a / b)

end Fl

end GoSelect
