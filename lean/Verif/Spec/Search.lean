import Verif.Model.Select
import Verif.Spec.Models

/-! What a branch-and-bound search over models has to guarantee, in terms of its inputs only. -/

namespace GoSelect.Spec

variable {α : Type}

/-- A model that competes: at least one feature, fewer features than rows. -/
def Candidate (S : Search α) (m : List Bool) : Prop :=
  m.length = S.ncols ∧ 0 < card m ∧ card m < S.nrows

/-- AICc of a model. -/
def aiccOf (S : Search α) (m : List Bool) : α := S.aicc (card m) S.nrows (S.rss m)

section
variable [LE α] [Neg α]

/-- The lower bounds used by the search are lower bounds. -/
def ValidBounds (S : Search α) : Prop :=
  (∀ p l m, p.length = S.ncols → l ≤ S.ncols → 0 < card p → SamePrefix l p m → Candidate S m →
    (S.bounds p l).1 ≤ aiccOf S m) ∧
  ∀ m, Candidate S m → -S.huge ≤ aiccOf S m

/-- Values that `BestScore()` can take: scores of nodes that were in the list before, minus the AICc of competing
models, and the marker of the empty model. -/
def BestValue (S : Search α) (pre : List (Node α)) (v : α) : Prop :=
  (∃ n ∈ pre, v = n.score) ∨ (∃ m, Candidate S m ∧ v = -aiccOf S m) ∨ v = -S.maxFloat

/-- The lower bounds are lower bounds, except that a model may be better than the constant for nodes without features
if every score that is better than this constant is at least as good as the model. -/
def SafeBounds (S : Search α) (pre : List (Node α)) [LT α] : Prop :=
  (∀ p l m, p.length = S.ncols → l ≤ S.ncols → 0 < card p → SamePrefix l p m → Candidate S m →
    (S.bounds p l).1 ≤ aiccOf S m) ∧
  ∀ m, Candidate S m → ∀ v, BestValue S pre v → -v < -S.huge → -v ≤ aiccOf S m

/-- The lower bounds exceed the value `g m` of no model `m` that they cover, and neither does the criterion of the model
itself.  With exact numbers `g` is the criterion; with rounding errors `g` is the criterion plus what the errors add. -/
structure BoundsUpTo (S : Search α) (pre : List (Node α)) [LT α] (g : List Bool → α) : Prop where
  bound : ∀ p l m, p.length = S.ncols → l ≤ S.ncols → 0 < card p → SamePrefix l p m → Candidate S m →
    (S.bounds p l).1 ≤ g m
  empty : ∀ m, Candidate S m → ∀ v, BestValue S pre v → -v < -S.huge → -v ≤ g m
  own : ∀ m, Candidate S m → aiccOf S m ≤ g m

/-- Negation reverses the order. -/
class NegReverses (α : Type) [LE α] [Neg α] : Prop where
  neg_le_neg : ∀ a b : α, a ≤ b → -b ≤ -a
  neg_le_of : ∀ a b : α, -a ≤ b → -b ≤ a

/-- The lower bound of the node at level `l` on the way from the root to model `m`: its first `l` flags are those of `m`. -/
def wayBound (S : Search α) (m : List Bool) (l : Nat) : α :=
  if 0 < card (m.take l ++ S.root.drop l) then (S.bounds (m.take l ++ S.root.drop l) l).1 else -S.huge

/-- No competing model lies below a model with too many features. -/
def RowSafe (S : Search α) : Prop :=
  S.root = List.replicate S.ncols false ∨ S.ncols < S.nrows

end

end GoSelect.Spec
