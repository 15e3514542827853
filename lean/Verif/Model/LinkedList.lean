import Verif.Model.Highscore

/-!
# The highscore list in memory

`container/list` as a doubly linked list in memory, written from its source as known (the standard library is not in
/repo), and what highscore.go:23-92 does with it, write by write: the search inserts while other goroutines read
(optimize.go:255, cmd/bnb.go:110-124).  Memory is sequentially consistent: every read sees all earlier writes.  There is
one writer, the main loop of the search, so that its own reads cannot be disturbed: an insertion is the list of its
writes.
-/

namespace GoSelect

variable {α : Type}

/-- The fields of all elements of a list, by address.  Address 0 is the sentinel `l.root`.  `val`: the field `Value`
(`none`: nil); `list`: whether the field `list` is set; `fresh`: the next address that `&Element{…}` returns. -/
structure LMem (α : Type) where
  next : Nat → Option Nat
  prev : Nat → Option Nat
  list : Nat → Bool
  val : Nat → Option (Node α)
  len : Nat
  fresh : Nat

/-- A write to memory; `alloc` is `&Element{Value: v}`. -/
inductive LWrite (α : Type) where
  | alloc (v : Node α)
  | next (a : Nat) (p : Option Nat)
  | prev (a : Nat) (p : Option Nat)
  | list (a : Nat) (b : Bool)
  | len (n : Nat)

def setAt {β : Type} (f : Nat → β) (a : Nat) (b : β) : Nat → β := fun x => if x = a then b else f x

def LMem.write (m : LMem α) : LWrite α → LMem α
  | .alloc v => ⟨setAt m.next m.fresh none, setAt m.prev m.fresh none, setAt m.list m.fresh false,
      setAt m.val m.fresh (some v), m.len, m.fresh + 1⟩
  | .next a p => { m with next := setAt m.next a p }
  | .prev a p => { m with prev := setAt m.prev a p }
  | .list a b => { m with list := setAt m.list a b }
  | .len n => { m with len := n }

def LMem.runs (m : LMem α) (ws : List (LWrite α)) : LMem α := ws.foldl LMem.write m

/-- `list.New`. -/
def newList : LMem α where
  next := fun a => if a = 0 then some 0 else none
  prev := fun a => if a = 0 then some 0 else none
  list := fun _ => false
  val := fun _ => none
  len := 0
  fresh := 1

/-- `l.Front`. -/
def LMem.front (m : LMem α) : Option Nat := if m.len = 0 then none else m.next 0

/-- `l.Back`. -/
def LMem.back (m : LMem α) : Option Nat := if m.len = 0 then none else m.prev 0

/-- `e.Next`. -/
def LMem.nextElem (m : LMem α) (e : Nat) : Option Nat :=
  match m.next e with
  | some p => if m.list e = true ∧ p ≠ 0 then some p else none
  | none => none

/-- `l.insertValue(v, at)`: the writes in their order.  `none`: nil dereference. -/
def LMem.insertValue (m : LMem α) (v : Node α) (at' : Nat) : Option (List (LWrite α)) :=
  match m.next at' with
  | none => none
  | some n =>
    let e := m.fresh
    some [.alloc v, .prev e (some at'), .next e (some n), .next at' (some e), .prev n (some e), .list e true,
      .len (m.len + 1)]

/-- `l.InsertBefore(v, mark)`. -/
def LMem.insertBefore (m : LMem α) (v : Node α) (mark : Nat) : Option (List (LWrite α)) :=
  if m.list mark = true then (m.prev mark).bind (m.insertValue v) else some []

/-- `l.PushBack(v)`. -/
def LMem.pushBack (m : LMem α) (v : Node α) : Option (List (LWrite α)) := (m.prev 0).bind (m.insertValue v)

/-- `l.Remove(e)`. -/
def LMem.remove (m : LMem α) (e : Nat) : Option (List (LWrite α)) :=
  if m.list e = true then
    match m.prev e, m.next e with
    | some p, some n => some [.next p (some n), .prev n (some p), .next e none, .prev e none, .list e false,
        .len (m.len - 1)]
    | _, _ => none
  else some []

/-- highscore.go:32-43: the first element with a smaller score, from `e` on.  The outer `none`: the panic of line 34, or
more than `fuel` elements. -/
def LMem.findSmaller [LT α] [DecidableLT α] (m : LMem α) (node : Node α) : Nat → Option Nat → Option (Option Nat)
  | _, none => some none
  | 0, some _ => none
  | fuel + 1, some e =>
    match m.val e with
    | none => none
    | some item => if item.score < node.score then some (some e) else m.findSmaller node fuel (m.nextElem e)

/-- highscore.go:31-48. -/
def LMem.insertTail [LT α] [DecidableLT α] (m : LMem α) (maxItems : Int) (node : Node α) : Option (List (LWrite α)) :=
  match m.findSmaller node m.len m.front with
  | none => none
  | some (some mark) =>
    match m.insertBefore node mark with
    | none => none
    | some ws =>
      let m1 := m.runs ws
      if (m1.len : Int) ≥ maxItems then
        match m1.back with
        | none => none
        | some e => (m1.remove e).map (ws ++ ·)
      else some ws
  | some none => if (m.len : Int) < maxItems then m.pushBack node else some []

/-- highscore.go:23-49 `Insert`: its writes.  `none`: a panic. -/
def LMem.insert [LT α] [DecidableLT α] (m : LMem α) (maxItems : Int) (node : Node α) : Option (List (LWrite α)) :=
  if (m.len : Int) = maxItems - 1 then
    match m.back.bind m.val with
    | none => none
    | some last => if node.score < last.score then some [] else m.insertTail maxItems node
  else m.insertTail maxItems node

/-- The writer: the memory, the writes that the insertion going on has still to do, and (a ghost) the nodes given to
`Insert` so far. -/
structure LConf (α : Type) where
  mem : LMem α
  pending : List (LWrite α)
  log : List (Node α)

/-- One step of the writer: an insertion begins, or writes. -/
inductive LStep [LT α] [DecidableLT α] (maxItems : Int) : LConf α → LConf α → Prop
  | start {m : LMem α} {log : List (Node α)} {node : Node α} {ws : List (LWrite α)}
      (h : m.insert maxItems node = some ws) : LStep maxItems ⟨m, [], log⟩ ⟨m, ws, log ++ [node]⟩
  | write {m : LMem α} {log : List (Node α)} {w : LWrite α} {ws : List (LWrite α)} :
      LStep maxItems ⟨m, w :: ws, log⟩ ⟨m.write w, ws, log⟩

/-- Any number of steps of the writer. -/
inductive LSteps [LT α] [DecidableLT α] (maxItems : Int) : LConf α → LConf α → Prop
  | refl {c : LConf α} : LSteps maxItems c c
  | tail {c d e : LConf α} (h : LSteps maxItems c d) (h' : LStep maxItems d e) : LSteps maxItems c e

/-- highscore.go:15-20 `NewHighscore`. -/
def newConf : LConf α := ⟨newList, [], []⟩

/-- highscore.go:57-64 `BestScore` in another goroutine: it reads `l.len`, and then `l.root.next`; the writer may go on
(`adv`) before each read.  The field `Value` never changes once it is set.  `none`: a panic. -/
inductive ReadBest [Zero α] (adv : LConf α → LConf α → Prop) (c c' : LConf α) : Option α → Prop
  | empty (h : adv c c') (h0 : c'.mem.len = 0) : ReadBest adv c c' (some 0)
  | nil {d : LConf α} (h : adv c d) (h0 : d.mem.len ≠ 0) (h' : adv d c') (hn : c'.mem.next 0 = none) :
      ReadBest adv c c' (some 0)
  | front {d : LConf α} {e : Nat} (h : adv c d) (h0 : d.mem.len ≠ 0) (h' : adv d c') (hn : c'.mem.next 0 = some e) :
      ReadBest adv c c' ((c'.mem.val e).map (·.score))

/-- What `MarshalJSON` finds: a panic, or a slice (`none`: nil). -/
inductive Saved (α : Type) where
  | panic
  | slice (data : List (Option (Node α)))

/-- highscore.go:80-83, the loop in another goroutine: `e` is the current element, `data` what was stored in a slice of
length `n`.  `Next` reads `e.next`, `e.list`, and `e.list` again for `&e.list.root`. -/
inductive ReadItems (adv : LConf α → LConf α → Prop) (n : Nat) :
    LConf α → Option Nat → List (Node α) → LConf α → Saved α → Prop
  | done {c : LConf α} {data : List (Node α)} :
      ReadItems adv n c none data c (.slice (data.map some ++ List.replicate (n - data.length) none))
  | nil {c : LConf α} {e : Nat} {data : List (Node α)} (hv : c.mem.val e = none) :
      ReadItems adv n c (some e) data c .panic
  | full {c : LConf α} {e : Nat} {data : List (Node α)} (h : n ≤ data.length) :
      ReadItems adv n c (some e) data c .panic
  | unlinked {c c1 c2 c' : LConf α} {e : Nat} {v : Node α} {data : List (Node α)} {r : Saved α}
      (hv : c.mem.val e = some v) (hn : data.length < n) (h1 : adv c c1) (h2 : adv c1 c2) (hl : c2.mem.list e = false)
      (h : ReadItems adv n c2 none (data ++ [v]) c' r) : ReadItems adv n c (some e) data c' r
  | removed {c c1 c2 c3 : LConf α} {e : Nat} {v : Node α} {data : List (Node α)}
      (hv : c.mem.val e = some v) (hn : data.length < n) (h1 : adv c c1) (h2 : adv c1 c2) (hl : c2.mem.list e = true)
      (h3 : adv c2 c3) (hl' : c3.mem.list e = false) : ReadItems adv n c (some e) data c3 .panic
  | next {c c1 c2 c3 c' : LConf α} {e : Nat} {v : Node α} {data : List (Node α)} {r : Saved α}
      (hv : c.mem.val e = some v) (hn : data.length < n) (h1 : adv c c1) (h2 : adv c1 c2) (hl : c2.mem.list e = true)
      (h3 : adv c2 c3) (hl' : c3.mem.list e = true)
      (h : ReadItems adv n c3 (if c1.mem.next e = some 0 then none else c1.mem.next e) (data ++ [v]) c' r) :
      ReadItems adv n c (some e) data c' r

/-- highscore.go:78-83: `MarshalJSON` in another goroutine: it reads `l.len` for the slice, `l.len` and `l.root.next`
for the first element, and then the elements. -/
inductive ReadAll (adv : LConf α → LConf α → Prop) (c c' : LConf α) : Saved α → Prop
  | empty {c1 : LConf α} {r : Saved α} (h1 : adv c c1) {c2 : LConf α} (h2 : adv c1 c2) (h0 : c2.mem.len = 0)
      (h : ReadItems adv c1.mem.len c2 none [] c' r) : ReadAll adv c c' r
  | front {c1 : LConf α} {r : Saved α} (h1 : adv c c1) {c2 c3 : LConf α} (h2 : adv c1 c2) (h0 : c2.mem.len ≠ 0)
      (h3 : adv c2 c3) (h : ReadItems adv c1.mem.len c3 (c3.mem.next 0) [] c' r) : ReadAll adv c c' r

end GoSelect
