import Verif.Model.Pool
import Verif.Model.CrdDesc
import Verif.Model.Selection
import Verif.Model.Normalize

/-!
# `LassoCrdDescPath`

Model of lassoCrdDesc.go:142-256 on top of worker pools.  Work: the index of the regularisation and the start
vector; result: the node and the index.  `solve k x0 node`: `LassoCrdDesc` for `lambs[k]` may give `node` (a
relation, because a `CLasso` correction is shared by the workers and its state depends on the schedule).
Printing is left out (line 226).
-/

namespace GoSelect

/-- Where the main goroutine is. -/
inductive PathPhase where
  /-- head of the loop of line 198 -/
  | spawning (i : Nat)
  /-- at lines 201-211 -/
  | sendFirst (i : Nat)
  /-- head of the loop of line 216 -/
  | receiving
  /-- at lines 229-244 -/
  | sendNext
  /-- index out of range in line 220 -/
  | failed
  deriving DecidableEq, Repr

/-- Local variables; a nil node is `none`. -/
structure PathMain (K : Type) where
  phase : PathPhase
  availableLambs : List Nat
  nodes : List (Option (LassoLarsNode K))
  numReceive : Nat
  highestInserted : Int

variable {K : Type} [Zero K]

/-- lassoCrdDesc.go:182-188, 213-214 with `len(lambs) = n`. -/
def pathInit (n : Nat) : PathMain K :=
  ⟨.spawning 0, (List.range n).map (fun i => n - i - 1), List.replicate n none, 0, 0⟩

/-- lassoCrdDesc.go:190-194 `numWorkers`. -/
def pathWorkers (n : Nat) : Nat := if n < 10 then n else 10

/-- lassoCrdDesc.go:217-227: after the receive of `result`. -/
def pathReceive (n : Nat) (m : PathMain K) (result : LassoLarsNode K × Nat) : PathMain K :=
  let pos : Int := (n : Int) - result.2 - 1
  match goSetInt m.nodes pos (some result.1) with
  | none => { m with phase := .failed }
  | some nodes =>
    { phase := if m.availableLambs.length > 0 then .sendNext else .receiving
      availableLambs := m.availableLambs
      nodes := nodes
      numReceive := m.numReceive + 1
      highestInserted := if (result.2 : Int) > m.highestInserted then pos else m.highestInserted }

/-- lassoCrdDesc.go:180-246. -/
def pathAct (n nFeat : Nat) (m : PathMain K) :
    Act (PathMain K) (Nat × List K) (LassoLarsNode K × Nat) :=
  match m.phase with
  | .spawning i =>
    if i < pathWorkers n then .spawn { m with phase := .sendFirst i }
    else .tau { m with phase := .receiving }
  | .sendFirst i =>
    match m.availableLambs with
    | [] => .panic
    | k :: rest =>
      if k < n then .send (k, List.replicate nFeat 0) { m with phase := .spawning (i + 1), availableLambs := rest }
      else .panic
  | .receiving => if m.numReceive < n then .recv (pathReceive n m) else .done
  | .sendNext =>
    if m.highestInserted < 0 then .panic
    else
      match m.nodes[m.highestInserted.toNat]? with
      | some (some hnode) =>
        match fullCoeffVector nFeat (hnode.selection.map Int.ofNat) hnode.coeff with
        | none => .panic
        | some x0 =>
          match m.availableLambs with
          | [] => .panic
          | k :: rest =>
            if k < n then .send (k, x0) { m with phase := .receiving, availableLambs := rest }
            else .panic
      | _ => .panic
  | .failed => .panic

/-- lassoCrdDesc.go:160-177 `PerformLassoCrd`: the result carries the index of the work. -/
def pathComp (solve : Nat → List K → LassoLarsNode K → Prop) (w : Nat × List K) (r : LassoLarsNode K × Nat) : Prop :=
  solve w.1 w.2 r.1 ∧ r.2 = w.1

/-- lassoCrdDesc.go:249-254: the loop from position `i` on; `none`: nil dereference. -/
def firstWithFeatures : List (Option (LassoLarsNode K)) → Nat → Option Nat
  | [], _ => some 0
  | none :: _, _ => none
  | some node :: nodes, i => if node.selection.length > 0 then some i else firstWithFeatures nodes (i + 1)

/-- lassoCrdDesc.go:248-255: what is returned. -/
def pathResult (m : PathMain K) : Option (List (Option (LassoLarsNode K))) :=
  (firstWithFeatures m.nodes 0).map (fun first => m.nodes.drop first)

/-- States reachable by `LassoCrdDescPath`. -/
abbrev PathReach (n nFeat : Nat) (solve : Nat → List K → LassoLarsNode K → Prop)
    (s : Pool (PathMain K) (Nat × List K) (LassoLarsNode K × Nat)) : Prop :=
  PoolReach (pathAct n nFeat) (pathComp solve) (pathInit n) s

/-- One step of `LassoCrdDescPath`. -/
abbrev PathStep (n nFeat : Nat) (solve : Nat → List K → LassoLarsNode K → Prop)
    (s s' : Pool (PathMain K) (Nat × List K) (LassoLarsNode K × Nat)) : Prop :=
  PoolStep (pathAct n nFeat) (pathComp solve) s s'

/-- The call is about to return. -/
def PathDone (n nFeat : Nat) (s : Pool (PathMain K) (Nat × List K) (LassoLarsNode K × Nat)) : Prop :=
  pathAct n nFeat s.main = .done

end GoSelect

namespace GoSelect
variable {K S : Type} [Field K] [LinearOrder K]

/-- lassoCrdDesc.go:162-171: the node of the coefficients. -/
def crdNode (nFeat : Nat) (coeff : Nat → K) (lamb : K) : LassoLarsNode K :=
  let selection := (List.range nFeat).filter (fun j => decide (|coeff j| > lassoCrdDescZero))
  ⟨selection.map coeff, lamb, selection⟩

/-- `LassoCrdDesc` in a worker, for the correction state that it finds. -/
def crdSolve (problem : K → CDProblem K S) (lambs : List K) (maxIter : Nat) (k : Nat) (x0 : List K)
    (node : LassoLarsNode K) : Prop :=
  ∃ lamb, lambs[k]? = some lamb ∧ ∃ (s : S) (r : _ × _),
    lassoCrdDesc (problem lamb) s (some x0) maxIter = some r ∧ node = crdNode (problem lamb).nFeat r.1 lamb

end GoSelect
