import Verif.Model.IntUtil
import Verif.Model.Selection
import Verif.Model.Normalize

/-!
# Regularisation paths

Model of the computations of lassoPlot.go; the drawing itself (gonum/plot) is not modelled, only the points and
lines that are handed to it.  `log10` is a parameter.  Selections hold natural numbers.
-/

namespace GoSelect

/-- lassoPlot.go:44-61 `MaxMinFeatNo`: minimum first. -/
def maxMinFeatNo {K : Type} (nodes : List (LassoLarsNode K)) : Int × Int :=
  nodes.foldl (fun st n =>
    let max := maxInt (n.selection.map Int.ofNat)
    let min := minInt (n.selection.map Int.ofNat)
    (if min < st.1 then min else st.1, if max > st.2 then max else st.2)) (2147483647, 0)

/-- lassoPlot.go:82-92, the loop over the nodes of `PlotEntranceTimes`: `Y` values of `firstEntrance` and the
flags `featureDidEnter`; `none`: index out of range. -/
def entranceStep {β : Type} [LT β] [DecidableLT β] (minFeat : Int) (logLamb : β)
    (st : List β × List Bool) (feat : Nat) : Option (List β × List Bool) :=
  match st.1[(feat - minFeat).toNat]? with
  | none => none
  | some old =>
    if logLamb > old then
      some (st.1.set (feat - minFeat).toNat logLamb, st.2.set (feat - minFeat).toNat true)
    else some st

/-- lassoPlot.go:64-106, the points of the line in `PlotEntranceTimes`; `lowest` is `-math.MaxFloat64`.
`none`: `make` with a negative length. -/
def firstEntrances {K β : Type} [LT β] [DecidableLT β] (log10 : K → β) (lowest : β)
    (nodes : List (LassoLarsNode K)) : Option (List (Int × β)) :=
  let minFeat := (maxMinFeatNo nodes).1
  let maxFeat := (maxMinFeatNo nodes).2
  if maxFeat - minFeat + 1 < 0 then none
  else
    let num := (maxFeat - minFeat + 1).toNat
    match nodes.foldlM (fun st n => n.selection.foldlM (entranceStep minFeat (log10 n.lamb)) st)
      (List.replicate num lowest, List.replicate num false) with
    | none => none
    | some st => some ((List.range num).filterMap (fun i =>
      if st.2.getD i false then some ((i : Int) + minFeat, st.1.getD i lowest) else none))

/-- lassoPlot.go:122-134 `GetCriteria`. -/
def getCriteria {K : Type} [AddCommGroup K] [Mul K] {β : Type} (X : Mat K) (y : List K)
    (nodes : List (LassoLarsNode K)) (criteria : Nat → Nat → K → β) : Option (List β) :=
  nodes.mapM (fun n => do
    let model ← selected2Model (n.selection.map Int.ofNat) X.nc
    let design ← getDesignMatrix model X
    let r ← rss design n.coeff y
    return criteria (numFeatures model) X.nr r)

/-- lassoPlot.go:197-207, the coefficient of `featNo` at one node, from position `j` on.  `none`: index out of
range. -/
def pathCoeff {K : Type} [Zero K] (coeff : List K) (featNo : Nat) : List Nat → Nat → Option K
  | [], _ => some 0
  | v :: sel, j => if v = featNo then coeff[j]? else pathCoeff coeff featNo sel (j + 1)

/-- lassoPlot.go:192-210 `ExtractPath`. -/
def extractPath {K β : Type} [Zero K] (log10 : K → β) (nodes : List (LassoLarsNode K)) (featNo : Nat) :
    Option (List (β × K)) :=
  nodes.mapM (fun n => (pathCoeff n.coeff featNo n.selection 0).map (fun c => (log10 n.lamb, c)))

/-- lassoPlot.go:218-260 `PlotPath`: the features whose lines are added, with their points, and the ends of the
zero line.  `none`: a panic of `ExtractPath`, or no nodes. -/
def plotPath {K β : Type} [Zero K] (log10 : K → β) (nodes : List (LassoLarsNode K)) :
    Option (List (Nat × List (β × K)) × β × β) := do
  let lines ← (List.range (maxMinFeatNo nodes).2.toNat).mapM (fun featNo =>
    (extractPath log10 nodes featNo).map (fun xy => (featNo, xy)))
  let last ← nodes.getLast?
  let first ← nodes.head?
  return (lines, log10 last.lamb, log10 first.lamb)

/-- lassoPlot.go:267-271, the inner loop of `PickMostRelevantFeatures`. -/
def addRelevant (mostRelevant : List Int) (selection : List Nat) : List Int :=
  selection.foldl (fun acc (v : Nat) => if existInt acc v then acc else acc ++ [(v : Int)]) mostRelevant

/-- lassoPlot.go:266-276, the loop over the nodes. -/
def pickLoop {K : Type} (numFeat : Int) : List (LassoLarsNode K) → List Int → List Int
  | [], mostRelevant => mostRelevant
  | node :: nodes, mostRelevant =>
    let mostRelevant := addRelevant mostRelevant node.selection
    if (mostRelevant.length : Int) ≥ numFeat then mostRelevant else pickLoop numFeat nodes mostRelevant

/-- lassoPlot.go:264-277 `PickMostRelevantFeatures`. -/
def pickMostRelevantFeatures {K : Type} (nodes : List (LassoLarsNode K)) (numFeat : Int) : List Int :=
  pickLoop numFeat nodes []

end GoSelect
