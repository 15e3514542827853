import Verif.Model.LassoPlots

/-!
# The command that plots a lasso path

Model of cmdDepreciated/goselect-plotlasso/main.go and of `PlotEntranceTimes` (lassoPlot.go:64-119) and `PlotPath`
(lassoPlot.go:218-260) with the checks of gonum/plot.  Labels, colours and the drawing are not modelled.  The error of
`Save` is ignored by the command; the figures here are those handed to it.
-/

namespace GoSelect

/-- A figure: what is drawn, with the range of the vertical axis of the last one if it is set. -/
inductive Figure where
  | entrance (scatter line : List (ℝ × ℝ))
  | curve (line : List (ℝ × ℝ))
  | path (lines : List (Nat × List (ℝ × ℝ))) (zero : List (ℝ × ℝ)) (range : Option (ℝ × ℝ))

/-- The flags of the command. -/
structure PlotFlags where
  json : String
  pre : String
  ext : String
  coeffMin : ℝ
  coeffMax : ℝ

noncomputable section

/-- `-math.MaxFloat64`. -/
def lowestFloat : ℝ := -(2 ^ 1024 - 2 ^ 971)

/-- lassoPlot.go:64-119 `PlotEntranceTimes`.  `none`: `make` with a negative length, or an error of `NewScatter` (line 96)
or of `NewLine` (the line is nil in line 109).  A regularisation that is not positive is an error of `NewScatter`, so
that its value in the line does not matter. -/
def plotEntranceTimes (nodes : List (LassoLarsNode ℝ)) : Option Figure := do
  let first ← firstEntrances (Real.logb 10) lowestFloat nodes
  let scatter ← newLine (nodes.flatMap (fun n => n.selection.map (fun f : Nat => (.fin (f : ℝ), log10Fl n.lamb))))
  let line ← newLine (first.map (fun p => (.fin (p.1 : ℝ), .fin p.2)))
  return .entrance scatter line

/-- lassoPlot.go:218-260 `PlotPath`, with the checks of lines 229-233 and 243-246. -/
def plotPathFigure (nodes : List (LassoLarsNode ℝ)) (range : Option (ℝ × ℝ)) : Option Figure := do
  let (raw, a, b) ← plotPath log10Fl nodes
  let lines ← raw.mapM (fun l => (newLine (l.2.map (fun p => (p.1, .fin p.2)))).map (fun xy => (l.1, xy)))
  let zero ← newLine [(a, .fin 0), (b, .fin 0)]
  return .path lines zero range

/-- goselect-plotlasso/main.go:12-35 `analyseLasso`: the figures with their file names. -/
def analyseLasso (p : LassoLoaded) (pre ext : String) (range : Option (ℝ × ℝ)) : Option (List (String × Figure)) := do
  let entrance ← plotEntranceTimes p.nodes
  let quality ← plotQualityScores p
  let dev ← plotDeviations p
  let path ← plotPathFigure p.nodes range
  return [(pre ++ "_entrance." ++ ext, entrance), (pre ++ "_quality." ++ ext, .curve quality),
    (pre ++ "_dev." ++ ext, .curve dev), (pre ++ "_path." ++ ext, path)]

/-- goselect-plotlasso/main.go:46-54: the range of the coefficients. -/
def axisRange (coeffMin coeffMax : ℝ) : Option (ℝ × ℝ) :=
  if |coeffMax - coeffMin| > 1 / 10 ^ 10 then some (coeffMin, coeffMax) else none

/-- goselect-plotlasso/main.go:37-58 `main`.  The flags of the range are read (lines 44-45) before `flag.Parse` (line 56),
when they hold their default 0; the others are read after it. -/
def plotLassoMain (unmarshal : String → Option LassoFileJson) (files : String → Option String) (f : PlotFlags) :
    Option (List (String × Figure)) := do
  let range := axisRange 0 0
  let p ← lassoLarsPathFromJSON unmarshal files f.json
  analyseLasso p f.pre f.ext range

end

end GoSelect
