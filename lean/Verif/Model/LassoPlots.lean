import Verif.Model.Csv
import Verif.Model.LassoCommand
import Mathlib.Analysis.SpecialFunctions.Log.Base
import Mathlib.Data.Real.Sqrt

/-!
# Loading and plotting the file of the lasso command

Model of lassoPlot.go:25-42 and of the points of lassoPlot.go:137-189.  `encoding/json` is a parameter; a document with
a value of the wrong type, which would be read in part, is not modelled.  Of gonum/plot only the check of `NewLine` is
modelled: it refuses an empty list, NaN and infinities.  Arithmetic is exact, except for logarithms of numbers that are
not positive.
-/

namespace GoSelect

/-- The JSON object of lassoPlot.go:18-23; `Dataset` encodes itself (csvIO.go:203-228). -/
structure LassoFileJson where
  dset : JSONDataset ℝ
  nodes : List (LassoLarsNode ℝ)
  aicc : List ℝ
  bic : List ℝ

/-- lassoPlot.go:18-23 `LassoLarsPath` in memory; `dset = none` is the nil pointer. -/
structure LassoLoaded where
  dset : Option (Dataset ℝ)
  nodes : List (LassoLarsNode ℝ)
  aicc : List ℝ
  bic : List ℝ

/-- The finite numbers of a list; `none`: `json.Marshal` returns an error. -/
def jsonNumbers (l : List (Fl ℝ)) : Option (List ℝ) :=
  l.mapM (fun v => match v with
    | .fin x => some x
    | _ => none)

/-- cmd/lasso.go:110-114: what the command hands to `json.Marshal`. -/
def lassoFileToJson (file : LassoFile) : Option LassoFileJson := do
  let a ← jsonNumbers file.aicc
  let b ← jsonNumbers file.bic
  return ⟨toJSONDataset file.dset, file.nodes, a, b⟩

/-- lassoPlot.go:38-42 `LassoLarsPathFromBytes`.  `unmarshal` is `json.Unmarshal`, with `none` for an error, which is
ignored.  `none`: the data set panics (csvIO.go:241). -/
def lassoLarsPathFromBytes (unmarshal : String → Option LassoFileJson) (text : String) : Option LassoLoaded :=
  match unmarshal text with
  | none => some ⟨none, [], [], []⟩
  | some j => (ofJSONDataset j.dset).map (fun d => ⟨some d, j.nodes, j.aicc, j.bic⟩)

/-- lassoPlot.go:26-35 `LassoLarsPathFromJSON`; `files` is the file system.  `none`: no such file, or the above. -/
def lassoLarsPathFromJSON (unmarshal : String → Option LassoFileJson) (files : String → Option String)
    (fname : String) : Option LassoLoaded :=
  match files fname with
  | none => none
  | some text => lassoLarsPathFromBytes unmarshal text

noncomputable section

open Classical in
/-- `math.Log10`. -/
def log10Fl (x : ℝ) : Fl ℝ := if 0 < x then .fin (Real.logb 10 x) else if x = 0 then .negInf else .nan

/-- `plotter.NewLine`: the points, or `none` for an error. -/
def newLine (pts : List (Fl ℝ × Fl ℝ)) : Option (List (ℝ × ℝ)) :=
  if pts.isEmpty then none
  else pts.mapM (fun p => match p with
    | (.fin x, .fin y) => some (x, y)
    | _ => none)

/-- lassoPlot.go:137-160 `PlotQualityScores`: the points of the line.  `none`: nil data set, a panic of `GetCriteria`,
or an error of `NewLine` (line 152). -/
def plotQualityScores (p : LassoLoaded) : Option (List (ℝ × ℝ)) := do
  let d ← p.dset
  let aic ← getCriteria d.X d.Y p.nodes (withLog aicc)
  newLine (List.zipWith (fun n a => (log10Fl n.lamb, a)) p.nodes aic)

/-- lassoPlot.go:163-190 `PlotDeviations`: the points of the line.  On an error of `NewLine` the line is nil, so that
setting its colour panics (line 181). -/
def plotDeviations (p : LassoLoaded) : Option (List (ℝ × ℝ)) := do
  let d ← p.dset
  let pts ← p.nodes.mapM (fun n => do
    let model ← selected2Model (n.selection.map Int.ofNat) d.X.nc
    let design ← getDesignMatrix model d.X
    let r ← rss design n.coeff d.Y
    return (log10Fl n.lamb, log10Fl (Real.sqrt (r / d.X.nr))))
  newLine pts

end

end GoSelect
