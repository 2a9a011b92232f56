import Verif.Model.Analysis
import Mathlib.Data.Rat.Floor

/-!
# Plots of performance curves and the command line (leap_ec/contrib/analysis.py:189-460)

A picture is what is handed to the drawing library: the lines with their colours and points, and the patches of the
legend. Titles, axis labels, limits, log scales, figure sizes and styles are left out. Files are the frames read from them.
-/

namespace Leap

/-- One line of a picture: its colour, an index in the palette, and its points in the order drawn.
For leap_ec/contrib/analysis.py:195-219. -/
structure Curve where
  color : ℕ
  points : List (ℚ × ℚ)
deriving DecidableEq

/-- A picture of curves: the patches of the legend, each an experiment's key with a colour, and the lines.
For leap_ec/contrib/analysis.py:195-219. -/
structure CurvePicture where
  legend : List (List ℚ × ℕ)
  curves : List Curve
deriving DecidableEq

/-- `cmap(i)` for `plt.get_cmap("tab10")` (leap_ec/contrib/analysis.py:203, 207): a palette of ten colours; an integer
above the last index gives the last colour. -/
def tab10 (i : ℕ) : ℕ := min i 9

/-- `CurvePlotter.plot_curves` (leap_ec/contrib/analysis.py:195-219). The groups are those of `groupby` on the experiment
columns, and within each of them on the run column. -/
def plotCurves (a : Analyzer) (metricCol : String) : PyM CurvePicture :=
  if !a.metricCols.contains metricCol then .error .assertionError
  else
    let groups := (frameGroups a.experimentCols a.df.rows).zipIdx
    .ok ⟨groups.map fun g => (g.1.1, tab10 g.2),
      groups.flatMap fun g => (frameGroups [a.runCol] g.1.2).map fun run =>
        ⟨tab10 g.2, run.2.map fun r => (r a.timeCol, r metricCol)⟩⟩

/-- One line of averages: its colour, and for each time the mean and, if asked for, the height (squared) of the error bar.
For leap_ec/contrib/analysis.py:221-268. -/
structure AvgCurve where
  color : ℕ
  points : List (ℚ × ℚ)
  bars : Option (List (Option ℚ))
deriving DecidableEq

/-- A picture of averages. For leap_ec/contrib/analysis.py:221-268. -/
structure AvgPicture where
  legend : List (List ℚ × ℕ)
  curves : List AvgCurve
deriving DecidableEq

/-- `CurvePlotter.plot_avg_curves` (leap_ec/contrib/analysis.py:221-268). The table of averages is grouped by the experiment
columns; its rows are keyed by the time followed by the experiment. The columns of the metric are found by its first
position among the metrics. Metric names such that `m_mean` is also another column are left out. -/
def plotAvgCurves (a : Analyzer) (metricCol : String) (errorBars : Bool) : PyM AvgPicture :=
  if !a.metricCols.contains metricCol then .error .assertionError
  else
    let df := avgCurves a
    let j := a.metricCols.idxOf metricCol
    let names := (((df.map fun row => row.1.tail).dedup).insertionSort (· ≤ ·)).zipIdx
    .ok ⟨names.map fun n => (n.1, tab10 n.2),
      names.map fun n =>
        let rows := df.filter fun row => row.1.tail = n.1
        ⟨tab10 n.2, rows.map fun row => (row.1.headD 0, (row.2.getD j (0, none)).1),
          if errorBars then some (rows.map fun row => (row.2.getD j (0, none)).2) else none⟩⟩

/-- `CurvePlotter.plot_scalars_bar` (leap_ec/contrib/analysis.py:270-284): for each experiment the values whose box plot is
drawn. Missing values are not drawn. -/
def plotScalarsBar (a : Analyzer) (metricCol : String) (measure : ScalarMeasure) : PyM (List (List ℚ × List ℚ)) :=
  match scalarPerRun a metricCol measure with
  | .error e => .error e
  | .ok table =>
    .ok ((((table.map fun r => r.1.tail).dedup).insertionSort (· ≤ ·)).map fun k =>
      (k, (table.filter fun r => r.1.tail = k).filterMap fun r => r.2))

/-- `CurvePlotter.plot_avg_scalars` (leap_ec/contrib/analysis.py:286-306). `avg_scalar_metrics` has no parameter `metrics`. -/
def plotAvgScalars (_a : Analyzer) (independentVars : Option (List String)) : PyM Unit :=
  match independentVars with
  | none => .error .assertionError
  | some _ => .error .typeError

/-- `CurveAnalyzer(df, time_col=…, experiment_cols=['experiment'])` (leap_ec/contrib/analysis.py:346, 368, 394, 415, 433). -/
def cliAnalyzer (df : Frame) (timeCol : String) : PyM Analyzer :=
  analyzerInit (some df) (some timeCol) (some ["bsf", "mean_fitness", "std_fitness", "min_fitness", "max_fitness"])
    (some ["experiment"]) (some "job")

/-- The four files written by `analyze`. For leap_ec/contrib/analysis.py:327-349. -/
structure AnalyzeFiles where
  combined : Frame
  avgCurvesColumns : List String
  avgCurves : List (List ℚ × List (ℚ × Option ℚ))
  scalarsByRun : List (List ℚ × Option ℚ)
  avgScalars : List (List ℚ × ℚ × Option ℚ)

/-- The columns of the table of `avg_curves` (leap_ec/contrib/analysis.py:115-124). -/
def avgColumns (a : Analyzer) : List String :=
  a.timeCol :: a.experimentCols ++ a.metricCols.flatMap fun m => [m ++ "_mean", m ++ "_std"]

/-- The command `analyze` (leap_ec/contrib/analysis.py:327-349). `df.to_csv(curves_file)` adds the index as a first column,
which is read back as `Unnamed: 0`; nothing looks at it, so its cells are left as they are. Files written before an exception
are not recorded. -/
def analyzeCommand (sortRows : List (ℚ × ℚ) → List (ℚ × ℚ)) (files : List Frame) : PyM AnalyzeFiles := do
  let df ← catCsv files
  let combined : Frame := ⟨"Unnamed: 0" :: df.columns, df.rows⟩
  let a ← cliAnalyzer combined "step"
  let scalars ← scalarPerRun a "bsf" (auc sortRows)
  let avgs ← avgScalar a "bsf" (auc sortRows)
  pure ⟨combined, avgColumns a, avgCurves a, scalars, avgs⟩

/-- `x % modulo == 0` (leap_ec/contrib/analysis.py:367); with `modulo` 0 it is false, as pandas makes it NaN. -/
def divides (modulo : Int) (x : ℚ) : Bool :=
  decide (modulo ≠ 0) && decide (x - modulo * ⌊x / modulo⌋ = 0)

/-- The command `plot all` (leap_ec/contrib/analysis.py:355-379): three pictures. A time column that does not exist raises
`KeyError` before the analyzer can refuse it. -/
def plotAllCommand (sortRows : List (ℚ × ℚ) → List (ℚ × ℚ)) (file : Frame) (metricCol : String) (error : Bool) (modulo : Int)
    (timeCol : String) : PyM (CurvePicture × AvgPicture × List (List ℚ × List ℚ)) :=
  if !file.columns.contains timeCol then .error .keyError
  else do
    let a ← cliAnalyzer ⟨file.columns, file.rows.filter fun r => divides modulo (r timeCol)⟩ timeCol
    let c ← plotCurves a metricCol
    let m ← plotAvgCurves a metricCol error
    let b ← plotScalarsBar a metricCol (auc sortRows)
    pure (c, m, b)

/-- The command `plot curves` (leap_ec/contrib/analysis.py:384-397). -/
def plotCurvesCommand (file : Frame) (metricCol timeCol : String) : PyM CurvePicture := do
  plotCurves (← cliAnalyzer file timeCol) metricCol

/-- The command `plot avg-curves` (leap_ec/contrib/analysis.py:403-418). -/
def plotAvgCommand (file : Frame) (metricCol : String) (error : Bool) (timeCol : String) : PyM AvgPicture := do
  plotAvgCurves (← cliAnalyzer file timeCol) metricCol error

/-- The command `plot auc` (leap_ec/contrib/analysis.py:424-436). -/
def plotAucCommand (sortRows : List (ℚ × ℚ) → List (ℚ × ℚ)) (file : Frame) (metricCol timeCol : String) :
    PyM (List (List ℚ × List ℚ)) := do
  plotScalarsBar (← cliAnalyzer file timeCol) metricCol (auc sortRows)

end Leap
