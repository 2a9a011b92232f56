import Verif.Py.Basic
import Mathlib.Data.Rat.Defs
import Mathlib.Data.List.Sort
import Mathlib.Data.List.Dedup
import Mathlib.Order.Lex
import Mathlib.Data.List.Lex
import Mathlib.Algebra.Order.Ring.Rat

/-!
# Analysis of performance curves (leap_ec/contrib/analysis.py)

A pandas data frame is the list of its column names and the list of its rows; a row gives the cell under each
column name. Cells are rational numbers: labels are coded as numbers in their order. Missing values (NaN) are not
modelled. Standard deviations are kept as their squares, to stay rational.
-/

namespace Leap

/-- A data frame. For leap_ec/contrib/analysis.py:83-103. -/
structure Frame where
  columns : List String
  rows : List (String → ℚ)

/-- `Series.max()` (leap_ec/contrib/analysis.py:34); `none` is NaN, for an empty column. -/
def seriesMax : List ℚ → Option ℚ
  | [] => none
  | x :: xs => some (xs.foldl max x)

/-- `Series.min()` (leap_ec/contrib/analysis.py:44). -/
def seriesMin : List ℚ → Option ℚ
  | [] => none
  | x :: xs => some (xs.foldl min x)

/-- `Series.mean()`, used by `agg(['mean', …])` (leap_ec/contrib/analysis.py:119). Groups are not empty. -/
def seriesMean (xs : List ℚ) : ℚ := xs.sum / xs.length

/-- The square of `Series.std()`, used by `agg([…, 'std'])` (leap_ec/contrib/analysis.py:119): the sample variance,
with `n - 1` in the denominator; `none` is NaN, for fewer than two values. -/
def seriesStdSq (xs : List ℚ) : Option ℚ :=
  if xs.length < 2 then none
  else some ((xs.map fun x => (x - seriesMean xs) * (x - seriesMean xs)).sum / (xs.length - 1))

/-- `max_value(df, time_col, metric_col)` (leap_ec/contrib/analysis.py:31-34). -/
def maxValue (_timeCol metricCol : String) (rows : List (String → ℚ)) : PyM (Option ℚ) :=
  .ok (seriesMax (rows.map fun r => r metricCol))

/-- `auc(df, time_col, metric_col)` (leap_ec/contrib/analysis.py:40-47). `sortRows` is `sort_values(time_col)`, whose
order among equal times is not specified. For an empty frame the list `[min] + []` has the wrong length to become
a column: `ValueError`. -/
def auc (sortRows : List (ℚ × ℚ) → List (ℚ × ℚ)) (timeCol metricCol : String) (rows : List (String → ℚ)) :
    PyM (Option ℚ) :=
  let df := sortRows (rows.map fun r => (r timeCol, r metricCol))
  let times := df.map Prod.fst
  match seriesMin times with
  | none => .error .valueError
  | some first =>
    let previousTime := first :: times.take (times.length - 1)
    let xdiff := List.zipWith (fun t p => t - p) times previousTime
    .ok (some (List.zipWith (fun x m => x * m) xdiff (df.map Prod.snd)).sum)

/-- What `CurveAnalyzer` keeps. For leap_ec/contrib/analysis.py:83-103. -/
structure Analyzer where
  df : Frame
  timeCol : String
  metricCols : List String
  experimentCols : List String
  runCol : String

/-- `CurveAnalyzer.__init__` (leap_ec/contrib/analysis.py:83-103). `none` stands for `None`. -/
def analyzerInit (df : Option Frame) (timeCol : Option String) (metricCols experimentCols : Option (List String))
    (runCol : Option String) : PyM Analyzer :=
  match df, timeCol, metricCols, experimentCols, runCol with
  | some df, some timeCol, some metricCols, some experimentCols, some runCol =>
    if metricCols.length = 0 then .error .assertionError
    else if experimentCols.length = 0 then .error .assertionError
    else if !df.columns.contains timeCol then .error .assertionError
    else if !df.columns.contains runCol then .error .assertionError
    else if !metricCols.all df.columns.contains then .error .assertionError
    else if !experimentCols.all df.columns.contains then .error .assertionError
    else .ok ⟨df, timeCol, metricCols, experimentCols, runCol⟩
  | _, _, _, _, _ => .error .assertionError

/-- The defaults of `CurveAnalyzer.__init__` (leap_ec/contrib/analysis.py:83-87), with the columns of
`FitnessStatsCSVProbe` (leap_ec/probe.py:316-317). -/
def analyzerDefault (df : Frame) : PyM Analyzer :=
  analyzerInit (some df) (some "step") (some ["bsf", "mean_fitness", "std_fitness", "min_fitness", "max_fitness"])
    (some []) (some "job")

/-- `df.groupby(columns)` (leap_ec/contrib/analysis.py:118, 147, 178): the distinct keys in increasing order, each with
its rows in their order. -/
def frameGroups (cols : List String) (rows : List (String → ℚ)) : List (List ℚ × List (String → ℚ)) :=
  (((rows.map fun r => cols.map r).dedup).insertionSort (· ≤ ·)).map fun k =>
    (k, rows.filter fun r => cols.map r = k)

/-- `CurveAnalyzer.avg_curves` (leap_ec/contrib/analysis.py:105-124): for each group its key and, for each metric, the
mean and the (squared) standard deviation. -/
def avgCurves (a : Analyzer) : List (List ℚ × List (ℚ × Option ℚ)) :=
  (frameGroups (a.timeCol :: a.experimentCols) a.df.rows).map fun g =>
    (g.1, a.metricCols.map fun m => (seriesMean (g.2.map fun r => r m), seriesStdSq (g.2.map fun r => r m)))

/-- A measure of one curve, such as `auc` or `max_value`. For leap_ec/contrib/analysis.py:126-156. -/
abbrev ScalarMeasure := String → String → List (String → ℚ) → PyM (Option ℚ)

/-- `CurveAnalyzer.scalar_metrics_per_run` (leap_ec/contrib/analysis.py:126-156): for each run of each experiment its
key and its scalar. A missing metric column raises `KeyError` in the measure. -/
def scalarPerRun (a : Analyzer) (metricCol : String) (measure : ScalarMeasure) :
    PyM (List (List ℚ × Option ℚ)) :=
  if !a.df.columns.contains metricCol then .error .keyError
  else (frameGroups (a.runCol :: a.experimentCols) a.df.rows).mapM fun g => do
    pure (g.1, ← measure a.timeCol metricCol g.2)

/-- `CurveAnalyzer.avg_scalar_metrics` (leap_ec/contrib/analysis.py:158-183): the table of scalars grouped by the
experiment columns only. NaN scalars are skipped by pandas. -/
def avgScalar (a : Analyzer) (metricCol : String) (measure : ScalarMeasure) :
    PyM (List (List ℚ × ℚ × Option ℚ)) :=
  match scalarPerRun a metricCol measure with
  | .error e => .error e
  | .ok table =>
    .ok ((((table.map fun r => r.1.tail).dedup).insertionSort (· ≤ ·)).map fun k =>
      let scalars := (table.filter fun r => r.1.tail = k).filterMap fun r => r.2
      (k, seriesMean scalars, seriesStdSq scalars))

/-- `cat_csv_files(files)` (leap_ec/contrib/analysis.py:442-455): reads each file and concatenates; `pd.concat` of
nothing raises `ValueError`. Files with the same columns. -/
def catCsv (files : List Frame) : PyM Frame :=
  match files with
  | [] => .error .valueError
  | f :: fs => .ok ⟨f.columns, (f :: fs).flatMap Frame.rows⟩

end Leap
