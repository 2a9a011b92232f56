import Verif.Model.Probe
import Verif.Model.NonDom
import Verif.Model.Counters
import Mathlib.Algebra.Order.Floor.Ring
import Mathlib.Data.Rat.Floor

/-!
# Plotting probes (leap_ec/probe.py:599-688, 869-874, 997-1294 and leap_ec/multiobjective/probe.py)

What a plot shows is modelled as data: the lines of the axes with their points, the points of the probe's scatter plot, the
limits of the view. Numbers are exact rationals. Rendering (`canvas.draw`, `plt.pause`), titles and colours are left out.
A population is always a list, so the assertion that it is not `None` is left out too. A call returns its result together with
the state it leaves behind, also when it raises.
-/

namespace Leap

variable {α : Type}

/-- A rectangle given by its sides. For leap_ec/probe.py:671-683. -/
structure Rect where
  left : ℚ
  right : ℚ
  bottom : ℚ
  top : ℚ
deriving DecidableEq, Repr

/-- A matplotlib `Axes`: its lines, each with x data and y data, and the rectangle last given to `update_datalim`.
For leap_ec/probe.py:670-685. -/
structure PlotAxes where
  lines : List (List ℚ × List ℚ) := []
  dataLim : Option Rect := none
deriving DecidableEq, Repr

/-- The checks at the start of every `__call__` of a plotting probe (leap_ec/probe.py:643-648, 1029-1034, 1075-1080,
1110-1115, 1280-1285): the generation must be in the context; whether this call is measured. -/
def measuring (generation : Option Int) (modulo : Int) : PyM Bool :=
  match generation with
  | none => .error .assertionError
  | some step => if modulo = 0 then .error .zeroDivisionError else .ok (decide (step % modulo = 0))

/-- `np.min` of a one-dimensional array. For leap_ec/probe.py:671-683. -/
def arrayMin (l : List ℚ) : PyM ℚ := if l = [] then .error .valueError else .ok (statMin l)

/-- `np.max` of a one-dimensional array. For leap_ec/probe.py:671-683. -/
def arrayMax (l : List ℚ) : PyM ℚ := if l = [] then .error .valueError else .ok (statMax l)

/-- A list of arrays as one array: they must have the same length. For leap_ec/probe.py:642-661. -/
def stackRows (y : List (List ℚ)) : PyM (List ℚ) :=
  if ∀ r ∈ y, r.length = (y.headD []).length then .ok y.flatten else .error .valueError

/-- The rectangle computed by `PopulationMetricsPlotProbe._rescale_ax` (leap_ec/probe.py:671-683). -/
def rescaleRect (xlim ylim : Option (ℚ × ℚ)) (x : List ℚ) (y : PyM (List ℚ)) : PyM Rect := do
  let l ← arrayMin x
  let r ← arrayMax x
  let (l, r) := match xlim with | none => (l, r) | some lim => (min lim.1 l, max lim.2 r)
  let y ← y
  let b ← arrayMin y
  let t ← arrayMax y
  let (b, t) := match ylim with | none => (b, t) | some lim => (min lim.1 b, max lim.2 t)
  return ⟨l, r, b, t⟩

/-- Matplotlib takes x and y data that can be broadcast against each other. For leap_ec/probe.py:670-685. -/
def lineOk (line : List ℚ × List ℚ) : Bool :=
  decide (line.1.length = line.2.length ∨ line.1.length = 1 ∨ line.2.length = 1)

/-- `PopulationMetricsPlotProbe._rescale_ax` (leap_ec/probe.py:670-685): `relim` goes through all lines of the axes. -/
def rescaleAxes (xlim ylim : Option (ℚ × ℚ)) (x : List ℚ) (y : PyM (List ℚ)) (ax : PlotAxes) : PyM Unit × PlotAxes :=
  match rescaleRect xlim ylim x y with
  | .error e => (.error e, ax)
  | .ok r => if ax.lines.all lineOk then (.ok (), { ax with dataLim := some r }) else (.error .valueError, ax)

/-! ### PopulationMetricsPlotProbe -/

/-- A `PopulationMetricsPlotProbe` without its axes (leap_ec/probe.py:604-640). -/
structure MetricsProbe (α : Type) where
  metrics : List (List α → PyM ℚ)
  modulo : Int
  xlim : Option (ℚ × ℚ)
  ylim : Option (ℚ × ℚ)
  x : List ℚ
  y : List (List ℚ)

/-- `PopulationMetricsPlotProbe.reset` (leap_ec/probe.py:663-668): empty data, and one more empty line per metric. -/
def MetricsProbe.reset (p : MetricsProbe α) (ax : PlotAxes) : MetricsProbe α × PlotAxes :=
  ({ p with x := [], y := p.metrics.map fun _ => [] },
   { ax with lines := ax.lines ++ p.metrics.map fun _ => ([], []) })

/-- `PopulationMetricsPlotProbe.__init__` (leap_ec/probe.py:604-640). `none` for the axes makes new ones; without metrics
`len(None)` raises. -/
def MetricsProbe.init (ax : Option PlotAxes) (metrics : Option (List (List α → PyM ℚ))) (xlim ylim : Option (ℚ × ℚ))
    (modulo : Int) : PyM (MetricsProbe α × PlotAxes) :=
  match metrics with
  | none => .error .typeError
  | some ms => .ok (MetricsProbe.reset ⟨ms, modulo, xlim, ylim, [], []⟩ (ax.getD {}))

/-- The loop over the metrics (leap_ec/probe.py:653-657) from number `i` on; `x` is the new x data. The lines are taken
by their number among all lines of the axes. -/
def addMetrics (population : List α) (x : List ℚ) :
    List (List α → PyM ℚ) → Nat → List (List ℚ) → PlotAxes → PyM Unit × List (List ℚ) × PlotAxes
  | [], _, y, ax => (.ok (), y, ax)
  | m :: ms, i, y, ax =>
    match y[i]? with
    | none => (.error .indexError, y, ax)
    | some yi =>
      match m population with
      | .error e => (.error e, y, ax)
      | .ok v =>
        if i < ax.lines.length then
          addMetrics population x ms (i + 1) (y.set i (yi ++ [v])) { ax with lines := ax.lines.set i (x, yi ++ [v]) }
        else (.error .indexError, y.set i (yi ++ [v]), ax)

/-- One call of a probe: the generation in the context, what `x_axis_value` returns, the population.
For leap_ec/probe.py:642-661. -/
structure PlotCall (α : Type) where
  generation : Option Int
  xValue : PyM ℚ
  population : List α

/-- `PopulationMetricsPlotProbe.__call__` (leap_ec/probe.py:642-661). -/
def MetricsProbe.call (p : MetricsProbe α) (ax : PlotAxes) (c : PlotCall α) :
    PyM (List α) × MetricsProbe α × PlotAxes :=
  match measuring c.generation p.modulo with
  | .error e => (.error e, p, ax)
  | .ok false => (.ok c.population, p, ax)
  | .ok true =>
    match c.xValue with
    | .error e => (.error e, p, ax)
    | .ok v =>
      match addMetrics c.population (p.x ++ [v]) p.metrics 0 p.y ax with
      | (.error e, y, ax) => (.error e, { p with x := p.x ++ [v], y := y }, ax)
      | (.ok _, y, ax) =>
        match rescaleAxes p.xlim p.ylim (p.x ++ [v]) (stackRows y) ax with
        | (.error e, ax) => (.error e, { p with x := p.x ++ [v], y := y }, ax)
        | (.ok _, ax) => (.ok c.population, { p with x := p.x ++ [v], y := y }, ax)

/-- A history of calls of one probe; the results in order. For leap_ec/probe.py:642-661. -/
def MetricsProbe.run : MetricsProbe α → PlotAxes → List (PlotCall α) → List (PyM (List α)) × MetricsProbe α × PlotAxes
  | p, ax, [] => ([], p, ax)
  | p, ax, c :: cs =>
    let (r, p, ax) := p.call ax c
    let (rs, p, ax) := MetricsProbe.run p ax cs
    (r :: rs, p, ax)

/-- `FitnessPlotProbe.__init__` (leap_ec/probe.py:869-873). -/
def fitnessProbeInit (gt : α → α → Bool) (fitness : α → ℚ) (ax : Option PlotAxes) (xlim ylim : Option (ℚ × ℚ)) (modulo : Int) :
    PyM (MetricsProbe α × PlotAxes) :=
  MetricsProbe.init ax (some [fun pop => do let b ← bestOfGen gt pop; return fitness b]) xlim ylim modulo

/-! ### Scatter plots of phenotypes -/

/-- The state of a `CartesianPhenotypePlotProbe` or `SumPhenotypePlotProbe`: the window it was given, its data, the points of
its scatter plot, the limits of the view of its axes (leap_ec/probe.py:1016-1026, 1267-1277). -/
structure ScatterProbe where
  window : Rect
  modulo : Int
  x : List ℚ := []
  y : List ℚ := []
  points : List (ℚ × ℚ) := []
  view : Rect
deriving DecidableEq, Repr

/-- The construction of the two probes, apart from what they draw in the background (leap_ec/probe.py:1014-1026,
1265-1277). -/
def ScatterProbe.make (window : Rect) (modulo : Int) : ScatterProbe := { window := window, modulo := modulo, view := window }

/-- The horizontal half of `__rescale_ax` (leap_ec/probe.py:1044-1047, 1295-1298). Compared with the window, not with the
present view. -/
def rescaleX (window view : Rect) (x : List ℚ) : PyM Rect := do
  let lo ← arrayMin x
  let view := if lo < window.left then { view with left := lo } else view
  let hi ← arrayMax x
  return if window.right < hi then { view with right := hi } else view

/-- The vertical half of `__rescale_ax` (leap_ec/probe.py:1048-1051, 1299-1302). -/
def rescaleY (window view : Rect) (y : List ℚ) : PyM Rect := do
  let lo ← arrayMin y
  let view := if lo < window.bottom then { view with bottom := lo } else view
  let hi ← arrayMax y
  return if window.top < hi then { view with top := hi } else view

/-- The common part of the two `__call__`s (leap_ec/probe.py:1028-1041, 1279-1293): `getX` and `getY` compute the coordinates of
all individuals. -/
def ScatterProbe.call (getX getY : List α → PyM (List ℚ)) (p : ScatterProbe) (generation : Option Int) (population : List α) :
    PyM (List α) × ScatterProbe :=
  match measuring generation p.modulo with
  | .error e => (.error e, p)
  | .ok false => (.ok population, p)
  | .ok true =>
    match getX population with
    | .error e => (.error e, p)
    | .ok x =>
      match getY population with
      | .error e => (.error e, { p with x := x })
      | .ok y =>
        let p := { p with x := x, y := y, points := x.zip y }
        match rescaleX p.window p.view x with
        | .error e => (.error e, p)
        | .ok view =>
          match rescaleY p.window view y with
          | .error e => (.error e, { p with view := view })
          | .ok view => (.ok population, { p with view := view })

/-- `ind.decode()[i]` for all individuals (leap_ec/probe.py:1036-1037). `decode` is a function of the individual. -/
def phenomeColumn (decode : α → PyM (List ℚ)) (i : Nat) (population : List α) : PyM (List ℚ) :=
  pyMapM (fun ind => do
    let phenome ← decode ind
    match phenome[i]? with
    | some v => return v
    | none => .error .indexError) population

/-- `CartesianPhenotypePlotProbe.__call__` (leap_ec/probe.py:1028-1042). -/
def cartesianCall (decode : α → PyM (List ℚ)) : ScatterProbe → Option Int → List α → PyM (List α) × ScatterProbe :=
  ScatterProbe.call (phenomeColumn decode 0) (phenomeColumn decode 1)

/-- `SumPhenotypePlotProbe.__call__` (leap_ec/probe.py:1279-1293), for individuals that have a fitness. -/
def sumCall (decode : α → PyM (List ℚ)) (fitness : α → ℚ) : ScatterProbe → Option Int → List α → PyM (List α) × ScatterProbe :=
  ScatterProbe.call (pyMapM fun ind => do let phenome ← decode ind; return phenome.sum)
    (fun population => .ok (population.map fitness))

/-- Calls of a scatter probe, one after the other. For leap_ec/probe.py:1028-1042, 1279-1293. -/
def ScatterProbe.run (call : ScatterProbe → Option Int → List α → PyM (List α) × ScatterProbe) :
    ScatterProbe → List (Option Int × List α) → List (PyM (List α)) × ScatterProbe
  | p, [] => ([], p)
  | p, c :: cs =>
    let (r, p) := call p c.1 c.2
    let (rs, p) := ScatterProbe.run call p cs
    (r :: rs, p)

/-- `np.arange(lo, hi, step)` in exact arithmetic. For leap_ec/probe.py:1002-1013. -/
def npArange (lo hi step : ℚ) : PyM (List ℚ) :=
  if step = 0 then .error .zeroDivisionError
  else .ok ((List.range ⌈(hi - lo) / step⌉.toNat).map fun i : Nat => lo + i * step)

/-- The contours drawn by `CartesianPhenotypePlotProbe.__init__` (leap_ec/probe.py:1002-1013): the two coordinate ranges and
the table of fitnesses, one row per y. `np.vectorize` refuses an empty grid. `np.vectorize` also takes its output type from the
first value; here all values are rationals. -/
def contourTable (evaluate : List ℚ → PyM ℚ) (bounds : ℚ × ℚ) (granularity : Option ℚ) (window : Rect) (pad : List ℚ) :
    PyM (List ℚ × List ℚ × List (List ℚ)) := do
  let g := granularity.getD ((bounds.2 - bounds.1) / 50)
  let xs ← npArange window.left window.right g
  let ys ← npArange window.bottom window.top g
  if xs = [] ∨ ys = [] then .error .valueError
  else
    let table ← pyMapM (fun y => pyMapM (fun x => evaluate ([x, y] ++ pad)) xs) ys
    return (xs, ys, table)

/-- Python's `int(x)`: towards zero. For leap_ec/probe.py:1248-1263. -/
def pyTrunc (q : ℚ) : Int := if 0 ≤ q then ⌊q⌋ else ⌈q⌉

/-- `bitstring_with_ones` (leap_ec/probe.py:1254-1258). Repeating a list a negative number of times gives the empty list. -/
def bitstringWithOnes (maxOnes ones : Int) : PyM (List Int) :=
  if ones ≤ maxOnes then .ok (List.replicate ones.toNat 1 ++ List.replicate (maxOnes - ones).toNat 0)
  else .error .assertionError

/-- The curve drawn by `SumPhenotypePlotProbe.__init__` (leap_ec/probe.py:1248-1263): numbers of ones and fitnesses. -/
def onesCurve (evaluate : List Int → PyM ℚ) (xlim : ℚ × ℚ) (granularity : ℚ) : PyM (List (Int × ℚ)) :=
  let maxOnes := pyTrunc xlim.2
  let lo := pyTrunc xlim.1
  let step := pyTrunc granularity
  if step = 0 then .error .zeroDivisionError
  else
    pyMapM (fun ones => do
      let bits ← bitstringWithOnes maxOnes ones
      let f ← evaluate bits
      return (ones, f))
      ((List.range ⌈((maxOnes + 1 - lo : Int) : ℚ) / step⌉.toNat).map fun i : Nat => lo + i * step)

/-! ### Histograms and Pareto fronts -/

/-- `HistPhenotypePlotProbe.__call__` and `HeatMapPhenotypeProbe.__call__` (leap_ec/probe.py:1074-1088, 1109-1126): the phenotypes
handed to `hist`. `none`: nothing has been drawn yet. The histogram computed by the second for its unused map is left out. -/
def histCall {φ : Type} (decode : α → PyM φ) (modulo : Int) (shown : Option (List φ)) (generation : Option Int)
    (population : List α) : PyM (List α) × Option (List φ) :=
  match measuring generation modulo with
  | .error e => (.error e, shown)
  | .ok false => (.ok population, shown)
  | .ok true =>
    match pyMapM decode population with
    | .error e => (.error e, shown)
    | .ok phenomes => (.ok population, some phenomes)

/-- The state of a `ParetoPlotProbe2D` (leap_ec/multiobjective/probe.py:24-44). -/
structure ParetoProbe where
  step : Int
  xlim : Option (ℚ × ℚ)
  ylim : Option (ℚ × ℚ)
  x : List ℚ := []
  y : List ℚ := []
  points : List (ℚ × ℚ) := []
deriving DecidableEq, Repr

/-- `ParetoPlotProbe2D.__init__` (leap_ec/multiobjective/probe.py:24-44). The scatter plot is made on the *argument* `ax`, not on
the axes the base class made: without axes `None.scatter` raises. -/
def ParetoProbe.init (ax : Option PlotAxes) (xlim ylim : Option (ℚ × ℚ)) (step : Int) : PyM (ParetoProbe × PlotAxes) :=
  match ax with
  | none => .error .attributeError
  | some ax => .ok ({ step := step, xlim := xlim, ylim := ylim }, ax)

/-- `ind.fitness[i]` for all individuals (leap_ec/multiobjective/probe.py:51-52). -/
def fitnessColumn (fitness : α → List ℚ) (i : Nat) (population : List α) : PyM (List ℚ) :=
  pyMapM (fun ind => match (fitness ind)[i]? with | some v => .ok v | none => .error .indexError) population

/-- `ParetoPlotProbe2D.__call__` (leap_ec/multiobjective/probe.py:46-58). The step is `None` never: `get_step` is asked for
neither counter explicitly. -/
def ParetoProbe.call (fitness : α → List ℚ) (p : ParetoProbe) (ax : PlotAxes) (ctx : Option LeapCtx) (population : List α) :
    PyM (List α) × ParetoProbe × PlotAxes :=
  match getStep ctx none none with
  | .error e => (.error e, p, ax)
  | .ok none => (.error .typeError, p, ax)
  | .ok (some step) =>
    if p.step = 0 then (.error .zeroDivisionError, p, ax)
    else if step % p.step = 0 then
      match fitnessColumn fitness 0 population with
      | .error e => (.error e, p, ax)
      | .ok x =>
        match fitnessColumn fitness 1 population with
        | .error e => (.error e, { p with x := x }, ax)
        | .ok y =>
          match rescaleAxes p.xlim p.ylim x (.ok y) ax with
          | (.error e, ax) => (.error e, { p with x := x, y := y, points := x.zip y }, ax)
          | (.ok _, ax) => (.ok population, { p with x := x, y := y, points := x.zip y }, ax)
    else (.ok population, p, ax)

end Leap
