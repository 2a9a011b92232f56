import Mathlib.Data.Rat.Floor
import Mathlib.Algebra.Order.Floor.Ring
import Mathlib.Algebra.Order.Field.Rat
import Verif.Py.Basic

/-!
# Plots of two-dimensional problems

Models `plot_2d_problem`, `plot_2d_function` and `plot_2d_contour` of `leap_ec/real_rep/problems.py` up to the arrays handed to
Matplotlib, in exact rational arithmetic. The axes and the title are left out.
-/

namespace Leap

/-- A number a fitness function returns: a Python `int`, or a `float`. For leap_ec/real_rep/problems.py:1705-1707, 1767-1769. -/
inductive PlotNum where
  | int (z : Int)
  | float (q : ℚ)
  deriving DecidableEq

/-- The number it stands for. For leap_ec/real_rep/problems.py:1705-1707, 1767-1769. -/
def PlotNum.val : PlotNum → ℚ
  | .int z => z
  | .float q => q

/-- `np.arange(lo, hi, step)` with exact steps: `ceil((hi - lo) / step)` numbers from `lo` on (leap_ec/real_rep/problems.py:1709-1710,
1771-1772). A zero step is a `ZeroDivisionError`. -/
def arange (lo hi step : ℚ) : PyM (List ℚ) :=
  if step = 0 then .error .zeroDivisionError
  else .ok ((List.range (⌈(hi - lo) / step⌉).toNat).map fun k : Nat => lo + k * step)

/-- `np.meshgrid(x, y)` (leap_ec/real_rep/problems.py:1711, 1773), as rows of points. -/
def meshgrid (x y : List ℚ) : List (List (ℚ × ℚ)) := y.map fun b => x.map fun a => (a, b)

/-- Evaluate a function at points one after the other. `σ` is whatever state evaluation uses.
For leap_ec/real_rep/problems.py:1705-1707, 1767-1769. -/
def evalPoints {σ : Type} (fun' : List ℚ → σ → PyM PlotNum × σ) (pad : List ℚ) : List (ℚ × ℚ) → σ → PyM (List PlotNum) × σ
  | [], s => (.ok [], s)
  | p :: ps, s =>
    match fun' ([p.1, p.2] ++ pad) s with
    | (.error e, s1) => (.error e, s1)
    | (.ok v, s1) =>
      match evalPoints fun' pad ps s1 with
      | (.error e, s2) => (.error e, s2)
      | (.ok vs, s2) => (.ok (v :: vs), s2)

/-- The conversion of the values to the type of the first: to integers, towards zero, when that was an `int`.
For leap_ec/real_rep/problems.py:1705-1707, 1767-1769. -/
def castLike (first v : PlotNum) : ℚ :=
  match first, v with
  | .float _, v => v.val
  | .int _, .int z => z
  | .int _, .float q => if 0 ≤ q then ⌊q⌋ else ⌈q⌉

/-- `v_fun(xx, yy)` for a function under `np.vectorize` (leap_ec/real_rep/problems.py:1705-1707, 1767-1769). NumPy calls the function at the first
point to find the type of the result, and then at every point, row by row; it refuses arrays without elements with `ValueError`.
The values are returned row after row. -/
def vectorized {σ : Type} (fun' : List ℚ → σ → PyM PlotNum × σ) (pad : List ℚ) (points : List (ℚ × ℚ)) (s : σ) :
    PyM (List ℚ) × σ :=
  match points with
  | [] => (.error .valueError, s)
  | p :: _ =>
    match fun' ([p.1, p.2] ++ pad) s with
    | (.error e, s1) => (.error e, s1)
    | (.ok first, s1) =>
      match evalPoints fun' pad points s1 with
      | (.error e, s2) => (.error e, s2)
      | (.ok vs, s2) => (.ok (vs.map (castLike first)), s2)

/-- What is drawn: the grid, row by row, and the heights in the same order.
For leap_ec/real_rep/problems.py:1695-1716, 1757-1778. -/
structure Plot2d where
  grid : List (List (ℚ × ℚ))
  heights : List ℚ
  deriving DecidableEq

/-- The argument `pad`: not given, a NumPy array, or something else. For leap_ec/real_rep/problems.py:1697-1699, 1759-1761. -/
inductive PadArg where
  | none
  | array (v : List ℚ)
  | other
  deriving DecidableEq

/-- The padding used: none for `None`; only arrays pass the assertion (leap_ec/real_rep/problems.py:1697-1699, 1759-1761). -/
def PadArg.value : PadArg → Option (List ℚ)
  | .none => some []
  | .array v => some v
  | .other => Option.none

/-- `plot_2d_function` and `plot_2d_contour` from the assertions on (leap_ec/real_rep/problems.py:1695-1716, 1757-1778). -/
def plotGrid {σ : Type} (fun' : List ℚ → σ → PyM PlotNum × σ) (xlim ylim : List ℚ) (granularity : ℚ) (pad : PadArg) (s : σ) :
    PyM Plot2d × σ :=
  match xlim, ylim with
  | [x0, x1], [y0, y1] =>
    match pad.value with
    | none => (.error .assertionError, s)
    | some pad =>
      match arange x0 x1 granularity, arange y0 y1 granularity with
      | .error e, _ => (.error e, s)
      | _, .error e => (.error e, s)
      | .ok x, .ok y =>
        match vectorized fun' pad (meshgrid x y).flatten s with
        | (.error e, s1) => (.error e, s1)
        | (.ok z, s1) => (.ok ⟨meshgrid x y, z⟩, s1)
  | _, _ => (.error .assertionError, s)

/-- The kind of plot asked for. For leap_ec/real_rep/problems.py:1634-1658. -/
inductive PlotKind where
  | surface
  | contour
  | other
  deriving DecidableEq

/-- `plot_2d_problem` (leap_ec/real_rep/problems.py:1634-1658). `bounds` is the problem's attribute, if it has one; `extra` says whether
there are further keyword arguments. They are passed on to `plot_2d_contour`, which takes none: `TypeError`. -/
def plotProblem {σ : Type} (evaluate : List ℚ → σ → PyM PlotNum × σ) (bounds : Option (ℚ × ℚ)) (xlim ylim : Option (List ℚ))
    (kind : PlotKind) (granularity : Option ℚ) (pad : PadArg) (extra : Bool) (s : σ) : PyM Plot2d × σ :=
  let fromBounds (lim : Option (List ℚ)) : PyM (List ℚ) :=
    match lim, bounds with
    | some l, _ => .ok l
    | none, some b => .ok [b.1, b.2]
    | none, none => .error .attributeError
  match fromBounds xlim, fromBounds ylim with
  | .error e, _ => (.error e, s)
  | _, .error e => (.error e, s)
  | .ok xlim, .ok ylim =>
    match (match granularity, bounds with
      | some g, _ => (.ok g : PyM ℚ)
      | none, some b => .ok ((b.2 - b.1) / 50)
      | none, none => .error .valueError) with
    | .error e => (.error e, s)
    | .ok g =>
      match kind with
      | .surface => plotGrid evaluate xlim ylim g pad s
      | .contour => if extra then (.error .typeError, s) else plotGrid evaluate xlim ylim g pad s
      | .other => (.error .valueError, s)

end Leap
