import Mathlib.Algebra.Order.Ring.Rat
import Mathlib.Data.Rat.Defs
import Verif.Model.Probe

/-!
# Exploratory landscape analysis

Models `ELAConvexity` of `leap_ec/landscape_features/exploratory.py` over exact rationals. Genomes are NumPy arrays of one
length; broadcasting arrays of length one is not modelled. The random choices of each test are an explicit list.
-/

namespace Leap

/-- An individual of the initial design, already evaluated. For leap_ec/landscape_features/exploratory.py:195-216. -/
structure ElaIndividual where
  genome : List ℚ
  fitness : ℚ
  deriving DecidableEq

/-- The random choices of one test: the positions of the two individuals and the coefficient.
For leap_ec/landscape_features/exploratory.py:195-216. -/
structure ElaDraw where
  x : Nat
  y : Nat
  a : ℚ
  deriving DecidableEq

/-- `a*x_genome + b*y_genome` (leap_ec/landscape_features/exploratory.py:208): `ValueError` for different lengths. -/
def combineGenomes (a b : ℚ) (x y : List ℚ) : PyM (List ℚ) :=
  if x.length = y.length then .ok (List.zipWith (fun u v => a * u + b * v) x y) else .error .valueError

/-- One test of `_compute_deltas` (leap_ec/landscape_features/exploratory.py:195-216): the combined fitness, the combined
genome, and the delta. `evaluate` decodes and evaluates a genome. -/
def elaTest (evaluate : List ℚ → PyM ℚ) (design : List ElaIndividual) (d : ElaDraw) : PyM (ℚ × List ℚ × ℚ) :=
  match design[d.x]?, design[d.y]? with
  | some x, some y => do
    let b := 1 - d.a
    let f := d.a * x.fitness + b * y.fitness
    let p ← combineGenomes d.a b x.genome y.genome
    let fp ← evaluate p
    .ok (f, p, fp - f)
  | _, _ => .error .valueError

/-- `_compute_deltas` (leap_ec/landscape_features/exploratory.py:182-218). -/
def elaTests (evaluate : List ℚ → PyM ℚ) (design : List ElaIndividual) : List ElaDraw → PyM (List (ℚ × List ℚ × ℚ))
  | [] => .ok []
  | d :: ds => do
    let t ← elaTest evaluate design d
    let ts ← elaTests evaluate design ds
    .ok (t :: ts)

/-- `ELAConvexity.__init__` (leap_ec/landscape_features/exploratory.py:146-158): the deltas, for the `tests` random draws
`draws 0`, `draws 1`, ... -/
def elaInit (evaluate : List ℚ → PyM ℚ) (design : List ElaIndividual) (tests : Int) (draws : Nat → ElaDraw) : PyM (List ℚ) :=
  if 2 < design.length then
    if 0 < tests then do
      let ts ← elaTests evaluate design ((List.range tests.toNat).map draws)
      .ok (ts.map fun t => t.2.2)
    else .error .assertionError
  else .error .assertionError

/-- `lessthan_count/len(self.deltas)` and the two assertions. For leap_ec/landscape_features/exploratory.py:220-241. -/
def elaRatio (count total : Nat) : PyM ℚ :=
  if total = 0 then .error .zeroDivisionError
  else
    let ratio := (count : ℚ) / total
    if 0 ≤ ratio ∧ ratio ≤ 1 then .ok ratio else .error .assertionError

/-- The counting loop. For leap_ec/landscape_features/exploratory.py:220-241. -/
def elaCount (p : ℚ → Bool) : Nat → List ℚ → Nat
  | n, [] => n
  | n, d :: ds => elaCount p (if p d then n + 1 else n) ds

/-- `convex_p` (leap_ec/landscape_features/exploratory.py:220-241). -/
def convexP (deltas : List ℚ) (threshold : ℚ) : PyM ℚ :=
  if threshold < 0 then elaRatio (elaCount (fun d => decide (d < threshold)) 0 deltas) deltas.length
  else .error .assertionError

/-- `linear_p` (leap_ec/landscape_features/exploratory.py:243-264). -/
def linearP (deltas : List ℚ) (threshold : ℚ) : PyM ℚ :=
  if threshold < 0 then elaRatio (elaCount (fun d => decide (|d| < threshold)) 0 deltas) deltas.length
  else .error .assertionError

/-- `linear_deviation` (leap_ec/landscape_features/exploratory.py:266-269). -/
def linearDeviation (deltas : List ℚ) : ℚ := statMean deltas

/-- `linear_deviation_abs` (leap_ec/landscape_features/exploratory.py:271-277). -/
def linearDeviationAbs (deltas : List ℚ) : ℚ := statMean (deltas.map fun d => |d|)

end Leap
