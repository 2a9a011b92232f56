import Mathlib.Algebra.Order.Field.Rat
import Verif.Py.Basic

/-!
# The few numpy operations LEAP's operators rely on
-/

namespace Leap

variable {α : Type}

/-- The elements of `l` where `mask` is set (the shorter of the two decides where to stop).
Python, not LEAP: used for instance in leap_ec/ops.py:483-499. -/
def maskSelect : List Bool → List α → List α
  | true :: m, a :: l => a :: maskSelect m l
  | false :: m, _ :: l => maskSelect m l
  | _, _ => []

/-- `l` with the positions where `mask` is set overwritten by successive `values`.
Python, not LEAP: used for instance in leap_ec/ops.py:483-499. -/
def maskStore : List Bool → List α → List α → List α
  | true :: m, _ :: l, v :: vs => v :: maskStore m l vs
  | true :: m, a :: l, [] => a :: maskStore m l []
  | false :: m, a :: l, vs => a :: maskStore m l vs
  | _, l, _ => l

/-- `array[mask]` with a boolean mask: `IndexError` when the lengths differ.
Python, not LEAP: used for instance in leap_ec/ops.py:483-499. -/
def boolIndex (l : List α) (mask : List Bool) : PyM (List α) :=
  if mask.length = l.length then .ok (maskSelect mask l) else .error .indexError

/-- `array[mask] = values` with a boolean mask: `IndexError` when mask and array lengths differ,
`ValueError` when the number of values is not the number of set positions. Simplification:
broadcasting a single value is not modelled (LEAP never relies on it).
Python, not LEAP: used for instance in leap_ec/ops.py:483-499. -/
def boolAssign (l : List α) (mask : List Bool) (values : List α) : PyM (List α) :=
  if mask.length = l.length then
    if values.length = mask.count true then .ok (maskStore mask l values) else .error .valueError
  else .error .indexError

/-- `random_bernoulli_vector(shape, p)` (leap_ec/ops.py:1501-1518) for a one-dimensional shape.
`u` are the numbers returned by `np.random.rand(shape)`. -/
def bernoulliVector (u : List ℚ) (p : ℚ) : PyM (List Bool) :=
  if 0 ≤ p ∧ p ≤ 1 then .ok (u.map fun x => decide (x < p)) else .error .assertionError

/-- Python slice `l[start:stop]` for non-negative bounds.
Python, not LEAP: used for instance in leap_ec/binary_rep/decoders.py:68-80. -/
def pySlice (l : List α) (start stop : Nat) : List α := (l.drop start).take (stop - start)

end Leap
