import Mathlib.Order.WithBot
import Verif.Model.Compare

/-!
# Specification of scalar comparison

The ordinary order of the extended number line, written with Mathlib's `WithBot`/`WithTop`
and independent of the model's comparison functions.
-/

namespace Leap.Spec

/-- A non-NaN number as a point of the line `-∞ < ℚ < +∞`; `none` for NaN. -/
def point : Num → Option (WithBot (WithTop ℚ))
  | .nan => none
  | .negInf => some ⊥
  | .fin q => some ((q : WithTop ℚ) : WithBot (WithTop ℚ))
  | .posInf => some ((⊤ : WithTop ℚ) : WithBot (WithTop ℚ))

/-- `y` is strictly better than `x` in the given direction (both being actual numbers). -/
def Better (maximize : Bool) (y x : Num) : Prop :=
  ∃ px py, point x = some px ∧ point y = some py ∧
    (if maximize then px < py else py < px)

/-- Two finite numbers are within relative distance `10⁻⁹` of the larger one in magnitude. -/
def WithinTol (x y : ℚ) : Prop := |x - y| * 1000000000 ≤ max |x| |y|

end Leap.Spec
