import Mathlib.Algebra.Order.Field.Rat
import Mathlib.Algebra.BigOperators.Group.List.Basic

/-!
# Specification of the roulette wheel
-/

namespace Leap.Spec

/-- Where the slice of individual `i` starts on the wheel: the sum of the values before it. Its
slice ends at `wheel values (i + 1)`; the whole wheel is `values.sum`. -/
def wheel (values : List ℚ) (i : Nat) : ℚ := (values.take i).sum

end Leap.Spec
