import Mathlib.Algebra.Order.Field.Rat
import Mathlib.Algebra.Order.Group.Unbundled.Abs

/-!
# Specification of floating-point numbers
-/

namespace Leap.Spec

/-- The finite IEEE 754 binary64 numbers, but for the upper limit: 53 binary digits, the last not smaller than `2^-1074`. -/
def IsFloat (x : ℚ) : Prop := ∃ (m : Int) (e : Int), |m| < 2 ^ 53 ∧ -1074 ≤ e ∧ x = m * 2 ^ e

/-- Numbers large enough to have all 53 digits. -/
def Normal (x : ℚ) : Prop := (2 : ℚ) ^ (-1022 : Int) ≤ |x|

end Leap.Spec
