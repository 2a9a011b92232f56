import Mathlib.Algebra.Order.Floor.Ring
import Mathlib.Data.Rat.Floor
import Mathlib.Data.Int.Log
import Mathlib.Algebra.Order.Field.Rat

/-!
# Floating-point numbers

Python's `float` and NumPy's `float64` are IEEE 754 binary64 numbers. A finite one is a rational number `m * 2^e`; an operation computes the exact
result and rounds it to the nearest such number, ties to even. Overflow to infinity is left out: the results considered are below
`2^1024`.
-/

namespace Leap

/-- The nearest integer, the even one of two. For leap_ec/binary_rep/decoders.py:147-171. -/
def roundEven (x : ℚ) : Int :=
  if x - ⌊x⌋ < 1 / 2 then ⌊x⌋
  else if 1 / 2 < x - ⌊x⌋ then ⌊x⌋ + 1
  else if ⌊x⌋ % 2 = 0 then ⌊x⌋ else ⌊x⌋ + 1

/-- The exponent of the last of the 53 binary digits of a number; not below that of the smallest number, `2^-1074`.
For leap_ec/binary_rep/decoders.py:147-171. -/
def lastDigit (x : ℚ) : Int := max (Int.log 2 |x| - 52) (-1074)

/-- Rounding of an exact result to binary64. For leap_ec/binary_rep/decoders.py:147-171 and leap_ec/ops.py:657-673. -/
def fl64 (x : ℚ) : ℚ := roundEven (x / 2 ^ lastDigit x) * 2 ^ lastDigit x

end Leap
