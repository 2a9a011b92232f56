import Verif.Model.Cgp
import Mathlib.Analysis.SpecialFunctions.Trigonometric.Basic
import Mathlib.Analysis.SpecialFunctions.Sqrt
import Mathlib.Data.Int.Bitwise

/-!
# The primitives for evolving images (leap_ec/executable_rep/cgp.py:658-679)

numpy applies them pixel by pixel; here they act on the value at one pixel. Numbers are exact reals; where numpy would divide by zero, or
meet a pole of the tangent, the value is 0 here.
-/

namespace Leap

/-- `x.astype(int)` (leap_ec/executable_rep/cgp.py:664-665): rounds towards zero. -/
noncomputable def truncInt (x : ℝ) : ℤ := if 0 ≤ x then ⌊x⌋ else ⌈x⌉

/-- Python's and numpy's `x % m` (leap_ec/executable_rep/cgp.py:672-678). -/
noncomputable def floatMod (x m : ℝ) : ℝ := x - m * ⌊x / m⌋

/-- The functions returned by `cgp_art_primitives` (leap_ec/executable_rep/cgp.py:663-679), in order. -/
noncomputable def artFunctions : List (ℝ → ℝ → ℝ → ℝ) := [
  fun x y _ => (Int.lor (truncInt x) (truncInt y) : ℤ),
  fun x _ p => (Int.land (truncInt p) (truncInt x) : ℤ),
  fun x y p => x / (1 + y + p),
  fun x y _ => x * y * 255,
  fun x y _ => (x + y) * 255,
  fun x y _ => max (x - y) (y - x),
  fun x _ _ => 255 - x,
  fun x _ _ => |Real.cos x * 255|,
  fun x _ _ => |Real.tan (floatMod x 45 * Real.pi / 180 * 255)|,
  fun x _ _ => floatMod |Real.tan x * 255| 255,
  fun x y p => min (Real.sqrt ((x - p) ^ 2 + (y - p) ^ 2)) 255,
  fun x _ p => floatMod x (p + 1) + (255 - p),
  fun x y _ => (x + y) / 2,
  fun x y _ => min (255 * (y + 1) / (x + 1)) (255 * (x + 1) / (y + 1)),
  fun x y p => floatMod (Real.sqrt |x ^ 2 - p ^ 2 + y ^ 2 - p ^ 2|) 255]

/-- One of the functions as a primitive (leap_ec/executable_rep/cgp.py:663-679): a plain function of three arguments, with no attribute
`arity`; another number of arguments raises `TypeError`. -/
def artPrimitive (f : ℝ → ℝ → ℝ → ℝ) : CgpPrimitive ℝ :=
  ⟨none, fun args => match args with
    | [x, y, p] => .ok (f x y p)
    | _ => .error .typeError⟩

/-- `cgp_art_primitives()` (leap_ec/executable_rep/cgp.py:658-679). -/
noncomputable def artPrimitives : List (CgpPrimitive ℝ) := artFunctions.map artPrimitive

end Leap
