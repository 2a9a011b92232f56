import Verif.Py.Float

/-!
# Specification of sums in floating point
-/

namespace Leap.Spec

/-- The numbers added from left to right, each result rounded. -/
def floatSum (values : List ℚ) : ℚ := values.foldl (fun s v => fl64 (s + v)) 0

/-- Where the slice of individual `i` starts when the slices are laid out in floating point. -/
def floatWheel (values : List ℚ) (i : Nat) : ℚ := floatSum (values.take i)

/-- The point `pt` falls on the slice of individual `i`; a point that is not positive falls on the last individual. -/
def HitF (values : List ℚ) (pt : ℚ) (i : Nat) : Prop :=
  (pt ≤ 0 ∧ i + 1 = values.length) ∨ (0 < pt ∧ i < values.length ∧ floatWheel values i < pt ∧ pt ≤ floatWheel values (i + 1))

/-- Point number `i` of a pass that starts at `x`, the points being `sp` apart. -/
def pointF (x sp : ℚ) (i : Nat) : ℚ := fl64 (x + fl64 (fl64 (i : ℚ) * sp))

end Leap.Spec
