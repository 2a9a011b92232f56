import Mathlib.Data.Rat.Defs
import Mathlib.Algebra.Order.Ring.Rat
import Mathlib.Algebra.Order.Ring.Abs
import Verif.Py.Basic

/-!
# Comparing individuals of a scalar problem

Models `leap_ec/problem.py` (`ScalarProblem`) and the comparison operators of
`leap_ec/individual.py`.
-/

namespace Leap

/-- A Python number as far as comparison sees it: IEEE special values and exact rationals.
Simplification: rounding is not modelled; comparing floats is exact in Python. For leap_ec/problem.py:88-120. -/
inductive Num where
  | nan
  | negInf
  | fin (q : ℚ)
  | posInf
deriving DecidableEq

/-- `math.isnan` (used in leap_ec/problem.py:101-110). -/
def Num.isNan : Num → Bool
  | .nan => true
  | _ => false

/-- `math.isinf`. For leap_ec/problem.py:137. -/
def Num.isInf : Num → Bool
  | .negInf => true
  | .posInf => true
  | _ => false

/-- Python's `a < b` on numbers; false as soon as one side is NaN. For leap_ec/problem.py:88-120. -/
def Num.lt : Num → Num → Bool
  | .nan, _ => false
  | _, .nan => false
  | .negInf, .negInf => false
  | .negInf, _ => true
  | _, .negInf => false
  | .posInf, _ => false
  | .fin _, .posInf => true
  | .fin a, .fin b => decide (a < b)

/-- Python's `a == b` on numbers; NaN is not equal to itself. For leap_ec/problem.py:137. -/
def Num.eq : Num → Num → Bool
  | .nan, _ => false
  | _, .nan => false
  | a, b => decide (a = b)

/-- The default relative tolerance of `math.isclose`. For leap_ec/problem.py:137. -/
def relTol : ℚ := 1 / 1000000000

/-- `math.isclose(a, b)` with default tolerances (`rel_tol=1e-9`, `abs_tol=0`), as called in
leap_ec/problem.py:137. Simplification: the tolerance product is exact, not rounded. -/
def Num.isclose (a b : Num) : Bool :=
  if a.eq b then true
  else if a.isInf || b.isInf then false
  else match a, b with
    | .fin x, .fin y => decide (|x - y| ≤ |relTol * y|) || decide (|x - y| ≤ |relTol * x|)
    | _, _ => false

/-- A scalar fitness value. `pyFloat` records whether `type(fitness) == float` exactly
(a numpy float64 or an int has `pyFloat = false`). For leap_ec/problem.py:88-120. -/
structure SFit where
  pyFloat : Bool
  val : Num
deriving DecidableEq

/-- `ScalarProblem` (leap_ec/problem.py:78-86): only the optimisation direction matters here. -/
structure ScalarProblem where
  maximize : Bool

/-- `ScalarProblem.worse_than` (leap_ec/problem.py:88-120). `coin` is the result of
`random.choice([True, False])`. -/
def ScalarProblem.worseThan (p : ScalarProblem) (coin : Bool) (first second : SFit) : Bool :=
  if first.val.isNan then
    if second.val.isNan then coin
    else true
  else if second.val.isNan then false
  else if p.maximize then Num.lt first.val second.val
  else Num.lt second.val first.val

/-- `ScalarProblem.equivalent` (leap_ec/problem.py:122-139). -/
def ScalarProblem.equivalent (_p : ScalarProblem) (first second : SFit) : Bool :=
  if first.pyFloat && second.pyFloat then Num.isclose first.val second.val
  else Num.eq first.val second.val

/-- What a comparison operator needs of an individual: its fitness, `none` before evaluation
(leap_ec/individual.py:66). -/
abbrev FitSlot := Option SFit

/-- `Individual.__lt__` (leap_ec/individual.py:211-253) against another individual of the same
problem. `isnan(None)` raises `TypeError`. The short-circuit order of
leap_ec/problem.py:101-110 means a missing fitness on either side is always passed to `isnan`. -/
def indLt (p : ScalarProblem) (coin : Bool) (a b : FitSlot) : PyM Bool :=
  match a, b with
  | some x, some y => .ok (p.worseThan coin x y)
  | _, _ => .error .typeError

/-- `Individual.__eq__` (leap_ec/individual.py:198-209): two missing fitnesses are equal
(`None == None`), a missing and a present one are not. -/
def indEq (p : ScalarProblem) (a b : FitSlot) : PyM Bool :=
  match a, b with
  | some x, some y => .ok (p.equivalent x y)
  | none, none => .ok true
  | _, _ => .ok false

/-- `a > b` as `functools.total_ordering` (leap_ec/individual.py:16) derives it from `__lt__`:
`not (a < b) and a != b`. -/
def deriveGt (lt eq : PyM Bool) : PyM Bool := do
  let l ← lt
  if l then .ok false
  else do
    let e ← eq
    .ok (!e)

/-- `a <= b`, derived by `functools.total_ordering` as `a < b or a == b`. For leap_ec/individual.py:16, 198-253. -/
def deriveLe (lt eq : PyM Bool) : PyM Bool := do
  let l ← lt
  if l then .ok true else eq

/-- `a >= b`, derived by `functools.total_ordering` as `not (a < b)`. For leap_ec/individual.py:16, 198-253. -/
def deriveGe (lt : PyM Bool) : PyM Bool := do
  let l ← lt
  .ok (!l)

/-- `a > b` on individuals of one problem (leap_ec/individual.py:16, 198-253). -/
def indGt (p : ScalarProblem) (coin : Bool) (a b : FitSlot) : PyM Bool :=
  deriveGt (indLt p coin a b) (indEq p a b)

/-- `a <= b` on individuals of one problem (leap_ec/individual.py:16, 198-253). -/
def indLe (p : ScalarProblem) (coin : Bool) (a b : FitSlot) : PyM Bool :=
  deriveLe (indLt p coin a b) (indEq p a b)

/-- `a >= b` on individuals of one problem (leap_ec/individual.py:16, 198-253). -/
def indGe (p : ScalarProblem) (coin : Bool) (a b : FitSlot) : PyM Bool :=
  deriveGe (indLt p coin a b)

/-- `Individual.__lt__` when `other` may be `None` (leap_ec/individual.py:251-253). -/
def indLtOther (p : ScalarProblem) (coin : Bool) (a : FitSlot) : Option FitSlot → PyM Bool
  | none => .ok false
  | some b => indLt p coin a b

/-- `Individual.__eq__` when `other` may be `None` (leap_ec/individual.py:206-209). -/
def indEqOther (p : ScalarProblem) (a : FitSlot) : Option FitSlot → PyM Bool
  | none => .ok false
  | some b => indEq p a b

end Leap
