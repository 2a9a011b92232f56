import Verif.Model.Compare

/-!
# Multi-objective problems

Models `leap_ec/multiobjective/problems.py` (`MultiObjectiveProblem`) and the comparison operators of
`leap_ec/individual.py` for such problems.
-/

namespace Leap

/-- `-a` on numbers. For leap_ec/multiobjective/problems.py:95-96. -/
def Num.neg : Num → Num
  | .nan => .nan
  | .negInf => .posInf
  | .fin q => .fin (-q)
  | .posInf => .negInf

/-- Python's `a >= b` on numbers; false as soon as one side is NaN. For leap_ec/multiobjective/problems.py:67-100. -/
def Num.ge (a b : Num) : Bool := Num.lt b a || Num.eq a b

/-- A numpy binary operation on one-dimensional arrays with broadcasting: equal lengths elementwise, a length-one
array is repeated, otherwise `ValueError`. A scalar broadcasts like an array of length one and is written so.
For leap_ec/multiobjective/problems.py:95-96. -/
def npBroadcast {α β γ : Type} (f : α → β → γ) (xs : List α) (ys : List β) : PyM (List γ) :=
  if xs.length = ys.length then .ok (List.zipWith f xs ys)
  else match xs, ys with
    | [x], ys => .ok (ys.map (f x))
    | xs, [y] => .ok (xs.map (f · y))
    | _, _ => .error .valueError

/-- `MultiObjectiveProblem` (leap_ec/multiobjective/problems.py:14-65). `true` stands for the entry 1 of the vector
`np.where(maximize, 1, -1)`, `false` for -1. -/
structure MOProblem where
  maximize : List Bool

/-- `MultiObjectiveProblem.__init__` (leap_ec/multiobjective/problems.py:51-65); `none` for `None`. -/
def MOProblem.make : Option (List Bool) → PyM MOProblem
  | none => .error .assertionError
  | some maximize => if maximize.length > 0 then .ok ⟨maximize⟩ else .error .assertionError

/-- `fitnesses * self.maximize` (leap_ec/multiobjective/problems.py:95-96). -/
def MOProblem.oriented (p : MOProblem) (fitnesses : List Num) : PyM (List Num) :=
  npBroadcast (fun x m => if m then x else x.neg) fitnesses p.maximize

/-- `MultiObjectiveProblem.worse_than` (leap_ec/multiobjective/problems.py:67-100). -/
def MOProblem.worseThan (p : MOProblem) (first second : List Num) : PyM Bool := do
  let firstMax ← p.oriented first
  let secondMax ← p.oriented second
  let ge ← npBroadcast Num.ge secondMax firstMax
  if ge.all id then do
    let gt ← npBroadcast (fun x y => Num.lt y x) secondMax firstMax
    .ok (gt.any id)
  else .ok false

/-- `MultiObjectiveProblem.equivalent` (leap_ec/multiobjective/problems.py:102-115). -/
def MOProblem.equivalent (p : MOProblem) (first second : List Num) : PyM Bool := do
  let a ← p.worseThan first second
  if a then .ok false
  else do
    let b ← p.worseThan second first
    .ok (!b)

/-- `Individual.__lt__` (leap_ec/individual.py:211-253) for a multi-objective problem; `None * array` raises `TypeError`.
Both fitnesses are multiplied before anything else happens, so a missing one always raises (which of
`TypeError` and `ValueError` comes first when both are malformed is not modelled). -/
def moLt (p : MOProblem) : Option (List Num) → Option (List Num) → PyM Bool
  | some a, some b => p.worseThan a b
  | _, _ => .error .typeError

/-- `Individual.__eq__` (leap_ec/individual.py:198-209) for a multi-objective problem. -/
def moEq (p : MOProblem) : Option (List Num) → Option (List Num) → PyM Bool
  | some a, some b => p.equivalent a b
  | _, _ => .error .typeError

/-- `a > b` as derived by `functools.total_ordering` (leap_ec/individual.py:16). -/
def moGt (p : MOProblem) (a b : Option (List Num)) : PyM Bool := deriveGt (moLt p a b) (moEq p a b)

/-- `a <= b` as derived by `functools.total_ordering` (leap_ec/individual.py:16). -/
def moLe (p : MOProblem) (a b : Option (List Num)) : PyM Bool := deriveLe (moLt p a b) (moEq p a b)

/-- `a >= b` as derived by `functools.total_ordering` (leap_ec/individual.py:16). -/
def moGe (p : MOProblem) (a b : Option (List Num)) : PyM Bool := deriveGe (moLt p a b)

end Leap
