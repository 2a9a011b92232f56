import Mathlib.Algebra.Order.Ring.Rat
import Mathlib.Data.Rat.Defs
import Verif.Py.Basic

/-!
# Truth tables

Models `TruthTableProblem` of `leap_ec/executable_rep/problems.py`. Truth values are integers (`True == 1` in Python), and
what executables return are lists of them.
-/

namespace Leap

/-- What the Boolean function returns: a new list, the very list it was given, or something without a length.
For leap_ec/executable_rep/problems.py:129-139. -/
inductive TTExpected where
  | fresh (values : List Int)
  | sameObject
  | noLength
  deriving DecidableEq, Repr

/-- An executable: its behaviour and its attribute `num_inputs`, if it has one. For leap_ec/executable_rep/problems.py:189-190. -/
structure TTExecutable where
  call : List Int → PyM (List Int)
  numInputs : Option Nat

/-- The attributes of `TruthTableProblem`. For leap_ec/executable_rep/problems.py:129-139. -/
structure TTProblem where
  function : List Int → PyM TTExpected
  numInputs : Nat
  padInputs : Bool

/-- `TruthTableProblem.__init__` (leap_ec/executable_rep/problems.py:129-139). -/
def ttProblem (function : List Int → PyM TTExpected) (numInputs numOutputs : Int) (padInputs : Bool) : PyM TTProblem :=
  if 0 < numInputs then
    if 0 < numOutputs then .ok ⟨function, numInputs.toNat, padInputs⟩ else .error .assertionError
  else .error .assertionError

/-- `_enumerate_tt` (leap_ec/executable_rep/problems.py:197-208). -/
def enumerateTT : Nat → PyM (List (List Int))
  | 0 => .error .assertionError
  | 1 => .ok [[0], [1]]
  | n + 2 => do
    let minus1 ← enumerateTT (n + 1)
    let zeros := minus1.map fun row => [0] ++ row
    let ones := minus1.map fun row => [1] ++ row
    .ok (zeros ++ ones)

/-- The row after the optional padding (leap_ec/executable_rep/problems.py:189-190). -/
def padRow (p : TTProblem) (x : TTExecutable) (row : List Int) : PyM (List Int) :=
  if p.padInputs then
    match x.numInputs with
    | none => .error .attributeError
    | some m => .ok (if row.length < m then row ++ List.replicate (m - row.length) 0 else row)
  else .ok row

/-- `assert(hasattr(expected, '__len__'))`, `assert(len(expected) > 0)` (leap_ec/executable_rep/problems.py:187-188). -/
def checkExpected (row : List Int) : TTExpected → PyM Unit
  | .fresh values => if 0 < values.length then .ok () else .error .assertionError
  | .sameObject => if 0 < row.length then .ok () else .error .assertionError
  | .noLength => .error .assertionError

/-- The value of `expected` at the comparison. The padding `input_ += ...` is in place, so a function that returned its
argument itself is compared with the padded row. For leap_ec/executable_rep/problems.py:185-193. -/
def expectedAfter (padded : List Int) : TTExpected → List Int
  | .fresh values => values
  | .sameObject => padded
  | .noLength => []

/-- One row of the loop: whether it scores (leap_ec/executable_rep/problems.py:185-193). -/
def ttRow (p : TTProblem) (x : TTExecutable) (row : List Int) : PyM Bool := do
  let expected ← p.function row
  checkExpected row expected
  let padded ← padRow p x row
  let observed ← x.call padded
  .ok (observed == expectedAfter padded expected)

/-- The loop (leap_ec/executable_rep/problems.py:184-193). -/
def ttScore (p : TTProblem) (x : TTExecutable) : Nat → List (List Int) → PyM Nat
  | score, [] => .ok score
  | score, row :: rows => do
    let hit ← ttRow p x row
    ttScore p x (if hit then score + 1 else score) rows

/-- `TruthTableProblem.evaluate` (leap_ec/executable_rep/problems.py:141-195). -/
def ttEvaluate (p : TTProblem) (x : TTExecutable) : PyM ℚ := do
  let samples ← enumerateTT p.numInputs
  let score ← ttScore p x 0 samples
  .ok ((score : ℚ) / samples.length)

end Leap
