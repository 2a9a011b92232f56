/-!
# Python basics

Exceptions are values: a function that may raise returns `Except PyErr α`.
-/

namespace Leap

/-- The Python exception classes that the modelled code can raise. Python, not LEAP: used for instance in leap_ec/ops.py:91-107. -/
inductive PyErr where
  | typeError
  | valueError
  | indexError
  | keyError
  | assertionError
  | runtimeError
  | stopIteration
  | zeroDivisionError
  | attributeError
  | nameError
  | stopAsync
  | userError (code : Nat)
deriving DecidableEq, Repr

/-- The result of a Python call: a value or a raised exception. Python, not LEAP: used for instance in leap_ec/ops.py:91-107. -/
abbrev PyM := Except PyErr

/-- The position denoted by the Python index `i` in a sequence of length `n`: negative indices count
from the end; `none` outside. Python, not LEAP: used for instance in leap_ec/ops.py:743-767. -/
def pyPos (n : Nat) (i : Int) : Option Nat :=
  if 0 ≤ i then (if i < n then some i.toNat else none)
  else if 0 ≤ i + n then some (i + n).toNat else none

/-- Python `l[i]`: negative indices count from the end, `IndexError` outside.
Python, not LEAP: used for instance in leap_ec/executable_rep/cgp.py:233-243. -/
def pyIndex {α : Type _} (l : List α) (i : Int) : PyM α :=
  match pyPos l.length i with
  | none => .error .indexError
  | some p =>
    match l[p]? with
    | some a => .ok a
    | none => .error .indexError

end Leap
