import Verif.Py.Basic

/-!
# Python generators

A generator is a state machine. `W` is the world the generator may read and change when it is
resumed (the object heap, the random source, ...); `σ` is its private state.
`next` either yields a value or raises; `StopIteration` is an ordinary exception here.
-/

namespace Leap

/-- A Python iterator over values of type `α` with private state `σ`, acting on a world of type
`W`: what `next()` does. Python, not LEAP: used for instance in leap_ec/ops.py:372-405. -/
abbrev Gen (W σ α : Type) := σ → W → PyM (α × σ × W)

/-- PEP 479: a `StopIteration` that escapes from the body of a generator becomes
`RuntimeError`. Python, not LEAP: used for instance in leap_ec/ops.py:372-405. -/
def pep479 {β : Type} : PyM β → PyM β
  | .error .stopIteration => .error .runtimeError
  | r => r

/-- `iter(list)`: yields the elements, then raises `StopIteration`. The state is what is left.
Python, not LEAP: used for instance in leap_ec/ops.py:328-352. -/
def listIter {W α : Type} : Gen W (List α) α
  | [], _ => .error .stopIteration
  | a :: as, w => .ok (a, as, w)

/-- Resume an iterator `n` times, collecting what it yields; the first exception ends it.
Python, not LEAP: used for instance in leap_ec/ops.py:1091-1117. -/
def pull {W σ α : Type} (g : Gen W σ α) : Nat → σ → W → PyM (List α × σ × W)
  | 0, s, w => .ok ([], s, w)
  | n + 1, s, w =>
    match g s w with
    | .error e => .error e
    | .ok (a, s', w') =>
      match pull g n s' w' with
      | .error e => .error e
      | .ok (as, s'', w'') => .ok (a :: as, s'', w'')

end Leap
