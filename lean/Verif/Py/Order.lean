import Mathlib.Data.List.Sort
import Verif.Py.Basic

/-!
# Python's `max`, `min`, `sorted` and `heapq.nlargest`

These are Python library functions used by LEAP. They are parameterised by the comparison that
Python calls: `max` calls `>` and `min`/`sorted` call `<`.
-/

namespace Leap

variable {α : Type _}

/-- Python `max(x, *rest)`: keeps the earlier element unless a later one is `>` it.
Python, not LEAP: used for instance in leap_ec/ops.py:959-993. -/
def pyMaxFrom (gt : α → α → Bool) (x : α) : List α → α
  | [] => x
  | y :: ys => pyMaxFrom gt (if gt y x then y else x) ys

/-- Python `max(iterable)`; `ValueError` when empty. Python, not LEAP: used for instance in leap_ec/probe.py:123-137. -/
def pyMax (gt : α → α → Bool) : List α → PyM α
  | [] => .error .valueError
  | x :: xs => .ok (pyMaxFrom gt x xs)

/-- Python `min(x, *rest)`: keeps the earlier element unless a later one is `<` it.
Python, not LEAP: used for instance in leap_ec/multiobjective/asynchronous.py:144-152. -/
def pyMinFrom (lt : α → α → Bool) (x : α) : List α → α
  | [] => x
  | y :: ys => pyMinFrom lt (if lt y x then y else x) ys

/-- Python `min(iterable)`; `ValueError` when empty.
Python, not LEAP: used for instance in leap_ec/multiobjective/asynchronous.py:144-152. -/
def pyMin (lt : α → α → Bool) : List α → PyM α
  | [] => .error .valueError
  | x :: xs => .ok (pyMinFrom lt x xs)

/-- Python `sorted(xs, reverse=True)`: stable, best first. Python, not LEAP: used for instance in leap_ec/ops.py:778-823. -/
def sortedDesc (lt : α → α → Bool) (xs : List α) : List α :=
  xs.insertionSort (fun a b => lt a b = false)

/-- Python `sorted(xs)`: stable, ascending. Python, not LEAP: used for instance in leap_ec/executable_rep/cgp.py:482-494. -/
def sortedAsc (lt : α → α → Bool) (xs : List α) : List α :=
  xs.insertionSort (fun a b => lt b a = false)

/-- `toolz.itertoolz.topk(k, xs)` = `heapq.nlargest(k, xs)`, documented as equivalent to
`sorted(xs, reverse=True)[:k]`. With a `key`, pass the comparison of the keys as `lt`.
Python, not LEAP: used for instance in leap_ec/ops.py:778-823. -/
def topk (lt : α → α → Bool) (k : Nat) (xs : List α) : List α :=
  (sortedDesc lt xs).take k

end Leap
