import Mathlib.Data.List.Sort
import Mathlib.Algebra.BigOperators.Group.List.Basic
import Mathlib.Algebra.Order.Ring.Rat
import Mathlib.Data.Rat.Defs
import Verif.Py.Basic

/-!
# Empirical distributions

Models `leap_ec/statistical_helpers.py`. Dictionaries are lists of key-value pairs in insertion order.
-/

namespace Leap

/-- `d.get(k)`. For leap_ec/statistical_helpers.py:36-38. -/
def histGet [DecidableEq κ] (d : List (κ × V)) (k : κ) : Option V := (d.find? fun e => e.1 = k).map Prod.snd

/-- `d[k] = v`: overwrite in place, or append. For leap_ec/statistical_helpers.py:30-34. -/
def histSet [DecidableEq κ] (d : List (κ × V)) (k : κ) (v : V) : List (κ × V) :=
  if k ∈ d.map Prod.fst then d.map fun e => if e.1 = k then (k, v) else e else d ++ [(k, v)]

/-- The loop of `collect_distribution`; the calls of the function return or raise the listed values.
For leap_ec/statistical_helpers.py:11-21. -/
def collectFrom [DecidableEq κ] : List (κ × Nat) → List (PyM κ) → PyM (List (κ × Nat))
  | outputs, [] => .ok outputs
  | outputs, o :: os => do
    let o ← o
    collectFrom (histSet outputs o ((histGet outputs o).getD 0 + 1)) os

/-- `collect_distribution` (leap_ec/statistical_helpers.py:11-21). The `i`-th call of the function gives `function i`. -/
def collectDistribution [DecidableEq κ] (function : Nat → PyM κ) (samples : Int) : PyM (List (κ × Nat)) :=
  collectFrom [] ((List.range samples.toNat).map function)

/-- `add_keys_from` (leap_ec/statistical_helpers.py:30-34): the changed second dictionary. -/
def addKeysFrom [DecidableEq κ] [Zero V] (dist1 dist2 : List (κ × V)) : List (κ × V) :=
  dist1.foldl (fun d e => if e.1 ∈ d.map Prod.fst then d else histSet d e.1 0) dist2

/-- `values_sorted_by_key` (leap_ec/statistical_helpers.py:36-38). -/
def valuesSortedByKey [LinearOrder κ] [Zero V] (dist : List (κ × V)) : List V :=
  ((dist.map Prod.fst).insertionSort (· ≤ ·)).map fun k => (histGet dist k).getD 0

/-- What `_normalize_dicts` leaves behind and returns. For leap_ec/statistical_helpers.py:27-46. -/
structure Normalized (κ V : Type) where
  dict1 : List (κ × V)
  dict2 : List (κ × V)
  values1 : List V
  values2 : List V
  deriving DecidableEq

/-- `_normalize_dicts` (leap_ec/statistical_helpers.py:27-46), for two different dictionary objects. -/
def normalizeDicts [LinearOrder κ] [Zero V] (dict1 dict2 : List (κ × V)) : Normalized κ V :=
  let dict2 := addKeysFrom dict1 dict2
  let dict1 := addKeysFrom dict2 dict1
  ⟨dict1, dict2, valuesSortedByKey dict1, valuesSortedByKey dict2⟩

/-- `stochastic_chisquare` (leap_ec/statistical_helpers.py:52-82); `chisquare` is SciPy's, giving the p-value from the
observed and the expected counts. -/
def stochasticChisquare [LinearOrder κ] [AddCommMonoid V] [DecidableEq V] (chisquare : List V → List V → PyM P)
    (expected observed : List (κ × V)) : PyM P :=
  if (expected.map Prod.snd).sum = (observed.map Prod.snd).sum then
    let n := normalizeDicts observed expected
    chisquare n.values1 n.values2
  else .error .assertionError

/-- `stochastic_equals` (leap_ec/statistical_helpers.py:88-139). -/
def stochasticEquals [LinearOrder κ] [AddCommMonoid V] [DecidableEq V] [LT P] [DecidableLT P]
    (chisquare : List V → List V → PyM P) (expected observed : List (κ × V)) (p : P) : PyM Bool :=
  let n := normalizeDicts observed expected
  if n.values1.length = 1 then .ok (n.values1 == n.values2)
  else do
    let pValue ← stochasticChisquare chisquare n.dict2 n.dict1
    let rejectEquality := decide (pValue < p)
    .ok (!rejectEquality)

/-- `equals_uniform` (leap_ec/statistical_helpers.py:145-168). -/
def equalsUniform [LinearOrder κ] [LT P] [DecidableLT P] (chisquare : List ℚ → List ℚ → PyM P) (observed : List (κ × ℚ)) (p : P) :
    PyM Bool :=
  let n := (observed.map Prod.snd).sum
  let numKeys := observed.length
  let expected := observed.map fun e => (e.1, n / numKeys)
  stochasticEquals chisquare expected observed p

end Leap
