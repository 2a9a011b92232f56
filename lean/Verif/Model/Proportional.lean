import Mathlib.Algebra.Order.Field.Rat
import Mathlib.Algebra.BigOperators.Group.List.Basic
import Verif.Py.Gen

/-!
# Fitness-proportional and stochastic universal sampling selection

Models `leap_ec/ops.py` lines 618-772 and 1475-1495. Floats are exact rationals. The exponent is a
natural number (a negative exponent, which the Python accepts, is not modelled).
-/

namespace Leap

variable {α : Type}

/-- The `offset` argument: a number or the string `'pop-min'`. For leap_ec/ops.py:1475-1495. -/
inductive Offset where
  | num (q : ℚ)
  | popMin

/-- `values.min(axis=0)`; numpy raises `ValueError` for an empty array. For leap_ec/ops.py:1475-1495. -/
def npMin : List ℚ → PyM ℚ
  | [] => .error .valueError
  | x :: xs => .ok (xs.foldl min x)

/-- `compute_population_values` (leap_ec/ops.py:1475-1495). -/
def computePopulationValues (key : α → ℚ) (offset : Offset) (exponent : Nat)
    (population : List α) : PyM (List ℚ) :=
  let values := population.map key
  match offset with
  | .num q => .ok (values.map fun v => (v + q) ^ exponent)
  | .popMin =>
    match npMin values with
    | .error e => .error e
    | .ok m => .ok (values.map fun v => (v + -m) ^ exponent)

/-- `random.choices(population, weights)` with `k=1`, given the number `u ∈ [0,1)` returned by
`random.random()`: `bisect(cum_weights, u * total, 0, n - 1)`, as an index into the population.
The standard library raises `IndexError` for no weights and `ValueError` for a total that is not
positive. For leap_ec/ops.py:618-673. -/
def choicesIndex (weights : List ℚ) (u : ℚ) : PyM Nat :=
  match weights with
  | [] => .error .indexError
  | w :: ws =>
    let total := (w :: ws).sum
    if total ≤ 0 then .error .valueError
    else .ok (bisect 0 (u * total) (w :: ws))
where
  /-- First position whose cumulated weight exceeds `x`, but at most the last position. -/
  bisect (acc x : ℚ) : List ℚ → Nat
    | [] => 0
    | [_] => 0
    | w :: w' :: ws => if x < acc + w then 0 else bisect (acc + w) x (w' :: ws) + 1

/-- What `proportional_selection` computes before its loop (leap_ec/ops.py:657-668): the weights.
Dividing by a zero total gives NaN weights in numpy, on which `random.choices` raises
`ValueError` as soon as it is called, or `IndexError` when there are no individuals; that error is
raised here. -/
def proportionalWeights (key : α → ℚ) (offset : Offset) (exponent : Nat)
    (population : List α) : PyM (List ℚ) :=
  match computePopulationValues key offset exponent population with
  | .error e => .error e
  | .ok values =>
    if values.any (fun v => decide (v < 0)) then .error .valueError
    else if values = [] then .error .indexError
    else if values.sum = 0 then .error .valueError
    else .ok (values.map fun v => v / values.sum)

/-- `proportional_selection` (leap_ec/ops.py:618-673). `draw r` is the `r`-th value of
`random.random()`; the state is the number of draws made. The weights are recomputed at every
resumption, which is harmless since nothing they depend on changes. Yields the individual
together with its index (the index is only there for the statements). -/
def proportionalSelection (key : α → ℚ) (offset : Offset) (exponent : Nat) (draw : Nat → ℚ)
    (population : List α) : Gen Unit Nat (Nat × α) := fun r _ =>
  match proportionalWeights key offset exponent population with
  | .error e => .error e
  | .ok weights =>
    match choicesIndex weights (draw r) with
    | .error e => .error e
    | .ok i =>
      match population[i]? with
      | some a => .ok ((i, a), r + 1, ())
      | none => .error .indexError

/-- What `sus_selection` computes before drawing (leap_ec/ops.py:719-737): the number of points, the
values and the spacing. `n = none` is the default argument. -/
def susSetup (key : α → ℚ) (offset : Offset) (exponent : Nat) (n : Option Int)
    (population : List α) : PyM (Nat × List ℚ × ℚ) :=
  let n' : Int := match n with
    | none => population.length
    | some k => k
  if n' ≤ 0 then .error .valueError
  else
    match computePopulationValues key offset exponent population with
    | .error e => .error e
    | .ok values =>
      if values.any (fun v => decide (v < 0)) then .error .valueError
      else .ok (n'.toNat, values, values.sum / n')

/-- Local variables of `sus_selection` (leap_ec/ops.py:738-742); `round` counts the calls of
`np.random.uniform` made so far. -/
structure SusState where
  points : List ℚ
  selectionIdx : Nat
  populationIdx : Nat
  runningSum : ℚ
  round : Nat
deriving DecidableEq

/-- `[random_start + i*even_spacing for i in range(0, n)]` (leap_ec/ops.py:739). -/
def susPoints (start spacing : ℚ) (n : Nat) : List ℚ :=
  (List.range n).map fun i : Nat => start + (i : ℚ) * spacing

/-- The inner loop `while running_sum < current_point` (leap_ec/ops.py:759-762). The list is
`values[population_idx:]`; reading past its end is `IndexError`. -/
def susAdvance (point : ℚ) : List ℚ → ℚ → Nat → PyM (ℚ × Nat)
  | [], running, idx => if running < point then .error .indexError else .ok (running, idx)
  | v :: vs, running, idx =>
    if running < point then susAdvance point vs (running + v) (idx + 1) else .ok (running, idx)

/-- One turn of the outer loop of `sus_selection` (leap_ec/ops.py:743-767), from its top to the
`yield`. `start r` is the `r`-th result of `np.random.uniform(0, even_spacing)`. Yields
`population[population_idx-1]` (Python indexing: `-1` is the last individual) together with
its position (which is only there for the statements). -/
def susStep (start : Nat → ℚ) (shuffle : Bool) (n : Nat) (values : List ℚ) (spacing : ℚ)
    (population : List α) (s : SusState) : PyM ((Nat × α) × SusState) :=
  let s :=
    if s.selectionIdx = s.points.length then
      if shuffle then
        ⟨susPoints (start s.round) spacing n, 0, 0, 0, s.round + 1⟩
      else { s with selectionIdx := 0, runningSum := 0, populationIdx := 0 }
    else s
  match s.points[s.selectionIdx]? with
  | none => .error .indexError
  | some point =>
    match susAdvance point (values.drop s.populationIdx) s.runningSum s.populationIdx with
    | .error e => .error e
    | .ok (running, idx) =>
      match pyPos population.length ((idx : Int) - 1), pyIndex population ((idx : Int) - 1) with
      | none, _ => .error .indexError
      | _, .error e => .error e
      | some i, .ok a => .ok ((i, a),
          { s with selectionIdx := s.selectionIdx + 1, runningSum := running, populationIdx := idx })

/-- `sus_selection` (leap_ec/ops.py:679-772). `none` is the state before the body has started. The
setup is recomputed at every resumption; nothing it depends on changes. -/
def susSelection (key : α → ℚ) (offset : Offset) (exponent : Nat) (n : Option Int)
    (shuffle : Bool) (start : Nat → ℚ) (population : List α) :
    Gen Unit (Option SusState) (Nat × α) := fun s _ =>
  match susSetup key offset exponent n population with
  | .error e => .error e
  | .ok (n, values, spacing) =>
    match susStep start shuffle n values spacing population
        (s.getD ⟨susPoints (start 0) spacing n, 0, 0, 0, 1⟩) with
    | .error e => .error e
    | .ok (a, s') => .ok (a, some s', ())

end Leap
