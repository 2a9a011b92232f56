import Verif.Model.Binary
import Verif.Model.Mutation
import Verif.Model.Proportional
import Verif.Model.Segmented
import Verif.Py.Float

/-!
# Operators in floating-point arithmetic

The real-valued decoders, mutation rates, random real vectors and fitness-proportional selections again, now with every arithmetic
operation followed by a rounding `fl`. With `fl = fl64` this is what Python and NumPy compute; with `fl = id` these are the exact models of
`Model/Binary`, `Model/Mutation`, `Model/Segmented` and `Model/Proportional`.
-/

namespace Leap

variable {α : Type}

/-! ### Binary to real -/

/-- One column of the vectors computed in `BinaryToRealDecoderCommon.__init__` (leap_ec/binary_rep/decoders.py:147-165). The cardinality, a 64-bit
integer, is converted to a float by the division. -/
def realDimF (fl : ℚ → ℚ) (bits : Nat) (lo hi : ℚ) : RealDim :=
  let card1 := wrap64 (wrap64 (2 ^ bits) - 1)
  ⟨bits, lo, hi, if card1 = 0 then none else some (fl (fl (hi - lo) / fl card1))⟩

/-- `BinaryToRealDecoderCommon.decode` (leap_ec/binary_rep/decoders.py:167-171) on the integers from the underlying decoder, which the
multiplication converts to floats. -/
def realDecodeF (fl : ℚ → ℚ) (dims : List RealDim) (ints : List Int) : List (Option ℚ) :=
  List.zipWith (fun d (v : Int) => d.increment.map fun inc => fl (d.lo + fl (fl v * inc))) dims ints

/-- `BinaryToRealDecoder` (leap_ec/binary_rep/decoders.py:177-204): init and decode. -/
def binaryToRealF (fl : ℚ → ℚ) (dims : List RealDim) (cache : Option (List Int)) (genome : List Int) :
    PyM (List (Option ℚ)) :=
  match (decodeInt (dims.map (·.bits)) cache genome).1 with
  | .error e => .error e
  | .ok vs => .ok (realDecodeF fl dims vs)

/-! ### Rates and initial vectors -/

/-- `compute_expected_probability` (leap_ec/ops.py:1453-1469). -/
def expectedProbabilityF (fl : ℚ → ℚ) (expected : ℚ) (genomeLength : Nat) : PyM ℚ :=
  if genomeLength = 0 then .error .zeroDivisionError
  else .ok (fl (fl (1 / (genomeLength : ℚ)) * expected))

/-- The function made by `create_real_vector(bounds)` (leap_ec/real_rep/initializers.py:36-42): `np.random.uniform(low, high)` is
`low + (high - low) * u` for `u` drawn from `[0, 1)`. -/
def createRealVectorF (fl : ℚ → ℚ) (bounds : List (ℚ × ℚ)) (u : List ℚ) : List ℚ :=
  List.zipWith (fun (b : ℚ × ℚ) (x : ℚ) => fl (b.1 + fl (fl (b.2 - b.1) * x))) bounds u

/-! ### Proportional selection -/

/-- `list(itertools.accumulate(weights))` from a running total. For leap_ec/ops.py:657-673. -/
def accumulateF (fl : ℚ → ℚ) (acc : ℚ) : List ℚ → List ℚ
  | [] => []
  | w :: ws => fl (acc + w) :: accumulateF fl (fl (acc + w)) ws

/-- `bisect(cum, x, 0, len(cum) - 1)`: the first position whose entry exceeds `x`, at most the last position.
For leap_ec/ops.py:657-673. -/
def bisectF (x : ℚ) : List ℚ → Nat
  | [] => 0
  | [_] => 0
  | c :: c' :: cs => if x < c then 0 else bisectF x (c' :: cs) + 1

/-- `random.choices(population, weights)` with `k=1`, given the number `u ∈ [0,1)` from `random.random()`.
For leap_ec/ops.py:657-673. -/
def choicesIndexF (fl : ℚ → ℚ) (weights : List ℚ) (u : ℚ) : PyM Nat :=
  match (accumulateF fl 0 weights).getLast? with
  | none => .error .indexError
  | some total =>
    if total ≤ 0 then .error .valueError
    else .ok (bisectF (fl (u * total)) (accumulateF fl 0 weights))

/-- The loop of `proportional_selection` (leap_ec/ops.py:657-673) on the values of the individuals. `total` is `np.sum(values)`, which
NumPy adds up in an order of its own. -/
def proportionalF (fl : ℚ → ℚ) (values : List ℚ) (total u : ℚ) : PyM Nat :=
  if values.any (fun v => decide (v < 0)) then .error .valueError
  else if values = [] then .error .indexError
  else if total = 0 then .error .valueError
  else choicesIndexF fl (values.map fun v => fl (v / total)) u

/-! ### Stochastic universal sampling -/

/-- `[random_start + i*even_spacing for i in range(0, n)]` (leap_ec/ops.py:739). -/
def susPointsF (fl : ℚ → ℚ) (start spacing : ℚ) (n : Nat) : List ℚ :=
  (List.range n).map fun i : Nat => fl (start + fl (fl (i : ℚ) * spacing))

/-- The inner loop `while running_sum < current_point` (leap_ec/ops.py:759-762). -/
def susAdvanceF (fl : ℚ → ℚ) (point : ℚ) : List ℚ → ℚ → Nat → PyM (ℚ × Nat)
  | [], running, idx => if running < point then .error .indexError else .ok (running, idx)
  | v :: vs, running, idx =>
    if running < point then susAdvanceF fl point vs (fl (running + v)) (idx + 1) else .ok (running, idx)

/-- One turn of the outer loop of `sus_selection` (leap_ec/ops.py:743-767). `u r` is the `r`-th random number of
`np.random.uniform(0, even_spacing)`, which is `0.0 + (even_spacing - 0.0) * u`. Yields the position. -/
def susStepF (fl : ℚ → ℚ) (u : Nat → ℚ) (shuffle : Bool) (n : Nat) (values : List ℚ) (spacing : ℚ) (s : SusState) : PyM (Nat × SusState) :=
  let s :=
    if s.selectionIdx = s.points.length then
      if shuffle then ⟨susPointsF fl (fl (spacing * u s.round)) spacing n, 0, 0, 0, s.round + 1⟩
      else { s with selectionIdx := 0, runningSum := 0, populationIdx := 0 }
    else s
  match s.points[s.selectionIdx]? with
  | none => .error .indexError
  | some point =>
    match susAdvanceF fl point (values.drop s.populationIdx) s.runningSum s.populationIdx with
    | .error e => .error e
    | .ok (running, idx) =>
      match pyPos values.length ((idx : Int) - 1) with
      | none => .error .indexError
      | some i => .ok (i, { s with selectionIdx := s.selectionIdx + 1, runningSum := running, populationIdx := idx })

/-- `sus_selection` (leap_ec/ops.py:719-772) on the values of the individuals, one per individual. `total` is `np.sum(values)`. -/
def susF (fl : ℚ → ℚ) (values : List ℚ) (total : ℚ) (n : Int) (shuffle : Bool) (u : Nat → ℚ) : Gen Unit (Option SusState) Nat := fun s _ =>
  if n ≤ 0 then .error .valueError
  else if values.any (fun v => decide (v < 0)) then .error .valueError
  else
    let spacing := fl (total / n)
    match susStepF fl u shuffle n.toNat values spacing
        (s.getD ⟨susPointsF fl (fl (spacing * u 0)) spacing n.toNat, 0, 0, 0, 1⟩) with
    | .error e => .error e
    | .ok (a, s') => .ok (a, some s', ())

end Leap
