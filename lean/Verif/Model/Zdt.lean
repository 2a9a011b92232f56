import Mathlib.Analysis.SpecialFunctions.Trigonometric.Basic
import Mathlib.Analysis.SpecialFunctions.Pow.Real
import Verif.Model.Transform

/-!
# Multiobjective benchmark problems

Models `SCHProblem` and `ZDT1Problem` to `ZDT6Problem` of `leap_ec/multiobjective/problems.py` over exact reals. `n` is the
number of dimensions the problem was made with, at least 2 (with 1 NumPy divides by zero). Without the check of the phenome, values out
of bounds can give NaN, which is not modelled.
-/

namespace Leap

/-- `SCHProblem.evaluate` (leap_ec/multiobjective/problems.py:142-150). -/
noncomputable def sch (x : ℝ) : ℝ × ℝ := (x ^ 2, (x - 2.0) ^ 2)

/-- `assert ((phenome >= 0) & (phenome <= 1)).all()`, if the check is on; a list cannot be compared with a number.
For leap_ec/multiobjective/problems.py:225-246. -/
noncomputable def zdtCheck (check : Bool) (lo hi : ℝ) (x : List ℝ) : PyM Unit :=
  open Classical in
  if check = true ∧ ¬ ∀ a ∈ x, lo ≤ a ∧ a ≤ hi then .error .assertionError else .ok ()

/-- The array a phenome is; on a list the first NumPy operation fails: the comparison if the check is on, `sum` otherwise, unless
there is no first element. For leap_ec/multiobjective/problems.py:225-246. -/
def zdtArray (check : Bool) : Phenome ℝ → PyM (List ℝ)
  | .array x => .ok x
  | .list x => if check then .error .typeError else if x.isEmpty then .error .indexError else .error .attributeError

/-- `1 + 9 * (x.sum()) / (self.n - 1)`, as in ZDT1 to ZDT3. For leap_ec/multiobjective/problems.py:225-246. -/
noncomputable def zdtLinearG (n : Nat) (rest : List ℝ) : ℝ := 1 + 9 * rest.sum / ((n : ℝ) - 1)

/-- `ZDT1Problem.evaluate` (leap_ec/multiobjective/problems.py:225-246). -/
noncomputable def zdt1 (n : Nat) (check : Bool) (phenome : Phenome ℝ) : PyM (ℝ × ℝ) := do
  let x ← zdtArray check phenome
  zdtCheck check 0 1 x
  match x with
  | [] => .error .indexError
  | x0 :: rest =>
    let g := zdtLinearG n rest
    .ok (x0, g * (1 - Real.sqrt (x0 / g)))

/-- `ZDT2Problem.evaluate` (leap_ec/multiobjective/problems.py:283-304). -/
noncomputable def zdt2 (n : Nat) (check : Bool) (phenome : Phenome ℝ) : PyM (ℝ × ℝ) := do
  let x ← zdtArray check phenome
  zdtCheck check 0 1 x
  match x with
  | [] => .error .indexError
  | x0 :: rest =>
    let g := zdtLinearG n rest
    .ok (x0, g * (1 - (x0 / g) ^ 2))

/-- `ZDT3Problem.evaluate` (leap_ec/multiobjective/problems.py:341-363). -/
noncomputable def zdt3 (n : Nat) (check : Bool) (phenome : Phenome ℝ) : PyM (ℝ × ℝ) := do
  let x ← zdtArray check phenome
  zdtCheck check 0 1 x
  match x with
  | [] => .error .indexError
  | x0 :: rest =>
    let g := zdtLinearG n rest
    .ok (x0, g * (1 - Real.sqrt (x0 / g) - x0 / g * Real.sin (10 * Real.pi * x0)))

/-- `ZDT4Problem.evaluate` (leap_ec/multiobjective/problems.py:399-422). A list fails in the check of its
second and further elements, or else when it is squared, with the same kind of error. -/
noncomputable def zdt4 (n : Nat) (check : Bool) (phenome : Phenome ℝ) : PyM (ℝ × ℝ) :=
  match phenome.elements with
  | [] => .error .indexError
  | x0 :: rest => do
    zdtCheck check 0 1 [x0]
    match phenome with
    | .list _ => .error .typeError
    | .array _ => do
      zdtCheck check (-5) 5 rest
      let g := 1 + 10 * ((n : ℝ) - 1) + (rest.map fun a => a ^ 2 - 10 * Real.cos (4 * Real.pi * a)).sum
      .ok (x0, g * (1 - Real.sqrt (x0 / g)))

/-- `ZDT5Problem._phenome_length` (leap_ec/multiobjective/problems.py:466). -/
def zdt5Length (n : Int) : Int := 30 + (n - 1) * 5

/-- `v` (leap_ec/multiobjective/problems.py:499-504). -/
def zdt5V (block : List Int) : Int := if block.sum < 5 then 2 + block.sum else 1

/-- The blocks after the first (leap_ec/multiobjective/problems.py:492-497): `phenome[i:i+5] for i in range(30, len, 5)`. -/
def zdt5Blocks (x : List Int) : List (List Int) :=
  (List.range ((x.length - 30 + 4) / 5)).map fun k => (x.drop (30 + 5 * k)).take 5

/-- `ZDT5Problem.evaluate` (leap_ec/multiobjective/problems.py:479-518), for a sequence of integers. -/
def zdt5 (n : Int) (check : Bool) (x : List Int) : PyM (ℚ × ℚ) :=
  if check = true ∧ (x.length : Int) ≠ zdt5Length n then .error .assertionError
  else if check = true ∧ ¬ ∀ a ∈ x, a = 0 ∨ a = 1 then .error .assertionError
  else
    let f1 : ℚ := 1 + ((x.take 30).sum : Int)
    .ok (f1, (((zdt5Blocks x).map zdt5V).sum : Int) * (1 / f1))

/-- `ZDT6Problem.evaluate` (leap_ec/multiobjective/problems.py:554-575). -/
noncomputable def zdt6 (n : Nat) (check : Bool) (phenome : Phenome ℝ) : PyM (ℝ × ℝ) := do
  let x ← zdtArray check phenome
  zdtCheck check 0 1 x
  match x with
  | [] => .error .indexError
  | x0 :: rest =>
    let g := 1 + 9 * (rest.sum / ((n : ℝ) - 1)) ^ (0.25 : ℝ)
    let f1 := 1 - Real.exp (-4 * x0) * Real.sin (6 * Real.pi * x0) ^ 6
    .ok (f1, g * (1 - (f1 / g) ^ 2))

/-- The `bounds` property of ZDT1, ZDT2, ZDT3 and ZDT6 (leap_ec/multiobjective/problems.py:221-223, 279-281, 337-339, 550-552). A
negative number of dimensions gives an empty list. -/
def zdtUnitBounds (n : Int) : List (Int × Int) := List.replicate n.toNat (0, 1)

/-- `ZDT4Problem.bounds` (leap_ec/multiobjective/problems.py:395-397). -/
def zdt4Bounds (n : Int) : List (Int × Int) := (0, 1) :: List.replicate (n - 1).toNat (-5, 5)

/-- `ZDT5Problem.bounds` (leap_ec/multiobjective/problems.py:475-477). -/
def zdt5Bounds (n : Int) : List (Int × Int) := List.replicate (zdt5Length n).toNat (0, 1)

end Leap
