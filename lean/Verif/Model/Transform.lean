import Mathlib.Algebra.Field.Basic
import Mathlib.Algebra.BigOperators.Group.List.Basic
import Mathlib.Analysis.SpecialFunctions.Pow.Real
import Verif.Model.Compare

/-!
# Problems that transform other problems

Models `FitnessOffsetProblem` of `leap_ec/problem.py` and `TranslatedProblem`, `ScaledProblem`,
`MatrixTransformedProblem` and `random_orthonormal_matrix` of `leap_ec/real_rep/problems.py`, in exact arithmetic over any
field `R`. Only one-dimensional bounds (a pair) are modelled for `ScaledProblem`, as its arithmetic needs.
-/

namespace Leap

/-- A phenome: a NumPy vector, or another sequence with a length (a list). For leap_ec/real_rep/problems.py:1306-1329. -/
inductive Phenome (R : Type) where
  | array (v : List R)
  | list (v : List R)
  deriving DecidableEq

/-- `len(phenome)`. For leap_ec/real_rep/problems.py:1306-1329. -/
def Phenome.len : Phenome R → Nat
  | .array v => v.length
  | .list v => v.length

/-- A real-valued problem: what evaluation gives, the optimisation direction and the `bounds` attribute, if it has one.
For leap_ec/real_rep/problems.py:1306-1329. -/
structure RealProblem (R V : Type) where
  evaluate : Phenome R → PyM V
  maximize : Bool
  bounds : Option (R × R)

/-- `if maximize is None: maximize = problem.maximize`, as in each wrapper. For leap_ec/real_rep/problems.py:1235-1338. -/
def inheritMaximize (p : RealProblem R V) (maximize : Option Bool) : Bool := maximize.getD p.maximize

/-- `phenome - self.offset` of vectors of one length. For leap_ec/real_rep/problems.py:1306-1329. -/
def vecSub [Sub R] (u v : List R) : List R := List.zipWith (fun x y => x - y) u v

/-- `TranslatedProblem.evaluate` (leap_ec/real_rep/problems.py:1306-1329). -/
def translatedEvaluate [Sub R] (p : RealProblem R V) (offset : List R) (phenome : Phenome R) : PyM V :=
  if phenome.len = offset.length then
    match phenome with
    | .list _ => .error .valueError
    | .array v => p.evaluate (.array (vecSub v offset))
  else .error .assertionError

/-- `TranslatedProblem` (leap_ec/real_rep/problems.py:1235-1338). -/
def translatedProblem [Sub R] (p : RealProblem R V) (offset : List R) (maximize : Option Bool) : RealProblem R V :=
  ⟨translatedEvaluate p offset, inheritMaximize p maximize, p.bounds⟩

/-- `ScaledProblem.evaluate` (leap_ec/real_rep/problems.py:1359-1368). Simplification: with equal new bounds NumPy divides by
zero and carries on with infinities or NaN, which is not modelled (a field's division by zero is used). -/
def scaledEvaluate [Field R] (p : RealProblem R V) (old new : R × R) (phenome : Phenome R) : PyM V :=
  match phenome with
  | .list _ => .error .valueError
  | .array v => p.evaluate (.array (v.map fun x => old.1 + (x - new.1) / (new.2 - new.1) * (old.2 - old.1)))

/-- `ScaledProblem` (leap_ec/real_rep/problems.py:1344-1377). -/
def scaledProblem [Field R] (p : RealProblem R V) (newBounds : R × R) (maximize : Option Bool) : PyM (RealProblem R V) :=
  match p.bounds with
  | none => .error .valueError
  | some old => .ok ⟨scaledEvaluate p old newBounds, inheritMaximize p maximize, some newBounds⟩

/-- `np.dot` of two vectors. For leap_ec/real_rep/problems.py:1400-1401. -/
def vecDot [Mul R] [Add R] [Zero R] (u v : List R) : R := (List.zipWith (fun x y => x * y) u v).sum

/-- `np.matmul(matrix, phenome)`. For leap_ec/real_rep/problems.py:1525-1561. -/
def matVec [Mul R] [Add R] [Zero R] (matrix : List (List R)) (v : List R) : List R := matrix.map fun row => vecDot row v

/-- The elements of a phenome, which `np.matmul` takes from an array or a list alike.
For leap_ec/real_rep/problems.py:1525-1561. -/
def Phenome.elements : Phenome R → List R
  | .array v => v
  | .list v => v

/-- `MatrixTransformedProblem.evaluate` (leap_ec/real_rep/problems.py:1525-1561). -/
def matrixEvaluate [Mul R] [Add R] [Zero R] (p : RealProblem R V) (matrix : List (List R)) (phenome : Phenome R) : PyM V :=
  if phenome.len = matrix.length then p.evaluate (.array (matVec matrix phenome.elements))
  else .error .assertionError

/-- `MatrixTransformedProblem` (leap_ec/real_rep/problems.py:1428-1570): an empty matrix has no `matrix[0]`, and `np.array`
refuses rows of different lengths. -/
def matrixProblem [Mul R] [Add R] [Zero R] (p : RealProblem R V) (matrix : List (List R)) (maximize : Option Bool) :
    PyM (RealProblem R V) :=
  match matrix.head? with
  | none => .error .indexError
  | some row0 =>
    if matrix.length = row0.length then
      if matrix.all fun row => row.length == row0.length then
        .ok ⟨matrixEvaluate p matrix, inheritMaximize p maximize, p.bounds⟩
      else .error .valueError
    else .error .assertionError

/-- Adding a finite number to a Python number. For leap_ec/problem.py:290-303. -/
def Num.addFin (c : ℚ) : Num → Num
  | .nan => .nan
  | .negInf => .negInf
  | .fin q => .fin (q + c)
  | .posInf => .posInf

/-- `FitnessOffsetProblem.evaluate` on the wrapped problem's fitness (leap_ec/problem.py:290-303). Whether the sum is exactly
a Python `float` depends on the types of both (Python or NumPy): `isFloat` says so for each fitness. -/
def offsetFitness (isFloat : SFit → Bool) (c : ℚ) (f : SFit) : SFit := ⟨isFloat f, f.val.addFin c⟩

/-- `FitnessOffsetProblem` (leap_ec/problem.py:264-312). -/
def offsetProblem (p : RealProblem R SFit) (isFloat : SFit → Bool) (c : ℚ) (maximize : Option Bool) : RealProblem R SFit :=
  ⟨fun x => (p.evaluate x).map (offsetFitness isFloat c), inheritMaximize p maximize, p.bounds⟩

/-- `np.linalg.norm`. For leap_ec/real_rep/problems.py:1398-1402. -/
noncomputable def vecNorm (v : List ℝ) : ℝ := Real.sqrt (vecDot v v)

/-- `row - sum([np.dot(row, prev) * prev for prev in previous_rows])` (leap_ec/real_rep/problems.py:1400-1401). The sum starts
from Python's 0, here a zero vector. -/
def removeProjections [Ring R] (previous : List (List R)) (row : List R) : List R :=
  vecSub row ((previous.map fun prev => prev.map fun x => vecDot row prev * x).foldl
    (fun acc v => List.zipWith (fun x y => x + y) acc v) (List.replicate row.length 0))

/-- The loop of `random_orthonormal_matrix` (leap_ec/real_rep/problems.py:1398-1402), given the rows done. `none` when a row
has length 0: NumPy then divides by zero and fills the row with NaN. -/
noncomputable def orthonormalRows (done : List (List ℝ)) : List (List ℝ) → Option (List (List ℝ))
  | [] => some done
  | row :: rows =>
    let r := removeProjections done row
    if vecNorm r = 0 then none else orthonormalRows (done ++ [r.map fun x => x / vecNorm r]) rows

/-- `random_orthonormal_matrix` (leap_ec/real_rep/problems.py:1383-1422) for the normally distributed `draw`. The three
assertions are modelled without rounding; a matrix containing NaN fails them. -/
noncomputable def randomOrthonormalMatrix (draw : List (List ℝ)) : PyM (List (List ℝ)) :=
  match orthonormalRows [] draw with
  | none => .error .assertionError
  | some matrix =>
    match matrix with
    | [] => .error .indexError
    | row0 :: rest =>
      if vecNorm row0 = 1 then
        match rest with
        | [] => .error .indexError
        | row1 :: _ =>
          if vecDot row0 row1 = 0 then
            open Classical in
            if ∀ i < matrix.length, ∀ j < matrix.length,
                vecDot (matrix.getD i []) (matrix.getD j []) = if i = j then 1 else 0 then .ok matrix
            else .error .assertionError
          else .error .assertionError
      else .error .assertionError

/-- `TranslatedProblem.random` (leap_ec/real_rep/problems.py:1277-1304), for the uniform numbers `draws` in `[0, 1)`. -/
def translatedRandom [Ring R] (p : RealProblem R V) (offsetBounds : R × R) (draws : List R) (maximize : Option Bool) :
    RealProblem R V :=
  translatedProblem p (draws.map fun u => offsetBounds.1 + (offsetBounds.2 - offsetBounds.1) * u) maximize

/-- `MatrixTransformedProblem.random_orthonormal` (leap_ec/real_rep/problems.py:1479-1523). -/
noncomputable def randomOrthonormalProblem (p : RealProblem ℝ V) (draw : List (List ℝ)) (maximize : Option Bool) :
    PyM (RealProblem ℝ V) :=
  match randomOrthonormalMatrix draw with
  | .error e => .error e
  | .ok matrix => matrixProblem p matrix maximize

end Leap
