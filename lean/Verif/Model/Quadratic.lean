import Mathlib.Analysis.SpecialFunctions.Pow.Real
import Verif.Model.Transform

/-!
# Paraboloids and the quadratic family

Models `ParabaloidProblem` and `QuadraticFamilyProblem` of `leap_ec/real_rep/problems.py` over exact reals. A matrix is the list
of its rows.
-/

namespace Leap

/-- `M.T` of a rectangular matrix. For leap_ec/real_rep/problems.py:1228-1229. -/
def transposeRows (m : List (List ℝ)) : List (List ℝ) :=
  (List.range (m.headD []).length).map fun j => m.map fun row => row.getD j 0

/-- `a @ b` of matrices whose inner dimensions agree. For leap_ec/real_rep/problems.py:1216-1226. -/
noncomputable def matMul (a b : List (List ℝ)) : List (List ℝ) := a.map fun row => (transposeRows b).map fun col => vecDot row col

/-- `np.allclose(D, np.diag(np.diagonal(D)))` for a square matrix: the diagonal always agrees, and the other elements are
compared with 0, for which `allclose` only uses its absolute tolerance, 1e-8. For leap_ec/real_rep/problems.py:1216-1226. -/
def closeToDiagonal (d : List (List ℝ)) : Prop :=
  ∀ i < d.length, ∀ j < d.length, i ≠ j → |(d.getD i []).getD j 0| ≤ 1 / 10 ^ 8

/-- `ParabaloidProblem.evaluate` (leap_ec/real_rep/problems.py:1228-1229): `phenome.T @ matrix @ phenome`. A list has no `T`, and
vectors of another length do not fit the matrix. -/
noncomputable def parabaloidEvaluate (matrix : List (List ℝ)) : Phenome ℝ → PyM ℝ
  | .list _ => .error .attributeError
  | .array x => if x.length = matrix.length then .ok (vecDot (matVec (transposeRows matrix) x) x) else .error .valueError

open Classical in
/-- `ParabaloidProblem.__init__` (leap_ec/real_rep/problems.py:1216-1226), for square matrices. Matrices of different sizes
cannot be multiplied. -/
noncomputable def parabaloidProblem (diagonal rotation : List (List ℝ)) (maximize : Bool) : PyM (RealProblem ℝ ℝ) :=
  if closeToDiagonal diagonal then
    if rotation.length = diagonal.length then
      .ok ⟨parabaloidEvaluate (matMul (matMul (transposeRows rotation) diagonal) rotation), maximize, none⟩
    else .error .valueError
  else .error .assertionError

/-- `FitnessOffsetProblem` (leap_ec/problem.py:264-312), of a problem with exact real fitness. -/
noncomputable def realOffsetProblem (p : RealProblem ℝ ℝ) (c : ℝ) : RealProblem ℝ ℝ :=
  ⟨fun x => (p.evaluate x).map fun v => v + c, p.maximize, p.bounds⟩

/-- `np.min`, which refuses an empty list. For leap_ec/real_rep/problems.py:1134-1136. -/
noncomputable def npMinReal : List ℝ → PyM ℝ
  | [] => .error .valueError
  | v :: vs => .ok (vs.foldl min v)

/-- `QuadraticFamilyProblem.evaluate` (leap_ec/real_rep/problems.py:1134-1136). -/
noncomputable def quadraticEvaluate (parabaloids : List (RealProblem ℝ ℝ)) (phenome : Phenome ℝ) : PyM ℝ := do
  let basinValues ← parabaloids.mapM fun p => p.evaluate phenome
  npMinReal basinValues

/-- `QuadraticFamilyProblem.__init__` (leap_ec/real_rep/problems.py:1106-1124). -/
noncomputable def quadraticFamily (diagonals rotations : List (List (List ℝ))) (offsets : List (List ℝ)) (fitness : List ℝ)
    (maximize : Bool) : PyM (RealProblem ℝ ℝ) :=
  if diagonals.length = rotations.length ∧ offsets.length = rotations.length ∧ fitness.length = rotations.length then do
    let parabaloids ← (diagonals.zip rotations).mapM fun dr => parabaloidProblem dr.1 dr.2 false
    let translated := (parabaloids.zip offsets).map fun po => translatedProblem po.1 po.2 none
    let shifted := (translated.zip fitness).map fun pv => realOffsetProblem pv.1 pv.2
    .ok ⟨quadraticEvaluate shifted, maximize, none⟩
  else .error .assertionError

/-- The random numbers `generate` draws: uniform ones in `[0, 1)` for the widths and offsets (by basin and dimension) and for the
fitness offsets (by basin), and normal ones for the rotations (by basin, row and column).
For leap_ec/real_rep/problems.py:1138-1166. -/
structure QuadraticDraws where
  width : Nat → Nat → ℝ
  rotation : Nat → Nat → Nat → ℝ
  offset : Nat → Nat → ℝ
  fitness : Nat → ℝ

/-- `np.random.uniform(low, high)` for a number `u` in `[0, 1)`. For leap_ec/real_rep/problems.py:1138-1166. -/
def uniformIn (bounds : ℝ × ℝ) (u : ℝ) : ℝ := bounds.1 + (bounds.2 - bounds.1) * u

/-- `np.diag(v)`. For leap_ec/real_rep/problems.py:1138-1166. -/
noncomputable def diagRows (v : List ℝ) : List (List ℝ) :=
  (List.range v.length).map fun i => (List.range v.length).map fun j => if i = j then v.getD i 0 else 0

/-- `QuadraticFamilyProblem.generate` (leap_ec/real_rep/problems.py:1138-1166): the problem, with its `bounds`, and its
`global_optimum`, if one is recorded. -/
noncomputable def quadraticGenerate (dimensions : Nat) (numBasins numGlobal : Int) (widthBounds offsetBounds fitnessBounds : ℝ × ℝ)
    (draws : QuadraticDraws) : PyM (RealProblem ℝ ℝ × Option (List ℝ)) :=
  open Classical in
  if 0 ≤ numBasins ∧ widthBounds.1 ≤ widthBounds.2 ∧ offsetBounds.1 ≤ offsetBounds.2 ∧ numGlobal ≤ numBasins then do
    let basins := List.range numBasins.toNat
    let diagonals := basins.map fun b => diagRows ((List.range dimensions).map fun i => uniformIn widthBounds (draws.width b i))
    let rotations ← basins.mapM fun b => randomOrthonormalMatrix
      ((List.range dimensions).map fun i => (List.range dimensions).map fun j => draws.rotation b i j)
    let offsets := basins.map fun b => (List.range dimensions).map fun i => uniformIn offsetBounds (draws.offset b i)
    if numGlobal < 0 then .error .valueError
    else do
      let fitness := List.replicate numGlobal.toNat 0 ++
        (List.range (numBasins - numGlobal).toNat).map fun b => uniformIn fitnessBounds (draws.fitness b)
      let p ← quadraticFamily diagonals rotations offsets fitness false
      .ok (⟨p.evaluate, p.maximize, some (-2 * widthBounds.2, 2 * widthBounds.2)⟩,
        if 0 < numGlobal then offsets.head? else none)
  else .error .assertionError

end Leap
