import Mathlib.Analysis.SpecialFunctions.Trigonometric.Basic
import Mathlib.Analysis.SpecialFunctions.Exp
import Mathlib.Analysis.SpecialFunctions.Pow.Real
import Mathlib.Algebra.Order.Floor.Ring
import Verif.Model.Transform

/-!
# Real-valued benchmark functions

Models the fitness functions of `leap_ec/real_rep/problems.py`, over the real numbers (no rounding, no overflow).
-/

namespace Leap

/-- `if not isinstance(phenome, np.ndarray): raise ValueError` at the start of most functions
(e.g. leap_ec/real_rep/problems.py:519-521). -/
def needArray (f : List ℝ → PyM ℝ) : Phenome ℝ → PyM ℝ
  | .array x => f x
  | .list _ => .error .valueError

/-- `SpheroidProblem.evaluate` (leap_ec/real_rep/problems.py:50-63). -/
noncomputable def spheroid : Phenome ℝ → PyM ℝ
  | .array x => .ok (x.map fun a => a ^ 2).sum
  | .list x => .ok (x.foldl (fun acc a => acc + a ^ 2) 0)

/-- `RastriginProblem.evaluate` (leap_ec/real_rep/problems.py:123-139). -/
noncomputable def rastrigin (a : ℝ) : Phenome ℝ → PyM ℝ
  | .array x => .ok (a * x.length + (x.map fun y => y ^ 2 - a * Real.cos (2 * Real.pi * y)).sum)
  | .list x => .ok (a * x.length + x.foldl (fun acc y => acc + (y ^ 2 - a * Real.cos (2 * Real.pi * y))) 0)

/-- `RosenbrockProblem.evaluate` (leap_ec/real_rep/problems.py:195-215). -/
noncomputable def rosenbrock : Phenome ℝ → PyM ℝ
  | .array x => .ok (List.zipWith (fun xp y => 100 * (xp - y ^ 2) ^ 2 + (y - 1) ^ 2) (x.drop 1) x.dropLast).sum
  | .list x =>
    .ok (x.dropLast.zipIdx.foldl
      (fun sum p => sum + (100 * (x.getD (p.2 + 1) 0 - p.1 ^ 2) ^ 2 + (p.1 - 1) ^ 2)) 0)

/-- `StepProblem.evaluate` (leap_ec/real_rep/problems.py:273-285). -/
noncomputable def stepFunction (phenome : Phenome ℝ) : PyM ℝ := .ok (phenome.elements.map fun y => (⌊y⌋ : ℝ)).sum

/-- `NoisyQuarticProblem.evaluate` (leap_ec/real_rep/problems.py:340-354), for the normally distributed `noise`, one number per
element. -/
noncomputable def noisyQuartic (noise : List ℝ) (phenome : Phenome ℝ) : PyM ℝ :=
  .ok ((phenome.elements.zipIdx.map fun p => ((p.2 : ℝ) + 1) * p.1 ^ 4).sum + noise.sum)

/-- `ShekelProblem.points` (leap_ec/real_rep/problems.py:424-425). -/
def shekelPoints : List Int × List Int :=
  ((List.replicate 5 [-32, -16, 0, 16, 32]).flatten,
   List.replicate 5 (-32) ++ List.replicate 5 (-16) ++ List.replicate 5 0 ++ List.replicate 5 16 ++ List.replicate 5 32)

/-- `ShekelProblem.evaluate` (leap_ec/real_rep/problems.py:435-448). Fewer than 25 constants `c` raise `IndexError`; a zero
denominator is not modelled. -/
noncomputable def shekel (k : ℝ) (c : List ℝ) (phenome : Phenome ℝ) : PyM ℝ :=
  match phenome.elements with
  | [x0, x1] =>
    if 25 ≤ c.length then
      .ok (1 / (1 / k + ((List.range 25).map fun j =>
        1 / (c.getD j 0 + (x0 - shekelPoints.1.getD j 0) ^ 6 + (x1 - shekelPoints.2.getD j 0) ^ 6)).sum))
    else .error .indexError
  | _ => .error .assertionError

/-- `GriewankProblem.evaluate` (leap_ec/real_rep/problems.py:509-522). -/
noncomputable def griewank : Phenome ℝ → PyM ℝ :=
  needArray fun x =>
    .ok ((x.map fun y => y ^ 2 / 4000).sum - (x.zipIdx.map fun p => Real.cos (p.1 / Real.sqrt (p.2 + 1))).prod + 1)

/-- `AckleyProblem.evaluate` (leap_ec/real_rep/problems.py:567-581). `1.0 / d` raises for an empty phenome. -/
noncomputable def ackley (a b c : ℝ) : Phenome ℝ → PyM ℝ :=
  needArray fun x =>
    if x.length = 0 then .error .zeroDivisionError
    else
      let t1 := -a * Real.exp (-b * Real.sqrt (1 / x.length * (x.map fun y => y ^ 2).sum))
      let t2 := Real.exp (1 / x.length * (x.map fun y => Real.cos (c * y)).sum)
      .ok (t1 - t2 + a + Real.exp 1)

/-- The loop over `k` of `WeierstrassProblem.evaluate` at the angle `angle k`. For leap_ec/real_rep/problems.py:628-651. -/
noncomputable def weierstrassTerm (kmax : Nat) (a : ℝ) (angle : Nat → ℝ) : ℝ :=
  (List.range kmax).foldl (fun t k => t + a ^ k * Real.cos (angle k)) 0

/-- `WeierstrassProblem.evaluate` (leap_ec/real_rep/problems.py:628-651). -/
noncomputable def weierstrass (kmax : Nat) (a b : ℝ) : Phenome ℝ → PyM ℝ :=
  needArray fun x =>
    let result := x.foldl (fun r y => r + weierstrassTerm kmax a fun k => 2 * Real.pi * b ^ k * (y + 0.5)) 0
    let t2 := weierstrassTerm kmax a fun k => Real.pi * b ^ k
    .ok (result - x.length * t2)

/-- The squared distance `np.sum((phenome - a[i]) ** 2)`. For leap_ec/real_rep/problems.py:726-745. -/
def squaredDistance (x p : List ℝ) : ℝ := (List.zipWith (fun y q => (y - q) ^ 2) x p).sum

/-- `LangermannProblem.evaluate` (leap_ec/real_rep/problems.py:726-745), for a matrix `a` of `m` rows of length `d`
(`LangermannProblem.__init__` checks that there are `m` rows, not that there are as many constants). -/
noncomputable def langermann (c : List ℝ) (a : List (List ℝ)) (d : Nat) : Phenome ℝ → PyM ℝ :=
  needArray fun x =>
    if x.length ≠ d then .error .valueError
    else if c.length < a.length then .error .indexError
    else .ok ((List.zip c a).foldl (fun result p =>
      result - p.1 * Real.exp (-1 / Real.pi * squaredDistance x p.2) * Real.cos (Real.pi * squaredDistance x p.2)) 0)

/-- The default `s` of `LunacekProblem` (leap_ec/real_rep/problems.py:819). -/
noncomputable def lunacekS (n : Nat) : ℝ := 1 - 1 / (2 * Real.sqrt (n + 20) - 8.2)

/-- `LunacekProblem.evaluate` (leap_ec/real_rep/problems.py:823-841) for given parameters. A phenome of another length than
`N` only causes a warning. -/
noncomputable def lunacek (d mu1 mu2 s : ℝ) : Phenome ℝ → PyM ℝ :=
  needArray fun x =>
    let sphere1 := (x.map fun y => (y - mu1) ^ 2).sum
    let sphere2 := d * x.length + s * (x.map fun y => (y - mu2) ^ 2).sum
    let sinusoid := 10 * (x.map fun y => 1 - Real.cos (2 * Real.pi * (y - mu1))).sum
    .ok (min sphere1 sphere2 + sinusoid)

/-- `SchwefelProblem.evaluate` (leap_ec/real_rep/problems.py:887-900). -/
noncomputable def schwefel (alpha : ℝ) : Phenome ℝ → PyM ℝ :=
  needArray fun x => .ok ((x.map fun y => -y * Real.sin (Real.sqrt |y|)).sum + alpha * x.length)

/-- `GaussianProblem.__init__` (leap_ec/real_rep/problems.py:934-938): the attributes `width` and `height`. -/
noncomputable def gaussianInit (width _height : ℝ) : PyM (ℝ × ℝ) :=
  if width > 0 then .ok (1, 1) else .error .assertionError

/-- `GaussianProblem.evaluate` (leap_ec/real_rep/problems.py:940-947) for the attributes `width` and `height`. -/
noncomputable def gaussianEvaluate (width height : ℝ) : Phenome ℝ → PyM ℝ :=
  needArray fun x => .ok (height * Real.exp (-(x.map fun y => (y / width) ^ 2).sum))

/-- `GaussianProblem(width, height).evaluate(phenome)`. For leap_ec/real_rep/problems.py:934-938. -/
noncomputable def gaussian (width height : ℝ) (phenome : Phenome ℝ) : PyM ℝ :=
  match gaussianInit width height with
  | .error e => .error e
  | .ok (w, h) => gaussianEvaluate w h phenome

/-- `CosineFamilyProblem.evaluate` (leap_ec/real_rep/problems.py:1012-1027) on a vector with one element per dimension. -/
noncomputable def cosineFamily (alpha : ℝ) (globalCounts localCounts : List Int) : Phenome ℝ → PyM ℝ :=
  needArray fun x =>
    .ok ((List.zipWith (fun p y =>
        -Real.cos (((p.1 : ℝ) - 1) * 2 * Real.pi * y) + -alpha * Real.cos (((p.1 : ℝ) - 1) * 2 * Real.pi * p.2 * y))
      (List.zip globalCounts localCounts) x).sum / (2 * globalCounts.length))

end Leap
