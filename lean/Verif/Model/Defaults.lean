import Verif.Model.Benchmarks
import Verif.Model.Binary

/-!
# Benchmark problems as constructed with default arguments

Models the constructors, the class attribute `bounds` and `worse_than` of the problems in `leap_ec/real_rep/problems.py` and
`leap_ec/binary_rep/problems.py`. Fitnesses are real numbers (no NaN; NaN is treated in `Model/Compare`).
-/

namespace Leap

/-- A constructed `ScalarProblem`: its direction and its fitness function. For leap_ec/problem.py:88-120. -/
structure BenchProblem (X : Type) where
  maximize : Bool
  evaluate : X → PyM ℝ

/-- `ScalarProblem.worse_than` (leap_ec/problem.py:88-120) on two numbers that are not NaN. The overrides in
leap_ec/real_rep/problems.py:63-75, 144-156, 212-224, 287-299, 356-368, 450-462 only call it. -/
def BenchProblem.worseThan {X : Type} (p : BenchProblem X) (first second : ℝ) : Prop :=
  if p.maximize then first < second else second < first

/-- `SpheroidProblem()` (leap_ec/real_rep/problems.py:47-48). -/
noncomputable def spheroidProblem (maximize : Bool := false) : BenchProblem (Phenome ℝ) := ⟨maximize, spheroid⟩

/-- `SpheroidProblem.bounds` (leap_ec/real_rep/problems.py:42). -/
noncomputable def spheroidBounds : ℝ × ℝ := (-5.12, 5.12)

/-- `RastriginProblem()` (leap_ec/real_rep/problems.py:119-121). -/
noncomputable def rastriginProblem (a : ℝ := 1) (maximize : Bool := false) : BenchProblem (Phenome ℝ) :=
  ⟨maximize, rastrigin a⟩

/-- `RastriginProblem.bounds` (leap_ec/real_rep/problems.py:114). -/
noncomputable def rastriginBounds : ℝ × ℝ := (-5.12, 5.12)

/-- `RosenbrockProblem()` (leap_ec/real_rep/problems.py:192-193). -/
noncomputable def rosenbrockProblem (maximize : Bool := false) : BenchProblem (Phenome ℝ) := ⟨maximize, rosenbrock⟩

/-- `RosenbrockProblem.bounds` (leap_ec/real_rep/problems.py:187). -/
noncomputable def rosenbrockBounds : ℝ × ℝ := (-2.048, 2.048)

/-- `StepProblem()` (leap_ec/real_rep/problems.py:270-271). -/
noncomputable def stepProblem (maximize : Bool := true) : BenchProblem (Phenome ℝ) := ⟨maximize, stepFunction⟩

/-- `StepProblem.bounds` (leap_ec/real_rep/problems.py:265). -/
noncomputable def stepBounds : ℝ × ℝ := (-5.12, 5.12)

/-- `NoisyQuarticProblem()` (leap_ec/real_rep/problems.py:337-338), for given draws of the noise. -/
noncomputable def noisyQuarticProblem (noise : List ℝ) (maximize : Bool := false) : BenchProblem (Phenome ℝ) :=
  ⟨maximize, noisyQuartic noise⟩

/-- `NoisyQuarticProblem.bounds` (leap_ec/real_rep/problems.py:332). -/
noncomputable def noisyQuarticBounds : ℝ × ℝ := (-1.28, 1.28)

/-- `np.arange(1, 26)`, the default `c` of `ShekelProblem` (leap_ec/real_rep/problems.py:430). -/
def shekelDefaultC : List ℝ := (List.range 25).map fun (j : Nat) => (j : ℝ) + 1

/-- `ShekelProblem()` (leap_ec/real_rep/problems.py:430-433). -/
noncomputable def shekelProblem (k : ℝ := 500) (c : List ℝ := shekelDefaultC) (maximize : Bool := false) :
    BenchProblem (Phenome ℝ) := ⟨maximize, shekel k c⟩

/-- `ShekelProblem.bounds` (leap_ec/real_rep/problems.py:422). -/
noncomputable def shekelBounds : ℝ × ℝ := (-65.536, 65.536)

/-- `GriewankProblem()` (leap_ec/real_rep/problems.py:506-507). -/
noncomputable def griewankProblem (maximize : Bool := false) : BenchProblem (Phenome ℝ) := ⟨maximize, griewank⟩

/-- `GriewankProblem.bounds` (leap_ec/real_rep/problems.py:504). -/
def griewankBounds : ℝ × ℝ := (-600, 600)

/-- `AckleyProblem()` (leap_ec/real_rep/problems.py:561-565). -/
noncomputable def ackleyProblem (a : ℝ := 20) (b : ℝ := 0.2) (c : ℝ := 2 * Real.pi) (maximize : Bool := false) :
    BenchProblem (Phenome ℝ) := ⟨maximize, ackley a b c⟩

/-- `AckleyProblem.bounds` (leap_ec/real_rep/problems.py:559). -/
noncomputable def ackleyBounds : ℝ × ℝ := (-32.768, 32.768)

/-- `WeierstrassProblem()` (leap_ec/real_rep/problems.py:622-626). -/
noncomputable def weierstrassProblem (kmax : Nat := 20) (a : ℝ := 0.5) (b : ℝ := 3) (maximize : Bool := false) :
    BenchProblem (Phenome ℝ) := ⟨maximize, weierstrass kmax a b⟩

/-- `WeierstrassProblem.bounds` (leap_ec/real_rep/problems.py:620). -/
noncomputable def weierstrassBounds : ℝ × ℝ := (-0.5, 0.5)

/-- The default `c` of `LangermannProblem` (leap_ec/real_rep/problems.py:709). -/
def langermannDefaultC : List ℝ := [1, 2, 5, 2, 3]

/-- `LangermannProblem.default_a` (leap_ec/real_rep/problems.py:703-707). -/
def langermannDefaultA : List (List ℝ) := [[3, 5], [5, 2], [2, 1], [1, 4], [7, 9]]

/-- `LangermannProblem()` (leap_ec/real_rep/problems.py:709-724): refused unless `a` is a matrix with `m` rows. The length of
`c` is not checked. Simplification: `m` is an integer and `c` a list of numbers; rows of different lengths, which numpy
refuses to turn into an array, are `ValueError` too. -/
noncomputable def langermannProblem (m : Int := 5) (c : List ℝ := langermannDefaultC)
    (a : List (List ℝ) := langermannDefaultA) (maximize : Bool := false) : PyM (BenchProblem (Phenome ℝ)) :=
  match a with
  | [] => .error .valueError
  | row :: rows =>
    if rows.all (fun r => decide (r.length = row.length)) then
      if ((row :: rows).length : Int) = m then .ok ⟨maximize, langermann c (row :: rows) row.length⟩
      else .error .valueError
    else .error .valueError

/-- `LangermannProblem.bounds` (leap_ec/real_rep/problems.py:701). -/
def langermannBounds : ℝ × ℝ := (0, 10)

/-- `LunacekProblem(N)` (leap_ec/real_rep/problems.py:812-821). `none`: the parameter is inferred. The square root of a negative
number, NaN in the code, is 0 here; this concerns only `mu_2`. -/
noncomputable def lunacekProblem (N : Nat) (d : ℝ := 1) (mu1 : ℝ := 2.5) (mu2 : Option ℝ := none) (s : Option ℝ := none)
    (maximize : Bool := false) : BenchProblem (Phenome ℝ) :=
  let s' := s.getD (lunacekS N)
  let mu2' := mu2.getD (-Real.sqrt ((mu1 ^ 2 - d) / s'))
  ⟨maximize, lunacek d mu1 mu2' s'⟩

/-- `LunacekProblem.bounds` (leap_ec/real_rep/problems.py:810). -/
def lunacekBounds : ℝ × ℝ := (-5, 5)

/-- `SchwefelProblem()` (leap_ec/real_rep/problems.py:883-885). -/
noncomputable def schwefelProblem (alpha : ℝ := 418.982887) (maximize : Bool := false) : BenchProblem (Phenome ℝ) :=
  ⟨maximize, schwefel alpha⟩

/-- `SchwefelProblem.bounds` (leap_ec/real_rep/problems.py:881). -/
def schwefelBounds : ℝ × ℝ := (-512, 512)

/-- `GaussianProblem()` (leap_ec/real_rep/problems.py:934-938). -/
noncomputable def gaussianProblem (width : ℝ := 1) (height : ℝ := 1) (maximize : Bool := true) :
    BenchProblem (Phenome ℝ) := ⟨maximize, gaussian width height⟩

/-- `GaussianProblem.bounds` (leap_ec/real_rep/problems.py:932). -/
def gaussianBounds : ℝ × ℝ := (-3, 3)

/-- `CosineFamilyProblem(alpha, global_optima_counts, local_optima_counts)` (leap_ec/real_rep/problems.py:1003-1010). -/
noncomputable def cosineFamilyProblem (alpha : ℝ) (globalCounts localCounts : List Int) (maximize : Bool := false) :
    PyM (BenchProblem (Phenome ℝ)) :=
  if localCounts.length = globalCounts.length then .ok ⟨maximize, cosineFamily alpha globalCounts localCounts⟩
  else .error .assertionError

/-- `CosineFamilyProblem.bounds` (leap_ec/real_rep/problems.py:1001). -/
def cosineFamilyBounds : ℝ × ℝ := (0, 1)

/-- A number that an `evaluate` returns, as a fitness. For leap_ec/binary_rep/problems.py:31-33. -/
def asFitness (x : PyM Nat) : PyM ℝ := x.map (fun n => (n : ℝ))

/-- `MaxOnes()` (leap_ec/binary_rep/problems.py:31-33). -/
def maxOnesProblem (target : Option (List Int) := none) (maximize : Bool := true) : BenchProblem (List Int) :=
  ⟨maximize, fun x => asFitness (maxOnes target x)⟩

/-- `LeadingOnes()` (leap_ec/binary_rep/problems.py:84-86). -/
def leadingOnesProblem (target : Option (List Int) := none) (maximize : Bool := true) : BenchProblem (List Int) :=
  ⟨maximize, fun x => asFitness (leadingOnes target x)⟩

/-- `DeceptiveTrap()` (leap_ec/binary_rep/problems.py:129-130). -/
def deceptiveTrapProblem (maximize : Bool := true) : BenchProblem (List Int) :=
  ⟨maximize, fun x => .ok (deceptiveTrap x : ℝ)⟩

/-- `TwoMax()` (leap_ec/binary_rep/problems.py:170-171). -/
def twoMaxProblem (maximize : Bool := true) : BenchProblem (List Int) := ⟨maximize, fun x => .ok (twoMax x : ℝ)⟩

end Leap
