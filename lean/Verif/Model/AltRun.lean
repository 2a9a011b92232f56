import Verif.Model.EvoRun
import Verif.Model.Wrappers

/-!
# `generational_ea` on a problem that changes

A run whose problem is an `AlternatingProblem`: the generation counter in the context says which of the problems answers, when offspring are
evaluated and when individuals are compared.
-/

namespace Leap

variable {γ ψ φ ρ : Type}

/-- One of the problems taking turns: how it evaluates, and `individual < other` when it compares (leap_ec/individual.py:211-253). -/
structure AltProblem (γ ψ φ ρ : Type) where
  prob : Prob γ ψ φ ρ
  worse : Option φ → Option φ → Bool

/-- `Problem.evaluate_multiple` (leap_ec/problem.py:58-64), for a problem that evaluates by `ev`. -/
def evaluateEach (ev : Content γ ψ → ρ → PyM φ × ρ) : List (Content γ ψ) → ρ → PyM (List φ) × ρ
  | [], s => (.ok [], s)
  | c :: cs, s =>
    match ev c s with
    | (.error e, s1) => (.error e, s1)
    | (.ok f, s1) =>
      match evaluateEach ev cs s1 with
      | (.error e, s2) => (.error e, s2)
      | (.ok fs, s2) => (.ok (f :: fs), s2)

/-- `AlternatingProblem.evaluate` (leap_ec/problem.py:574-575) while the context says generation `g`. -/
def altEvaluate (problems : List (AltProblem γ ψ φ ρ)) (modulo g : Int) (c : Content γ ψ) (s : ρ) : PyM φ × ρ :=
  match currentProblem problems modulo (some g) with
  | .ok q => q.prob.evaluate c s
  | .error e => (.error e, s)

/-- The `AlternatingProblem` as a problem, in generation `g`. It inherits `evaluate_multiple`, which takes no individuals
(leap_ec/problem.py:58). -/
def altProb (problems : List (AltProblem γ ψ φ ρ)) (modulo g : Int) : Prob γ ψ φ ρ where
  evaluate := altEvaluate problems modulo g
  evaluateMultiple := evaluateEach (altEvaluate problems modulo g)
  takesIndividuals := false

/-- `AlternatingProblem.worse_than` (leap_ec/problem.py:577-579), as `individual < other` uses it. An `AlternatingProblem` that was constructed
always has a current problem, so what is compared if there is none does not matter. -/
def altWorse (problems : List (AltProblem γ ψ φ ρ)) (modulo g : Int) (a b : Option φ) : Bool :=
  match currentProblem problems modulo (some g) with
  | .ok q => q.worse a b
  | .error _ => false

/-- What a run is configured with. For leap_ec/algorithm.py:21-139. -/
structure AltConfig (γ ψ φ ρ : Type) where
  problems : List (AltProblem γ ψ φ ρ)
  modulo : Int
  dec : Dec γ ψ
  /-- the selection operator in a generation, on a population: which position it picks next -/
  choose : Int → List Nat → Mem γ ψ φ ρ → PyM Nat × ρ
  /-- the operators between `clone` and `evaluate` -/
  stages : List (Stage γ ψ φ ρ)
  size : Nat
  kElites : Nat
  stop : Int → List Nat → Mem γ ψ φ ρ → Bool

/-- `a < b` for individuals in memory, in generation `g`. For leap_ec/individual.py:211-253. -/
def AltConfig.lt (cfg : AltConfig γ ψ φ ρ) (g : Int) (m : Mem γ ψ φ ρ) (a b : Nat) : Bool :=
  altWorse cfg.problems cfg.modulo g ((m.inds[a]?).bind Obj.fitness) ((m.inds[b]?).bind Obj.fitness)

/-- The operators and the evaluation, in generation `g`. For leap_ec/algorithm.py:131-139. -/
def AltConfig.pipeline (cfg : AltConfig γ ψ φ ρ) (g : Int) : List (Stage γ ψ φ ρ) :=
  cfg.stages ++ [.evaluate cfg.dec (altProb cfg.problems cfg.modulo g)]

/-- The `while` loop of `generational_ea` (leap_ec/algorithm.py:131-139), with `fuel` generations to go at generation `g`. It gives the last
population and the generation the counter ends at, which is what the context says when the caller looks at the result. -/
def altLoop (cfg : AltConfig γ ψ φ ρ) : Nat → Int → List Nat → HM (Mem γ ψ φ ρ) (List Nat × Int)
  | 0, g, parents => pure (parents, g)
  | fuel + 1, g, parents => fun m =>
    if cfg.stop g parents m then (.ok (parents, g), m)
    else
      match runPipeline parents (cfg.choose g parents) (cfg.pipeline g) cfg.size m with
      | (.error e, m1) => (.error e, m1)
      | (.ok offspring, m1) => altLoop cfg fuel (g + 1) (elitistSurvival (cfg.lt g m1) offspring parents cfg.kElites).1 m1

/-- Making the `AlternatingProblem` and running `generational_ea` on it (leap_ec/problem.py:556-563, leap_ec/algorithm.py:21-141). The counter is
set before the initial population is evaluated (leap_ec/algorithm.py:124-129). -/
def altRun (cfg : AltConfig γ ψ φ ρ) (initGenome : ρ → PyM (List γ) × ρ) (problem popSize : Nat) (startGeneration maxGenerations : Int) :
    HM (Mem γ ψ φ ρ) (List Nat × Int) := do
  HM.lift (alternatingInit cfg.problems cfg.modulo)
  let parents ← createPopulation initGenome problem popSize
  evaluatePopulation cfg.dec (altProb cfg.problems cfg.modulo startGeneration) parents
  altLoop cfg (maxGenerations - startGeneration).toNat startGeneration parents

end Leap
