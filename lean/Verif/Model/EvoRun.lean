import Verif.Model.Pipeline
import Verif.Model.Selection

/-!
# `generational_ea` over the object memory

The main loop of `Model/Algorithm.lean` for the pipelines of `Model/Pipeline.lean`: individuals are objects in
memory, comparing them reads their fitness there, and nothing but the operators themselves keeps parents and offspring
apart.
-/

namespace Leap

variable {γ ψ φ ρ : Type}

/-- What a run is configured with. For leap_ec/algorithm.py:21-139. -/
structure EvoConfig (γ ψ φ ρ : Type) where
  /-- `individual < other`, which asks the problem to compare the two fitnesses
  (leap_ec/individual.py:211-253) -/
  worse : Option φ → Option φ → Bool
  /-- the selection operator in a generation, on a population: which position it picks next -/
  choose : Int → List Nat → Mem γ ψ φ ρ → PyM Nat × ρ
  stages : List (Stage γ ψ φ ρ)
  /-- the argument of `pool` -/
  size : Nat
  kElites : Nat
  /-- the stop condition -/
  stop : Int → List Nat → Mem γ ψ φ ρ → Bool

/-- `a < b` for individuals in memory. For leap_ec/individual.py:211-253. -/
def EvoConfig.lt (cfg : EvoConfig γ ψ φ ρ) (m : Mem γ ψ φ ρ) (a b : Nat) : Bool :=
  cfg.worse ((m.inds[a]?).bind Obj.fitness) ((m.inds[b]?).bind Obj.fitness)

/-- The `while` loop of `generational_ea` (leap_ec/algorithm.py:131-139), with `fuel` generations to go at generation
`g`. -/
def evoLoop (cfg : EvoConfig γ ψ φ ρ) : Nat → Int → List Nat → HM (Mem γ ψ φ ρ) (List Nat)
  | 0, _, parents => pure parents
  | fuel + 1, g, parents => fun m =>
    if cfg.stop g parents m then (.ok parents, m)
    else
      match runPipeline parents (cfg.choose g parents) cfg.stages cfg.size m with
      | (.error e, m1) => (.error e, m1)
      | (.ok offspring, m1) =>
        evoLoop cfg fuel (g + 1) (elitistSurvival (cfg.lt m1) offspring parents cfg.kElites).1 m1

/-- `generational_ea` (leap_ec/algorithm.py:21-141) with `init_evaluate` as `Individual.evaluate_population`. -/
def evoRun (cfg : EvoConfig γ ψ φ ρ) (initGenome : ρ → PyM (List γ) × ρ) (dec : Dec γ ψ) (prob : Prob γ ψ φ ρ)
    (problem popSize : Nat) (startGeneration maxGenerations : Int) : HM (Mem γ ψ φ ρ) (List Nat) := do
  let parents ← createPopulation initGenome problem popSize
  evaluatePopulation dec prob parents
  evoLoop cfg (maxGenerations - startGeneration).toNat startGeneration parents

/-- The function made by `genome_mutate_binomial` as a mutation step: it writes the perturbed genes into its argument
(leap_ec/int_rep/ops.py:284-286) and returns the new array made by `np.clip` and `astype` (leap_ec/int_rep/ops.py:288). -/
noncomputable def binomialFn (n : Nat) (std : ScalarOrList ℝ) (bounds : HardBounds Int) (expected probability : Option ℚ)
    (rand : ρ → (List ℚ × List Nat) × ρ) : MutFn Int ρ := fun g s =>
  match genomeMutateBinomial n std (.all (none, none)) expected probability (rand s).1.1 (rand s).1.2 g with
  | .error e => ⟨g, .error e, (rand s).2⟩
  | .ok unclipped =>
    match applyHardBounds unclipped bounds with
    | .error e => ⟨unclipped, .error e, (rand s).2⟩
    | .ok g' => ⟨unclipped, .ok (some g'), (rand s).2⟩

/-- `tournament_selection` (leap_ec/ops.py:879-953) as the selection of a run: `draw` is
`random.choices(range(len(population)), k=k)`, and the drawn individuals are compared by `>`, which asks the problem about their
fitnesses in memory. -/
def tournamentChoice (better : Option φ → Option φ → Bool) (k : Nat) (draw : ρ → Nat → List Nat × ρ) (pop : List Nat)
    (m : Mem γ ψ φ ρ) : PyM Nat × ρ :=
  let fit := fun r => (m.inds[r]?).bind Obj.fitness
  match tournamentStep (fun a b => better (fit b) (fit a)) (fun a b => better (fit a) (fit b)) false pop k
      (draw m.rng pop.length).1 with
  | .ok ([i], _) => (.ok i, (draw m.rng pop.length).2)
  | .ok _ => (.error .valueError, (draw m.rng pop.length).2)
  | .error e => (.error e, (draw m.rng pop.length).2)

end Leap
