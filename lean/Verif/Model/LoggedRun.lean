import Verif.Model.EvoRun
import Verif.Model.Probe

/-!
# `generational_ea` with a probe at the end of its pipeline

Probes are operators of the pipeline. They read individuals, which live in memory, and write to a state of their own (a file, a list,
a best individual), which outlives the run, also when the run raises.
-/

namespace Leap

variable {γ ψ φ ρ σ M : Type}

/-- The `while` loop of `generational_ea` (leap_ec/algorithm.py:131-139) with a probe as the last operator of the user's pipeline.
The loop appends `elitist_survival` after it (leap_ec/algorithm.py:134-136), so the probe gets what `pool` made. It reads the generation
that `inc_generation` keeps in the context (leap_ec/util.py:123-138). `probe` gets the generation, the population, the memory and its own
state; it returns a population or raises, and leaves its state. -/
def loggedLoop (cfg : EvoConfig γ ψ φ ρ) (probe : Int → List Nat → Mem γ ψ φ ρ → σ → PyM (List Nat) × σ) :
    Nat → Int → List Nat → σ → Mem γ ψ φ ρ → (PyM (List Nat) × σ) × Mem γ ψ φ ρ
  | 0, _, parents, s, m => ((.ok parents, s), m)
  | fuel + 1, g, parents, s, m =>
    if cfg.stop g parents m then ((.ok parents, s), m)
    else
      match runPipeline parents (cfg.choose g parents) cfg.stages cfg.size m with
      | (.error e, m1) => ((.error e, s), m1)
      | (.ok offspring, m1) =>
        match probe g offspring m1 s with
        | (.error e, s1) => ((.error e, s1), m1)
        | (.ok offspring, s1) =>
          loggedLoop cfg probe fuel (g + 1) (elitistSurvival (cfg.lt m1) offspring parents cfg.kElites).1 s1 m1

/-- `generational_ea` (leap_ec/algorithm.py:21-141) with a probe as the last operator of its pipeline. -/
def loggedRun (cfg : EvoConfig γ ψ φ ρ) (probe : Int → List Nat → Mem γ ψ φ ρ → σ → PyM (List Nat) × σ)
    (initGenome : ρ → PyM (List γ) × ρ) (dec : Dec γ ψ) (prob : Prob γ ψ φ ρ)
    (problem popSize : Nat) (startGeneration maxGenerations : Int) (s : σ) (m : Mem γ ψ φ ρ) :
    (PyM (List Nat) × σ) × Mem γ ψ φ ρ :=
  match createPopulation initGenome problem popSize m with
  | (.error e, m1) => ((.error e, s), m1)
  | (.ok parents, m1) =>
    match evaluatePopulation dec prob parents m1 with
    | (.error e, m2) => ((.error e, s), m2)
    | (.ok _, m2) => loggedLoop cfg probe (maxGenerations - startGeneration).toNat startGeneration parents s m2

/-- What extra metrics of a probe can see of an individual: its genes and its fitness. For leap_ec/probe.py:397-398. -/
def lookAt (m : Mem γ ψ φ ρ) (r : Nat) : Option (List γ × Option φ) :=
  match m.inds[r]? with
  | none => none
  | some o => (m.arrays[o.genome]?).map fun g => (g, o.fitness)

/-- `individual.fitness` for the statistics. A fitness of `None` would make `numpy` raise; the theorems are about pipelines that evaluate.
For leap_ec/probe.py:362-399. -/
def fitnessAt (m : Mem γ ψ ℚ ρ) (r : Nat) : ℚ := (((m.inds[r]?).bind Obj.fitness)).getD 0

/-- The probe's configuration for individuals in memory: extra metrics are called on the population (leap_ec/probe.py:397-398). -/
def StatsConfig.inMemory (c : StatsConfig (Option (List γ × Option ℚ)) M) (m : Mem γ ψ ℚ ρ) : StatsConfig Nat M :=
  { c with extraMetrics := c.extraMetrics.map fun e => (e.1, fun pop => e.2 (pop.map (lookAt m))) }

/-- `FitnessStatsCSVProbe.__call__` (leap_ec/probe.py:362-399) on individuals in memory: the best so far is a reference, and its fitness is
read again for each row. `better` is `>` of two fitnesses. -/
def statsInMemory (c : StatsConfig (Option (List γ × Option ℚ)) M) (better : Option ℚ → Option ℚ → Bool) (g : Int) (pop : List Nat)
    (m : Mem γ ψ ℚ ρ) (st : StatsState Nat M) : PyM (List Nat) × StatsState Nat M :=
  statsProbe (c.inMemory m) (fun a b => better ((m.inds[a]?).bind Obj.fitness) ((m.inds[b]?).bind Obj.fitness)) (fitnessAt m)
    (some (some g)) pop st

end Leap
