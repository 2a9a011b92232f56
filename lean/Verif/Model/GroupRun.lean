import Verif.Model.EvoRun

/-!
# Runs whose evaluations are made in groups

`generational_ea` with `init_evaluate=ops.grouped_evaluate(...)` and a pipeline that ends `pool, grouped_evaluate`, as in
examples/advanced/external_simulation.py:87-118. Probes are left out.
-/

namespace Leap

variable {γ ψ φ ρ : Type}

/-- The `while` loop of `generational_ea` (leap_ec/algorithm.py:131-139) when the pipeline is `cfg.stages`, `pool`,
`grouped_evaluate(max_individuals_per_chunk=chunk)` (leap_ec/ops.py:268-299), with `fuel` generations to go at generation `g`. -/
def groupLoop (cfg : EvoConfig γ ψ φ ρ) (dec : Dec γ ψ) (prob : Prob γ ψ φ ρ) (chunk : Option Nat) :
    Nat → Int → List Nat → HM (Mem γ ψ φ ρ) (List Nat)
  | 0, _, parents => pure parents
  | fuel + 1, g, parents => fun m =>
    if cfg.stop g parents m then (.ok parents, m)
    else
      match runPipeline parents (cfg.choose g parents) cfg.stages cfg.size m with
      | (.error e, m1) => (.error e, m1)
      | (.ok pooled, m1) =>
        match groupedEvaluate dec prob chunk pooled m1 with
        | (.error e, m2) => (.error e, m2)
        | (.ok offspring, m2) =>
          groupLoop cfg dec prob chunk fuel (g + 1) (elitistSurvival (cfg.lt m2) offspring parents cfg.kElites).1 m2

/-- `generational_ea` (leap_ec/algorithm.py:21-141) with `init_evaluate=ops.grouped_evaluate(max_individuals_per_chunk=chunk)`. -/
def groupRun (cfg : EvoConfig γ ψ φ ρ) (initGenome : ρ → PyM (List γ) × ρ) (dec : Dec γ ψ) (prob : Prob γ ψ φ ρ) (chunk : Option Nat)
    (problem popSize : Nat) (startGeneration maxGenerations : Int) : HM (Mem γ ψ φ ρ) (List Nat) := do
  let created ← createPopulation initGenome problem popSize
  let parents ← groupedEvaluate dec prob chunk created
  groupLoop cfg dec prob chunk (maxGenerations - startGeneration).toNat startGeneration parents

end Leap
