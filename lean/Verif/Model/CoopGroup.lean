import Verif.Model.CoopRun

/-!
# Cooperative coevolution by a `CooperativeProblem`, over the object memory

`multi_population_ea` (leap_ec/algorithm.py:147-292) with the shared pipeline `select, clone, stages..., pool(size),
grouped_evaluate(max_individuals_per_chunk)` and `problem=CooperativeProblem(...)` of
examples/advanced/coevolution_via_fitness_functions.py:67-93. `combine_genomes` is the default, concatenation, and there is no
log stream (with one, evaluation raises: `Model/Wrappers.lean`).
-/

namespace Leap

variable {γ ψ ρ : Type}

/-- The arguments of `CooperativeProblem(...)` (leap_ec/problem.py:428-446). -/
structure CoopProblem (γ ψ ρ : Type) where
  /-- `combined_decoder` -/
  dec : Dec γ ψ
  /-- `wrapped_problem`: what it does and its identity -/
  wrapped : Prob γ ψ ℚ ρ
  wrappedId : Nat
  numTrials : Nat
  collab : Collab γ ψ ρ

/-- The trials of `CooperativeProblem.evaluate` (leap_ec/problem.py:473-490). The selection iterators are made anew in every trial
(leap_ec/problem.py:508). The combined individual is a new `Individual` on a new array. The genomes of the team are read when they are
concatenated; nothing writes to them in between. -/
def cpTrials (cp : CoopProblem γ ψ ρ) (pops : List (List Nat)) (current cur : Nat) : Nat → HM (Mem γ ψ ℚ ρ) (List ℚ)
  | 0 => pure []
  | k + 1 => do
    let (team, _) ← chooseTeam cp.collab current cur 0 pops (pops.map fun _ => cp.collab.init)
    let gs ← genomesOf team
    let a ← newArr gs.flatten
    let combined ← makeIndividual a cp.wrappedId
    let f ← evaluateInd cp.dec cp.wrapped combined
    let fs ← cpTrials cp pops current cur k
    pure (f :: fs)

/-- `CooperativeProblem.evaluate(phenome, individual=current)` (leap_ec/problem.py:461-492). The phenome is not used. -/
def cpEvaluate (cp : CoopProblem γ ψ ρ) (pops : List (List Nat)) (current cur : Nat) : HM (Mem γ ψ ℚ ρ) ℚ := do
  let fs ← cpTrials cp pops current cur cp.numTrials
  pure (mean fs)

/-- `CooperativeProblem.evaluate_multiple(phenomes, individuals)` (leap_ec/problem.py:494-500). -/
def cpMultiple (cp : CoopProblem γ ψ ρ) (pops : List (List Nat)) (cur : Nat) : List Nat → HM (Mem γ ψ ℚ ρ) (List ℚ)
  | [] => pure []
  | r :: rs => do
    let f ← cpEvaluate cp pops r cur
    let fs ← cpMultiple cp pops cur rs
    pure (f :: fs)

/-- The loop of `grouped_evaluate` over the chunks (leap_ec/ops.py:288-294): the phenomes are computed, then the problem is called.
`own` is the decoder of the individuals. -/
def cpChunks (cp : CoopProblem γ ψ ρ) (own : Dec γ ψ) (pops : List (List Nat)) (cur : Nat) : List (List Nat) → HM (Mem γ ψ ℚ ρ) (List ℚ)
  | [] => pure []
  | ch :: chs => do
    let _ ← phenomesOf own ch
    let fit ← cpMultiple cp pops cur ch
    let rest ← cpChunks cp own pops cur chs
    pure (fit ++ rest)

/-- `grouped_evaluate(population, max_individuals_per_chunk)` (leap_ec/ops.py:270-299) on individuals with that problem. -/
def groupedCooperate (cp : CoopProblem γ ψ ρ) (own : Dec γ ψ) (chunk : Option Nat) (pops : List (List Nat)) (cur : Nat)
    (population : List Nat) : HM (Mem γ ψ ℚ ρ) (List Nat) := do
  match population with
  | [] => HM.raise .indexError                          -- population[0]
  | p0 :: _ =>
    let o ← getObj p0
    let ps ← problemsOf population
    if ps.all (fun q => q == o.problem) then
      let n := chunk.getD population.length
      if hn : 0 < n then
        let fitnesses ← cpChunks cp own pops cur (chunksOf n hn population)
        assignFitnesses fitnesses population
        pure population
      else HM.raise .valueError
    else HM.raise .assertionError

/-- What a run is configured with. For leap_ec/algorithm.py:147-292. -/
structure CoopGroupConfig (γ ψ ρ : Type) where
  cp : CoopProblem γ ψ ρ
  /-- the decoder of the representation of each sub-population -/
  own : Nat → Dec γ ψ
  /-- `max_individuals_per_chunk` -/
  chunk : Option Nat
  /-- parent selection in a generation, in a sub-population, on a population: which position it picks next -/
  choose : Int → Nat → List Nat → Mem γ ψ ℚ ρ → PyM Nat × ρ
  /-- the operators between `clone` and `pool` -/
  stages : List (Stage γ ψ ℚ ρ)
  /-- the argument of `pool` -/
  size : Nat
  stop : Int → List (List Nat) → Mem γ ψ ℚ ρ → Bool

/-- The pipeline on sub-population `cur`, `pops` being the sub-populations in the context (leap_ec/algorithm.py:282-285). -/
def coopGroupPipeline (cfg : CoopGroupConfig γ ψ ρ) (g : Int) (cur : Nat) (pops : List (List Nat)) (parents : List Nat) :
    HM (Mem γ ψ ℚ ρ) (List Nat) := do
  let out ← runPipeline parents (cfg.choose g cur parents) cfg.stages cfg.size
  groupedCooperate cfg.cp (cfg.own cur) cfg.chunk pops cur out

/-- The `for` loop over the sub-populations (leap_ec/algorithm.py:277-287), as `coopSweep`. -/
def coopGroupSweep (cfg : CoopGroupConfig γ ψ ρ) (g : Int) : Nat → Nat → List (List Nat) → HM (Mem γ ψ ℚ ρ) (List (List Nat))
  | 0, _, pops => pure pops
  | k + 1, cur, pops => do
    let off ← coopGroupPipeline cfg g cur pops (pops.getD cur [])
    coopGroupSweep cfg g k (cur + 1) (pops.set cur off)

/-- The `while` loop (leap_ec/algorithm.py:274-289), as `coopLoop`. -/
def coopGroupLoop (cfg : CoopGroupConfig γ ψ ρ) : Nat → Int → List (List Nat) → HM (Mem γ ψ ℚ ρ) (List (List Nat))
  | 0, _, pops => pure pops
  | fuel + 1, g, pops => fun m =>
    if cfg.stop g pops m then (.ok pops, m)
    else (coopGroupSweep cfg g pops.length 0 pops >>= fun ps => coopGroupLoop cfg fuel (g + 1) ps) m

/-- A run (leap_ec/algorithm.py:147-292, examples/advanced/coevolution_via_fitness_functions.py:67-93); the constructor of the problem asserts
that there are trials (leap_ec/problem.py:431). -/
def coopGroupRun (cfg : CoopGroupConfig γ ψ ρ) (subpops : List ((ρ → PyM (List γ) × ρ) × Nat)) (popSize : Nat) (value : ℚ)
    (maxGenerations : Int) : HM (Mem γ ψ ℚ ρ) (List (List Nat)) := do
  HM.lift (if 0 < cfg.cp.numTrials then .ok () else .error .assertionError)
  let pops ← createTeams popSize subpops
  constEvaluateAll value pops
  coopGroupLoop cfg maxGenerations.toNat 0 pops

/-- `WholeEvaluatedIndividual.evaluate()` with a `CooperativeProblem` (leap_ec/individual.py:329-336, 176-189): decode, then evaluate with
the individual passed along. `ctx` is what `context['leap']` holds under `'subpopulations'` and `'current_subpopulation'`; a missing key
raises `KeyError` (leap_ec/problem.py:470-471). -/
def wholeEvaluate (cp : CoopProblem γ ψ ρ) (own : Dec γ ψ) (ctx : Option (List (List Nat)) × Option Nat) (r : Nat) :
    HM (Mem γ ψ ℚ ρ) Unit := do
  let _ ← decodeInd own r
  let pops ← HM.lift (ctx.1.elim (.error .keyError) .ok)
  let cur ← HM.lift (ctx.2.elim (.error .keyError) .ok)
  let f ← cpEvaluate cp pops r cur
  modObj r fun x => { x with fitness := some f }

/-- `init_evaluate(p)` with the default `Individual.evaluate_population` (leap_ec/algorithm.py:150, 264,
leap_ec/individual.py:105-116), before the run has written its sub-populations to the context (leap_ec/algorithm.py:268). -/
def wholeEvaluatePopulation (cp : CoopProblem γ ψ ρ) (own : Dec γ ψ) (ctx : Option (List (List Nat)) × Option Nat) :
    List Nat → HM (Mem γ ψ ℚ ρ) Unit
  | [] => pure ()
  | r :: rs => do
    wholeEvaluate cp own ctx r
    wholeEvaluatePopulation cp own ctx rs

end Leap
