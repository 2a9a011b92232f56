import Verif.Model.IslandRun

/-!
# Island models whose islands have problems of their own

`multi_population_ea` (leap_ec/algorithm.py:147-292) given a list of problems, one for each island, with the shared pipeline `select, clone,
stages..., pool(size), migrate(..., customs_stamp)` of examples/advanced/multitask_island_model.py:105-150. Every individual holds a
reference to its problem; whoever evaluates or compares it asks that problem.
-/

namespace Leap

variable {γ ψ φ ρ : Type}

/-- A pipeline operator after selection when individuals do not all have the same problem. For leap_ec/ops.py:236-264. -/
inductive TaskStage (γ ψ φ ρ : Type) where
  /-- an operator that looks at no problem, or at one given to it -/
  | plain (st : Stage γ ψ φ ρ)
  /-- `evaluate`, which asks each individual's own problem; `probs` says which problem a reference stands for. One decoder for all
  islands, because the representation is shared. -/
  | evaluateOwn (dec : Dec γ ψ) (probs : Nat → Prob γ ψ φ ρ)

/-- `Individual.evaluate()` (leap_ec/individual.py:176-189) of an individual with whatever problem it holds. -/
def evaluateOwnInd (dec : Dec γ ψ) (probs : Nat → Prob γ ψ φ ρ) (r : Nat) : HM (Mem γ ψ φ ρ) φ := do
  let o ← getObj r
  evaluateInd dec (probs o.problem) r

/-- The generator made by applying an operator: as in `Model/Pipeline.lean`, and `evaluate` (leap_ec/ops.py:236-264). -/
def TaskStage.apply (up : HIter (Mem γ ψ φ ρ)) : TaskStage γ ψ φ ρ → HIter (Mem γ ψ φ ρ)
  | .plain st => st.apply up
  | .evaluateOwn dec probs =>
    { σ := up.σ, init := up.init,
      next := fun s => HM.pep479 do
        let (r, s') ← up.next s
        let _ ← evaluateOwnInd dec probs r
        pure (r, s') }

/-- A chain of operators. For leap_ec/ops.py:1089-1118. -/
def taskIter (src : HIter (Mem γ ψ φ ρ)) : List (TaskStage γ ψ φ ρ) → HIter (Mem γ ψ φ ρ)
  | [] => src
  | st :: rest => taskIter (st.apply src) rest

/-- `pool(size)` at the end of the pipeline `select, clone, stages...` (leap_ec/ops.py:1089-1118). -/
def taskPipeline (pop : List Nat) (choose : Mem γ ψ φ ρ → PyM Nat × ρ) (stages : List (TaskStage γ ψ φ ρ))
    (size : Nat) : HM (Mem γ ψ φ ρ) (List Nat) := do
  let it := taskIter (selectionIter pop choose) (.plain .clone :: stages)
  let (out, _) ← hpull it.next size it.init
  pure out

/-- What a run is configured with. One representation for all islands and no population-specific operators.
For leap_ec/algorithm.py:147-292. -/
structure TaskConfig (γ ψ φ ρ : Type) where
  /-- `individual < other`: the individual asks its own problem to compare the two fitnesses
  (leap_ec/individual.py:211-253) -/
  worse : Nat → Option φ → Option φ → Bool
  /-- parent selection in a generation, on an island, on a population: which position it picks next -/
  choose : Int → Nat → List Nat → Mem γ ψ φ ρ → PyM Nat × ρ
  stages : List (TaskStage γ ψ φ ρ)
  /-- the argument of `pool` -/
  size : Nat
  /-- `topology.number_of_nodes()` -/
  numIslands : Nat
  /-- `list(topology.neighbors(i))` -/
  neighbors : Nat → List Nat
  gap : Int
  /-- which position `replacement_selector` picks -/
  replace : List Nat → Mem γ ψ φ ρ → PyM Nat × ρ
  /-- which position `emigrant_selector` picks -/
  sponsor : List Nat → Mem γ ψ φ ρ → PyM Nat × ρ
  /-- which position of a list of a given length `random.choice` picks -/
  dest : ρ → Nat → Nat × ρ
  /-- `customs_stamp(immigrant, island)` -/
  stamp : Nat → Nat → HM (Mem γ ψ φ ρ) Nat
  stop : Int → List (List Nat) → Mem γ ψ φ ρ → Bool

/-- `a < b` for individuals in memory: `a` asks its own problem. For leap_ec/individual.py:211-253. -/
def TaskConfig.lt (cfg : TaskConfig γ ψ φ ρ) (m : Mem γ ψ φ ρ) (a b : Nat) : Bool :=
  cfg.worse (((m.inds[a]?).map Obj.problem).getD 0) ((m.inds[a]?).bind Obj.fitness) ((m.inds[b]?).bind Obj.fitness)

/-- The default `customs_stamp`: `lambda x, _: x` (leap_ec/ops.py:1125). -/
def noStamp (imm _cur : Nat) : HM (Mem γ ψ φ ρ) Nat := pure imm

/-- `problem_stamp(problems)` (examples/advanced/multitask_island_model.py:66-77): the immigrant gets the island's problem and is
evaluated again. `ids` is the list of problems. -/
def problemStamp (dec : Dec γ ψ) (probs : Nat → Prob γ ψ φ ρ) (ids : List Nat) (imm cur : Nat) : HM (Mem γ ψ φ ρ) Nat :=
  match ids[cur]? with
  | none => HM.lift (.error .indexError)
  | some k => do
    modObj imm fun x => { x with problem := k }
    let _ ← evaluateOwnInd dec probs imm
    pure imm

/-- `if imm >= contestant: population[contestant_index] = imm` (leap_ec/ops.py:1218-1221). `>=` is `not <`
(leap_ec/individual.py:16). -/
def duel (cfg : TaskConfig γ ψ φ ρ) (imm i contestant : Nat) (pop : List Nat) : HM (Mem γ ψ φ ρ) (List Nat) := fun m =>
  (.ok (if cfg.lt m imm contestant then pop else pop.set i imm), m)

/-- The immigration loop of `do_migrate` (leap_ec/ops.py:1206-1225) on island `cur`: each immigrant is stamped, meets one resident and
takes its place unless it is worse. -/
def immigrateTask (cfg : TaskConfig γ ψ φ ρ) (cur : Nat) : List Nat → List Nat → HM (Mem γ ψ φ ρ) (List Nat)
  | [], pop => pure pop
  | imm :: rest, pop => do
    let imm ← cfg.stamp imm cur
    let (i, contestant) ← pickOne (cfg.replace pop) pop
    let pop ← duel cfg imm i contestant pop
    immigrateTask cfg cur rest pop

/-- The part of the configuration that emigration uses (leap_ec/ops.py:1230-1245): it compares nobody and makes no offspring. -/
def TaskConfig.ferry (cfg : TaskConfig γ ψ φ ρ) : IslandConfig γ ψ φ ρ where
  worse _ _ := false
  choose := cfg.choose
  stages := []
  size := cfg.size
  numIslands := cfg.numIslands
  neighbors := cfg.neighbors
  gap := cfg.gap
  replace := cfg.replace
  sponsor := cfg.sponsor
  dest := cfg.dest
  stop := cfg.stop

/-- What one island does in a generation (leap_ec/algorithm.py:277-287, leap_ec/ops.py:1198-1247). -/
def taskStep (cfg : TaskConfig γ ψ φ ρ) (g : Int) (cur : Nat) (parents : List Nat) (queues : List (List Nat)) :
    HM (Mem γ ψ φ ρ) (List Nat × List (List Nat)) := do
  let offspring ← taskPipeline parents (cfg.choose g cur parents) cfg.stages cfg.size
  match queues[cur]? with
  | none => HM.lift (.error .indexError)
  | some queue =>
    let pop ← immigrateTask cfg cur queue offspring
    let queues ← emigrateInds cfg.ferry g cur pop (queues.set cur [])
    pure (pop, queues)

/-- The `for` loop over the islands (leap_ec/algorithm.py:277-287), `k` islands to go from island `cur`. -/
def taskSweep (cfg : TaskConfig γ ψ φ ρ) (g : Int) : Nat → Nat → List (List Nat) → List (List Nat) →
    HM (Mem γ ψ φ ρ) (List (List Nat) × List (List Nat))
  | 0, _, pops, queues => pure (pops, queues)
  | k + 1, cur, pops, queues => do
    let (pop, queues) ← taskStep cfg g cur (pops.getD cur []) queues
    taskSweep cfg g k (cur + 1) (pops.set cur pop) queues

/-- The `while` loop (leap_ec/algorithm.py:274-289), with `fuel` generations to go at generation `g`. -/
def taskLoop (cfg : TaskConfig γ ψ φ ρ) : Nat → Int → List (List Nat) → List (List Nat) →
    HM (Mem γ ψ φ ρ) (List (List Nat) × List (List Nat))
  | 0, _, pops, queues => pure (pops, queues)
  | fuel + 1, g, pops, queues => fun m =>
    if cfg.stop g pops m then (.ok (pops, queues), m)
    else (taskSweep cfg g pops.length 0 pops queues >>= fun pq => taskLoop cfg fuel (g + 1) pq.1 pq.2) m

/-- Create the populations, each with its own problem (leap_ec/algorithm.py:262-263). -/
def createTasks (initGenome : ρ → PyM (List γ) × ρ) (popSize : Nat) : List Nat → HM (Mem γ ψ φ ρ) (List (List Nat))
  | [] => pure []
  | k :: ks => do
    let p ← createPopulation initGenome k popSize
    let ps ← createTasks initGenome popSize ks
    pure (p :: ps)

/-- `Individual.evaluate_population` (leap_ec/individual.py:105-116), each individual by its own problem. -/
def evaluateOwnAll (dec : Dec γ ψ) (probs : Nat → Prob γ ψ φ ρ) : List Nat → HM (Mem γ ψ φ ρ) Unit
  | [] => pure ()
  | r :: rs => do
    let _ ← evaluateOwnInd dec probs r
    evaluateOwnAll dec probs rs

/-- Evaluate the initial populations (leap_ec/algorithm.py:264). -/
def evaluateTasks (dec : Dec γ ψ) (probs : Nat → Prob γ ψ φ ρ) : List (List Nat) → HM (Mem γ ψ φ ρ) Unit
  | [] => pure ()
  | p :: ps => do
    evaluateOwnAll dec probs p
    evaluateTasks dec probs ps

/-- `multi_population_ea` (leap_ec/algorithm.py:147-292) with a list of problems `ids` and one representation, which is repeated
`numPopulations` times (leap_ec/algorithm.py:256-259): the islands, and who is still travelling. -/
def taskRun (cfg : TaskConfig γ ψ φ ρ) (initGenome : ρ → PyM (List γ) × ρ) (dec : Dec γ ψ) (probs : Nat → Prob γ ψ φ ρ)
    (ids : List Nat) (numPopulations popSize : Nat) (maxGenerations : Int) : HM (Mem γ ψ φ ρ) (List (List Nat) × List (List Nat)) :=
  if numPopulations ≠ ids.length then HM.lift (.error .assertionError)
  else do
    let pops ← createTasks initGenome popSize ids
    evaluateTasks dec probs pops
    taskLoop cfg maxGenerations.toNat 0 pops (List.replicate cfg.numIslands [])

end Leap
