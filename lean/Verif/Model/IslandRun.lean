import Verif.Model.EvoRun

/-!
# Island models over the object memory

`multi_population_ea` (leap_ec/algorithm.py:147-292) with the shared pipeline `select, clone, stages..., pool(size),
migrate(...)` of its documentation (leap_ec/algorithm.py:206-237). Individuals are objects in memory, and so is what travels between
islands: nothing but `clone` keeps the islands apart.
-/

namespace Leap

variable {γ ψ φ ρ : Type}

/-- What a run is configured with. One problem and one representation for all islands, no population-specific operators, and the
default `customs_stamp`, which does nothing (leap_ec/ops.py:1125). -/
structure IslandConfig (γ ψ φ ρ : Type) where
  /-- `individual < other`, which asks the problem to compare the two fitnesses
  (leap_ec/individual.py:211-253) -/
  worse : Option φ → Option φ → Bool
  /-- parent selection in a generation, on an island, on a population: which position it picks next -/
  choose : Int → Nat → List Nat → Mem γ ψ φ ρ → PyM Nat × ρ
  stages : List (Stage γ ψ φ ρ)
  /-- the argument of `pool` -/
  size : Nat
  /-- `topology.number_of_nodes()` -/
  numIslands : Nat
  /-- `list(topology.neighbors(i))` -/
  neighbors : Nat → List Nat
  gap : Int
  /-- which position `replacement_selector` picks -/
  replace : List Nat → Mem γ ψ φ ρ → PyM Nat × ρ
  /-- which position `emigrant_selector` picks -/
  sponsor : List Nat → Mem γ ψ φ ρ → PyM Nat × ρ
  /-- which position of a list of a given length `random.choice` picks -/
  dest : ρ → Nat → Nat × ρ
  stop : Int → List (List Nat) → Mem γ ψ φ ρ → Bool

/-- `a < b` for individuals in memory. For leap_ec/individual.py:211-253. -/
def IslandConfig.lt (cfg : IslandConfig γ ψ φ ρ) (m : Mem γ ψ φ ρ) (a b : Nat) : Bool :=
  cfg.worse ((m.inds[a]?).bind Obj.fitness) ((m.inds[b]?).bind Obj.fitness)

/-- A selection operator asked for one individual: the position it picks, and the individual there.
For leap_ec/ops.py:1206-1225. -/
def pickOne (choose : Mem γ ψ φ ρ → PyM Nat × ρ) (pop : List Nat) : HM (Mem γ ψ φ ρ) (Nat × Nat) := fun m =>
  match choose m with
  | (.error e, s) => (.error e, { m with rng := s })
  | (.ok i, s) =>
    match pop[i]? with
    | none => (.error .indexError, { m with rng := s })
    | some r => (.ok (i, r), { m with rng := s })

/-- The immigration loop of `do_migrate` (leap_ec/ops.py:1206-1225): each immigrant meets one resident and takes its place
unless it is worse. `>=` is `not <` (leap_ec/individual.py:16). -/
def immigrateInds (cfg : IslandConfig γ ψ φ ρ) : List Nat → List Nat → HM (Mem γ ψ φ ρ) (List Nat)
  | [], pop => pure pop
  | imm :: rest, pop => do
    let (i, contestant) ← pickOne (cfg.replace pop) pop
    fun m => immigrateInds cfg rest (if cfg.lt m imm contestant then pop else pop.set i imm) m

/-- `emi = sponsor.clone(); emi.fitness = sponsor.fitness` (leap_ec/ops.py:1236-1237). -/
def cloneWithFitness (r : Nat) : HM (Mem γ ψ φ ρ) Nat := do
  let c ← cloneInd r
  let o ← getObj r
  modObj c fun x => { x with fitness := o.fitness }
  pure c

/-- The emigration step of `do_migrate` (leap_ec/ops.py:1230-1245). `generation % 0` raises `ZeroDivisionError`, `random.choice`
of an empty list `IndexError`. -/
def emigrateInds (cfg : IslandConfig γ ψ φ ρ) (g : Int) (cur : Nat) (pop : List Nat) (queues : List (List Nat)) :
    HM (Mem γ ψ φ ρ) (List (List Nat)) :=
  if cfg.gap = 0 then HM.lift (.error .zeroDivisionError)
  else if g % cfg.gap = 0 then do
    let (_, sponsor) ← pickOne (cfg.sponsor pop) pop
    let emi ← cloneWithFitness sponsor
    let k ← useRng fun s => ((.ok (cfg.dest s (cfg.neighbors cur).length).1 : PyM Nat), (cfg.dest s (cfg.neighbors cur).length).2)
    match (cfg.neighbors cur)[k]? with
    | none => HM.lift (.error .indexError)
    | some d =>
      match queues[d]? with
      | none => HM.lift (.error .indexError)
      | some q => pure (queues.set d (q ++ [emi]))
  else pure queues

/-- What one island does in a generation (leap_ec/algorithm.py:277-287): the pipeline, then the migration operator
(leap_ec/ops.py:1198-1247). -/
def islandStep (cfg : IslandConfig γ ψ φ ρ) (g : Int) (cur : Nat) (parents : List Nat) (queues : List (List Nat)) :
    HM (Mem γ ψ φ ρ) (List Nat × List (List Nat)) := do
  let offspring ← runPipeline parents (cfg.choose g cur parents) cfg.stages cfg.size
  match queues[cur]? with
  | none => HM.lift (.error .indexError)
  | some queue =>
    let pop ← immigrateInds cfg queue offspring
    let queues ← emigrateInds cfg g cur pop (queues.set cur [])
    pure (pop, queues)

/-- The `for` loop over the islands (leap_ec/algorithm.py:277-287), `k` islands to go from island `cur`. -/
def islandSweep (cfg : IslandConfig γ ψ φ ρ) (g : Int) : Nat → Nat → List (List Nat) → List (List Nat) →
    HM (Mem γ ψ φ ρ) (List (List Nat) × List (List Nat))
  | 0, _, pops, queues => pure (pops, queues)
  | k + 1, cur, pops, queues => do
    let (pop, queues) ← islandStep cfg g cur (pops.getD cur []) queues
    islandSweep cfg g k (cur + 1) (pops.set cur pop) queues

/-- The `while` loop (leap_ec/algorithm.py:274-289), with `fuel` generations to go at generation `g`. -/
def islandLoop (cfg : IslandConfig γ ψ φ ρ) : Nat → Int → List (List Nat) → List (List Nat) →
    HM (Mem γ ψ φ ρ) (List (List Nat) × List (List Nat))
  | 0, _, pops, queues => pure (pops, queues)
  | fuel + 1, g, pops, queues => fun m =>
    if cfg.stop g pops m then (.ok (pops, queues), m)
    else (islandSweep cfg g pops.length 0 pops queues >>= fun pq => islandLoop cfg fuel (g + 1) pq.1 pq.2) m

/-- Create the populations (leap_ec/algorithm.py:262-263). -/
def createIslands (initGenome : ρ → PyM (List γ) × ρ) (problem popSize : Nat) : Nat → HM (Mem γ ψ φ ρ) (List (List Nat))
  | 0 => pure []
  | k + 1 => do
    let p ← createPopulation initGenome problem popSize
    let ps ← createIslands initGenome problem popSize k
    pure (p :: ps)

/-- Evaluate them (leap_ec/algorithm.py:264). -/
def evaluateIslands (dec : Dec γ ψ) (prob : Prob γ ψ φ ρ) : List (List Nat) → HM (Mem γ ψ φ ρ) Unit
  | [] => pure ()
  | p :: ps => do
    evaluatePopulation dec prob p
    evaluateIslands dec prob ps

/-- `multi_population_ea` (leap_ec/algorithm.py:147-292): the islands, and who is still travelling. -/
def islandRun (cfg : IslandConfig γ ψ φ ρ) (initGenome : ρ → PyM (List γ) × ρ) (dec : Dec γ ψ) (prob : Prob γ ψ φ ρ)
    (problem numPopulations popSize : Nat) (maxGenerations : Int) : HM (Mem γ ψ φ ρ) (List (List Nat) × List (List Nat)) := do
  let pops ← createIslands initGenome problem popSize numPopulations
  evaluateIslands dec prob pops
  islandLoop cfg maxGenerations.toNat 0 pops (List.replicate cfg.numIslands [])

/-- `multi_population_ea` (leap_ec/algorithm.py:147-292) with a `migrate` operator that has been used in an earlier run: the list of immigrants belongs to the operator
(leap_ec/ops.py:1192-1196), so it still holds `queues`. -/
def islandRunReusing (cfg : IslandConfig γ ψ φ ρ) (queues : List (List Nat)) (initGenome : ρ → PyM (List γ) × ρ) (dec : Dec γ ψ) (prob : Prob γ ψ φ ρ)
    (problem numPopulations popSize : Nat) (maxGenerations : Int) : HM (Mem γ ψ φ ρ) (List (List Nat) × List (List Nat)) := do
  let pops ← createIslands initGenome problem popSize numPopulations
  evaluateIslands dec prob pops
  islandLoop cfg maxGenerations.toNat 0 pops queues

end Leap
