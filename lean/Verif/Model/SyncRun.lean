import Verif.Model.AsyncRun

/-!
# Synchronous distributed runs over the object memory

The loop of examples/distributed/simple_sync_distributed.py:50-98: create a population of robust (in particular distributed)
individuals, evaluate it on the workers, and then make each generation by a pipeline that ends in `synchronous.eval_pool` and
`elitist_survival`. Dask is what it may do: workers finish in any order, they get the individual itself (threads of the same process)
or a copy (other processes), and a worker in another process has its own random numbers. Probes, log messages, times, host names and
the count of individuals that are not viable are left out (for these see `Model/DistIndividual.lean`).
-/

namespace Leap

variable {γ ψ φ ρ : Type}

/-- What a run is configured with. `best k population` is `heapq.nlargest`, which `toolz.topk` calls (leap_ec/ops.py:881-900): the
comparison of two individuals that are not viable tosses a coin (leap_ec/problem.py:101-105), so who of them is among the best is up
to the random numbers. -/
structure SyncConfig (γ ψ φ ρ : Type) extends EvoConfig γ ψ φ ρ where
  best : Nat → List Nat → Mem γ ψ φ ρ → List Nat × ρ
  nan : φ
  dec : Dec γ ψ
  prob : Prob γ ψ φ ρ

/-- What the environment decides about one call of `eval_population`: who is copied, in which order the evaluations are made
(numbers of submission), and which random numbers the workers in other processes have. For leap_ec/distrib/synchronous.py:28-48. -/
structure SyncRound (ρ : Type) where
  copied : Nat → Bool
  order : List Nat
  own : Nat → Option ρ

/-- `evaluate(individual)` on a worker (leap_ec/distrib/evaluate.py:16-72): with the random numbers of this process, or with the worker's
own, which leaves those of this process alone. -/
def workerEvaluate (nan : φ) (dec : Dec γ ψ) (prob : Prob γ ψ φ ρ) (own : Option ρ) (r : Nat) : HM (Mem γ ψ φ ρ) φ := fun m =>
  match own with
  | none => robustEvaluate nan dec prob r m
  | some s =>
    match robustEvaluate nan dec prob r { m with rng := s } with
    | (x, m1) => (x, { m1 with rng := m.rng })

/-- The workers make the evaluations in this order. For leap_ec/distrib/synchronous.py:28-48. -/
def completeAll (nan : φ) (dec : Dec γ ψ) (prob : Prob γ ψ φ ρ) (own : Nat → Option ρ) (sent : List Nat) : List Nat → HM (Mem γ ψ φ ρ) Unit
  | [] => pure ()
  | i :: is =>
    match sent[i]? with
    | none => completeAll nan dec prob own sent is
    | some r => do
      let _ ← workerEvaluate nan dec prob (own i) r
      completeAll nan dec prob own sent is

/-- `eval_population(population, client)` (leap_ec/distrib/synchronous.py:28-48): submit everybody, and gather the results in the order of
submission once all are there. -/
def syncEvaluate (nan : φ) (dec : Dec γ ψ) (prob : Prob γ ψ φ ρ) (c : SyncRound ρ) (population : List Nat) : HM (Mem γ ψ φ ρ) (List Nat) := do
  let sent ← submitAll c.copied population
  completeAll nan dec prob c.own sent c.order
  pure sent

/-- `elitist_survival(offspring, parents, k)` (leap_ec/ops.py:875-900) for individuals in memory. -/
def syncSurvival (cfg : SyncConfig γ ψ φ ρ) (offspring parents : List Nat) : HM (Mem γ ψ φ ρ) (List Nat) := fun m =>
  let elites := cfg.best cfg.kElites parents m
  let m1 := { m with rng := elites.2 }
  let survivors := cfg.best offspring.length (offspring ++ elites.1) m1
  (.ok survivors.1, { m1 with rng := survivors.2 })

/-- The loop over the generations (examples/distributed/simple_sync_distributed.py:75-98), with `fuel` generations to go at generation `g`:
`eval_pool` (leap_ec/distrib/synchronous.py:51-83) pulls `size` individuals out of the pipeline and evaluates them. -/
def syncLoop (cfg : SyncConfig γ ψ φ ρ) (env : Int → SyncRound ρ) : Nat → Int → List Nat → HM (Mem γ ψ φ ρ) (List Nat)
  | 0, _, parents => pure parents
  | fuel + 1, g, parents => fun m =>
    if cfg.stop g parents m then (.ok parents, m)
    else
      (runPipeline parents (cfg.choose g parents) cfg.stages cfg.size >>= fun pulled =>
        syncEvaluate cfg.nan cfg.dec cfg.prob (env g) pulled >>= fun offspring =>
          syncSurvival cfg offspring parents >>= fun survivors =>
            syncLoop cfg env fuel (g + 1) survivors) m

/-- The whole run (examples/distributed/simple_sync_distributed.py:50-98). The initial population is evaluated as round `-1` of the
environment. -/
def syncRun (cfg : SyncConfig γ ψ φ ρ) (initGenome : ρ → PyM (List γ) × ρ) (problem popSize generations : Nat) (env : Int → SyncRound ρ) :
    HM (Mem γ ψ φ ρ) (List Nat) := do
  let created ← createPopulation initGenome problem popSize
  let parents ← syncEvaluate cfg.nan cfg.dec cfg.prob (env (-1)) created
  syncLoop cfg env generations 0 parents

end Leap
