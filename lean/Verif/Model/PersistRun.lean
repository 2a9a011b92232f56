import Verif.Model.IslandRun

/-!
# Runs whose crossover operators keep children

An operator made with `persist_children=True` keeps a second child that nobody asked for, and hands it out first the next time it is used
(leap_ec/ops.py:382-386). The operators of a pipeline are used once per generation, and in an island model once per island, so what they keep goes from one
use to the next. The generators themselves are those of `Model/Pipeline.lean`; here they begin with what their operator has kept.
-/

namespace Leap

variable {γ ψ φ ρ : Type}

/-- The state in which a generator begins when its operator has kept the child `kept` (leap_ec/ops.py:382). Only crossover operators keep anybody. -/
def stageStart (up : HIter (Mem γ ψ φ ρ)) (s : up.σ) (kept : Option Nat) : (st : Stage γ ψ φ ρ) → (st.apply up).σ
  | .clone => s
  | .mutate _ _ _ => (false, s)
  | .crossover _ _ => (kept, s)
  | .evaluate _ _ => s
  | .robustEvaluate _ _ _ => s

/-- The same for a chain of operators; `kept` has one entry per operator. For leap_ec/ops.py:372-405. -/
def stagesStart : (up : HIter (Mem γ ψ φ ρ)) → up.σ → (stages : List (Stage γ ψ φ ρ)) → List (Option Nat) → (stagesIter up stages).σ
  | _, s, [], _ => s
  | up, s, st :: rest, kept => stagesStart (st.apply up) (stageStart up s (kept.headD none) st) rest kept.tail

/-- What is in `self.second_child` when the generator is dropped in some state (leap_ec/ops.py:393-410). -/
def stageLeft (up : HIter (Mem γ ψ φ ρ)) : (st : Stage γ ψ φ ρ) → (st.apply up).σ → Option Nat × up.σ
  | .clone => fun s : up.σ => (none, s)
  | .mutate _ _ _ => fun s : Bool × up.σ => (none, s.2)
  | .crossover _ _ => fun s : Option Nat × up.σ => s
  | .evaluate _ _ => fun s : up.σ => (none, s)
  | .robustEvaluate _ _ _ => fun s : up.σ => (none, s)

/-- The same for a chain of operators. For leap_ec/ops.py:372-405. -/
def stagesLeft : (up : HIter (Mem γ ψ φ ρ)) → (stages : List (Stage γ ψ φ ρ)) → (stagesIter up stages).σ → List (Option Nat) × up.σ
  | _, [], s => ([], s)
  | up, st :: rest, s =>
    ((stageLeft up st (stagesLeft (st.apply up) rest s).2).1 :: (stagesLeft (st.apply up) rest s).1, (stageLeft up st (stagesLeft (st.apply up) rest s).2).2)

/-- `self.persist_children and self.second_child is not None` (leap_ec/ops.py:382), for each operator. -/
def keptChildren (persist : List Bool) (second : List (Option Nat)) : List (Option Nat) := List.zipWith (fun p c => if p then c else none) persist second

/-- The pipeline `select, clone, stages..., pool(size)` for operators that hold the children `second`, and what they hold afterwards.
For leap_ec/algorithm.py:131-139. -/
def persistPipeline (pop : List Nat) (choose : Mem γ ψ φ ρ → PyM Nat × ρ) (stages : List (Stage γ ψ φ ρ)) (persist : List Bool) (size : Nat)
    (second : List (Option Nat)) : HM (Mem γ ψ φ ρ) (List Nat × List (Option Nat)) := do
  let up := Stage.clone.apply (selectionIter pop choose)
  let (out, s) ← hpull (stagesIter up stages).next size (stagesStart up up.init stages (keptChildren persist second))
  pure (out, (stagesLeft up stages s).1)

/-- The `while` loop of `generational_ea` (leap_ec/algorithm.py:131-139) with such a pipeline. -/
def persistLoop (cfg : EvoConfig γ ψ φ ρ) (persist : List Bool) : Nat → Int → List Nat → List (Option Nat) → HM (Mem γ ψ φ ρ) (List Nat × List (Option Nat))
  | 0, _, parents, second => pure (parents, second)
  | fuel + 1, g, parents, second => fun m =>
    if cfg.stop g parents m then (.ok (parents, second), m)
    else
      match persistPipeline parents (cfg.choose g parents) cfg.stages persist cfg.size second m with
      | (.error e, m1) => (.error e, m1)
      | (.ok (offspring, second'), m1) =>
        persistLoop cfg persist fuel (g + 1) (elitistSurvival (cfg.lt m1) offspring parents cfg.kElites).1 second' m1

/-- `generational_ea` (leap_ec/algorithm.py:21-141) with such a pipeline, whose operators hold `second` at the start. -/
def persistRun (cfg : EvoConfig γ ψ φ ρ) (persist : List Bool) (second : List (Option Nat)) (initGenome : ρ → PyM (List γ) × ρ) (dec : Dec γ ψ)
    (prob : Prob γ ψ φ ρ) (problem popSize : Nat) (startGeneration maxGenerations : Int) : HM (Mem γ ψ φ ρ) (List Nat × List (Option Nat)) := do
  let parents ← createPopulation initGenome problem popSize
  evaluatePopulation dec prob parents
  persistLoop cfg persist (maxGenerations - startGeneration).toNat startGeneration parents second

/-- The `for` loop over the populations of `multi_population_ea` (leap_ec/algorithm.py:277-287) with such a pipeline and no migration: `k` populations to go from `cur`. The
operators are the same objects for all of them (leap_ec/algorithm.py:283-284). -/
def persistSweep (cfg : EvoConfig γ ψ φ ρ) (persist : List Bool) (g : Int) : Nat → Nat → List (List Nat) → List (Option Nat) →
    HM (Mem γ ψ φ ρ) (List (List Nat) × List (Option Nat))
  | 0, _, pops, second => pure (pops, second)
  | k + 1, cur, pops, second => do
    let (pop, second) ← persistPipeline (pops.getD cur []) (cfg.choose g (pops.getD cur [])) cfg.stages persist cfg.size second
    persistSweep cfg persist g k (cur + 1) (pops.set cur pop) second

end Leap
