import Verif.Model.EvoRun

/-!
# Evolution loops written by hand from the operators

The loops of examples/simple/simple_ep.py:65-81, simple_es.py:89-106 and simple_ev.py:73-90: `pipe(parents, select, clone, ..., evaluate,
pool(size=len(parents) * BROOD_SIZE), survival)` where survival is `truncation_selection(size=len(parents), parents=parents)` or
`insertion_selection(parents=parents)`.
-/

namespace Leap

variable {γ ψ φ ρ : Type}

/-- The survival operator at the end of the pipeline. For leap_ec/ops.py:778-823, 957-993. -/
inductive Survival (ρ : Type) where
  /-- `truncation_selection(size=len(parents), parents=parents)` -/
  | truncation
  /-- `insertion_selection(parents=parents)`; `draw` is `random.randrange(n)` -/
  | insertion (draw : ρ → Nat → Nat × ρ)

/-- What a run is configured with. For examples/simple/simple_ep.py:66-76, simple_es.py:90-100, simple_ev.py:74-84. -/
structure PlusConfig (γ ψ φ ρ : Type) where
  /-- `individual < other`, which asks the problem to compare the two fitnesses (leap_ec/individual.py:211-253) -/
  worse : Option φ → Option φ → Bool
  /-- `individual == other`, likewise (leap_ec/individual.py:198-209) -/
  equal : Option φ → Option φ → Bool
  /-- the selection operator in a generation, on a population: which position it picks next -/
  choose : Int → List Nat → Mem γ ψ φ ρ → PyM Nat × ρ
  /-- the operators, which may depend on the generation: simple_es.py:93 reads the step size from the context, and a callback of the
  generation counter anneals it (simple_es.py:46-58, 83-84) -/
  stages : Int → List (Stage γ ψ φ ρ)
  /-- `BROOD_SIZE` -/
  brood : Nat
  survival : Survival ρ

/-- `a < b` for individuals in memory. For leap_ec/individual.py:211-253. -/
def PlusConfig.lt (cfg : PlusConfig γ ψ φ ρ) (m : Mem γ ψ φ ρ) (a b : Nat) : Bool :=
  cfg.worse ((m.inds[a]?).bind Obj.fitness) ((m.inds[b]?).bind Obj.fitness)

/-- `a > b` for individuals in memory: `total_ordering` makes it `not a < b and a != b` (leap_ec/individual.py:16). -/
def PlusConfig.gt (cfg : PlusConfig γ ψ φ ρ) (m : Mem γ ψ φ ρ) (a b : Nat) : Bool :=
  !cfg.lt m a b && !cfg.equal ((m.inds[a]?).bind Obj.fitness) ((m.inds[b]?).bind Obj.fitness)

/-- The survivors (leap_ec/ops.py:778-823 and 957-993). -/
def survive (cfg : PlusConfig γ ψ φ ρ) (offspring parents : List Nat) : HM (Mem γ ψ φ ρ) (List Nat) := fun m =>
  match cfg.survival with
  | .truncation => (.ok (truncationSelection (cfg.lt m) offspring parents.length (some parents)), m)
  | .insertion draw =>
    (insertionSelection (cfg.gt m) offspring parents (draw m.rng parents.length).1, { m with rng := (draw m.rng parents.length).2 })

/-- One turn of the loop (examples/simple/simple_ep.py:66-76, simple_es.py:90-100, simple_ev.py:74-84). -/
def plusStep (cfg : PlusConfig γ ψ φ ρ) (g : Int) (parents : List Nat) : HM (Mem γ ψ φ ρ) (List Nat) := do
  let offspring ← runPipeline parents (cfg.choose g parents) (cfg.stages g) (parents.length * cfg.brood)
  survive cfg offspring parents

/-- The `while` loop, with `fuel` generations to go at generation `g`.
For examples/simple/simple_ep.py:66-76, simple_es.py:90-100, simple_ev.py:74-84. -/
def plusLoop (cfg : PlusConfig γ ψ φ ρ) : Nat → Int → List Nat → HM (Mem γ ψ φ ρ) (List Nat)
  | 0, _, parents => pure parents
  | fuel + 1, g, parents => do
    let parents ← plusStep cfg g parents
    plusLoop cfg fuel (g + 1) parents

/-- The whole script: create, evaluate, loop. Printing is not modelled.
For examples/simple/simple_ep.py:35-76, simple_es.py:61-100, simple_ev.py:49-84. -/
def plusRun (cfg : PlusConfig γ ψ φ ρ) (initGenome : ρ → PyM (List γ) × ρ) (dec : Dec γ ψ) (prob : Prob γ ψ φ ρ)
    (problem popSize : Nat) (maxGenerations : Int) : HM (Mem γ ψ φ ρ) (List Nat) := do
  let parents ← createPopulation initGenome problem popSize
  evaluatePopulation dec prob parents
  plusLoop cfg maxGenerations.toNat 0 parents

end Leap
