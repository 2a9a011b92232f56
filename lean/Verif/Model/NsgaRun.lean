import Verif.Model.EvoRun
import Verif.Model.Crowding

/-!
# `generalized_nsga_2` over the object memory

The loop of `Model/Crowding.lean` for the pipelines of `Model/Pipeline.lean`: individuals are objects in memory whose fitness is a
vector, and the ranking reads it there. The `rank` and `distance` attributes are kept beside the memory, by identity.
Simplification: a clone's copies of its parent's attributes are left out; they are overwritten before anybody reads them.
-/

namespace Leap

variable {γ ψ ρ : Type}

/-- What a run is configured with. For leap_ec/multiobjective/nsga2.py:23-131. -/
structure NsgaConfig (γ ψ ρ : Type) where
  /-- the direction of every objective of the problem -/
  maximize : List Bool
  /-- the selection operator in a generation: which position of the population it picks next. It may look at ranks and
  distances. -/
  choose : Int → (Nat → Nat) → (Nat → WithTop ℚ) → List Nat → Mem γ ψ (List ℚ) ρ → PyM Nat × ρ
  stages : List (Stage γ ψ (List ℚ) ρ)
  /-- the argument of `pool` -/
  size : Nat
  /-- the stop condition -/
  stop : Int → List Nat → Mem γ ψ (List ℚ) ρ → Bool

/-- The objective vector of an individual in memory. Simplification: an individual without fitness has the empty vector.
For leap_ec/multiobjective/nsga2.py:117-131. -/
def vectorOf (m : Mem γ ψ (List ℚ) ρ) (r : Nat) : List ℚ := ((m.inds[r]?).bind Obj.fitness).getD []

/-- The population between generations, with the attributes. For leap_ec/multiobjective/nsga2.py:117-131. -/
structure NsgaState where
  pop : List Nat
  rank : Nat → Nat
  distance : Nat → WithTop ℚ

/-- One generation (leap_ec/multiobjective/nsga2.py:117-131). -/
def nsgaGeneration (cfg : NsgaConfig γ ψ ρ) (g : Int) (st : NsgaState) : HM (Mem γ ψ (List ℚ) ρ) NsgaState := fun m =>
  match runPipeline st.pop (cfg.choose g st.rank st.distance st.pop) cfg.stages cfg.size m with
  | (.error e, m1) => (.error e, m1)
  | (.ok offspring, m1) =>
    match nsga2Survive (fun _ => cfg.maximize) (fun _ => true) (vectorOf m1) offspring st.pop st.rank st.distance with
    | .error e => (.error e, m1)
    | .ok (kept, rank, distance) => (.ok ⟨kept, rank, distance⟩, m1)

/-- The `while` loop (leap_ec/multiobjective/nsga2.py:115-131), with `fuel` generations to go at generation `g`. -/
def nsgaLoop (cfg : NsgaConfig γ ψ ρ) : Nat → Int → NsgaState → HM (Mem γ ψ (List ℚ) ρ) NsgaState
  | 0, _, st => pure st
  | fuel + 1, g, st => fun m =>
    if cfg.stop g st.pop m then (.ok st, m)
    else (nsgaGeneration cfg g st >>= nsgaLoop cfg fuel (g + 1)) m

/-- `generalized_nsga_2` (leap_ec/multiobjective/nsga2.py:19-133) with the default ranking function and `init_evaluate`. -/
def nsgaRun (cfg : NsgaConfig γ ψ ρ) (isMulti : Bool) (initGenome : ρ → PyM (List γ) × ρ) (dec : Dec γ ψ) (prob : Prob γ ψ (List ℚ) ρ)
    (problem popSize : Nat) (startGeneration maxGenerations : Int) (rank : Nat → Nat) (distance : Nat → WithTop ℚ) :
    HM (Mem γ ψ (List ℚ) ρ) NsgaState :=
  if isMulti then do
    let parents ← createPopulation initGenome problem popSize
    evaluatePopulation dec prob parents
    nsgaLoop cfg (maxGenerations - startGeneration).toNat startGeneration ⟨parents, rank, distance⟩
  else HM.lift (.error .assertionError)

end Leap
