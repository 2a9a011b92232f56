import Verif.Model.NsgaRun

/-!
# `generalized_nsga_2` with either ranking function

`rank_func` may be `rank_ordinal_sort` (the default) or `fast_nondominated_sort`. The run is that of `Model/NsgaRun.lean`
with the ranking function as a parameter.
-/

namespace Leap

variable {γ ψ ρ : Type}

/-- The argument `rank_func` (leap_ec/multiobjective/nsga2.py:24). -/
inductive RankFunc where
  | ordinal
  | fast

/-- `a > b` for two individuals (leap_ec/individual.py:16, 198-253 and leap_ec/multiobjective/problems.py:67-120): Pareto dominance under
`a`'s problem. Simplification: vectors that do not fit the problem, for which numpy raises, compare as not better. -/
def individualGt (maximize : Nat → List Bool) (fitness : Nat → List ℚ) (a b : Nat) : Bool :=
  (moGt ⟨maximize a⟩ (some ((fitness a).map Num.fin)) (some ((fitness b).map Num.fin))).toOption.getD false

/-- `rank_func(parents=parents)` on the offspring (leap_ec/multiobjective/nsga2.py:121; leap_ec/multiobjective/ops.py:43-107, 114-168). Result: the
returned list and the `rank` attributes. The `while` loop of the fast sort is followed for as many rounds as there are
individuals, plus one; the attributes `dominates` and `dominated_by` start as whatever they were, and nobody reads them afterwards.
Simplification: a loop still running then is shown as `RuntimeError`. -/
def rankBy (rf : RankFunc) (maximize : Nat → List Bool) (multi : Nat → Bool) (fitness : Nat → List ℚ) (population parents : List Nat)
    (old : SortAttrs) : PyM (List Nat × (Nat → Nat)) :=
  match rf with
  | .ordinal => rankOrdinalSort maximize fitness population (some parents) old.rank
  | .fast =>
    match fastNondominatedSort (individualGt maximize fitness) multi population (some parents) old
      (population.length + parents.length + 1) with
    | .error e => .error e
    | .ok (_, none) => .error .runtimeError
    | .ok (ranked, some st) => .ok (ranked, st.rank)

/-- What NSGA-II does with the offspring of one generation (leap_ec/multiobjective/nsga2.py:121-127). Result: the survivors,
the ranks and the distances. Simplification: every sort starts from blank `dominates` and `dominated_by`, which it overwrites. -/
def surviveBy (rf : RankFunc) (maximize : Nat → List Bool) (multi : Nat → Bool) (fitness : Nat → List ℚ) (offspring parents : List Nat)
    (rank : Nat → Nat) (distance : Nat → WithTop ℚ) : PyM (List Nat × (Nat → Nat) × (Nat → WithTop ℚ)) := do
  let ranked ← rankBy rf maximize multi fitness offspring parents ⟨fun _ => [], fun _ => 0, rank⟩
  let crowded ← crowdingDistanceCalc maximize multi fitness ranked.2 ranked.1 distance
  .ok (truncationSelection (nsgaLt ranked.2 crowded.2) crowded.1 parents.length none, ranked.2, crowded.2)

/-- One generation (leap_ec/multiobjective/nsga2.py:117-131). -/
def nsgaGenerationBy (rf : RankFunc) (cfg : NsgaConfig γ ψ ρ) (g : Int) (st : NsgaState) : HM (Mem γ ψ (List ℚ) ρ) NsgaState := fun m =>
  match runPipeline st.pop (cfg.choose g st.rank st.distance st.pop) cfg.stages cfg.size m with
  | (.error e, m1) => (.error e, m1)
  | (.ok offspring, m1) =>
    match surviveBy rf (fun _ => cfg.maximize) (fun _ => true) (vectorOf m1) offspring st.pop st.rank st.distance with
    | .error e => (.error e, m1)
    | .ok (kept, rank, distance) => (.ok ⟨kept, rank, distance⟩, m1)

/-- The `while` loop (leap_ec/multiobjective/nsga2.py:115-131), with `fuel` generations to go at generation `g`. -/
def nsgaLoopBy (rf : RankFunc) (cfg : NsgaConfig γ ψ ρ) : Nat → Int → NsgaState → HM (Mem γ ψ (List ℚ) ρ) NsgaState
  | 0, _, st => pure st
  | fuel + 1, g, st => fun m =>
    if cfg.stop g st.pop m then (.ok st, m)
    else (nsgaGenerationBy rf cfg g st >>= nsgaLoopBy rf cfg fuel (g + 1)) m

/-- `generalized_nsga_2(..., rank_func=rf)` (leap_ec/multiobjective/nsga2.py:19-133) with the default `init_evaluate`. -/
def nsgaRunBy (rf : RankFunc) (cfg : NsgaConfig γ ψ ρ) (isMulti : Bool) (initGenome : ρ → PyM (List γ) × ρ) (dec : Dec γ ψ)
    (prob : Prob γ ψ (List ℚ) ρ) (problem popSize : Nat) (startGeneration maxGenerations : Int) (rank : Nat → Nat)
    (distance : Nat → WithTop ℚ) : HM (Mem γ ψ (List ℚ) ρ) NsgaState :=
  if isMulti then do
    let parents ← createPopulation initGenome problem popSize
    evaluatePopulation dec prob parents
    nsgaLoopBy rf cfg (maxGenerations - startGeneration).toNat startGeneration ⟨parents, rank, distance⟩
  else HM.lift (.error .assertionError)

end Leap
