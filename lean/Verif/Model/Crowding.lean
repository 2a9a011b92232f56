import Mathlib.Algebra.Order.Field.Rat
import Mathlib.Algebra.Order.Monoid.Unbundled.WithTop
import Verif.Model.NonDom
import Verif.Model.Algorithm

/-!
# Crowding distance and NSGA-II survival

Models `per_rank_crowding_calc`, `crowding_distance_calc`, `sort_by_dominance` of `leap_ec/multiobjective/ops.py` and the
generation step of `leap_ec/multiobjective/nsga2.py`. A distance is a rational or infinity (`⊤`).
-/

namespace Leap

/-- `ind.fitness[objective]`. Simplification: the vectors are long enough. For leap_ec/multiobjective/ops.py:173-242. -/
def objective (fitness : Nat → List ℚ) (j : Nat) (x : Nat) : ℚ := (fitness x).getD j 0

/-- `objective_ranges[objective]` (leap_ec/multiobjective/ops.py:185-210) for a non-empty population. The infinities
that start the running minimum and maximum are neutral, so the first individual's value starts them here.
For a minimised objective `f_min` is the largest and `f_max` the smallest value. -/
def objectiveRange (f : Nat → ℚ) (maximize : Bool) (first : Nat) (rest : List Nat) : ℚ :=
  let smallest := rest.foldl (fun m x => min m (f x)) (f first)
  let largest := rest.foldl (fun m x => max m (f x)) (f first)
  if maximize then largest - smallest else smallest - largest

/-- `sorted(ranked_population, key=...)` (leap_ec/multiobjective/ops.py:220-227). -/
def sortedByObjective (f : Nat → ℚ) (maximize : Bool) (population : List Nat) : List Nat :=
  let key := fun x => if maximize then f x else -f x
  sortedAsc (fun a b => decide (key a < key b)) population

/-- The sliding window (leap_ec/multiobjective/ops.py:235-240). -/
def addGaps (f : Nat → ℚ) (range : ℚ) (sorted : List Nat) (distance : Nat → WithTop ℚ) : Nat → WithTop ℚ :=
  (List.range' 1 (sorted.length - 2)).foldl (fun distance i =>
    setAttr distance (sorted.getD i 0)
      (distance (sorted.getD i 0) + (((f (sorted.getD (i + 1) 0) - f (sorted.getD (i - 1) 0)) / range : ℚ) : WithTop ℚ)))
    distance

/-- One objective (leap_ec/multiobjective/ops.py:215-240); the state is `sorted_pop` and the distances. -/
def crowdObjective (f : Nat → ℚ) (maximize : Bool) (first : Nat) (rest : List Nat)
    (st : List Nat × (Nat → WithTop ℚ)) : List Nat × (Nat → WithTop ℚ) :=
  let range := objectiveRange f maximize first rest
  if range = 0 then st
  else
    let sorted := sortedByObjective f maximize (first :: rest)
    let distance := setAttr (setAttr st.2 (sorted.getD 0 0) ⊤) (sorted.getD (sorted.length - 1) 0) ⊤
    (sorted, addGaps f range sorted distance)

/-- `per_rank_crowding_calc` (leap_ec/multiobjective/ops.py:173-242): the returned list and the `distance` attributes. On
an empty population the range is not zero and `sorted_pop[0]` raises `IndexError` (there is at least one
objective). -/
def perRankCrowding (fitness : Nat → List ℚ) (isMaximizing : List Bool) (population : List Nat)
    (distance : Nat → WithTop ℚ) : PyM (List Nat × (Nat → WithTop ℚ)) :=
  match population with
  | [] => if isMaximizing = [] then .ok ([], distance) else .error .indexError
  | first :: rest =>
    let distance := (first :: rest).foldl (fun d x => setAttr d x 0) distance
    .ok (isMaximizing.zipIdx.foldl (fun st mj => crowdObjective (objective fitness mj.2) mj.1 first rest st)
      ([], distance))

/-- The keys of `toolz.groupby` in the order of their first occurrence (leap_ec/multiobjective/ops.py:274). -/
def groupKeys (rank : Nat → Nat) (population : List Nat) : List Nat :=
  population.foldl (fun keys x => if rank x ∈ keys then keys else keys ++ [rank x]) []

/-- The loop over the ranks (leap_ec/multiobjective/ops.py:278-280). -/
def crowdRanks (fitness : Nat → List ℚ) (isMaximizing : List Bool) (rank : Nat → Nat) (population : List Nat) :
    List Nat → List Nat × (Nat → WithTop ℚ) → PyM (List Nat × (Nat → WithTop ℚ))
  | [], acc => .ok acc
  | r :: rs, acc => do
    let res ← perRankCrowding fitness isMaximizing (population.filter fun x => rank x = r) acc.2
    crowdRanks fitness isMaximizing rank population rs (acc.1 ++ res.1, res.2)

/-- `crowding_distance_calc` (leap_ec/multiobjective/ops.py:246-282). -/
def crowdingDistanceCalc (maximize : Nat → List Bool) (multi : Nat → Bool) (fitness : Nat → List ℚ) (rank : Nat → Nat)
    (population : List Nat) (distance : Nat → WithTop ℚ) : PyM (List Nat × (Nat → WithTop ℚ)) :=
  match population with
  | [] => .error .indexError
  | first :: _ =>
    if multi first then
      crowdRanks fitness (maximize first) rank population (groupKeys rank population) ([], distance)
    else .error .assertionError

/-- `<` between distances, finite or infinite. For leap_ec/multiobjective/nsga2.py:126-127. -/
def distLt : WithTop ℚ → WithTop ℚ → Bool
  | none, _ => false
  | some _, none => true
  | some a, some b => decide (a < b)

/-- `<` between the keys `(-rank, distance)` (leap_ec/multiobjective/nsga2.py:126-127). -/
def nsgaLt (rank : Nat → Nat) (distance : Nat → WithTop ℚ) (a b : Nat) : Bool :=
  decide (rank b < rank a) || (decide (rank a = rank b) && distLt (distance a) (distance b))

/-- `sort_by_dominance` (leap_ec/multiobjective/ops.py:26-35): ascending by `(rank, -distance)`. -/
def sortByDominance (rank : Nat → Nat) (distance : Nat → WithTop ℚ) (population : List Nat) : List Nat :=
  sortedAsc (fun a b => decide (rank a < rank b) || (decide (rank a = rank b) && distLt (distance b) (distance a))) population

/-- What NSGA-II does with the offspring of one generation (leap_ec/multiobjective/nsga2.py:121-127), with the default
ranking function. Result: the survivors, the ranks and the distances. -/
def nsga2Survive (maximize : Nat → List Bool) (multi : Nat → Bool) (fitness : Nat → List ℚ) (offspring parents : List Nat)
    (rank : Nat → Nat) (distance : Nat → WithTop ℚ) : PyM (List Nat × (Nat → Nat) × (Nat → WithTop ℚ)) := do
  let ranked ← rankOrdinalSort maximize fitness offspring (some parents) rank
  let crowded ← crowdingDistanceCalc maximize multi fitness ranked.2 ranked.1 distance
  .ok (truncationSelection (nsgaLt ranked.2 crowded.2) crowded.1 parents.length none, ranked.2, crowded.2)

/-- What the objects of a multi-objective run carry, besides everything else in the world.
For leap_ec/multiobjective/nsga2.py:113-131. -/
structure MoObjects (R : Type) where
  maximize : Nat → List Bool
  multi : Nat → Bool
  fitness : Nat → List ℚ
  rank : Nat → Nat
  distance : Nat → WithTop ℚ
  others : R

/-- The body of the `while` loop of `generalized_nsga_2` (leap_ec/multiobjective/nsga2.py:113-131) in generation `g`. -/
def nsga2Generation {R : Type} (pipeline : Pipeline (MoObjects R) Nat) (g : Int) (parents : List Nat)
    (w : World (MoObjects R)) : PyM (List Nat × World (MoObjects R)) := do
  let (offspring, w) ← pipeline w parents
  let (kept, rank, distance) ←
    nsga2Survive w.rest.maximize w.rest.multi w.rest.fitness offspring parents w.rest.rank w.rest.distance
  let w : World (MoObjects R) := { w with rest := { w.rest with rank := rank, distance := distance } }
  .ok (kept, w.setGeneration (g + 1))

/-- The `while` loop of `generalized_nsga_2` (leap_ec/multiobjective/nsga2.py:113-133). -/
def nsga2Loop {R : Type} (maxGenerations : Int) (pipeline : Pipeline (MoObjects R) Nat)
    (stop : World (MoObjects R) → List Nat → Bool) (g : Int) (parents : List Nat) (w : World (MoObjects R)) :
    PyM (List Nat × World (MoObjects R)) :=
  if h : g < maxGenerations then
    if stop w parents then .ok (parents, w)
    else
      match nsga2Generation pipeline g parents w with
      | .error e => .error e
      | .ok (kept, w) => nsga2Loop maxGenerations pipeline stop (g + 1) kept w
  else .ok (parents, w)
termination_by (maxGenerations - g).toNat
decreasing_by omega

/-- `generalized_nsga_2` (leap_ec/multiobjective/nsga2.py:19-133) with the default ranking function. `create` is
`representation.create_population`. -/
def generalizedNsga2 {R : Type} (isMulti : Bool) (maxGenerations : Int)
    (create : World (MoObjects R) → PyM (List Nat × World (MoObjects R))) (initEvaluate pipeline : Pipeline (MoObjects R) Nat)
    (stop : World (MoObjects R) → List Nat → Bool) (startGeneration : Int) (w : World (MoObjects R)) :
    PyM (List Nat × World (MoObjects R)) :=
  if isMulti then
    match create w with
    | .error e => .error e
    | .ok (parents, w) =>
      match initEvaluate (w.setGeneration startGeneration) parents with
      | .error e => .error e
      | .ok (parents, w) => nsga2Loop maxGenerations pipeline stop startGeneration parents w
  else .error .assertionError

end Leap
