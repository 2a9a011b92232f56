import Verif.Model.SteadyNsga2

/-!
# Multi-objective runs in which evaluations fail

A failed evaluation leaves the number `nan` as the fitness where a successful one leaves an array
(leap_ec/individual.py:293-299). Comparisons and sorting multiply the fitness by the vector `maximize`, which makes a row of
NaN of it. Crowding looks at the elements, which a number does not have. The functions of `Model/Enlu`, `Model/Crowding` and
`Model/SteadyNsga2` are written here for both kinds of fitness.
-/

namespace Leap

/-- `ind.fitness` of an individual after `RobustIndividual.evaluate` (leap_ec/individual.py:281-304): an array of objective
values, or the number `nan` if the evaluation raised. Simplification: the objective values are finite. -/
inductive MoFit where
  | failed
  | vec (values : List ℚ)

/-- The fitness as an operand of numpy; a number broadcasts like an array of length one. For leap_ec/individual.py:211-253. -/
def MoFit.nums : MoFit → List Num
  | .failed => [.nan]
  | .vec l => l.map Num.fin

/-- The values of the array; for a failure zeros, which are never looked at. For leap_ec/multiobjective/ops.py:173-242. -/
def MoFit.values (objectives : Nat) : MoFit → List ℚ
  | .failed => List.replicate objectives 0
  | .vec l => l

/-- `ind.fitness[objective]` (leap_ec/multiobjective/ops.py:198-208): a float is not subscriptable. -/
def MoFit.at (f : MoFit) (j : Nat) : PyM ℚ :=
  match f with
  | .failed => .error .typeError
  | .vec l => match l[j]? with
    | some v => .ok v
    | none => .error .indexError

/-- `a > b` between individuals (leap_ec/individual.py:211-253). Simplification: comparing does not raise; it cannot for
arrays of the problem's length and numbers. -/
def moFitGt (maximize : List Bool) (fit : Nat → MoFit) (a b : Nat) : Bool :=
  match moGt ⟨maximize⟩ (some (fit a).nums) (some (fit b).nums) with
  | .ok r => r
  | .error _ => false

/-- `ind.fitness * ind.problem.maximize` (leap_ec/multiobjective/asynchronous.py:34, 41). Same simplification. -/
def moFitRow (maximize : List Bool) (fit : Nat → MoFit) (a : Nat) : List Num :=
  match MOProblem.oriented ⟨maximize⟩ (fit a).nums with
  | .ok row => row
  | .error _ => []

/-- The larger of two entries as `np.max` finds it; NaN if there is one. For leap_ec/multiobjective/asynchronous.py:33-36. -/
def npMaxNum : Num → Num → Num
  | .nan, _ => .nan
  | _, .nan => .nan
  | a, b => if Num.lt a b then b else a

/-- `np.max([...], axis=0)` over the moving points (leap_ec/multiobjective/asynchronous.py:33-36). -/
def zenithNum (row : Nat → List Num) (first : Nat) (rest : List Nat) : List Num :=
  rest.foldl (fun z m => List.zipWith npMaxNum z (row m)) (row first)

/-- `all(zenith >= f) and any(zenith > f)` (leap_ec/multiobjective/asynchronous.py:42). -/
def zenithDominatesNum (z f : List Num) : Bool :=
  (List.zipWith Num.ge z f).all id && (List.zipWith (fun a b => Num.lt b a) z f).any id

/-- `_split_dominated` (leap_ec/multiobjective/asynchronous.py:27-47). -/
def splitDominatedNum (row : Nat → List Num) (first : Nat) (rest layer : List Nat) : List Nat × List Nat :=
  let z := zenithNum row first rest
  (layer.filter (fun ind => !zenithDominatesNum z (row ind)), layer.filter fun ind => zenithDominatesNum z (row ind))

/-- The loop of `enlu_inds_rank` (leap_ec/multiobjective/asynchronous.py:81-124), as `enluLoop`. -/
def enluLoopNum (gt : Nat → Nat → Bool) (row : Nat → List Num) :
    List Nat → Nat → List (List Nat) → (Nat → Nat) → List (List Nat) × Nat × (Nat → Nat)
  | [], depth, layers, rank => (layers, depth, rank)
  | first :: rest, depth, [], rank => ([first :: rest], depth + 1, setRanks rank (first :: rest) (depth + 1))
  | first :: rest, depth, layer :: below, rank =>
    let split := splitDominatedNum row first rest layer
    let trueDominated := setDomination gt (first :: rest) split.2
    if split.1 = [] then
      ((first :: rest) :: layer :: below, depth + 1, setLayerRanks rank ((first :: rest) :: layer :: below) depth)
    else
      let flagged := split.2.zip trueDominated
      let moving := (flagged.filter fun p => p.2).map fun p => p.1
      let stay := (flagged.filter fun p => !p.2).map fun p => p.1
      let newLayer := split.1 ++ (first :: rest) ++ stay
      let r := enluLoopNum gt row moving (depth + 1) below (setRanks rank newLayer (depth + 1))
      (newLayer :: r.1, r.2)

/-- `enlu_inds_rank` (leap_ec/multiobjective/asynchronous.py:58-124), as `enluIndsRank`. -/
def enluIndsRankNum (gt : Nat → Nat → Bool) (row : Nat → List Num) (startPoint : Nat) (layers : List (List Nat))
    (rank : Nat → Nat) : List (List Nat) × Nat × Nat × (Nat → Nat) :=
  let start := findStartLayer gt startPoint layers
  let r := enluLoopNum gt row [startPoint] start (layers.drop start) rank
  (layers.take start ++ r.1, start, r.2.1, r.2.2)

/-- The values that finding the ranges reads, individual by individual and objective by objective
(leap_ec/multiobjective/ops.py:193-208). -/
def crowdReads (fit : Nat → MoFit) (objectives : Nat) (population : List Nat) : PyM (List (List ℚ)) :=
  pyMapM (fun x => pyMapM (fun j => (fit x).at j) (List.range objectives)) population

/-- `per_rank_crowding_calc` (leap_ec/multiobjective/ops.py:173-242). Everything it looks at after the ranges has been looked at
for the ranges. -/
def perRankCrowdingMo (fit : Nat → MoFit) (isMaximizing : List Bool) (population : List Nat)
    (distance : Nat → WithTop ℚ) : PyM (List Nat × (Nat → WithTop ℚ)) := do
  let _ ← crowdReads fit isMaximizing.length population
  perRankCrowding (fun x => (fit x).values isMaximizing.length) isMaximizing population distance

/-- Crowding of the updated layers (leap_ec/multiobjective/asynchronous.py:139-140). -/
def crowdLayersMo (fit : Nat → MoFit) (maximize : List Bool) : List (List Nat) → (Nat → WithTop ℚ) → PyM (Nat → WithTop ℚ)
  | [], distance => .ok distance
  | lp :: lps, distance => do
    if lp = [] then .error .indexError
    else
      let r ← perRankCrowdingMo fit maximize lp distance
      crowdLayersMo fit maximize lps r.2

/-- Dropping the most crowded member of the last layer (leap_ec/multiobjective/asynchronous.py:144-152). -/
def dropMostCrowdedMo (fit : Nat → MoFit) (maximize : List Bool) (st : EnluState) : PyM EnluState :=
  match st.layers.getLast? with
  | none => .error .indexError
  | some last => do
    let remIdx ← pyMin (fun i j => distLt (st.distance (last.getD i 0)) (st.distance (last.getD j 0))) (List.range last.length)
    let last' := last.eraseIdx remIdx
    if last' = [] then .ok { st with layers := st.layers.dropLast }
    else
      let r ← perRankCrowdingMo fit maximize last' st.distance
      .ok { st with layers := st.layers.dropLast ++ [last'], distance := r.2 }

/-- `ENLUInserter.__call__` (leap_ec/multiobjective/asynchronous.py:135-156). -/
def enluInsertMo (fit : Nat → MoFit) (maximize : List Bool) (popSize : Nat) (ind : Nat) (st : EnluState) :
    PyM (EnluState × List Nat) := do
  let (layers, start, stop, rank) := enluIndsRankNum (moFitGt maximize fit) (moFitRow maximize fit) ind st.layers st.rank
  let distance ← crowdLayersMo fit maximize ((layers.take stop).drop start) st.distance
  let st : EnluState := ⟨layers, rank, distance⟩
  let st ← if popSize < (st.layers.map List.length).sum then dropMostCrowdedMo fit maximize st else .ok st
  .ok (st, st.layers.flatten)

/-- `is_viable` (leap_ec/distrib/evaluate.py:75-88) of an evaluated individual (leap_ec/individual.py:293-299). -/
def MoFit.viable : MoFit → Bool
  | .failed => false
  | .vec _ => true

/-- The settings `steady_state_nsga_2` hands to `steady_state` (leap_ec/multiobjective/asynchronous.py:192-204). -/
def nsga2ConfigMo {D : Type} (fit : Nat → MoFit) (maximize : List Bool) (maxBirths : Int) (popSize : Nat) (countNonviable : Bool)
    (pipeline : D → EnluState → List Nat → PyM (List Nat)) : StatefulConfig Nat D EnluState where
  maxBirths := maxBirths
  popSize := popSize
  countNonviable := countNonviable
  viable := fun x => (fit x).viable
  inserter := fun _ ind _ popSize s =>
    match enluInsertMo fit maximize popSize ind s with
    | .error e => .error e
    | .ok (s', flat) => .ok (flat, s')
  pipeline := pipeline

/-! ### Generational NSGA-II -/

/-- The loop over the ranks (leap_ec/multiobjective/ops.py:278-280). -/
def crowdRanksMo (fit : Nat → MoFit) (isMaximizing : List Bool) (rank : Nat → Nat) (population : List Nat) :
    List Nat → List Nat × (Nat → WithTop ℚ) → PyM (List Nat × (Nat → WithTop ℚ))
  | [], acc => .ok acc
  | r :: rs, acc => do
    let res ← perRankCrowdingMo fit isMaximizing (population.filter fun x => rank x = r) acc.2
    crowdRanksMo fit isMaximizing rank population rs (acc.1 ++ res.1, res.2)

/-- `crowding_distance_calc` (leap_ec/multiobjective/ops.py:246-282). -/
def crowdingDistanceCalcMo (maximize : Nat → List Bool) (multi : Nat → Bool) (fit : Nat → MoFit) (rank : Nat → Nat)
    (population : List Nat) (distance : Nat → WithTop ℚ) : PyM (List Nat × (Nat → WithTop ℚ)) :=
  match population with
  | [] => .error .indexError
  | first :: _ =>
    if multi first then
      crowdRanksMo fit (maximize first) rank population (groupKeys rank population) ([], distance)
    else .error .assertionError

/-- What the objects of a multi-objective run carry, besides everything else in the world.
For leap_ec/multiobjective/nsga2.py:113-131. -/
structure MoFitObjects (R : Type) where
  maximize : Nat → List Bool
  multi : Nat → Bool
  fit : Nat → MoFit
  rank : Nat → Nat
  distance : Nat → WithTop ℚ
  others : R

/-- The body of the `while` loop of `generalized_nsga_2` (leap_ec/multiobjective/nsga2.py:113-131) in generation `g`. `rankFunc`
is the caller's `rank_func`: from the objects, the offspring and the parents to a list and the new `rank` attributes. -/
def nsga2GenerationMo {R : Type} (rankFunc : MoFitObjects R → List Nat → List Nat → PyM (List Nat × (Nat → Nat)))
    (pipeline : Pipeline (MoFitObjects R) Nat) (g : Int) (parents : List Nat) (w : World (MoFitObjects R)) :
    PyM (List Nat × World (MoFitObjects R)) := do
  let (offspring, w) ← pipeline w parents
  let ranked ← rankFunc w.rest offspring parents
  let crowded ← crowdingDistanceCalcMo w.rest.maximize w.rest.multi w.rest.fit ranked.2 ranked.1 w.rest.distance
  let kept := truncationSelection (nsgaLt ranked.2 crowded.2) crowded.1 parents.length none
  let w : World (MoFitObjects R) := { w with rest := { w.rest with rank := ranked.2, distance := crowded.2 } }
  .ok (kept, w.setGeneration (g + 1))

/-- The `while` loop of `generalized_nsga_2` (leap_ec/multiobjective/nsga2.py:113-133). -/
def nsga2LoopMo {R : Type} (rankFunc : MoFitObjects R → List Nat → List Nat → PyM (List Nat × (Nat → Nat)))
    (maxGenerations : Int) (pipeline : Pipeline (MoFitObjects R) Nat)
    (stop : World (MoFitObjects R) → List Nat → Bool) (g : Int) (parents : List Nat) (w : World (MoFitObjects R)) :
    PyM (List Nat × World (MoFitObjects R)) :=
  if h : g < maxGenerations then
    if stop w parents then .ok (parents, w)
    else
      match nsga2GenerationMo rankFunc pipeline g parents w with
      | .error e => .error e
      | .ok (kept, w) => nsga2LoopMo rankFunc maxGenerations pipeline stop (g + 1) kept w
  else .ok (parents, w)
termination_by (maxGenerations - g).toNat
decreasing_by omega

end Leap
