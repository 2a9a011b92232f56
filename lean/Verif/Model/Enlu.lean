import Verif.Model.Crowding

/-!
# Incremental non-dominated sorting (leap_ec/multiobjective/asynchronous.py)

`gt a b` is `a > b` between individuals, `row a` is `a.fitness * a.problem.maximize`. Simplification: all objective
vectors have the same length and finite entries.
-/

namespace Leap

/-- `any(i > ind for i in layer_pops[mid])` (leap_ec/multiobjective/asynchronous.py:20). -/
def dominatedInLayer (gt : Nat → Nat → Bool) (ind : Nat) (layer : List Nat) : Bool := layer.any fun i => gt i ind

/-- The loop of `_find_start_layer` (leap_ec/multiobjective/asynchronous.py:18-23); `lo ≤ mid ≤ hi` keeps the index in range. -/
def findStartLoop (gt : Nat → Nat → Bool) (ind : Nat) (layers : List (List Nat)) (lo hi : Int) : Int :=
  if h : lo ≤ hi then
    let mid := (lo + hi) / 2
    if !dominatedInLayer gt ind (layers.getD mid.toNat []) then findStartLoop gt ind layers lo (mid - 1)
    else findStartLoop gt ind layers (mid + 1) hi
  else lo
termination_by (hi + 1 - lo).toNat
decreasing_by all_goals omega

/-- `_find_start_layer` (leap_ec/multiobjective/asynchronous.py:11-25). -/
def findStartLayer (gt : Nat → Nat → Bool) (ind : Nat) (layers : List (List Nat)) : Nat :=
  (findStartLoop gt ind layers 0 ((layers.length : Int) - 1)).toNat

/-- `np.max([...], axis=0)` over the moving points (leap_ec/multiobjective/asynchronous.py:33-36). -/
def zenith (row : Nat → List ℚ) (first : Nat) (rest : List Nat) : List ℚ :=
  rest.foldl (fun z m => List.zipWith max z (row m)) (row first)

/-- `all(zenith >= f) and any(zenith > f)` (leap_ec/multiobjective/asynchronous.py:42). -/
def zenithDominates (z f : List ℚ) : Bool :=
  (List.zipWith (fun a b => decide (b ≤ a)) z f).all id && (List.zipWith (fun a b => decide (b < a)) z f).any id

/-- `_split_dominated` (leap_ec/multiobjective/asynchronous.py:27-47) for non-empty moving points: the members of the layer not
dominated, and those dominated, by the zenith. -/
def splitDominated (row : Nat → List ℚ) (first : Nat) (rest layer : List Nat) : List Nat × List Nat :=
  let z := zenith row first rest
  (layer.filter (fun ind => !zenithDominates z (row ind)), layer.filter fun ind => zenithDominates z (row ind))

/-- `_set_domination` (leap_ec/multiobjective/asynchronous.py:49-56). -/
def setDomination (gt : Nat → Nat → Bool) (popA popB : List Nat) : List Bool := popB.map fun r => popA.any fun l => gt l r

/-- `for ind in layer: ind.rank = r`. For leap_ec/multiobjective/asynchronous.py:94-96. -/
def setRanks (rank : Nat → Nat) (layer : List Nat) (r : Nat) : Nat → Nat := layer.foldl (fun rank ind => setAttr rank ind r) rank

/-- `for i, lp in enumerate(layers)`: rank `depth + i + 1` (leap_ec/multiobjective/asynchronous.py:94-96). -/
def setLayerRanks (rank : Nat → Nat) (layers : List (List Nat)) (depth : Nat) : Nat → Nat :=
  match layers with
  | [] => rank
  | lp :: lps => setLayerRanks (setRanks rank lp (depth + 1)) lps (depth + 1)

/-- The loop of `enlu_inds_rank` (leap_ec/multiobjective/asynchronous.py:81-124) from `depth` on, with the moving points and the
layers from `depth` on: the new layers from `depth` on, the returned end depth and the ranks. -/
def enluLoop (gt : Nat → Nat → Bool) (row : Nat → List ℚ) :
    List Nat → Nat → List (List Nat) → (Nat → Nat) → List (List Nat) × Nat × (Nat → Nat)
  | [], depth, layers, rank => (layers, depth, rank)
  | first :: rest, depth, [], rank => ([first :: rest], depth + 1, setRanks rank (first :: rest) (depth + 1))
  | first :: rest, depth, layer :: below, rank =>
    let split := splitDominated row first rest layer
    let trueDominated := setDomination gt (first :: rest) split.2
    if split.1 = [] then
      ((first :: rest) :: layer :: below, depth + 1, setLayerRanks rank ((first :: rest) :: layer :: below) depth)
    else
      let flagged := split.2.zip trueDominated
      let moving := (flagged.filter fun p => p.2).map fun p => p.1
      let stay := (flagged.filter fun p => !p.2).map fun p => p.1
      let newLayer := split.1 ++ (first :: rest) ++ stay
      let r := enluLoop gt row moving (depth + 1) below (setRanks rank newLayer (depth + 1))
      (newLayer :: r.1, r.2)

/-- `enlu_inds_rank` (leap_ec/multiobjective/asynchronous.py:58-124): the layers, the returned start and end depths, the ranks. -/
def enluIndsRank (gt : Nat → Nat → Bool) (row : Nat → List ℚ) (startPoint : Nat) (layers : List (List Nat))
    (rank : Nat → Nat) : List (List Nat) × Nat × Nat × (Nat → Nat) :=
  let start := findStartLayer gt startPoint layers
  let r := enluLoop gt row [startPoint] start (layers.drop start) rank
  (layers.take start ++ r.1, start, r.2.1, r.2.2)

/-- What an `ENLUInserter` holds, with the attributes of the individuals. For leap_ec/multiobjective/asynchronous.py:127-157. -/
structure EnluState where
  layers : List (List Nat)
  rank : Nat → Nat
  distance : Nat → WithTop ℚ

/-- Crowding of the updated layers (leap_ec/multiobjective/asynchronous.py:139-140); the returned lists are not used. -/
def crowdLayers (fitness : Nat → List ℚ) (maximize : List Bool) : List (List Nat) → (Nat → WithTop ℚ) → PyM (Nat → WithTop ℚ)
  | [], distance => .ok distance
  | lp :: lps, distance => do
    if lp = [] then .error .indexError
    else
      let r ← perRankCrowding fitness maximize lp distance
      crowdLayers fitness maximize lps r.2

/-- Dropping the most crowded member of the last layer (leap_ec/multiobjective/asynchronous.py:144-152). -/
def dropMostCrowded (fitness : Nat → List ℚ) (maximize : List Bool) (st : EnluState) : PyM EnluState :=
  match st.layers.getLast? with
  | none => .error .indexError
  | some last => do
    let remIdx ← pyMin (fun i j => distLt (st.distance (last.getD i 0)) (st.distance (last.getD j 0))) (List.range last.length)
    let last' := last.eraseIdx remIdx
    if last' = [] then .ok { st with layers := st.layers.dropLast }
    else
      let r ← perRankCrowding fitness maximize last' st.distance
      .ok { st with layers := st.layers.dropLast ++ [last'], distance := r.2 }

/-- `ENLUInserter.__call__` (leap_ec/multiobjective/asynchronous.py:135-156): the new state and the content of `flat_pop`. -/
def enluInsert (gt : Nat → Nat → Bool) (row : Nat → List ℚ) (fitness : Nat → List ℚ) (maximize : List Bool)
    (popSize : Nat) (ind : Nat) (st : EnluState) : PyM (EnluState × List Nat) := do
  let (layers, start, stop, rank) := enluIndsRank gt row ind st.layers st.rank
  let distance ← crowdLayers fitness maximize ((layers.take stop).drop start) st.distance
  let st : EnluState := ⟨layers, rank, distance⟩
  let st ← if popSize < (st.layers.map List.length).sum then dropMostCrowded fitness maximize st else .ok st
  .ok (st, st.layers.flatten)

/-- Successive calls of one inserter. For leap_ec/multiobjective/asynchronous.py:135-157. -/
def enluInsertAll (gt : Nat → Nat → Bool) (row : Nat → List ℚ) (fitness : Nat → List ℚ) (maximize : List Bool)
    (popSize : Nat) : List Nat → EnluState → PyM EnluState
  | [], st => .ok st
  | ind :: inds, st => do
    let r ← enluInsert gt row fitness maximize popSize ind st
    enluInsertAll gt row fitness maximize popSize inds r.1

end Leap
