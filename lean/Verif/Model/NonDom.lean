import Verif.Model.Pareto
import Verif.Py.Order
import Mathlib.Data.List.Dedup

/-!
# Non-dominated sorting

Models `fast_nondominated_sort` and `rank_ordinal_sort` of `leap_ec/multiobjective/ops.py`. Individuals are references
(numbers); `gt a b` says `a > b` on the objects, which for evaluated individuals is Pareto dominance (`moGt`).
-/

namespace Leap

/-- The attribute store after `obj.attr = v`. For leap_ec/multiobjective/ops.py:71-89. -/
def setAttr {β : Type} (f : Nat → β) (k : Nat) (v : β) : Nat → β := fun j => if j = k then v else f j

/-- The attributes that sorting writes on individuals: `dominates`, `dominated_by` and `rank`.
For leap_ec/multiobjective/ops.py:71-89. -/
structure SortAttrs where
  dominates : Nat → List Nat
  dominatedBy : Nat → Int
  rank : Nat → Nat

/-- The inner loop over `working_pop` (leap_ec/multiobjective/ops.py:79-85) for one individual: the new values of
`dominates` and `dominated_by`. -/
def compareWithAll (gt : Nat → Nat → Bool) (individual : Nat) (workingPop : List Nat) : List Nat × Int :=
  workingPop.foldl (fun acc other =>
    if individual = other then acc
    else if gt individual other then (acc.1 ++ [other], acc.2)
    else if gt other individual then (acc.1, acc.2 + 1)
    else acc) ([], 0)

/-- Finding rank 1 (leap_ec/multiobjective/ops.py:71-89): the attributes and the list `ranks[1]`. -/
def firstFront (gt : Nat → Nat → Bool) (workingPop : List Nat) (st : SortAttrs) : SortAttrs × List Nat :=
  workingPop.foldl (fun acc individual =>
    let c := compareWithAll gt individual workingPop
    let st : SortAttrs := ⟨setAttr acc.1.dominates individual c.1, setAttr acc.1.dominatedBy individual c.2,
      setAttr acc.1.rank individual (if c.2 = 0 then 1 else 0)⟩
    (st, if c.2 = 0 then acc.2 ++ [individual] else acc.2)) (st, [])

/-- One decrement (leap_ec/multiobjective/ops.py:97-100). -/
def decrementOne (i : Nat) (acc : SortAttrs × List Nat) (other : Nat) : SortAttrs × List Nat :=
  let c := acc.1.dominatedBy other - 1
  let st : SortAttrs := { acc.1 with dominatedBy := setAttr acc.1.dominatedBy other c }
  if c = 0 then ({ st with rank := setAttr st.rank other (i + 1) }, acc.2 ++ [other])
  else (st, acc.2)

/-- One round of the `while` loop (leap_ec/multiobjective/ops.py:94-100): the attributes and `next_front`. -/
def nextFront (i : Nat) (front : List Nat) (st : SortAttrs) : SortAttrs × List Nat :=
  front.foldl (fun acc individual => (acc.1.dominates individual).foldl (decrementOne i) acc) (st, [])

/-- The `while` loop (leap_ec/multiobjective/ops.py:92-103). `fuel` bounds the number of rounds looked at; `none` says the
loop is still running then. -/
def fillRanks (fuel : Nat) (i : Nat) (front : List Nat) (st : SortAttrs) : Option SortAttrs :=
  if front = [] then some st
  else match fuel with
    | 0 => none
    | fuel + 1 =>
      let r := nextFront i front st
      fillRanks fuel (i + 1) r.2 r.1

/-- The population together with the optional parents (leap_ec/multiobjective/ops.py:63-66, 128-129). -/
def withParents (population : List Nat) : Option (List Nat) → List Nat
  | some parents => population ++ parents
  | none => population

/-- `fast_nondominated_sort` (leap_ec/multiobjective/ops.py:43-107). `multi` says that the first individual's problem is
multi-objective. Result: the returned list and the attributes. -/
def fastNondominatedSort (gt : Nat → Nat → Bool) (multi : Nat → Bool) (population : List Nat)
    (parents : Option (List Nat)) (st : SortAttrs) (fuel : Nat) : PyM (List Nat × Option SortAttrs) :=
  match population with
  | [] => .error .indexError
  | first :: _ =>
    if multi first then
      let workingPop := withParents population parents
      let r := firstFront gt workingPop st
      .ok (workingPop, fillRanks fuel 1 r.2 r.1)
    else .error .assertionError

/-! ## Rank ordinal sort -/

/-- Lexicographic `<` on rows, the order in which `np.unique(axis=0)` returns them. For leap_ec/multiobjective/ops.py:114-168. -/
def lexLt : List ℚ → List ℚ → Bool
  | [], [] => false
  | [], _ :: _ => true
  | _ :: _, [] => false
  | a :: as, b :: bs => decide (a < b) || (decide (a = b) && lexLt as bs)

/-- `np.unique(rows, axis=0)`: the distinct rows in lexicographic order. For leap_ec/multiobjective/ops.py:114-168. -/
def npUniqueRows (rows : List (List ℚ)) : List (List ℚ) := sortedAsc lexLt rows.dedup

/-- Entry `[p, j]` of a matrix given by rows. For leap_ec/multiobjective/ops.py:139. -/
def entry (rows : List (List ℚ)) (p j : Nat) : ℚ := (rows.getD p []).getD j 0

/-- Row `j` of `np.argsort(rows, axis=0, kind="stable").T[:, ::-1]` (leap_ec/multiobjective/ops.py:139): the row indices by
descending value in column `j`. -/
def objectivePermutation (rows : List (List ℚ)) (j : Nat) : List Nat :=
  (sortedAsc (fun a b => decide (entry rows a j < entry rows b j)) (List.range rows.length)).reverse

/-- `objective_ranks[p, j]` (leap_ec/multiobjective/ops.py:142-145): the position of the first occurrence, in the permuted
column, of the value found at `p`'s position. -/
def objectiveRank (rows : List (List ℚ)) (p j : Nat) : Nat :=
  let permute := objectivePermutation rows j
  let column := permute.map fun q => entry rows q j
  column.idxOf (column.getD (permute.idxOf p) 0)

/-- `np.argmax`: the first position of the largest element. For leap_ec/multiobjective/ops.py:149-159. -/
def npArgmax (l : List Nat) : Nat := l.idxOf (l.foldl max 0)

/-- One round of the main loop (leap_ec/multiobjective/ops.py:149-159) for the row `i`. `m` is the number of objectives. -/
def ordinalStep (rows : List (List ℚ)) (m : Nat) (ranks : Nat → Nat) (i : Nat) : Nat → Nat :=
  let k := npArgmax ((List.range m).map (objectiveRank rows i))
  let dominableSet := (objectivePermutation rows k).drop (objectiveRank rows i k)
  let updatableSet := dominableSet.filter fun u => ranks i = ranks u
  let isDominated := updatableSet.filter fun u =>
    (List.range m).all fun j => objectiveRank rows i j ≤ objectiveRank rows u j
  fun x => if x ∈ isDominated then ranks x + 1 else ranks x

/-- The main loop (leap_ec/multiobjective/ops.py:147-159). -/
def ordinalRanks (rows : List (List ℚ)) (m : Nat) : Nat → Nat :=
  (objectivePermutation rows 0).foldl (ordinalStep rows m) (fun _ => 0)

/-- `ind.fitness * ind.problem.maximize` (leap_ec/multiobjective/ops.py:133) for finite fitnesses. -/
def orientedRow (maximize : List Bool) (fitness : List ℚ) : PyM (List ℚ) :=
  npBroadcast (fun x m => if m then x else -x) fitness maximize

/-- `[f(x) for x in xs]` where `f` may raise. For leap_ec/multiobjective/ops.py:114-168. -/
def pyMapM {α β : Type} (f : α → PyM β) : List α → PyM (List β)
  | [] => .ok []
  | x :: xs => do
    let y ← f x
    let ys ← pyMapM f xs
    .ok (y :: ys)

/-- `rank_ordinal_sort` (leap_ec/multiobjective/ops.py:114-168). Result: the returned list (the caller's `population`
list, extended in place by the parents) and the `rank` attributes. An empty population gives an array without a
second axis (`IndexError`); rows of different lengths do not form an array (`ValueError`). Simplification:
fitnesses are finite numbers. -/
def rankOrdinalSort (maximize : Nat → List Bool) (fitness : Nat → List ℚ) (population : List Nat)
    (parents : Option (List Nat)) (rank : Nat → Nat) : PyM (List Nat × (Nat → Nat)) := do
  let population := withParents population parents
  let rows ← pyMapM (fun x => orientedRow (maximize x) (fitness x)) population
  match rows with
  | [] => .error .indexError
  | first :: _ =>
    if rows.all fun r => r.length = first.length then
      if first.length = 0 then .error .indexError
      else
        let unique := npUniqueRows rows
        let ranks := ordinalRanks unique first.length
        let inverse := rows.map fun r => unique.idxOf r
        .ok (population, (population.zip inverse).foldl (fun rank xi => setAttr rank xi.1 (ranks xi.2)) rank)
    else .error .valueError

end Leap
