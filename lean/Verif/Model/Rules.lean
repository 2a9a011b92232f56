import Mathlib.Data.Rat.Floor
import Verif.Model.Segmented
import Verif.Model.NonDom
import Verif.Py.Order

/-!
# Pitt-approach rule systems

Models `leap_ec/executable_rep/rules.py` and `EnvironmentProblem.space_dimensions`. Numbers are exact rationals (so no
rounding and no NaN); `None` genes are not modelled. The state of the random generator is `ρ` where an operator draws
several times; `np.random.choice(l)` is a function from the list to one of its members.
-/

namespace Leap

/-- A gym space as far as `space_dimensions` looks at it: a `Tuple` space or one with a shape.
For leap_ec/executable_rep/problems.py:85-90. -/
inductive GymSpace where
  | simple (shape : List Nat)
  | tuple (shapes : List (List Nat))

/-- `EnvironmentProblem.space_dimensions` (leap_ec/executable_rep/problems.py:85-90). -/
def spaceDimensions : GymSpace → Nat
  | .tuple shapes => (shapes.map List.prod).sum
  | .simple shape => shape.prod

/-- `Rule` (leap_ec/executable_rep/rules.py:432). -/
structure PittRule where
  conditions : List (ℚ × ℚ)
  actions : List ℚ
deriving DecidableEq

/-- The numbers a `PittRulesDecoder` derives from its spaces (leap_ec/executable_rep/rules.py:64-108). -/
structure PittDims where
  numInputs : Nat
  numOutputs : Nat
  numMemory : Nat

/-- `num_genes_per_rule` (leap_ec/executable_rep/rules.py:128-130). -/
def PittDims.genesPerRule (d : PittDims) : Nat := d.numInputs * 2 + d.numMemory * 2 + d.numOutputs

/-- `l[-k:]`. For leap_ec/executable_rep/rules.py:283-296. -/
def pyLast {α : Type} (l : List α) (k : Nat) : List α := if k = 0 then l else l.drop (l.length - k)

/-- `_split_rule` (leap_ec/executable_rep/rules.py:283-296). -/
def splitRule (d : PittDims) (segment : List ℚ) : PyM (List ℚ × List ℚ × List ℚ) :=
  if segment.length = d.genesPerRule then
    let conditionGenes := segment.take (d.numInputs * 2)
    let rest : List ℚ × List ℚ :=
      if d.numMemory = 0 then (pyLast segment d.numOutputs, [])
      else ((segment.take (segment.length - d.numMemory)).drop (segment.length - (d.numOutputs + d.numMemory)),
        pyLast segment d.numMemory)
    if conditionGenes.length + rest.1.length + rest.2.length = segment.length then .ok (conditionGenes, rest.1, rest.2)
    else .error .assertionError
  else .error .assertionError

/-- `list(zip(it, it))` (leap_ec/executable_rep/rules.py:393-394). -/
def pairUp : List ℚ → List (ℚ × ℚ)
  | a :: b :: rest => (a, b) :: pairUp rest
  | _ => []

/-- One rule of `genome_to_rules` (leap_ec/executable_rep/rules.py:387-396). -/
def segmentToRule (d : PittDims) (segment : List ℚ) : PyM PittRule :=
  if segment.length = d.genesPerRule then
    match splitRule d segment with
    | .error e => .error e
    | .ok (conditionGenes, actionGenes, _) => .ok ⟨pairUp conditionGenes, actionGenes⟩
  else .error .assertionError

/-- `genome_to_rules` (leap_ec/executable_rep/rules.py:382-399). -/
def genomeToRules (d : PittDims) (genome : List (List ℚ)) : PyM (List PittRule) :=
  if genome.length > 0 then pyMapM (segmentToRule d) genome else .error .assertionError

/-- `_single_rule_mutator` (leap_ec/executable_rep/rules.py:326-340). -/
def ruleMutate {ρ : Type} (d : PittDims) (conditionMutator actionMutator : List ℚ → ρ → PyM (List ℚ × ρ))
    (segment : List ℚ) (s : ρ) : PyM (List ℚ × ρ) :=
  if segment.length = d.genesPerRule then
    match splitRule d segment with
    | .error e => .error e
    | .ok (conditionGenes, actionGenes, _) =>
      match conditionMutator conditionGenes s with
      | .error e => .error e
      | .ok (c, s) =>
        match actionMutator actionGenes s with
        | .error e => .error e
        | .ok (a, s) => .ok (c ++ a, s)
  else .error .assertionError

/-- The list comprehension of `_rulset_mutate` (leap_ec/executable_rep/rules.py:346-347). -/
def ruleSetMutate {ρ : Type} (d : PittDims) (conditionMutator actionMutator : List ℚ → ρ → PyM (List ℚ × ρ)) :
    List (List ℚ) → ρ → PyM (List (List ℚ) × ρ)
  | [], s => .ok ([], s)
  | segment :: rest, s =>
    match ruleMutate d conditionMutator actionMutator segment s with
    | .error e => .error e
    | .ok (x, s) =>
      match ruleSetMutate d conditionMutator actionMutator rest s with
      | .error e => .error e
      | .ok (xs, s) => .ok (x :: xs, s)

/-- The individual as the rule mutator sees it. For leap_ec/executable_rep/rules.py:342-361. -/
structure PittInd where
  genome : List (List ℚ)
  fitness : Option ℚ

/-- One step of the generator returned by `mutator` (leap_ec/executable_rep/rules.py:342-361). -/
def pittMutator {ρ U : Type} (d : PittDims) (conditionMutator actionMutator : List ℚ → ρ → PyM (List ℚ × ρ))
    (next : U → PyM (PittInd × U)) : Gen U ρ PittInd :=
  fun s u =>
    match next u with
    | .error e => pep479 (.error e)
    | .ok (ind, u) =>
      match ruleSetMutate d conditionMutator actionMutator ind.genome s with
      | .error e => .error e
      | .ok (genome, s) => .ok (⟨genome, none⟩, s, u)

/-- `condition_bounds` (leap_ec/executable_rep/rules.py:132-158), from the flattened `low` and `high` of the space. -/
def conditionBounds (low high : List ℚ) : List (ℚ × ℚ) :=
  (List.zip low high).flatMap fun b => [b, b]

/-- `bounds(num_rules)` (leap_ec/executable_rep/rules.py:183-199) for a `Box` of inputs and `Discrete(n)` outputs. -/
def pittBounds (d : PittDims) (low high : List ℚ) (n : Nat) (numRules : Nat) : PyM (List (List (ℚ × ℚ))) :=
  if d.numMemory > 0 then .error .valueError
  else .ok (List.replicate numRules (conditionBounds low high ++ [(0, (n : ℚ) - 1)]))

/-- `np.array(list(zip(low, high))).flatten()` for samples of a one-dimensional space
(leap_ec/executable_rep/rules.py:230-233). -/
def flatPairs (low high : List ℚ) : List ℚ := (List.zip low high).flatMap fun p => [p.1, p.2]

/-- The same for samples of a two-dimensional space: pairs of rows, each row flattened
(leap_ec/executable_rep/rules.py:230-233). -/
def flatPairs2 (low high : List (List ℚ)) : List ℚ := (List.zip low high).flatMap fun p => p.1 ++ p.2

/-- `create_rule` (leap_ec/executable_rep/rules.py:227-245) once the condition genes are flattened. -/
def createRule (d : PittDims) (conditionGenes : List ℚ) (action : ℚ) : PyM (List ℚ) :=
  if d.numMemory > 0 then .error .valueError
  else if (conditionGenes ++ [action]).length = d.genesPerRule then .ok (conditionGenes ++ [action])
  else .error .assertionError

/-- `PriorityMetric` (leap_ec/executable_rep/rules.py:476), or something that is not a member. -/
inductive PriorityMetric where
  | ruleOrder
  | generality
  | perimeter
  | none
  | other
deriving DecidableEq

/-- `__priority` (leap_ec/executable_rep/rules.py:497-507). -/
def rulePriority (metric : PriorityMetric) (order : Nat) : PyM Nat :=
  match metric with
  | .ruleOrder => .ok order
  | _ => .error .valueError

/-- A `PittRulesExecutable` (leap_ec/executable_rep/rules.py:487-495). -/
structure PittExec where
  numOutputs : Nat
  memory : List ℚ
  rules : List PittRule
  priorities : List Nat

/-- `PittRulesExecutable.__init__` (leap_ec/executable_rep/rules.py:478-495). -/
def pittExec (numOutputs : Nat) (rules : List PittRule) (metric : PriorityMetric) (initMem : List ℚ) : PyM PittExec :=
  if rules.length > 0 then
    if metric = .other then .error .assertionError
    else
      match pyMapM (rulePriority metric) (List.range rules.length) with
      | .error e => .error e
      | .ok priorities => .ok ⟨numOutputs, initMem, rules, priorities⟩
  else .error .assertionError

/-- `decode` (leap_ec/executable_rep/rules.py:422-426), with the default metric of the decoder
(leap_ec/executable_rep/rules.py:62). -/
def pittDecode (d : PittDims) (metric : PriorityMetric) (genome : List (List ℚ)) : PyM PittExec :=
  match genomeToRules d genome with
  | .error e => .error e
  | .ok rules => pittExec d.numOutputs rules (if metric = .none then .ruleOrder else metric) []

/-- `diff` (leap_ec/executable_rep/rules.py:569-575). -/
def matchDiff (c : ℚ × ℚ) (x : ℚ) : ℚ :=
  if c.1 > c.2 then 0
  else if x ≥ c.1 ∧ x ≤ c.2 then 0
  else min |c.1 - x| |c.2 - x|

/-- The loop of `compute_match_score` (leap_ec/executable_rep/rules.py:565-577); a rule with too few conditions raises
`IndexError`. -/
def matchScoreFrom : List (ℚ × ℚ) → List ℚ → ℚ → PyM ℚ
  | _, [], acc => .ok acc
  | [], _ :: _, _ => .error .indexError
  | c :: cs, x :: xs, acc => matchScoreFrom cs xs (acc + matchDiff c x * matchDiff c x)

/-- `compute_match_score` (leap_ec/executable_rep/rules.py:560-577). -/
def matchScore (allInput : List ℚ) (rule : PittRule) : PyM ℚ := matchScoreFrom rule.conditions allInput 0

/-- The loop of `_match_set` (leap_ec/executable_rep/rules.py:583-590), from rule number `r` on. -/
def matchSetFrom (allInput : List ℚ) : List PittRule → Nat → List Nat → ℚ → PyM (List Nat × ℚ)
  | [], _, matchList, best => .ok (matchList, best)
  | rule :: rules, r, matchList, best =>
    match matchScore allInput rule with
    | .error e => .error e
    | .ok score =>
      if matchList = [] ∨ score < best then matchSetFrom allInput rules (r + 1) [r] score
      else if score = best then matchSetFrom allInput rules (r + 1) (matchList ++ [r]) best
      else matchSetFrom allInput rules (r + 1) matchList best

/-- `_match_set` (leap_ec/executable_rep/rules.py:579-591). -/
def PittExec.matchSet (e : PittExec) (input : List ℚ) : PyM (List Nat × ℚ) :=
  matchSetFrom (input ++ e.memory) e.rules 0 [] (-1)

/-- `self.priorities[r]`, for a rule number. For leap_ec/executable_rep/rules.py:687-691. -/
def PittExec.priority (e : PittExec) (r : Nat) : Nat := e.priorities.getD r 0

/-- `_fire` (leap_ec/executable_rep/rules.py:618-623). -/
def PittExec.fire (e : PittExec) (r : Nat) : PyM (List ℚ) :=
  match e.rules[r]? with
  | none => .error .indexError
  | some winner =>
    if e.memory.length > 0 then .error .valueError
    else if winner.actions.length = e.numOutputs then .ok winner.actions
    else .error .assertionError

/-- `np.round(x)` to a whole number: ties go to the even neighbour. For leap_ec/executable_rep/rules.py:701-706. -/
def roundHalfEven (q : ℚ) : Int :=
  if q - ⌊q⌋ < 1 / 2 then ⌊q⌋
  else if q - ⌊q⌋ > 1 / 2 then ⌊q⌋ + 1
  else if ⌊q⌋ % 2 = 0 then ⌊q⌋ else ⌊q⌋ + 1

/-- What a rule system returns: a single action, or a list of them. For leap_ec/executable_rep/rules.py:701-706. -/
inductive PittOutput where
  | one (a : Int)
  | many (as : List Int)
deriving DecidableEq

/-- The culling of exact matches by priority (leap_ec/executable_rep/rules.py:687-691). -/
def PittExec.cull (e : PittExec) (matchList : List Nat) : PyM (List Nat) :=
  match pyMin (fun x y => decide (e.priority x < e.priority y)) matchList with
  | .error err => .error err
  | .ok highest => .ok (matchList.filter fun r => decide (e.priority r ≤ e.priority highest))

/-- The output of the rule that won (leap_ec/executable_rep/rules.py:701-706). -/
def PittExec.output (e : PittExec) (winner : Nat) : PyM PittOutput :=
  match e.fire winner with
  | .error err => .error err
  | .ok actions =>
    let output := actions.map roundHalfEven
    if output.length = e.numOutputs then
      if e.numOutputs > 1 then .ok (.many output)
      else
        match output with
        | a :: _ => .ok (.one a)
        | [] => .error .indexError
    else .error .assertionError

/-- `__call__` (leap_ec/executable_rep/rules.py:682-706). `choose` is `np.random.choice`; it raises `ValueError` on an empty
list. -/
def PittExec.call (e : PittExec) (choose : List Nat → Nat) (input : List ℚ) : PyM PittOutput :=
  match e.matchSet input with
  | .error err => .error err
  | .ok (matchList, best) =>
    match (if best = 0 then e.cull matchList else .ok matchList) with
    | .error err => .error err
    | .ok [] => .error .valueError
    | .ok candidates => e.output (choose candidates)

end Leap
