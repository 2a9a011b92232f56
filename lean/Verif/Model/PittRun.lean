import Verif.Model.SegRun
import Verif.Model.Environment

/-!
# Learning rule systems in an environment

The run of `examples/advanced/pitt_rules_cartpole.py`: `generational_ea` with the initialiser, the mutator and the decoder of a
`PittRulesDecoder` and an `EnvironmentProblem`. Genomes are lists of arrays in memory, as in `Model/SegRun.lean`; genes are exact rationals.
The random source and the state of the environment are both part of `ρ`.
-/

namespace Leap

variable {ρ : Type}

/-- `action_bounds` (leap_ec/executable_rep/rules.py:162-181) for `Discrete(n)` outputs. -/
def actionBounds (n : Nat) : List (Int × Int) := [(0, (n : Int) - 1)]

/-- `individual_mutate_randint` (leap_ec/int_rep/ops.py:64-108) on an array of floats, such as the action genes of a rule: the numbers
drawn are stored as floats. -/
def randintOnFloats (bounds : List (Int × Int)) (expected probability : Option ℚ) (u : List ℚ) (draws : List Int) (genome : List ℚ) :
    PyM (List ℚ) :=
  match checkRateGenome expected probability with
  | .error e => .error e
  | .ok _ =>
    match mutationMask expected probability u genome.length with
    | .error e => .error e
    | .ok mask =>
      match boolIndex bounds mask with
      | .error e => .error e
      | .ok selected =>
        if bounds = [] then .error .indexError
        else
          match npRandint (selected.map Prod.fst) (selected.map fun b => b.2 + 1) draws with
          | .error e => .error e
          | .ok vals => boolAssign genome mask (vals.map fun v => (v : ℚ))

/-- The same as a function on arrays: it changes its argument and returns it (leap_ec/int_rep/ops.py:102-108). -/
def randintFloatsFn (bounds : List (Int × Int)) (expected probability : Option ℚ) (rand : ρ → (List ℚ × List Int) × ρ) : MutFn ℚ ρ :=
  fun g s =>
    match randintOnFloats bounds expected probability (rand s).1.1 (rand s).1.2 g with
    | .error e => ⟨g, .error e, (rand s).2⟩
    | .ok g' => ⟨g', .ok none, (rand s).2⟩

/-- `_single_rule_mutator` (leap_ec/executable_rep/rules.py:326-340) on an array. The condition genes and the action genes are views of
the segment, so what the two functions write into their arguments is written into the segment; the result is a new array. With memory registers
`_split_rule` always raises, so that the two views are the two parts of the segment. There are no `None` genes. -/
def ruleFn (d : PittDims) (conditionMutator actionMutator : MutFn ℚ ρ) : MutFn ℚ ρ := fun segment s =>
  if segment.length = d.genesPerRule then
    match splitRule d segment with
    | .error e => ⟨segment, .error e, s⟩
    | .ok (conditionGenes, actionGenes, _) =>
      let c := conditionMutator conditionGenes s
      match c.result with
      | .error e => ⟨c.left ++ actionGenes, .error e, c.rng⟩
      | .ok cMutated =>
        let a := actionMutator actionGenes c.rng
        match a.result with
        | .error e => ⟨c.left ++ a.left, .error e, a.rng⟩
        | .ok aMutated => ⟨c.left ++ a.left, .ok (some (cMutated.getD c.left ++ aMutated.getD a.left)), a.rng⟩
  else ⟨segment, .error .assertionError, s⟩

/-- `create_rule` (leap_ec/executable_rep/rules.py:225-245) for a one-dimensional input space. `sampleIn` and `sampleOut` are
`input_space.sample` and `output_space.sample`. -/
def initRule (d : PittDims) (sampleIn : ρ → List ℚ × ρ) (sampleOut : ρ → Int × ρ) (s : ρ) : PyM (List ℚ) × ρ :=
  let low := sampleIn s
  let high := sampleIn low.2
  if d.numMemory > 0 then (.error .valueError, high.2)
  else (createRule d (flatPairs low.1 high.1) (sampleOut high.2).1, (sampleOut high.2).2)

/-- A gym environment with observations in `O` and actions in `A`, acting on the state of the world.
For leap_ec/executable_rep/problems.py:92-114. -/
structure GymEnv (ρ O A : Type) where
  reset : ρ → PyM (ρ × O)
  render : ρ → PyM ρ
  step : ρ → A → PyM (ρ × O × ℚ × Bool × Bool)

/-- The calls `EnvironmentProblem.evaluate` makes when the executable is a rule system (leap_ec/executable_rep/problems.py:92-114,
leap_ec/executable_rep/rules.py:682-706). `choice` is `np.random.choice`. -/
def ruleCalls (env : GymEnv ρ (List ℚ) PittOutput) (choice : ρ → (List Nat → Nat) × ρ) (e : PittExec) : EnvCalls ρ (List ℚ) PittOutput where
  reset := env.reset
  render := env.render
  act := fun w observation =>
    match e.call (choice w).1 observation with
    | .error err => .error err
    | .ok action => .ok ((choice w).2, action)
  step := env.step

/-- Decode, then evaluate (leap_ec/individual.py:166-189) with a `PittRulesDecoder` and an `EnvironmentProblem`. What an evaluation
that raises does to the world is left out: a run ends there. -/
def ruleScore (d : PittDims) (metric : PriorityMetric) (env : GymEnv ρ (List ℚ) PittOutput) (p : EnvProblem) (choice : ρ → (List Nat → Nat) × ρ)
    (gs : List (List ℚ)) (s : ρ) : PyM ℚ × ρ :=
  match pittDecode d metric gs with
  | .error e => (.error e, s)
  | .ok e =>
    match envEvaluate (ruleCalls env choice e) p s with
    | .error err => (.error err, s)
    | .ok (s', f) => (.ok f, s')

/-- The run of the example (examples/advanced/pitt_rules_cartpole.py:91-116) with any selection operator, rule mutators and numbers
of elites. -/
def ruleRun (d : PittDims) (metric : PriorityMetric) (env : GymEnv ρ (List ℚ) PittOutput) (p : EnvProblem) (choice : ρ → (List Nat → Nat) × ρ)
    (sampleIn : ρ → List ℚ × ρ) (sampleOut : ρ → Int × ρ) (numRules : Nat) (conditionMutator actionMutator : MutFn ℚ ρ)
    (worse : Option ℚ → Option ℚ → Bool) (choose : Int → List Nat → SegStore ℚ ℚ ρ → PyM Nat × ρ)
    (stop : Int → List Nat → SegStore ℚ ℚ ρ → Bool) (popSize kElites : Nat) (generations : Int) : HM (SegStore ℚ ℚ ρ) (List Nat) :=
  segRun ⟨worse, choose, [.clone, .each (ruleFn d conditionMutator actionMutator), .evaluate (ruleScore d metric env p choice)], popSize,
      kElites, stop⟩
    (fun s => (numRules, s)) (initRule d sampleIn sampleOut) (ruleScore d metric env p choice) popSize 0 generations

end Leap
