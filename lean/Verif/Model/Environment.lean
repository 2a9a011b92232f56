import Mathlib.Algebra.Order.Field.Rat
import Verif.Py.Basic
import Verif.Model.Rules

/-!
# Controllers evaluated in an environment

Models `EnvironmentProblem` of `leap_ec/executable_rep/problems.py` and `KeyboardExecutable` of
`leap_ec/executable_rep/executable.py`. The environment and the executable are arbitrary: they act on a world `W`, observations
are in `O`, actions in `A`. Rewards are exact rationals.
-/

namespace Leap

/-- The calls that `EnvironmentProblem.evaluate` makes on the environment and the executable; each may raise.
For leap_ec/executable_rep/problems.py:103-104. -/
structure EnvCalls (W O A : Type) where
  reset : W → PyM (W × O)
  render : W → PyM W
  act : W → O → PyM (W × A)
  step : W → A → PyM (W × O × ℚ × Bool × Bool)

/-- The `fitness_type` of `EnvironmentProblem`. For leap_ec/executable_rep/problems.py:34-39. -/
inductive EnvFitness where
  | reward
  | survival
  deriving DecidableEq

/-- The attributes of `EnvironmentProblem`. For leap_ec/executable_rep/problems.py:21-39. -/
structure EnvProblem where
  runs : Nat
  steps : Nat
  fitness : EnvFitness
  gui : Bool
  stopOnDone : Bool
  deriving DecidableEq

/-- `EnvironmentProblem.__init__` (leap_ec/executable_rep/problems.py:21-39). The environment is not `None`. -/
def envProblem (runs steps : Int) (fitnessType : Option String) (gui stopOnDone : Bool) : PyM EnvProblem :=
  if 0 < runs then
    if 0 < steps then
      match fitnessType with
      | none => .error .assertionError
      | some t =>
        if t = "reward" then .ok ⟨runs.toNat, steps.toNat, .reward, gui, stopOnDone⟩
        else if t = "survival" then .ok ⟨runs.toNat, steps.toNat, .survival, gui, stopOnDone⟩
        else .error .valueError
    else .error .assertionError
  else .error .assertionError

/-- `if self.gui: self.environment.render()` (leap_ec/executable_rep/problems.py:103-104). -/
def envRender (c : EnvCalls W O A) (gui : Bool) (w : W) : PyM W := if gui then c.render w else .ok w

/-- The loop over `t` of `EnvironmentProblem.evaluate` (leap_ec/executable_rep/problems.py:102-111): what is appended to
`run_observations` and `run_rewards`. -/
def envSteps (c : EnvCalls W O A) (gui stopOnDone : Bool) : Nat → W → O → PyM (W × List O × List ℚ)
  | 0, w, _ => .ok (w, [], [])
  | t + 1, w, observation => do
    let w ← envRender c gui w
    let (w, action) ← c.act w observation
    let (w, observation, reward, terminated, truncated) ← c.step w action
    if stopOnDone && (terminated || truncated) then .ok (w, [observation], [reward])
    else do
      let (w, observations, rewards) ← envSteps c gui stopOnDone t w observation
      .ok (w, observation :: observations, reward :: rewards)

/-- The loop over `r` of `EnvironmentProblem.evaluate` (leap_ec/executable_rep/problems.py:98-113). -/
def envRuns (c : EnvCalls W O A) (p : EnvProblem) : Nat → W → PyM (W × List (List O) × List (List ℚ))
  | 0, w => .ok (w, [], [])
  | r + 1, w => do
    let (w, observation) ← c.reset w
    let (w, observations, rewards) ← envSteps c p.gui p.stopOnDone p.steps w observation
    let (w, allObservations, allRewards) ← envRuns c p r w
    .ok (w, (observation :: observations) :: allObservations, rewards :: allRewards)

/-- `np.mean`. For leap_ec/executable_rep/problems.py:55, 60. -/
def npMeanQ (l : List ℚ) : ℚ := l.sum / l.length

/-- `_reward_fitness` and `_survival_fitness` (leap_ec/executable_rep/problems.py:57-60). -/
def envFitness (f : EnvFitness) (observations : List (List O)) (rewards : List (List ℚ)) : ℚ :=
  match f with
  | .reward => npMeanQ (rewards.map fun run => run.sum)
  | .survival => npMeanQ (observations.map fun o => (o.length : ℚ))

/-- `EnvironmentProblem.evaluate` (leap_ec/executable_rep/problems.py:92-114). -/
def envEvaluate (c : EnvCalls W O A) (p : EnvProblem) (w : W) : PyM (W × ℚ) := do
  let (w, observations, rewards) ← envRuns c p p.runs w
  .ok (w, envFitness p.fitness observations rewards)

/-- `num_inputs` (leap_ec/executable_rep/problems.py:41-44): the number is computed but not returned, so the property is
`None`. -/
def envNumInputs (observationSpace : GymSpace) : Option Nat :=
  let _ := spaceDimensions observationSpace
  none

/-- `num_outputs` (leap_ec/executable_rep/problems.py:46-49): likewise. -/
def envNumOutputs (actionSpace : GymSpace) : Option Nat :=
  let _ := spaceDimensions actionSpace
  none

/-- The default `keymap` of `KeyboardExecutable` (leap_ec/executable_rep/executable.py:86-87), on character codes. -/
def defaultKeymap (x : Int) : Int := if 48 ≤ x ∧ x < 57 then x - 48 else 0

/-- A key event. For leap_ec/executable_rep/executable.py:105-109. -/
inductive KeyEvent (K : Type) where
  | press (key : K)
  | release (key : K)
  deriving DecidableEq

/-- `KeyboardExecutable.__init__` (leap_ec/executable_rep/executable.py:85-98): `shape` is the output space's shape, `none`
for no output space; gives the initial `action`. -/
def keyboardInit (shape : Option (List Nat)) (hasKeymap : Bool) : PyM Int :=
  match shape with
  | none => .error .assertionError
  | some s =>
    if 1 < s.foldl (fun acc n => acc * n) 1 then .error .valueError
    else if hasKeymap then .ok 0 else .error .assertionError

/-- `key_press` and `key_release` (leap_ec/executable_rep/executable.py:105-109). -/
def keyboardEvent (keymap : K → Int) (action : Int) : KeyEvent K → Int
  | .press key => keymap key
  | .release key => if keymap key = action then 0 else action

/-- What `KeyboardExecutable.__call__` returns (leap_ec/executable_rep/executable.py:111-113) after some events. -/
def keyboardAction (keymap : K → Int) (events : List (KeyEvent K)) : Int := events.foldl (keyboardEvent keymap) 0

end Leap
