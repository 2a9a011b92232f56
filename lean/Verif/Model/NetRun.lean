import Verif.Model.PittRun
import Verif.Model.NeuralNet
import Verif.Model.EvoRun

/-!
# Evolving the weights of network controllers

The run of `examples/advanced/neural_network_cartpole.py`: `generational_ea` on real vectors, decoded into a network with an argmax around it,
with an `EnvironmentProblem`. Genes are exact rationals. `toR` turns a gene into a weight, in any semiring `R`; the activation function is
a parameter. The random source and the state of the environment are both part of `ρ`.
-/

namespace Leap

variable {R ρ : Type}

/-- `WrapperDecoder(wrapped_decoder=SimpleNeuralNetworkDecoder(shape), decorator=ArgmaxExecutable).decode`
(leap_ec/executable_rep/executable.py:177-180, examples/advanced/neural_network_cartpole.py:88-92). -/
def netDecode [Semiring R] (d : NNDecoder) (toR : ℚ → R) (activation : List R → List R) (lt : R → R → Bool) (genome : List ℚ) :
    PyM (List R → PyM Nat) :=
  wrapperDecode (fun g => nnDecode d (g.map toR)) (fun ws => .ok (argmaxCall lt (nnCall activation ws))) genome

/-- The calls `EnvironmentProblem.evaluate` makes when the executable is a function of the observation
(leap_ec/executable_rep/problems.py:92-114). -/
def netCalls (env : GymEnv ρ (List R) Nat) (controller : List R → PyM Nat) : EnvCalls ρ (List R) Nat where
  reset := env.reset
  render := env.render
  act := fun w observation =>
    match controller observation with
    | .error e => .error e
    | .ok action => .ok (w, action)
  step := env.step

/-- `EnvironmentProblem` on the network controllers (leap_ec/executable_rep/problems.py:88-114). A genome that was not decoded is an
array and cannot be called. `evaluate_multiple` (leap_ec/problem.py:58-64) is not used by this run and left out. -/
def netProblem (env : GymEnv ρ (List R) Nat) (p : EnvProblem) : Prob ℚ (List R → PyM Nat) ℚ ρ where
  evaluate := fun c s =>
    match c with
    | .raw _ => (.error .typeError, s)
    | .value controller =>
      match envEvaluate (netCalls env controller) p s with
      | .error e => (.error e, s)
      | .ok (s', f) => (.ok f, s')
  evaluateMultiple := fun _ s => (.error .typeError, s)
  takesIndividuals := false

/-- The run of the example (examples/advanced/neural_network_cartpole.py:94-117) with any selection, standard deviation, rate, gene bounds
`(lo, hi)` and number of elites. `uniform` draws one number in [0, 1) per gene. -/
def netRun [Semiring R] (d : NNDecoder) (toR : ℚ → R) (activation : List R → List R) (lt : R → R → Bool) (env : GymEnv ρ (List R) Nat)
    (p : EnvProblem) (lo hi : ℚ) (uniform : ρ → List ℚ × ρ) (std : ScalarOrList ℚ) (expected : GaussRate)
    (normal : ρ → (List ℚ × List ℚ) × ρ) (worse : Option ℚ → Option ℚ → Bool)
    (choose : Int → List Nat → Mem ℚ (List R → PyM Nat) ℚ ρ → PyM Nat × ρ) (stop : Int → List Nat → Mem ℚ (List R → PyM Nat) ℚ ρ → Bool)
    (popSize kElites : Nat) (problem : Nat) (generations : Int) : HM (Mem ℚ (List R → PyM Nat) ℚ ρ) (List Nat) :=
  evoRun ⟨worse, choose,
      [.mutate (.ok ()) false (gaussianFn std expected (.all (some lo, some hi)) 1 0 normal),
        .evaluate (.fn (netDecode d toR activation lt)) (netProblem env p)], popSize, kElites, stop⟩
    (fun s => (.ok (createRealVector (List.replicate d.length (lo, hi)) (uniform s).1), (uniform s).2)) (.fn (netDecode d toR activation lt))
    (netProblem env p) problem popSize 0 generations

end Leap
