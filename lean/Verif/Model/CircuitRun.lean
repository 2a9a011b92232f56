import Verif.Model.CgpOps
import Verif.Model.TruthTable
import Verif.Model.EvoRun

/-!
# Evolving circuits

The run of `examples/advanced/cgp.py`: `generational_ea` on CGP genomes with a `TruthTableProblem`. Wires carry integers, as the rows of the
table do (`True == 1` in Python).
-/

namespace Leap

variable {ρ : Type}

/-- The executable of a decoded graph (leap_ec/executable_rep/cgp.py:105-161). A call also stores values in the graph; no later call reads them
(`cgp_call_history_free`), so every call here starts from a graph without them. -/
def circuitExecutable (d : CgpDecoder Int) (g : CgpGraph Int) : TTExecutable where
  call := fun input => (cgpCall g d.numInputs d.numOutputs (fun _ => none) input).map Prod.fst
  numInputs := some d.numInputs

/-- `CGPDecoder.decode` with the executable it returns (leap_ec/executable_rep/cgp.py:435-476). -/
def circuitDecode (d : CgpDecoder Int) (genome : List Int) : PyM TTExecutable :=
  match cgpDecode d genome with
  | .error e => .error e
  | .ok g => .ok (circuitExecutable d g)

/-- `TruthTableProblem.evaluate` as the problem of a run (leap_ec/executable_rep/problems.py:141-195): it draws nothing, and refuses a
genome that was not decoded, which cannot be called. `evaluate_multiple` (leap_ec/problem.py:58-64) is not used by this run and left
out. -/
def circuitProblem (p : TTProblem) : Prob Int TTExecutable ℚ ρ where
  evaluate := fun c s =>
    match c with
    | .raw _ => (.error .assertionError, s)
    | .value x => (ttEvaluate p x, s)
  evaluateMultiple := fun _ s => (.error .typeError, s)
  takesIndividuals := false

/-- `check_constraints` in a pipeline (leap_ec/executable_rep/cgp.py:419-433): the genome stays as it is, or `ValueError`. Simplification: it
is put as a mutation, which removes the fitness; it stands behind one, so there is none. -/
def checkFn (d : CgpDecoder Int) : MutFn Int ρ := fun g s =>
  match cgpCheck d (g.map CgpGene.int) with
  | .error e => ⟨g, .error e, s⟩
  | .ok _ => ⟨g, .ok none, s⟩

/-- The run of the example (examples/advanced/cgp.py:67-91) with any selection, rate of mutation, number of elites and stop condition. `init`
and `draw` are the random numbers of the initialiser and the mutation. -/
def circuitRun (d : CgpDecoder Int) (p : TTProblem) (init : ρ → List Int × ρ) (expected probability : Option ℚ)
    (draw : ρ → (List ℚ × List Int) × ρ) (worse : Option ℚ → Option ℚ → Bool) (choose : Int → List Nat → Mem Int TTExecutable ℚ ρ → PyM Nat × ρ)
    (stop : Int → List Nat → Mem Int TTExecutable ℚ ρ → Bool) (popSize kElites problem : Nat) (generations : Int) :
    HM (Mem Int TTExecutable ℚ ρ) (List Nat) :=
  evoRun ⟨worse, choose,
      [.mutate (.ok ()) true (randintFn d.bounds expected probability draw), .mutate (.ok ()) false (checkFn d),
        .evaluate (.fn (circuitDecode d)) (circuitProblem p)], popSize, kElites, stop⟩
    (fun s => (cgpInitializer d (init s).1, (init s).2)) (.fn (circuitDecode d)) (circuitProblem p) problem popSize 0 generations

end Leap
