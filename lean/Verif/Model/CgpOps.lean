import Verif.Model.Cgp
import Verif.Model.Mutation

/-!
# Primitives, initialisers and mutation operators for CGP (leap_ec/executable_rep/cgp.py)
-/

namespace Leap

variable {V : Type}

/-- `FunctionPrimitive(func, f_arity)` (leap_ec/executable_rep/cgp.py:53-63); `none` is `None`. Comparing `None` for the
arity is left out. -/
def functionPrimitive (func : Option (List V → PyM V)) (arity : Int) : PyM (CgpPrimitive V) :=
  match func with
  | none => .error .assertionError
  | some f => if arity ≥ 0 then .ok ⟨some arity.toNat, f⟩ else .error .assertionError

/-- `NAND` (leap_ec/executable_rep/cgp.py:65-80) on truth values: `and` looks at its second argument only if the first is
true; `args[i]` raises `IndexError`. -/
def nandPrimitive : CgpPrimitive Bool :=
  ⟨some 2, fun args =>
    match args[0]? with
    | none => .error .indexError
    | some a =>
      if a then
        match args[1]? with
        | none => .error .indexError
        | some b => .ok (!b)
      else .ok (!a)⟩

/-- `NotX` (leap_ec/executable_rep/cgp.py:83-97). -/
def notXPrimitive : CgpPrimitive Bool :=
  ⟨some 1, fun args =>
    match args[0]? with
    | none => .error .indexError
    | some a => .ok (!a)⟩

/-- `CGPDecoder.initializer()` (leap_ec/executable_rep/cgp.py:198-205) called once; `draws` are its random numbers. -/
def cgpInitializer (d : CgpDecoder V) (draws : List Int) : PyM (List Int) := createIntVector d.bounds draws

/-- `create_cgp_vector(cgp_decoder)` (leap_ec/executable_rep/cgp.py:648-651) called once; `none` is `None`. -/
def createCgpVector (d : Option (CgpDecoder V)) (draws : List Int) : PyM (List Int) :=
  match d with
  | none => .error .assertionError
  | some d => createIntVector d.bounds draws

/-- `cgp_genome_mutate(cgp_decoder, …)` (leap_ec/executable_rep/cgp.py:631-642) applied to a genome. -/
def cgpGenomeMutate (d : Option (CgpDecoder V)) (expected probability : Option ℚ) (u : List ℚ) (draws : List Int)
    (genome : List Int) : PyM (List Int) :=
  match d with
  | none => .error .assertionError
  | some d => individualMutateRandint d.bounds expected probability u draws genome

/-- `cgp_mutate(cgp_decoder, …)` (leap_ec/executable_rep/cgp.py:605-625): the operator. Making it raises when there is no
decoder. -/
def cgpMutate {U φ : Type} (d : Option (CgpDecoder V)) (expected probability : Option ℚ)
    (rand : U → (List ℚ × List Int) × U) (next : U → PyM (MInd (List Int) φ × U)) :
    PyM (Gen U Bool (MInd (List Int) φ)) :=
  match d with
  | none => .error .assertionError
  | some d => .ok (mutateRandint d.bounds expected probability rand next)

/-- `CGPWithParametersDecoder.__init__` (leap_ec/executable_rep/cgp.py:521-536): the decoder, with its own `prune`, and the
number of parameters per node, which is not checked. -/
def cgpParametersDecoder (primitives : List (CgpPrimitive V)) (numInputs numOutputs numLayers nodesPerLayer maxArity : Int)
    (perNode : Nat) (prune : Bool) (levelsBack : Option Int) : PyM (CgpDecoder V × Nat) :=
  if primitives.length > 0 ∧ numInputs > 0 ∧ numOutputs > 0 ∧ numLayers > 0 ∧ nodesPerLayer > 0 ∧ maxArity > 0 then
    match cgpDecoder primitives numInputs numOutputs numLayers nodesPerLayer maxArity false levelsBack with
    | .error e => .error e
    | .ok d => .ok ({ d with prune := prune }, perNode)
  else .error .assertionError

/-- `CGPWithParametersDecoder.initialize(parameters_initializer)` (leap_ec/executable_rep/cgp.py:584-599) called once: the
two segments. -/
def cgpParametersInitialize {W : Type} (d : CgpDecoder V) (draws : List Int) (parametersInit : PyM (List W)) :
    PyM (List Int × List W) :=
  match createCgpVector (some d) draws with
  | .error e => .error e
  | .ok g =>
    match parametersInit with
    | .error e => .error e
    | .ok ps => .ok (g, ps)

end Leap
