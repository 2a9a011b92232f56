import Verif.Model.Cgp

/-!
# What a CGP genome means

Written from the description of the genome in English, without the functions of the model. Node `k` of the grid (counting
layer by layer) owns the genes `k*(max_arity+1) …`: the number of its primitive and `max_arity` sources. The last genes
are the sources of the outputs. Sources are numbered with the inputs first, then the nodes of the grid.
-/

namespace Leap.Spec

variable {V : Type}

/-- A node of layer `l` may be connected to `s`: an input (if no more than `levels_back` layers back, or in the first
layer), or a node of an earlier layer that is at most `levels_back` layers back. -/
def Admissible (d : CgpDecoder V) (l : Nat) (s : Int) : Prop :=
  (0 ≤ s ∧ s < d.numInputs ∧ (l = 0 ∨ (l : Int) < d.levelsBack)) ∨
  (∃ l' n' : Nat, l' < l ∧ n' < d.nodesPerLayer ∧ s = d.numInputs + l' * d.nodesPerLayer + n' ∧
    (l : Int) - l' ≤ d.levelsBack)

/-- The genome respects the CGP constraints. -/
structure CgpValid (d : CgpDecoder V) (genome : List Int) : Prop where
  length : genome.length = d.numLayers * d.nodesPerLayer * (d.maxArity + 1) + d.numOutputs
  primitive : ∀ l n : Nat, l < d.numLayers → n < d.nodesPerLayer → ∃ p : Nat,
    genome[(l * d.nodesPerLayer + n) * (d.maxArity + 1)]? = some (p : Int) ∧ p < d.primitives.length
  source : ∀ l n j : Nat, l < d.numLayers → n < d.nodesPerLayer → j < d.maxArity → ∃ s : Int,
    genome[(l * d.nodesPerLayer + n) * (d.maxArity + 1) + 1 + j]? = some s ∧ Admissible d l s
  output : ∀ o : Nat, o < d.numOutputs → ∃ s : Int,
    genome[d.numLayers * d.nodesPerLayer * (d.maxArity + 1) + o]? = some s ∧
      0 ≤ s ∧ s < d.numInputs + d.numLayers * d.nodesPerLayer

/-- The number of arguments a primitive takes: as many as it declares, all of them if it declares nothing. -/
def usedArity (d : CgpDecoder V) (f : CgpPrimitive V) : Nat :=
  match f.arity with
  | some a => min a d.maxArity
  | none => d.maxArity

/-- `Evaluates d genome params input s v`: on the given inputs, the value at source `s` is `v`. `params k` are the constant
parameters of node `k`, given to its primitive after its arguments. -/
inductive Evaluates (d : CgpDecoder V) (genome : List Int) (params : Nat → List V) (input : List V) : Int → V → Prop
  | input (i : Nat) (v : V) : i < d.numInputs → input[i]? = some v → Evaluates d genome params input i v
  | node (k p : Nat) (f : CgpPrimitive V) (args : List V) (v : V) :
      k < d.numLayers * d.nodesPerLayer →
      genome[k * (d.maxArity + 1)]? = some (p : Int) →
      d.primitives[p]? = some f →
      args.length = usedArity d f →
      (∀ (j : Nat) (s : Int) (x : V), j < usedArity d f → genome[k * (d.maxArity + 1) + 1 + j]? = some s →
        args[j]? = some x → Evaluates d genome params input s x) →
      f.call (args ++ params k) = .ok v →
      Evaluates d genome params input (d.numInputs + k : Nat) v

/-- `r` are the values at the sources of the outputs. -/
def Outputs (d : CgpDecoder V) (genome : List Int) (params : Nat → List V) (input r : List V) : Prop :=
  r.length = d.numOutputs ∧
  ∀ (o : Nat) (s : Int) (v : V), genome[d.numLayers * d.nodesPerLayer * (d.maxArity + 1) + o]? = some s → r[o]? = some v →
    Evaluates d genome params input s v

end Leap.Spec
