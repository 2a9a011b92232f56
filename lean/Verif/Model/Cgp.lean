import Verif.Model.Segmented
import Verif.Model.NonDom
import Verif.Py.Order

/-!
# Cartesian genetic programming

Models `leap_ec/executable_rep/cgp.py`. Genes and node ids are integers; `V` is the type of the values on the wires.
A primitive is a function of its arguments (it keeps no state) that may raise. A networkx multigraph is its list of
nodes in insertion order, its node attributes and its list of edges in insertion order; `in_edges` lists them grouped by
source, which is not modelled because the only list of several in-edges that is read is sorted by port first.
-/

namespace Leap

/-- A primitive: the optional attribute `arity`, and `__call__` (leap_ec/executable_rep/cgp.py:24-98). -/
structure CgpPrimitive (V : Type) where
  arity : Option Nat
  call : List V → PyM V

/-- The attributes of a `CGPDecoder` (leap_ec/executable_rep/cgp.py:181-196). -/
structure CgpDecoder (V : Type) where
  primitives : List (CgpPrimitive V)
  numInputs : Nat
  numOutputs : Nat
  numLayers : Nat
  nodesPerLayer : Nat
  maxArity : Nat
  prune : Bool
  levelsBack : Int

variable {V : Type}

/-- `CGPDecoder.__init__` (leap_ec/executable_rep/cgp.py:181-196). -/
def cgpDecoder (primitives : List (CgpPrimitive V)) (numInputs numOutputs numLayers nodesPerLayer maxArity : Int)
    (prune : Bool) (levelsBack : Option Int) : PyM (CgpDecoder V) :=
  if primitives.length > 0 ∧ numInputs > 0 ∧ numOutputs > 0 ∧ numLayers > 0 ∧ nodesPerLayer > 0 ∧ maxArity > 0 then
    .ok ⟨primitives, numInputs.toNat, numOutputs.toNat, numLayers.toNat, nodesPerLayer.toNat, maxArity.toNat, prune,
      levelsBack.getD numLayers⟩
  else .error .assertionError

/-- `num_genes` (leap_ec/executable_rep/cgp.py:220). -/
def CgpDecoder.numGenes (d : CgpDecoder V) : Nat :=
  d.numLayers * d.nodesPerLayer * (d.maxArity + 1) + d.numOutputs

/-- `num_cgp_nodes` (leap_ec/executable_rep/cgp.py:231). -/
def CgpDecoder.numCgpNodes (d : CgpDecoder V) : Nat :=
  d.numInputs + d.numLayers * d.nodesPerLayer + d.numOutputs

/-- `min_source_value_for_layer` (leap_ec/executable_rep/cgp.py:297-300). -/
def CgpDecoder.minSource (d : CgpDecoder V) (l : Nat) : Int :=
  if l = 0 ∨ (l : Int) < d.levelsBack then 0 else d.numInputs + (l - d.levelsBack) * d.nodesPerLayer

/-- `_min_bounds` (leap_ec/executable_rep/cgp.py:292-311). -/
def CgpDecoder.minBounds (d : CgpDecoder V) : List Int :=
  ((List.range d.numLayers).flatMap fun l =>
    (List.range d.nodesPerLayer).flatMap fun _ => 0 :: (List.range d.maxArity).map fun _ => d.minSource l)
  ++ (List.range d.numOutputs).map fun _ => 0

/-- `_max_bounds` (leap_ec/executable_rep/cgp.py:331-347). -/
def CgpDecoder.maxBounds (d : CgpDecoder V) : List Int :=
  ((List.range d.numLayers).flatMap fun (l : Nat) =>
    (List.range d.nodesPerLayer).flatMap fun _ =>
      ((d.primitives.length : Int) - 1) ::
        (List.range d.maxArity).map fun _ => (d.numInputs : Int) - 1 + l * d.nodesPerLayer)
  ++ (List.range d.numOutputs).map fun _ => (d.numCgpNodes : Int) - 1 - d.numOutputs

/-- `bounds` (leap_ec/executable_rep/cgp.py:360). -/
def CgpDecoder.bounds (d : CgpDecoder V) : List (Int × Int) := List.zip d.minBounds d.maxBounds

/-- A gene as `check_constraints` sees it. For leap_ec/executable_rep/cgp.py:426-431. -/
inductive CgpGene where
  | int (i : Int)
  | nonIntegral
deriving DecidableEq

/-- One gene against its bounds (leap_ec/executable_rep/cgp.py:426-431). -/
def cgpGeneOk (g : CgpGene) (b : Int × Int) : Bool :=
  match g with
  | .nonIntegral => false
  | .int g => !(decide (g < b.1) || decide (g > b.2))

/-- `check_constraints` on one individual (leap_ec/executable_rep/cgp.py:421-433): the individual passes, or `ValueError`. -/
def cgpCheck (d : CgpDecoder V) (genome : List CgpGene) : PyM (List CgpGene) :=
  if genome.length ≠ d.bounds.length then .error .valueError
  else if (List.zip genome d.bounds).all (fun p => cgpGeneOk p.1 p.2) then .ok genome
  else .error .valueError

/-- The generator `check_constraints` (leap_ec/executable_rep/cgp.py:419-433): the end of the upstream iterator becomes
`RuntimeError`. -/
def cgpCheckGen {U : Type} (d : CgpDecoder V) (next : U → PyM (List CgpGene × U)) : Gen U Unit (List CgpGene) :=
  fun _ u =>
    match next u with
    | .error e => pep479 (.error e)
    | .ok (ind, u) =>
      match cgpCheck d ind with
      | .error e => .error e
      | .ok ind => .ok (ind, (), u)

/-- `get_primitive` (leap_ec/executable_rep/cgp.py:233-243). -/
def CgpDecoder.getPrimitive (d : CgpDecoder V) (genome : List Int) (layer node : Nat) : PyM (CgpPrimitive V) :=
  if layer < d.numLayers ∧ node < d.nodesPerLayer then do
    let primitiveId ← pyIndex genome (((layer * d.nodesPerLayer + node) * (d.maxArity + 1) : Nat) : Int)
    if primitiveId < d.primitives.length then pyIndex d.primitives primitiveId else .error .assertionError
  else .error .assertionError

/-- `get_input_sources` (leap_ec/executable_rep/cgp.py:246-267). -/
def CgpDecoder.getInputSources (d : CgpDecoder V) (genome : List Int) (layer node : Nat) : PyM (List Int) :=
  if layer < d.numLayers ∧ node < d.nodesPerLayer then
    pyMapM (fun (i : Nat) =>
      pyIndex genome (((layer * d.nodesPerLayer + node) * (d.maxArity + 1) + 1 + i : Nat) : Int)) (List.range d.maxArity)
  else .error .assertionError

/-- `get_output_sources` (leap_ec/executable_rep/cgp.py:269-273). -/
def CgpDecoder.getOutputSources (d : CgpDecoder V) (genome : List Int) : List Int :=
  genome.drop (d.numLayers * d.nodesPerLayer * (d.maxArity + 1))

/-- An edge with its `order` attribute; the edges into output nodes have none, and it is never read (0 here).
For leap_ec/executable_rep/cgp.py:466. -/
structure CgpEdge where
  src : Int
  dst : Int
  order : Nat
deriving DecidableEq, Repr

/-- The networkx graph; the attribute `output` of the nodes is kept apart because execution changes it.
For leap_ec/executable_rep/cgp.py:455-466. -/
structure CgpGraph (V : Type) where
  nodes : List Int
  function : Int → Option (CgpPrimitive V)
  parameters : Int → Option (List V)
  edges : List CgpEdge

/-- Adding an edge adds its source if it is new (the target never is). For leap_ec/executable_rep/cgp.py:455-466. -/
def addNode (nodes : List Int) (n : Int) : List Int := if n ∈ nodes then nodes else nodes ++ [n]

/-- `graph.add_edges_from(...)`. For leap_ec/executable_rep/cgp.py:455-466. -/
def CgpGraph.addEdges (g : CgpGraph V) (es : List CgpEdge) : CgpGraph V :=
  { g with nodes := es.foldl (fun ns e => addNode ns e.src) g.nodes, edges := g.edges ++ es }

/-- Set one entry of a node attribute. For leap_ec/executable_rep/cgp.py:455-466. -/
def setNode {β : Type} (f : Int → β) (k : Int) (v : β) : Int → β := fun j => if j = k then v else f j

/-- `if hasattr(function, 'arity'): inputs = inputs[:function.arity]` (leap_ec/executable_rep/cgp.py:462-463). -/
def limitArity (p : CgpPrimitive V) (inputs : List Int) : List Int :=
  match p.arity with
  | some a => inputs.take a
  | none => inputs

/-- `[(i, node_id, {'order': o}) for o, i in enumerate(inputs)]` (leap_ec/executable_rep/cgp.py:466). -/
def cgpNodeEdges (nodeId : Int) (inputs : List Int) : List CgpEdge :=
  inputs.zipIdx.map fun io => ⟨io.1, nodeId, io.2⟩

/-- The body of the loops over layers and nodes (leap_ec/executable_rep/cgp.py:455-466). -/
def cgpAddCell (d : CgpDecoder V) (genome : List Int) (g : CgpGraph V) (cell : Nat × Nat) : PyM (CgpGraph V) := do
  let nodeId : Int := ((d.numInputs + cell.1 * d.nodesPerLayer + cell.2 : Nat) : Int)
  let function ← d.getPrimitive genome cell.1 cell.2
  let inputs ← d.getInputSources genome cell.1 cell.2
  .ok (({ g with function := setNode g.function nodeId (some function) } : CgpGraph V).addEdges
    (cgpNodeEdges nodeId (limitArity function inputs)))

/-- The loops over layers and nodes. For leap_ec/executable_rep/cgp.py:445-471. -/
def cgpAddCells (d : CgpDecoder V) (genome : List Int) : List (Nat × Nat) → CgpGraph V → PyM (CgpGraph V)
  | [], g => .ok g
  | c :: cs, g =>
    match cgpAddCell d genome g c with
    | .error e => .error e
    | .ok g => cgpAddCells d genome cs g

/-- The pairs `(layer, node)` in the order of the loops. For leap_ec/executable_rep/cgp.py:445-471. -/
def CgpDecoder.cells (d : CgpDecoder V) : List (Nat × Nat) :=
  (List.range d.numLayers).flatMap fun layer => (List.range d.nodesPerLayer).map fun node => (layer, node)

/-- `all_node_ids[-self.num_outputs:]` and `list(graph.nodes())[-num_outputs:]` for positive `num_outputs`.
For leap_ec/executable_rep/cgp.py:445-471. -/
def lastNodes (nodes : List Int) (numOutputs : Nat) : List Int := nodes.drop (nodes.length - numOutputs)

/-- The graph before pruning (leap_ec/executable_rep/cgp.py:445-471). -/
def cgpGraph (d : CgpDecoder V) (genome : List Int) : PyM (CgpGraph V) :=
  if genome.length = d.numGenes then
    let allNodeIds := (List.range d.numCgpNodes).map fun (i : Nat) => (i : Int)
    match cgpAddCells d genome d.cells ⟨allNodeIds, fun _ => none, fun _ => none, []⟩ with
    | .error e => .error e
    | .ok g =>
      .ok (g.addEdges (List.zipWith (fun s o => ⟨s, o, 0⟩) (d.getOutputSources genome)
        (lastNodes allNodeIds d.numOutputs)))
  else .error .assertionError

/-- One step of the backward search of `nx.ancestors`: add every node with an edge into the set.
For leap_ec/executable_rep/cgp.py:493-494. -/
def cgpBackStep (nodes : List Int) (edges : List CgpEdge) (acc : List Int) : List Int :=
  nodes.filter fun n => decide (n ∈ acc) || edges.any fun e => decide (e.src = n) && decide (e.dst ∈ acc)

/-- The nodes from which a node of `start` can be reached (`start` itself included): `nx.ancestors`, united over the output
nodes (leap_ec/executable_rep/cgp.py:493-494). A search needs at most as many rounds as there are nodes. -/
def cgpBackReach (nodes : List Int) (edges : List CgpEdge) : Nat → List Int → List Int
  | 0, acc => acc
  | k + 1, acc => cgpBackReach nodes edges k (cgpBackStep nodes edges acc)

/-- `necessary_nodes` (leap_ec/executable_rep/cgp.py:482-494) in increasing order. -/
def cgpNecessary (g : CgpGraph V) (numInputs numOutputs : Nat) : List Int :=
  let outputNodes := lastNodes g.nodes numOutputs
  let reach := cgpBackReach g.nodes g.edges g.nodes.length outputNodes
  sortedAsc (fun a b => decide (a < b)) (g.nodes.filter fun n =>
    (decide (0 ≤ n) && decide (n < numInputs)) || decide (n ∈ outputNodes) || decide (n ∈ reach))

/-- The new number of a node: its place among the necessary nodes in increasing order
(`convert_node_labels_to_integers(graph, ordering="sorted")`, leap_ec/executable_rep/cgp.py:501). -/
def cgpRelabel (necessary : List Int) (n : Int) : Int := (necessary.idxOf n : Nat)

/-- The attribute of the node with a given new number. For leap_ec/executable_rep/cgp.py:479-503. -/
def cgpOldAttr {β : Type} (necessary : List Int) (attr : Int → Option β) (i : Int) : Option β :=
  if 0 ≤ i then
    match necessary[i.toNat]? with
    | some n => attr n
    | none => none
  else none

/-- `prune_graph` (leap_ec/executable_rep/cgp.py:479-503). -/
def pruneGraph (g : CgpGraph V) (numInputs numOutputs : Nat) : CgpGraph V :=
  let necessary := cgpNecessary g numInputs numOutputs
  { nodes := necessary.map (cgpRelabel necessary)
    function := cgpOldAttr necessary g.function
    parameters := cgpOldAttr necessary g.parameters
    edges := (g.edges.filter fun e => decide (e.src ∈ necessary) && decide (e.dst ∈ necessary)).map fun e =>
      ⟨cgpRelabel necessary e.src, cgpRelabel necessary e.dst, e.order⟩ }

/-- `CGPDecoder.decode` (leap_ec/executable_rep/cgp.py:435-476): the graph of the executable. -/
def cgpDecode (d : CgpDecoder V) (genome : List Int) : PyM (CgpGraph V) :=
  match cgpGraph d genome with
  | .error e => .error e
  | .ok g => .ok (if d.prune then pruneGraph g d.numInputs d.numOutputs else g)

/-- The parameters given to one node (leap_ec/executable_rep/cgp.py:573-577). -/
def cgpNodeParameters (numInputs perNode : Nat) (parameters : List V) (k : Nat) : Int × List V :=
  (((numInputs + k : Nat) : Int), (parameters.drop (k * perNode)).take perNode)

/-- `CGPWithParametersDecoder.decode` (leap_ec/executable_rep/cgp.py:538-582); `d.prune` is its argument `prune`. The message of
the assertion on the number of parameters reads an attribute `cgp_decoder` that does not exist, so the assertion fails
with `AttributeError`. Simplification: the genome has two segments. -/
def cgpDecodeWithParameters (d : CgpDecoder V) (perNode : Nat) (genome : List Int) (parameters : List V) :
    PyM (CgpGraph V) :=
  match cgpDecode { d with prune := false } genome with
  | .error e => .error e
  | .ok g =>
    if parameters.length = perNode * d.nodesPerLayer * d.numLayers then
      let attrs := d.cells.map fun c => cgpNodeParameters d.numInputs perNode parameters (c.1 * d.nodesPerLayer + c.2)
      let g := { g with parameters := attrs.foldl (fun f a => setNode f a.1 (some a.2)) g.parameters }
      .ok (if d.prune then pruneGraph g d.numInputs d.numOutputs else g)
    else .error .attributeError

/-! ### Execution -/

/-- The sources of a node, ordered by port (leap_ec/executable_rep/cgp.py:120-127). -/
def CgpGraph.inNodes (g : CgpGraph V) (i : Int) : List Int :=
  (sortedAsc (fun a b => decide (a.order < b.order)) (g.edges.filter fun e => e.dst = i)).map CgpEdge.src

/-- Reading `node['output']`. For leap_ec/executable_rep/cgp.py:138-149. -/
def readOutput (out : Int → Option V) (i : Int) : PyM V :=
  match out i with
  | some v => .ok v
  | none => .error .keyError

/-- One hidden node (leap_ec/executable_rep/cgp.py:138-149). -/
def cgpStep (g : CgpGraph V) (out : Int → Option V) (i : Int) : PyM (Int → Option V) := do
  let vals ← pyMapM (readOutput out) (g.inNodes i)
  let args := vals ++ (g.parameters i).getD []
  match g.function i with
  | none => .error .keyError
  | some f => do
    let v ← f.call args
    .ok (setNode out i (some v))

/-- The loop over the hidden nodes (leap_ec/executable_rep/cgp.py:136-149). -/
def cgpRunNodes (g : CgpGraph V) : List Int → (Int → Option V) → PyM (Int → Option V)
  | [], out => .ok out
  | i :: is, out =>
    match cgpStep g out i with
    | .error e => .error e
    | .ok out => cgpRunNodes g is out

/-- The loop over the output nodes (leap_ec/executable_rep/cgp.py:152-159). -/
def cgpRunOutputs (g : CgpGraph V) : List Int → (Int → Option V) → List V → PyM (List V × (Int → Option V))
  | [], out, result => .ok (result, out)
  | i :: is, out, result =>
    match g.edges.filter fun e => e.dst = i with
    | [e] =>
      match readOutput out e.src with
      | .error err => .error err
      | .ok v => cgpRunOutputs g is (setNode out i (some v)) (result ++ [v])
    | _ => .error .assertionError

/-- The integers from `a` to `a + n - 1`. For leap_ec/executable_rep/cgp.py:117-161. -/
def intRange (a : Int) (n : Nat) : List Int := (List.range n).map fun (k : Nat) => a + (k : Int)

/-- `CGPExecutable.__call__` (leap_ec/executable_rep/cgp.py:117-161). `out` holds the `output` attributes left by earlier
calls; the result is the list of outputs and the attributes afterwards. `len(graph.nodes)` is at least the number of
inputs and outputs. -/
def cgpCall (g : CgpGraph V) (numInputs numOutputs : Nat) (out : Int → Option V) (input : List V) :
    PyM (List V × (Int → Option V)) :=
  if input.length = numInputs then
    let out := (List.zip (intRange 0 numInputs) input).foldl (fun o iv => setNode o iv.1 (some iv.2)) out
    let numHidden := g.nodes.length - numInputs - numOutputs
    match cgpRunNodes g (intRange numInputs numHidden) out with
    | .error e => .error e
    | .ok out => cgpRunOutputs g (intRange (numInputs + numHidden) numOutputs) out []
  else .error .assertionError

end Leap
