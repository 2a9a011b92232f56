import Mathlib.Algebra.Ring.Defs
import Mathlib.Algebra.BigOperators.Group.List.Basic
import Verif.Py.Basic

/-!
# Neural networks

Models `leap_ec/executable_rep/neural_network.py` and the wrappers of `leap_ec/executable_rep/executable.py`. Weights are
in any semiring `R` (exact arithmetic); the activation function is a parameter, applied to the whole vector as in the
code. Layer sizes are natural numbers.
-/

namespace Leap

/-- A two-dimensional NumPy array with its shape. For leap_ec/executable_rep/neural_network.py:93-101. -/
structure WeightMatrix (R : Type) where
  nrows : Nat
  ncols : Nat
  entries : List (List R)
  deriving DecidableEq

/-- The attributes set by `SimpleNeuralNetworkDecoder.__init__`. For leap_ec/executable_rep/neural_network.py:71-86. -/
structure NNDecoder where
  dimensions : List (Nat × Nat)
  length : Nat
  deriving DecidableEq

/-- `list(zip(1 + shape[:-1], shape[1:]))` (leap_ec/executable_rep/neural_network.py:82). -/
def layerDimensions (shape : List Nat) : List (Nat × Nat) := List.zip (shape.dropLast.map (1 + ·)) shape.tail

/-- `SimpleNeuralNetworkDecoder.__init__` (leap_ec/executable_rep/neural_network.py:71-86). -/
def nnDecoder (shape : List Nat) : PyM NNDecoder :=
  if 1 < shape.length then
    let shape := shape.filter (· != 0)
    let dimensions := layerDimensions shape
    .ok ⟨dimensions, (dimensions.map fun d => d.1 * d.2).sum⟩
  else .error .assertionError

/-- `np.reshape(l, (rows, cols))` in C order. For leap_ec/executable_rep/neural_network.py:93-101. -/
def npReshape (l : List R) (rows cols : Nat) : PyM (WeightMatrix R) :=
  if l.length = rows * cols then .ok ⟨rows, cols, (List.range rows).map fun r => (l.drop (r * cols)).take cols⟩
  else .error .valueError

/-- The loop of `SimpleNeuralNetworkDecoder.decode` (leap_ec/executable_rep/neural_network.py:93-101). -/
def nnLayers (genome : List R) : Nat → List (Nat × Nat) → PyM (List (WeightMatrix R))
  | _, [] => .ok []
  | start, (numInputs, numOutputs) :: dims => do
    let stop := start + numInputs * numOutputs
    let layerSequence := (genome.take stop).drop start
    let layerMatrix ← npReshape layerSequence numInputs numOutputs
    let rest ← nnLayers genome stop dims
    .ok (layerMatrix :: rest)

/-- `SimpleNeuralNetworkDecoder.decode` (leap_ec/executable_rep/neural_network.py:88-103). The executable is represented by
its weight matrices. -/
def nnDecode (d : NNDecoder) (genome : List R) : PyM (List (WeightMatrix R)) :=
  if genome.length ≠ d.length then .error .valueError else nnLayers genome 0 d.dimensions

/-- `num_hidden_layers` (leap_ec/executable_rep/neural_network.py:136-139). -/
def nnNumHidden (ws : List (WeightMatrix R)) : Int := (ws.length : Int) - 1

/-- `num_inputs` (leap_ec/executable_rep/neural_network.py:141-146). -/
def nnNumInputs (ws : List (WeightMatrix R)) : PyM Int :=
  match ws.head? with
  | some m => .ok ((m.nrows : Int) - 1)
  | none => .error .indexError

/-- `num_outputs` (leap_ec/executable_rep/neural_network.py:148-153). -/
def nnNumOutputs (ws : List (WeightMatrix R)) : PyM Nat :=
  match ws.getLast? with
  | some m => .ok m.ncols
  | none => .error .indexError

/-- `np.dot(signal, W)` for a vector and a matrix: `ValueError` when the sizes do not match.
For leap_ec/executable_rep/neural_network.py:194-205. -/
def npDot [Semiring R] (signal : List R) (w : WeightMatrix R) : PyM (List R) :=
  if signal.length = w.nrows then
    .ok ((List.range w.ncols).map fun j => (List.zipWith (fun s row => s * row.getD j 0) signal w.entries).sum)
  else .error .valueError

/-- `SimpleNeuralNetworkExecutable.__call__` (leap_ec/executable_rep/neural_network.py:194-205). -/
def nnCall [Semiring R] (activation : List R → List R) : List (WeightMatrix R) → List R → PyM (List R)
  | [], signal => .ok signal
  | w :: ws, signal => do
    let signal := signal ++ [1]
    let dotted ← npDot signal w
    let signal := activation dotted
    if 0 < signal.length then nnCall activation ws signal else .error .assertionError

/-- The node names of the graph: `bias`, `i3`, `h1_2`, `o0`. For leap_ec/executable_rep/neural_network.py:173-176. -/
inductive NodeId where
  | bias
  | input (i : Nat)
  | hidden (layer i : Nat)
  | output (i : Nat)
  deriving DecidableEq, Repr

/-- A weighted edge of the graph. For leap_ec/executable_rep/neural_network.py:173-176. -/
structure NNEdge (R : Type) where
  source : NodeId
  target : NodeId
  weight : R
  deriving DecidableEq

/-- The edges of one row: `[(source_id, ids[i], w) for i, w in enumerate(row)]`.
For leap_ec/executable_rep/neural_network.py:173-176. -/
def rowEdges (source : NodeId) (targets : List NodeId) (row : List R) : PyM (List (NNEdge R)) :=
  if row.length ≤ targets.length then .ok (List.zipWith (fun t w => ⟨source, t, w⟩) targets row) else .error .indexError

/-- `for r, row in enumerate(matrix): ...` (leap_ec/executable_rep/neural_network.py:173-176 and 186-189), from row `r`. -/
def matrixEdges (previous targets : List NodeId) : Nat → List (List R) → PyM (List (NNEdge R))
  | _, [] => .ok []
  | r, row :: rows => do
    match previous[r]? with
    | none => .error .indexError
    | some source =>
      let es ← rowEdges source targets row
      let rest ← matrixEdges previous targets (r + 1) rows
      .ok (es ++ rest)

/-- The hidden layers and the last layer of `graph` (leap_ec/executable_rep/neural_network.py:165-189), from layer `l`. The
last matrix in the list is the output layer; its columns are the network's outputs. -/
def layerEdges : Nat → List NodeId → List (WeightMatrix R) → PyM (List (NNEdge R))
  | _, _, [] => .error .indexError
  | _, previous, [w] => matrixEdges previous ((List.range w.ncols).map .output) 0 w.entries
  | l, previous, w :: w' :: ws => do
    if w.nrows = previous.length then
      let ids := (List.range w.ncols).map (NodeId.hidden l)
      let es ← matrixEdges previous ids 0 w.entries
      let rest ← layerEdges (l + 1) (ids ++ [.bias]) (w' :: ws)
      .ok (es ++ rest)
    else .error .assertionError

/-- `graph` (leap_ec/executable_rep/neural_network.py:156-191): its edges in the order they are added. -/
def nnGraph (ws : List (WeightMatrix R)) : PyM (List (NNEdge R)) :=
  match ws.head? with
  | none => .error .indexError
  | some m => layerEdges 0 ((List.range (m.nrows - 1)).map .input ++ [.bias]) ws

/-- The running position of the greatest element: `best` at `at`, next position `i`.
For leap_ec/executable_rep/executable.py:140-147. -/
def argmaxFrom (lt : β → β → Bool) (at_ : Nat) (best : β) : Nat → List β → Nat
  | _, [] => at_
  | i, x :: xs => if lt best x then argmaxFrom lt i x (i + 1) xs else argmaxFrom lt at_ best (i + 1) xs

/-- `np.argmax(value)`: the first position of the greatest element, `ValueError` when empty.
For leap_ec/executable_rep/executable.py:140-147. -/
def nnArgmax (lt : β → β → Bool) (value : List β) : PyM Nat :=
  match value with
  | [] => .error .valueError
  | x :: xs => .ok (argmaxFrom lt 0 x 1 xs)

/-- `ArgmaxExecutable.__call__` (leap_ec/executable_rep/executable.py:140-147). -/
def argmaxCall (lt : β → β → Bool) (wrapped : ι → PyM (List β)) (input : ι) : PyM Nat := do
  let value ← wrapped input
  nnArgmax lt value

/-- `WrapperDecoder.decode` (leap_ec/executable_rep/executable.py:177-180). -/
def wrapperDecode (wrappedDecoder : γ → PyM δ) (decorator : δ → PyM ε) (genome : γ) : PyM ε := do
  let value ← wrappedDecoder genome
  decorator value

end Leap
