import Verif.Model.Pareto
import Verif.Model.Transform
import Verif.Model.Selection
import Verif.Py.NLargest

/-!
# Selection by a parsimony key, failed evaluations included

`Verif/Model/Parsimony.lean` has the keys of `leap_ec/parsimony.py` for fitnesses that are numbers. Here a fitness may also be infinite or NaN, as a
`RobustIndividual` has after its evaluation raised (leap_ec/individual.py:281-304), and the keys are compared the way Python compares tuples and floats.
-/

namespace Leap

variable {α : Type}

/-- What the key functions read of an individual. `obj` tells NaN objects apart: tuples take entries that are the same object as equal. It is of no
account for other fitnesses, which equal themselves anyway. For leap_ec/parsimony.py:13-48. -/
structure PInd where
  maximize : Bool
  fit : Num
  obj : Nat
  length : Nat
deriving DecidableEq

/-- The tuple made by `lexical_parsimony`; `obj` is `none` for a NaN object made by negating. For leap_ec/parsimony.py:13-48. -/
structure LexKey where
  num : Num
  obj : Option Nat
  tail : Int
deriving DecidableEq

/-- `lexical_parsimony` (leap_ec/parsimony.py:13-48). -/
def lexKey (ind : PInd) : LexKey :=
  if ind.maximize then ⟨ind.fit, some ind.obj, -(ind.length : Int)⟩ else ⟨ind.fit.neg, none, -(ind.length : Int)⟩

/-- `koza_parsimony` (leap_ec/parsimony.py:51-93). Simplification: the arithmetic is exact. -/
def kozaKey (penalty : ℚ) (ind : PInd) : Num :=
  if ind.maximize then ind.fit.addFin (-(penalty * ind.length)) else ind.fit.neg.addFin (-(penalty * ind.length))

/-- Whether the first entries of two tuples count as equal: `is` or `==`. For leap_ec/ops.py:778-823. -/
def LexKey.sameNum (a b : LexKey) : Bool :=
  Num.eq a.num b.num || (a.num.isNan && b.num.isNan && match a.obj, b.obj with | some x, some y => decide (x = y) | _, _ => false)

/-- `a < b` on tuples: the first entries that are not equal decide. For leap_ec/ops.py:778-823. -/
def LexKey.lt (a b : LexKey) : Bool := if a.sameNum b then decide (a.tail < b.tail) else Num.lt a.num b.num

/-- `a > b` on tuples. For leap_ec/ops.py:778-823. -/
def LexKey.gt (a b : LexKey) : Bool := if a.sameNum b then decide (b.tail < a.tail) else Num.lt b.num a.num

/-- `a == b` on tuples. For leap_ec/ops.py:778-823. -/
def LexKey.eq (a b : LexKey) : Bool := a.sameNum b && decide (a.tail = b.tail)

/-- The two key functions. For leap_ec/ops.py:778-823. -/
inductive PKey where
  | lexical
  | koza (penalty : ℚ)

/-- `key(a) < key(b)`. For leap_ec/ops.py:778-823. -/
def PKey.lt : PKey → PInd → PInd → Bool
  | .lexical, a, b => (lexKey a).lt (lexKey b)
  | .koza c, a, b => Num.lt (kozaKey c a) (kozaKey c b)

/-- `key(a) > key(b)`. For leap_ec/ops.py:778-823. -/
def PKey.gt : PKey → PInd → PInd → Bool
  | .lexical, a, b => (lexKey a).gt (lexKey b)
  | .koza c, a, b => Num.lt (kozaKey c b) (kozaKey c a)

/-- `key(a) == key(b)`. For leap_ec/ops.py:778-823. -/
def PKey.eq : PKey → PInd → PInd → Bool
  | .lexical, a, b => (lexKey a).eq (lexKey b)
  | .koza c, a, b => Num.eq (kozaKey c a) (kozaKey c b)

/-- `heapq.nlargest(n, xs, key=key)` (Lib/heapq.py): the single best with `max`, a sort when at least everything is asked for, else a heap of
`(key, number, element)`; the numbers differ, so elements are never compared, and every call of `key` makes a new object.
For leap_ec/ops.py:778-823. -/
def nlargestKey (lt gt eq : α → α → Bool) (hasLen : Bool) (n : Nat) (xs : List α) : List α :=
  if n = 1 then
    match xs with
    | [] => []
    | x :: rest => [pyMaxFrom gt x rest]
  else (nlargest (σ := Unit) (fun a b s => (lt a b, s)) eq (fun _ _ => false) hasLen n xs ()).1

/-- `truncation_selection` with a key (leap_ec/ops.py:778-823). With parents, the candidates are an `itertools.chain`, which has no length. -/
def truncationKey (key : PKey) (rd : α → PInd) (offspring : List α) (size : Nat) (parents : Option (List α)) : List α :=
  let by_ (c : PInd → PInd → Bool) (a b : α) := c (rd a) (rd b)
  match parents with
  | some ps => nlargestKey (by_ key.lt) (by_ key.gt) (by_ key.eq) false size (offspring ++ ps)
  | none => nlargestKey (by_ key.lt) (by_ key.gt) (by_ key.eq) true size offspring

/-- `elitist_survival` with a key (leap_ec/ops.py:829-900). -/
def elitistKey (key : PKey) (rd : α → PInd) (offspring parents : List α) (k : Nat) : List α :=
  let by_ (c : PInd → PInd → Bool) (a b : α) := c (rd a) (rd b)
  let elites := nlargestKey (by_ key.lt) (by_ key.gt) (by_ key.eq) true k parents
  nlargestKey (by_ key.lt) (by_ key.gt) (by_ key.eq) true offspring.length (offspring ++ elites)

/-- `tournament_selection` with a key, one resumption (leap_ec/ops.py:905-953). -/
def tournamentKey (key : PKey) (rd : α → PInd) (selectWorst : Bool) (population : List α) (k : Nat) (draws : List Nat) : PyM (List Nat × α) :=
  tournamentStep (fun a b => key.lt (rd a) (rd b)) (fun a b => key.gt (rd a) (rd b)) selectWorst population k draws

/-- `insertion_selection` with a key (leap_ec/ops.py:957-993). -/
def insertionKey (key : PKey) (rd : α → PInd) (offspring parents : List α) (idx : Nat) : PyM (List α) :=
  insertionSelection (fun a b => key.gt (rd a) (rd b)) offspring parents idx

/-- A loop that ends each generation with `truncation_selection(size, parents=parents, key=key)`, as the loops of examples/simple/simple_ep.py:65-81
would with a key, over the broods its generations make. -/
def plusKey (key : PKey) (rd : α → PInd) (size : Nat) : List (List α) → List α → List α
  | [], parents => parents
  | brood :: rest, parents => plusKey key rd size rest (truncationKey key rd brood size (some parents))

end Leap
