import Verif.Py.Order
import Verif.Py.Gen

/-!
# Selection operators

Models `leap_ec/ops.py` lines 775-1117. `lt`/`gt` are the comparisons Python applies to two
individuals (or to their keys when `key` is given).
-/

namespace Leap

variable {α : Type}

/-- `truncation_selection` (leap_ec/ops.py:778-823). The four branches differ only in whether the
parents are chained behind the offspring and in the comparison (`lt` is the keys' when `key` is
given). -/
def truncationSelection (lt : α → α → Bool) (offspring : List α) (size : Nat)
    (parents : Option (List α)) : List α :=
  match parents with
  | some ps => topk lt size (offspring ++ ps)
  | none => topk lt size offspring

/-- `elitist_survival` (leap_ec/ops.py:829-900). Returns the survivors and, because
`offspring.extend(elites)` changes the caller's list, the final content of that list. -/
def elitistSurvival (lt : α → α → Bool) (offspring parents : List α) (k : Nat) :
    List α × List α :=
  let originalNumOffspring := offspring.length
  let elites := topk lt k parents
  let offspring' := offspring ++ elites
  (topk lt originalNumOffspring offspring', offspring')

/-- The comparison of two drawn indices through `key=lambda x: population[x]`
(leap_ec/ops.py:943-946). -/
def cmpAt (population : List α) (c : α → α → Bool) (i j : Nat) : Bool :=
  match population[i]?, population[j]? with
  | some a, some b => c a b
  | _, _ => false

/-- One resumption of `tournament_selection` (leap_ec/ops.py:941-953). `draws` is the result of
`random.choices(range(len(population)), k=k)`, which raises `IndexError` for an empty population
when `k > 0`. Returns the content written to `indices` and the individual yielded. `judge` is `max`
(calling `gt`) or `min` (calling `lt`) over the drawn indices, keyed by the individual there. -/
def tournamentStep (lt gt : α → α → Bool) (selectWorst : Bool) (population : List α)
    (k : Nat) (draws : List Nat) : PyM (List Nat × α) :=
  if population = [] ∧ 0 < k then .error .indexError
  else
    let judged :=
      if selectWorst then pyMin (cmpAt population lt) draws else pyMax (cmpAt population gt) draws
    match judged with
    | .error e => .error e
    | .ok best =>
      match population[best]? with
      | some ind => .ok ([best], ind)
      | none => .error .indexError

/-- What `random.choices(range(n), k=k)` can return. For leap_ec/ops.py:908-953. -/
def ValidDraws (n k : Nat) (draws : List Nat) : Prop :=
  draws.length = k ∧ ∀ i ∈ draws, i < n

/-- The body of `insertion_selection` before its decorator (leap_ec/ops.py:959-993). `idx` is the
result of `random.randrange(len(copied_parents))`. The `return` statement is inside the loop, so
only the first child is looked at; with no offspring the function falls through and returns
`None`. `max(child, parent)` keeps the child unless `parent > child`. -/
def insertionBody (gt : α → α → Bool) (offspring parents : List α) (idx : Nat) :
    PyM (Option (List α)) :=
  match offspring with
  | [] => .ok none
  | child :: _ =>
    if parents.length = 0 then .error .valueError
    else
      match parents[idx]? with
      | none => .error .indexError
      | some parent => .ok (some (parents.set idx (pyMaxFrom gt child [parent])))

/-- `insertion_selection` with its `listlist_op` decorator, which raises `ValueError` when the
result is not a list (leap_ec/ops.py:116-152, 957-993). -/
def insertionSelection (gt : α → α → Bool) (offspring parents : List α) (idx : Nat) :
    PyM (List α) :=
  match insertionBody gt offspring parents idx with
  | .error e => .error e
  | .ok none => .error .valueError
  | .ok (some l) => .ok l

/-- `naive_cyclic_selection` (leap_ec/ops.py:999-1026): `itertools.cycle(enumerate(population))`.
The state is the position of the next element, initially 0; yields the element and the index written to
`indices`. Cycling over nothing ends at once. -/
def naiveCyclic (population : List α) : Gen Unit Nat (Nat × α) := fun i _ =>
  match population[i]? with
  | some a => .ok ((i, a), if i + 1 < population.length then i + 1 else 0, ())
  | none => .error .stopIteration

/-- State of `cyclic_selection`: what is still to be yielded in this tour, the sequence being
toured (`saved`), and how many shuffles have been made. For leap_ec/ops.py:1032-1062. -/
structure CyclicState (α : Type) where
  todo : List α
  saved : List α
  round : Nat

/-- `cyclic_selection` (leap_ec/ops.py:1032-1062). `shuffle r l` is the result of the `r`-th
`random.shuffle(saved)`. During the first tour `saved` is being filled with the population; since it
is only read after that tour, it is modelled as the population from the start. -/
def cyclicSelection (shuffle : Nat → List α → List α) : Gen Unit (CyclicState α) α := fun s _ =>
  match s.todo with
  | a :: rest => .ok (a, { s with todo := rest }, ())
  | [] =>
    if s.saved.isEmpty then .error .stopIteration
    else
      match shuffle s.round s.saved with
      | [] => .error .stopIteration
      | a :: rest => .ok (a, ⟨rest, a :: rest, s.round + 1⟩, ())

/-- The state of `cyclic_selection` when it is called (leap_ec/ops.py:1052-1055). -/
def cyclicInit (population : List α) : CyclicState α := ⟨population, population, 0⟩

/-- `random_selection` (leap_ec/ops.py:1068-1083). `draw r` is the index chosen by the `r`-th
`random.choice(range(len(population)))`, which raises `IndexError` for an empty population. Yields the
individual and the index written to `indices`. -/
def randomSelection (draw : Nat → Nat) (population : List α) : Gen Unit Nat (Nat × α) := fun r _ =>
  if population.isEmpty then .error .indexError
  else
    match population[draw r]? with
    | some a => .ok ((draw r, a), r + 1, ())
    | none => .error .indexError

/-- `pool` (leap_ec/ops.py:1089-1117): `[next(next_individual) for _ in range(size)]`. It is not a
generator, so an upstream `StopIteration` is passed on unchanged. Returns the list together with
the iterator's and the world's final state. -/
def pool {W σ β : Type} (g : Gen W σ β) (s : σ) (w : W) (size : Nat) : PyM (List β × σ × W) :=
  pull g size s w

end Leap
