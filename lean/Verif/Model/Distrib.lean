import Verif.Model.Counters
import Verif.Model.Compare

/-!
# Distributed evaluation and the asynchronous steady-state algorithm (leap_ec/distrib)

Dask is modelled by what it may do: evaluation futures complete in any order, each once. Comparisons are
parameters; `D` is the type of random draws used by one insertion (an index, coins for comparing NaN).
Individuals compared here have been evaluated, so comparisons do not raise.
-/

namespace Leap

/-- `is_viable(individual)` (leap_ec/distrib/evaluate.py:75-88): `attr = none` when there is no such attribute. -/
def isViable (attr : Option Bool) : Bool :=
  match attr with
  | some b => b
  | none => true

section
variable {α D : Type}

/-- `replace_if(new_individual, pop, index)` (leap_ec/distrib/asynchronous.py:58-79). -/
def replaceIf (viable : α → Bool) (gt : α → α → Bool) (new : α) (pop : List α) (index : Nat) : PyM (List α) :=
  match pop[index]? with
  | none => .error .indexError
  | some old =>
    if !viable old then .ok (pop.set index new)
    else if gt new old then .ok (pop.set index new)
    else .ok pop

/-- `tournament_insert_into_pop` (leap_ec/distrib/asynchronous.py:85-109). `draw` is the random source of
`random.randrange(len(pop))`, reduced to the range; `randrange(0)` raises `ValueError`. -/
def tournamentInsert (viable : α → Bool) (gt : α → α → Bool) (draw : Nat) (individual : α) (pop : List α)
    (maxSize : Nat) : PyM (List α) :=
  if pop.length < maxSize then .ok (pop ++ [individual])
  else if pop.length = 0 then .error .valueError
  else replaceIf viable gt individual pop (draw % pop.length)

/-- `min(range(len(pop)), key=pop.__getitem__)` (leap_ec/distrib/asynchronous.py:132) from position `i` on, with the
weakest so far at `best`: the later position wins only if strictly worse. `lt i` is the comparison made at
position `i` (it may toss a coin). -/
def indexMinFrom (lt : Nat → α → α → Bool) (best : Nat × α) (i : Nat) : List α → Nat
  | [] => best.1
  | x :: xs => indexMinFrom lt (if lt i x best.2 then (i, x) else best) (i + 1) xs

/-- `greedy_insert_into_pop` (leap_ec/distrib/asynchronous.py:115-134). `min` of an empty range raises `ValueError`. -/
def greedyInsert (viable : α → Bool) (lt : Nat → α → α → Bool) (gt : α → α → Bool) (individual : α) (pop : List α)
    (maxSize : Nat) : PyM (List α) :=
  if pop.length < maxSize then .ok (pop ++ [individual])
  else
    match pop with
    | [] => .error .valueError
    | x :: xs => replaceIf viable gt individual pop (indexMinFrom lt (0, x) 1 xs)

/-- A history of insertions, each with its own random draws. For leap_ec/distrib/asynchronous.py:85-136. -/
def insertAll (insert : D → α → List α → PyM (List α)) : List (D × α) → List α → PyM (List α)
  | [], pop => .ok pop
  | (d, x) :: rest, pop =>
    match insert d x pop with
    | .error e => .error e
    | .ok pop' => insertAll insert rest pop'

/-! ### The steady-state loop -/

/-- Settings of `steady_state` (leap_ec/distrib/asynchronous.py:140-150). The probes are not modelled: they only look. -/
structure SteadyConfig (α D : Type) where
  maxBirths : Int
  popSize : Nat
  countNonviable : Bool
  viable : α → Bool
  inserter : D → α → List α → Nat → PyM (List α)
  /-- `toolz.pipe(pop, *offspring_pipeline)`, a list -/
  pipeline : D → List α → PyM (List α)

/-- The state between two completions: futures submitted and not yet completed, the population, the birth
counter. `submitted` and `completed` are records for the specification: what was ever sent to workers and
what came back, in order. For leap_ec/distrib/asynchronous.py:170-184. -/
structure SteadyState (α : Type) where
  pending : List α
  pop : List α
  counter : BirthCounter
  submitted : List α
  completed : List α

/-- What the environment does in one round: which pending future completes (reduced to the number pending), what
came back from the worker (or the exception it raised), and the random draws. For leap_ec/distrib/asynchronous.py:186-231. -/
structure Completion (α D : Type) where
  which : Nat
  result : α → PyM α
  draw : D

/-- Before the loop (leap_ec/distrib/asynchronous.py:170-184): the initial population is submitted, births are counted
from zero. -/
def steadyInit (initial : List α) (ctx : LeapCtx) : SteadyState α :=
  ⟨initial, [], incBirths 0 ctx, initial, []⟩

/-- The body of the loop (leap_ec/distrib/asynchronous.py:186-231) for one completed future. -/
def steadyStep (cfg : SteadyConfig α D) (st : SteadyState α) (c : Completion α D) : PyM (SteadyState α) :=
  match st.pending[c.which % st.pending.length]? with
  | none => .error .stopAsync
  | some x =>
    let pending := st.pending.eraseIdx (c.which % st.pending.length)
    match c.result x with
    | .error e => .error e
    | .ok evaluated =>
      let dec : PyM BirthCounter :=
        if !cfg.viable evaluated && !cfg.countNonviable then
          match st.counter.decrement with
          | (.error e, _) => .error e
          | (.ok _, cnt) => .ok cnt
        else .ok st.counter
      match dec with
      | .error e => .error e
      | .ok counter =>
        match cfg.inserter c.draw evaluated st.pop cfg.popSize with
        | .error e => .error e
        | .ok pop =>
          let completed := st.completed ++ [evaluated]
          if counter.births < cfg.maxBirths then
            match cfg.pipeline c.draw pop with
            | .error e => .error e
            | .ok offspring =>
              match counter.increment 0 offspring.length with
              | (.error e, _) => .error e
              | (.ok _, counter) =>
                .ok ⟨pending ++ offspring, pop, counter, st.submitted ++ offspring, completed⟩
          else .ok ⟨pending, pop, counter, st.submitted, completed⟩

/-- The loop (leap_ec/distrib/asynchronous.py:186): goes on while futures are pending. The list of completions given may
end earlier; the loop has ended when nothing is pending. -/
def steadyRun (cfg : SteadyConfig α D) : SteadyState α → List (Completion α D) → PyM (SteadyState α)
  | st, [] => .ok st
  | st, c :: cs =>
    if st.pending.isEmpty then .ok st
    else
      match steadyStep cfg st c with
      | .error e => .error e
      | .ok st' => steadyRun cfg st' cs

/-! ### Synchronous evaluation -/

/-- `client.map` then `client.gather` (leap_ec/distrib/synchronous.py:36-46): each task fills its own future when it
completes, in the order `order`; gathering reads the futures in the order of submission. A future that never
completed would block forever (`none`). -/
def mapGather {β : Type} (f : α → β) (population : List α) (order : List Nat) : List (Option β) :=
  order.foldl (fun futures i =>
    match population[i]? with
    | none => futures
    | some x => futures.set i (some (f x))) (population.map fun _ => none)

end

end Leap
