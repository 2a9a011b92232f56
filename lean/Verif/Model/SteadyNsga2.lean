import Verif.Model.Distrib
import Verif.Model.Enlu

/-!
# Asynchronous steady-state NSGA-II (leap_ec/multiobjective/asynchronous.py:159-204)

The loop of `Model/Distrib` for an inserter that is an object with a state of its own.
-/

namespace Leap

variable {α D σ : Type}

/-- Settings of `steady_state` (leap_ec/distrib/asynchronous.py:140-150) with an inserter that keeps a state `σ`; the pipeline
may look at it (through the attributes of the individuals). -/
structure StatefulConfig (α D σ : Type) where
  maxBirths : Int
  popSize : Nat
  countNonviable : Bool
  viable : α → Bool
  inserter : D → α → List α → Nat → σ → PyM (List α × σ)
  pipeline : D → σ → List α → PyM (List α)

/-- The count after a completion: an individual that is not viable is taken out again unless these count
(leap_ec/distrib/asynchronous.py:198-205). -/
def discount (viable countNonviable : Bool) (counter : BirthCounter) : PyM BirthCounter :=
  if !viable && !countNonviable then
    match counter.decrement with
    | (.error e, _) => .error e
    | (.ok _, cnt) => .ok cnt
  else .ok counter

/-- The body of the loop (leap_ec/distrib/asynchronous.py:186-231) for one completed future. -/
def statefulStep (cfg : StatefulConfig α D σ) (st : SteadyState α) (s : σ) (c : Completion α D) : PyM (SteadyState α × σ) :=
  match st.pending[c.which % st.pending.length]? with
  | none => .error .stopAsync
  | some x =>
    let pending := st.pending.eraseIdx (c.which % st.pending.length)
    match c.result x with
    | .error e => .error e
    | .ok evaluated =>
      match discount (cfg.viable evaluated) cfg.countNonviable st.counter with
      | .error e => .error e
      | .ok counter =>
        match cfg.inserter c.draw evaluated st.pop cfg.popSize s with
        | .error e => .error e
        | .ok (pop, s) =>
          let completed := st.completed ++ [evaluated]
          if counter.births < cfg.maxBirths then
            match cfg.pipeline c.draw s pop with
            | .error e => .error e
            | .ok offspring =>
              match counter.increment 0 offspring.length with
              | (.error e, _) => .error e
              | (.ok _, counter) =>
                .ok (⟨pending ++ offspring, pop, counter, st.submitted ++ offspring, completed⟩, s)
          else .ok (⟨pending, pop, counter, st.submitted, completed⟩, s)

/-- The loop (leap_ec/distrib/asynchronous.py:186). -/
def statefulRun (cfg : StatefulConfig α D σ) : SteadyState α → σ → List (Completion α D) → PyM (SteadyState α × σ)
  | st, s, [] => .ok (st, s)
  | st, s, c :: cs =>
    if st.pending.isEmpty then .ok (st, s)
    else
      match statefulStep cfg st s c with
      | .error e => .error e
      | .ok (st', s') => statefulRun cfg st' s' cs

/-- The settings `steady_state_nsga_2` hands to `steady_state` (leap_ec/multiobjective/asynchronous.py:192-204): an
`ENLUInserter`, which overwrites the population with the members of its layers. -/
def nsga2Config (gt : Nat → Nat → Bool) (row fitness : Nat → List ℚ) (maximize : List Bool) (maxBirths : Int) (popSize : Nat)
    (countNonviable : Bool) (viable : Nat → Bool) (pipeline : D → EnluState → List Nat → PyM (List Nat)) :
    StatefulConfig Nat D EnluState where
  maxBirths := maxBirths
  popSize := popSize
  countNonviable := countNonviable
  viable := viable
  inserter := fun _ ind _ popSize s =>
    match enluInsert gt row fitness maximize popSize ind s with
    | .error e => .error e
    | .ok (s', flat) => .ok (flat, s')
  pipeline := pipeline

/-- `steady_state_nsga_2` (leap_ec/multiobjective/asynchronous.py:159-204) from the initial population on: a new inserter has
no layers (leap_ec/multiobjective/asynchronous.py:129-133); `rank` and `distance` are what the attributes are before they are
first set. -/
def steadyNsga2 (cfg : StatefulConfig Nat D EnluState) (initial : List Nat) (ctx : LeapCtx) (rank : Nat → Nat)
    (distance : Nat → WithTop ℚ) (cs : List (Completion Nat D)) : PyM (SteadyState Nat × EnluState) :=
  statefulRun cfg (steadyInit initial ctx) ⟨[], rank, distance⟩ cs

end Leap
