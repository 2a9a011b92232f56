import Verif.Model.EvoRun
import Verif.Model.Distrib

/-!
# The asynchronous steady-state algorithm over the object memory

`steady_state` (leap_ec/distrib/asynchronous.py:140-233) with an offspring pipeline `select, clone, stages..., pool(size)` and
robust (in particular distributed) individuals. Dask is what it may do: workers finish in any order, and whether a worker
gets the individual itself (threads of the same process) or a copy (other processes) is open for every submission.
Simplification: the evaluation of an individual happens at the moment its future is looked at; nobody else uses a submitted
individual in between. Probes and log messages are left out.
-/

namespace Leap

variable {γ ψ φ ρ : Type}

/-- What a run is configured with. For leap_ec/distrib/asynchronous.py:140-231. -/
structure AsyncConfig (γ ψ φ ρ : Type) where
  maxBirths : Int
  popSize : Nat
  countNonviable : Bool
  /-- `inserter(evaluated, pop, pop_size)`: the population afterwards, as a list of individuals -/
  insert : Nat → List Nat → Mem γ ψ φ ρ → PyM (List Nat) × ρ
  /-- the selection operator on the population: which position it picks next -/
  choose : List Nat → Mem γ ψ φ ρ → PyM Nat × ρ
  stages : List (Stage γ ψ φ ρ)
  /-- how many offspring the pipeline makes -/
  size : Nat
  nan : φ
  dec : Dec γ ψ
  prob : Prob γ ψ φ ρ

/-- `is_viable(individual)` (leap_ec/distrib/evaluate.py:75-88) for an individual in memory. -/
def viableInd (m : Mem γ ψ φ ρ) (r : Nat) : Bool := isViable ((m.inds[r]?).bind Obj.viable)

/-- What arrives at a worker (leap_ec/distrib/asynchronous.py:48-49, 222-223): the individual, or a copy of it made by pickling. The
copy has its own genome and set of parents. Simplification: it carries no cached phenome (evaluation sets it anew). -/
def submitInd (copied : Bool) (r : Nat) : HM (Mem γ ψ φ ρ) Nat :=
  if copied then do
    let o ← getObj r
    let g ← getArr o.genome
    let a ← newArr g
    let p ← getSet o.parents
    let s ← newSet p
    newObj { o with genome := a, parents := s, phenome := none }
  else pure r

/-- Submit a list, each with its own decision about copying. For leap_ec/distrib/asynchronous.py:186-231. -/
def submitAll (copied : Nat → Bool) : List Nat → HM (Mem γ ψ φ ρ) (List Nat)
  | [] => pure []
  | r :: rs => do
    let c ← submitInd (copied r) r
    let cs ← submitAll copied rs
    pure (c :: cs)

/-- The state of the loop: who is with a worker, who is in the population, and the birth counter. `completed` is a record for the
specification: who came back, in order. For leap_ec/distrib/asynchronous.py:186-231. -/
structure AsyncState where
  pending : List Nat
  pop : List Nat
  births : Int
  completed : List Nat
deriving DecidableEq, Repr

/-- What the environment decides in one round: whose evaluation is done next (reduced to the number pending), and which offspring are
copied. For leap_ec/distrib/asynchronous.py:186-231. -/
structure AsyncRound where
  which : Nat
  copied : Nat → Bool

/-- The inserter as a step on memory. For leap_ec/distrib/asynchronous.py:186-231. -/
def insertInd (cfg : AsyncConfig γ ψ φ ρ) (r : Nat) (pop : List Nat) : HM (Mem γ ψ φ ρ) (List Nat) := fun m =>
  ((cfg.insert r pop m).1, { m with rng := (cfg.insert r pop m).2 })

/-- The body of the loop (leap_ec/distrib/asynchronous.py:186-231). -/
def asyncStep (cfg : AsyncConfig γ ψ φ ρ) (c : AsyncRound) (st : AsyncState) : HM (Mem γ ψ φ ρ) AsyncState :=
  match st.pending[c.which % st.pending.length]? with
  | none => HM.lift (.error .stopAsync)
  | some x => do
    let _ ← robustEvaluate cfg.nan cfg.dec cfg.prob x
    fun m =>
      let births := if !viableInd m x && !cfg.countNonviable then st.births - 1 else st.births
      let pending := st.pending.eraseIdx (c.which % st.pending.length)
      (insertInd cfg x st.pop >>= fun pop =>
        if births < cfg.maxBirths then
          runPipeline pop (cfg.choose pop) cfg.stages cfg.size >>= fun offspring =>
            submitAll c.copied offspring >>= fun sent =>
              pure ⟨pending ++ sent, pop, births + offspring.length, st.completed ++ [x]⟩
        else pure ⟨pending, pop, births, st.completed ++ [x]⟩) m

/-- The loop (leap_ec/distrib/asynchronous.py:186): it ends when nobody is with a worker. The rounds given may end earlier. -/
def asyncLoop (cfg : AsyncConfig γ ψ φ ρ) : List AsyncRound → AsyncState → HM (Mem γ ψ φ ρ) AsyncState
  | [], st => pure st
  | c :: cs, st =>
    if st.pending.isEmpty then pure st
    else asyncStep cfg c st >>= asyncLoop cfg cs

/-- `steady_state` (leap_ec/distrib/asynchronous.py:140-233). -/
def asyncRun (cfg : AsyncConfig γ ψ φ ρ) (initGenome : ρ → PyM (List γ) × ρ) (problem initSize : Nat) (copied : Nat → Bool)
    (rounds : List AsyncRound) : HM (Mem γ ψ φ ρ) AsyncState := do
  let initial ← createPopulation initGenome problem initSize
  let sent ← submitAll copied initial
  asyncLoop cfg rounds ⟨sent, [], 0, []⟩

/-- `tournament_insert_into_pop` (leap_ec/distrib/asynchronous.py:85-109) as the inserter of a run. -/
def tournamentInserter (gt : Option φ → Option φ → Bool) (draw : ρ → Nat × ρ) (popSize : Nat) (r : Nat) (pop : List Nat)
    (m : Mem γ ψ φ ρ) : PyM (List Nat) × ρ :=
  let fit := fun x => (m.inds[x]?).bind Obj.fitness
  (tournamentInsert (viableInd m) (fun a b => gt (fit a) (fit b)) (draw m.rng).1 r pop popSize, (draw m.rng).2)

/-- `greedy_insert_into_pop` (leap_ec/distrib/asynchronous.py:115-134) as the inserter of a run. -/
def greedyInserter (lt gt : Option φ → Option φ → Bool) (popSize : Nat) (r : Nat) (pop : List Nat) (m : Mem γ ψ φ ρ) : PyM (List Nat) × ρ :=
  let fit := fun x => (m.inds[x]?).bind Obj.fitness
  (greedyInsert (viableInd m) (fun _ a b => lt (fit a) (fit b)) (fun a b => gt (fit a) (fit b)) r pop popSize, m.rng)

end Leap
