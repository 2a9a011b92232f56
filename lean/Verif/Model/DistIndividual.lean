import Verif.Py.Basic
import Mathlib.Data.Rat.Defs

/-!
# Distributed individuals, evaluation on a worker, and the logs of distributed runs (leap_ec/distrib)

`G` is the type of genomes, `F` that of fitness values (with its NaN). Universally unique identifiers are numbers
supplied by the environment.
-/

namespace Leap

/-- What a `DistributedIndividual` carries (leap_ec/distrib/individual.py:25-35, leap_ec/individual.py:60-75 and
268-283). The attributes that only evaluation sets (`hostname`, `pid`) are `none` while absent. A `None` time is
`none`. -/
structure DistInd (G F : Type) where
  genome : G
  fitness : Option F
  uuid : Nat
  parents : List Nat
  birthId : Nat
  startTime : Option ℚ
  stopTime : Option ℚ
  isViable : Bool
  exception : Option PyErr
  hostname : Option String
  pid : Option Nat
deriving DecidableEq, Repr

/-- A process that creates individuals: the class attribute `DistributedIndividual.birth_id`, an
`itertools.count()` (leap_ec/distrib/individual.py:19), and the individuals made so far, oldest first. -/
structure DistWorld (G F : Type) where
  nextBirth : Nat
  inds : List (DistInd G F)

section
variable {G F : Type}

/-- `DistributedIndividual(genome, decoder, problem)` (leap_ec/distrib/individual.py:25-35). The checks of
`Individual.__init__` (leap_ec/individual.py:59-66) come first: a class in place of an instance raises
`ValueError` before an identifier is taken. -/
def distCreate (decoderIsType problemIsType : Bool) (genome : G) (uuid : Nat) (w : DistWorld G F) :
    PyM (DistWorld G F) :=
  if decoderIsType then .error .valueError
  else if problemIsType then .error .valueError
  else .ok ⟨w.nextBirth + 1,
    w.inds ++ [⟨genome, none, uuid, [], w.nextBirth, none, none, false, none, none, none⟩]⟩

/-- `individual.clone()` for the `i`-th individual made (leap_ec/distrib/individual.py:37-40 over
leap_ec/individual.py:129-158): a shallow copy, whose genome (copied deeply; genomes are values here), fitness,
identifiers and parents are then set. Every other attribute is the parent's. -/
def distClone (i : Nat) (uuid : Nat) (w : DistWorld G F) : PyM (DistWorld G F) :=
  match w.inds[i]? with
  | none => .error .indexError
  | some p => .ok ⟨w.nextBirth + 1,
      w.inds ++ [{ p with fitness := none, uuid := uuid, parents := [p.uuid], birthId := w.nextBirth }]⟩

/-- `RobustIndividual.evaluate` (leap_ec/individual.py:281-304) as it acts on the attributes; `imp` is
`evaluate_imp`, decoding included. -/
def robustStep (nan : F) (imp : G → PyM F) (x : DistInd G F) : DistInd G F :=
  match imp x.genome with
  | .ok v => { x with fitness := some v, isViable := true }
  | .error e => { x with fitness := some nan, exception := some e, isViable := false }

/-- Where and when a worker runs a task: the two readings of the clock and the identity of the process.
For leap_ec/distrib/evaluate.py:16-72. -/
structure WorkerInfo where
  start : ℚ
  stop : ℚ
  host : String
  pid : Nat
deriving DecidableEq, Repr

/-- `evaluate(individual, context)` on a worker (leap_ec/distrib/evaluate.py:16-72) for a `DistributedIndividual`.
`nonViable` is `context['leap']['distrib']['non_viable']`, `none` if a key is missing. Log messages are left out. -/
def distEvaluate (nan : F) (imp : G → PyM F) (info : WorkerInfo) (x : DistInd G F) (nonViable : Option Nat) :
    PyM (DistInd G F × Option Nat) :=
  let x := { x with startTime := some info.start }
  let x := robustStep nan imp x
  let counted : PyM (Option Nat) :=
    if !x.isViable then
      match nonViable with
      | none => .error .keyError
      | some n => .ok (some (n + 1))
    else .ok nonViable
  match counted with
  | .error e => .error e
  | .ok nonViable =>
    .ok ({ x with stopTime := some info.stop, hostname := some info.host, pid := some info.pid }, nonViable)

/-- The tasks of `client.map(evaluate(context=context), population)` (leap_ec/distrib/synchronous.py:37-38) run in the
order `order`, each once filling its own future. With `shared` the workers are threads of this process and count
in the caller's context; otherwise each task works on a copy of the context sent to another process. -/
def runTasks (shared : Bool) (nan : F) (imp : G → PyM F) (info : Nat → WorkerInfo) (population : List (DistInd G F))
    (order : List Nat) (nonViable : Option Nat) : List (Option (PyM (DistInd G F))) × Option Nat :=
  order.foldl (fun st i =>
    match population[i]? with
    | none => st
    | some x =>
      match distEvaluate nan imp (info i) x st.2 with
      | .error e => (st.1.set i (some (.error e)), st.2)
      | .ok (y, n) => (st.1.set i (some (.ok y)), if shared then n else st.2))
    (population.map fun _ => none, nonViable)

/-- `client.gather(futures)` (leap_ec/distrib/synchronous.py:45): reads the futures in the order of submission and
raises the exception of a failed one. `none` if one never completes. -/
def gatherFutures {β : Type} : List (Option (PyM β)) → Option (PyM (List β))
  | [] => some (.ok [])
  | none :: _ => none
  | some (.error e) :: _ => some (.error e)
  | some (.ok y) :: rest =>
    match gatherFutures rest with
    | none => none
    | some (.error e) => some (.error e)
    | some (.ok ys) => some (.ok (y :: ys))

/-- `[next(next_individual) for _ in range(size)]` (leap_ec/distrib/synchronous.py:82): the upstream iterator yields
the individuals of `upstream` and then stops. Returns what is left upstream as well. -/
def drawFrom {β : Type} : Nat → List β → PyM (List β × List β)
  | 0, up => .ok ([], up)
  | _ + 1, [] => .error .stopIteration
  | n + 1, x :: up =>
    match drawFrom n up with
    | .error e => .error e
    | .ok (xs, rest) => .ok (x :: xs, rest)

/-- `eval_pool(next_individual, client, size, context)` (leap_ec/distrib/synchronous.py:51-83). `range(size)` is empty
for a negative size. The result: the evaluated pool, what is left upstream, and the count of non-viable
individuals in the caller's context. -/
def evalPool (shared : Bool) (nan : F) (imp : G → PyM F) (info : Nat → WorkerInfo) (upstream : List (DistInd G F))
    (size : Int) (order : List Nat) (nonViable : Option Nat) :
    Option (PyM (List (DistInd G F)) × Option Nat × List (DistInd G F)) :=
  match drawFrom size.toNat upstream with
  | .error e => some (.error e, nonViable, [])
  | .ok (pool, rest) =>
    let (futures, n) := runTasks shared nan imp info pool order nonViable
    (gatherFutures futures).map fun r => (r, n, rest)

end

/-! ### Logs -/

/-- A cell of a CSV row, before it is turned into text. For leap_ec/distrib/probe.py:92-97. -/
inductive LogCell (F : Type)
  | none
  | text (s : String)
  | int (n : Int)
  | time (t : ℚ)
  | fitness (f : F)
deriving DecidableEq, Repr

/-- An individual as the logs see it: attributes that may be missing are `Option`s, whose value may itself be
`None` for times and fitness. For leap_ec/distrib/probe.py:32-52. -/
structure LogInd (F : Type) where
  uuid : Nat
  birthId : Option Nat
  startTime : Option (Option ℚ)
  stopTime : Option (Option ℚ)
  fitness : Option F
  hostname : Option String
  pid : Option Nat
deriving DecidableEq, Repr

section
variable {F : Type}

/-- Reading an attribute: `AttributeError` if it is missing. For leap_ec/distrib/probe.py:32-52. -/
def readAttr {β : Type} : Option β → PyM β
  | some v => .ok v
  | none => .error .attributeError

/-- A value that may be `None`, as a cell. For leap_ec/distrib/probe.py:32-52. -/
def timeCell : Option ℚ → LogCell F
  | some t => .time t
  | none => .none

/-- As `timeCell`, for the fitness. For leap_ec/distrib/probe.py:32-52. -/
def fitnessCell : Option F → LogCell F
  | some f => .fitness f
  | none => .none

/-- The stream of a log: the rows written so far. For leap_ec/distrib/probe.py:24-30. -/
abbrev LogStream (F : Type) := List (List (LogCell F))

/-- `log_worker_location(stream, header)` (leap_ec/distrib/probe.py:24-30): the header row, if asked for. -/
def workerLogStart (header : Bool) (stream : LogStream F) : LogStream F :=
  if header then stream ++ [[.text "hostname", .text "pid", .text "uuid", .text "birth_id", .text "start_eval_time",
    .text "stop_eval_time", .text "fitness"]]
  else stream

/-- `write_record(individual)` (leap_ec/distrib/probe.py:32-52): one row, whose cells are read in this order before
anything is written. -/
def workerLogCall (x : LogInd F) (stream : LogStream F) : PyM (LogStream F) := do
  let host ← readAttr x.hostname
  let pid ← readAttr x.pid
  let birth ← readAttr x.birthId
  let start ← readAttr x.startTime
  let stop ← readAttr x.stopTime
  pure (stream ++ [[.text host, .int pid, .int x.uuid, .int birth, timeCell start, timeCell stop, fitnessCell x.fitness]])

/-- The closure of `log_pop`: its stream and its call counter (leap_ec/distrib/probe.py:76). -/
structure PopLog (F : Type) where
  stream : LogStream F
  interval : Nat

/-- `log_pop(update_interval, stream, header)` (leap_ec/distrib/probe.py:57-79). -/
def popLogStart (header : Bool) (stream : LogStream F) : PopLog F :=
  ⟨if header then stream ++ [[.text "interval", .text "uuid", .text "birth_id", .text "start_eval_time",
    .text "stop_eval_time", .text "fitness"]]
  else stream, 0⟩

/-- The row of one individual in `write_pop_update` (leap_ec/distrib/probe.py:92-97). -/
def popLogRow (interval : Nat) (x : LogInd F) : PyM (List (LogCell F)) := do
  let birth ← readAttr x.birthId
  let start ← readAttr x.startTime
  let stop ← readAttr x.stopTime
  pure [.int interval, .int x.uuid, .int birth, timeCell start, timeCell stop, fitnessCell x.fitness]

/-- The loop of `write_pop_update` (leap_ec/distrib/probe.py:91-97): rows already written stay when a later individual
raises. -/
def popLogRows (interval : Nat) : List (LogInd F) → LogStream F → PyM Unit × LogStream F
  | [], s => (.ok (), s)
  | x :: xs, s =>
    match popLogRow interval x with
    | .error e => (.error e, s)
    | .ok row => popLogRows interval xs (s ++ [row])

/-- `write_pop_update(population)` (leap_ec/distrib/probe.py:81-103). -/
def popLogCall (updateInterval : Int) (population : List (LogInd F)) (log : PopLog F) : PyM Unit × PopLog F :=
  if updateInterval = 0 then (.error .zeroDivisionError, log)
  else if (log.interval : Int) % updateInterval = 0 then
    match popLogRows log.interval population log.stream with
    | (.error e, s) => (.error e, { log with stream := s })
    | (.ok _, s) => (.ok (), ⟨s, log.interval + 1⟩)
  else (.ok (), { log with interval := log.interval + 1 })

/-- A history of calls, going on after a call that raised. For leap_ec/distrib/probe.py:79-97. -/
def popLogHistory (updateInterval : Int) : List (List (LogInd F)) → PopLog F → PopLog F
  | [], log => log
  | p :: ps, log => popLogHistory updateInterval ps (popLogCall updateInterval p log).2

/-- A history of calls of `write_record`. For leap_ec/distrib/probe.py:31-52. -/
def workerLogHistory : List (LogInd F) → LogStream F → LogStream F
  | [], s => s
  | x :: xs, s =>
    match workerLogCall x s with
    | .error _ => workerLogHistory xs s
    | .ok s' => workerLogHistory xs s'

end

end Leap
