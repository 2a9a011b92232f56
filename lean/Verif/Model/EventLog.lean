import Verif.Model.Migration
import Verif.Model.Wrappers
import Verif.Model.Probe

/-!
# Logs of migrations and of cooperative trials

Models `migration_metric`, `concat_combine` and the log of `CooperativeEvaluate` (leap_ec/ops.py). A CSV stream is the list of
its rows, a row the list of its cells.
-/

namespace Leap

/-- A cell of a CSV file. `V` are the values of the notes, `F` fitnesses, `G` genomes. For leap_ec/ops.py:1295-1304. -/
inductive EvCell (V F G : Type) where
  | text (s : String)
  | note (v : V)
  | int (n : Int)
  | fitness (f : Option F)
  | flag (b : Bool)
  | genome (g : G)
  | blank
deriving DecidableEq, Repr

/-- `csv.DictWriter.writerow`: the cells in the order of `fieldnames`, `''` for a missing key. (An unknown key raises; it does
not occur here.). For leap_ec/ops.py:1306-1316. -/
def dictRow {V F G : Type} (fields : List String) (row : List (String × EvCell V F G)) : List (EvCell V F G) :=
  fields.map fun k => (dictGet row k).getD .blank

/-! ### Migration metric -/

section
variable {V F G α : Type}

/-- `fields` (leap_ec/ops.py:1301). `notes` is a dict: a list of pairs with distinct keys. -/
def migrationFields (notes : List (String × V)) : List String :=
  notes.map Prod.fst ++ ["generation", "migrant_fitness", "contestant_fitness", "success"]

/-- What `migration_metric` writes when it is made (leap_ec/ops.py:1295-1304); `none`: no stream was given. -/
def migrationMetricStart (stream : Option (List (List (EvCell V F G)))) (header : Bool) (notes : List (String × V)) :
    Option (List (List (EvCell V F G))) :=
  match stream with
  | none => none
  | some rows => some (if header then rows ++ [(migrationFields notes).map .text] else rows)

/-- `measure_migration` (leap_ec/ops.py:1306-1316). -/
def measureMigration (notes : List (String × V)) (generation : Int) (migrant contestant : Option F) (success : Bool)
    (stream : Option (List (List (EvCell V F G)))) : Option (List (List (EvCell V F G))) :=
  match stream with
  | none => none
  | some rows =>
    let row := dictSet (dictSet (dictSet (dictSet (notes.map fun kv => (kv.1, EvCell.note kv.2))
      "generation" (.int generation)) "migrant_fitness" (.fitness migrant)) "contestant_fitness" (.fitness contestant))
      "success" (.flag success)
    some (rows ++ [dictRow (migrationFields notes) row])

/-- The calls of the metric during one call of the migration operator (leap_ec/ops.py:1224-1225). -/
def logMetrics (notes : List (String × V)) (fit : α → Option F) (generation : Int) (ms : List (MetricCall α))
    (stream : Option (List (List (EvCell V F G)))) : Option (List (List (EvCell V F G))) :=
  ms.foldl (fun s m => measureMigration notes generation (fit m.immigrant) (fit m.contestant) m.success s) stream

/-- A history of calls of a migration operator with this metric, up to the first exception. For leap_ec/ops.py:1199-1245. -/
def migrateLogged (notes : List (String × V)) (fit : α → Option F) (c : MigConfig α) :
    List (MigStep α) → List (List α) → Option (List (List (EvCell V F G))) → Option (List (List (EvCell V F G)))
  | [], _, stream => stream
  | s :: ss, qs, stream =>
    let r := migrateCall c s.draws s.generation s.cur s.pop qs
    let stream' := logMetrics notes fit s.generation r.metrics stream
    match r.outcome with
    | .error _ => stream'
    | .ok _ => migrateLogged notes fit c ss r.queues stream'

end

/-! ### Cooperative evaluation -/

section
variable {γ F W σ : Type}

/-- What combining and logging need of an individual. For leap_ec/ops.py:1324-1334. -/
structure CoInd (γ F : Type) where
  genome : List γ
  fitness : Option F
deriving DecidableEq, Repr

/-- `concat_combine` (leap_ec/ops.py:1324-1334, leap_ec/problem.py:383-393): a clone of the first collaborator, without fitness,
with all genomes concatenated. -/
def concatCombine (team : List (CoInd γ F)) : PyM (CoInd γ F) :=
  match team with
  | [] => .error .indexError
  | _ :: _ => .ok ⟨(team.map CoInd.genome).flatten, none⟩

/-- The field names of the log (leap_ec/ops.py:1364-1370). -/
def cooperativeFields : List String :=
  ["generation", "subpopulation", "individual_type", "collaborator_subpopulation", "genome", "fitness"]

/-- `CooperativeEvaluate.__init__`, the header (leap_ec/ops.py:1360-1374). -/
def cooperativeLogStart (stream : Option (List (List (EvCell Unit F (List γ))))) :
    Option (List (List (EvCell Unit F (List γ)))) :=
  match stream with
  | none => none
  | some rows => some (rows ++ [cooperativeFields.map .text])

/-- The rows of the collaborators (leap_ec/ops.py:1434-1440), from sub-population `i` on. -/
def collaboratorRows (generation : Int) (cur : Nat) : Nat → List (CoInd γ F) → List (List (EvCell Unit F (List γ)))
  | _, [] => []
  | i, x :: xs =>
    dictRow cooperativeFields
      [("generation", .int generation), ("subpopulation", .int cur), ("individual_type", .text "Collaborator"),
       ("collaborator_subpopulation", .int i), ("genome", .genome x.genome), ("fitness", .fitness x.fitness)]
      :: collaboratorRows generation cur (i + 1) xs

/-- `_log_trial` (leap_ec/ops.py:1430-1447). `generation = none`: not in the context. -/
def logTrial (generation : Option Int) (cur : Nat) (team : List (CoInd γ F)) (combined : CoInd γ F)
    (rows : List (List (EvCell Unit F (List γ)))) : PyM (List (List (EvCell Unit F (List γ)))) :=
  match generation with
  | none => .error .keyError
  | some g =>
    .ok (rows ++ collaboratorRows g cur 0 team ++ [dictRow cooperativeFields
      [("generation", .int g), ("subpopulation", .int cur), ("individual_type", .text "Combined Individual"),
       ("collaborator_subpopulation", .blank), ("genome", .genome combined.genome), ("fitness", .fitness combined.fitness)]])

/-- Combining, evaluating and logging one team (leap_ec/ops.py:1394-1403): the argument `evalTeam` of `cooperativeEvaluate`. The
world has the log beside it. `evaluate` is `combined_ind.evaluate()`. -/
def loggedTeam (combine : List (CoInd γ ℚ) → PyM (CoInd γ ℚ)) (evaluate : List γ → W → PyM (ℚ × W))
    (generation : Option Int) (cur : Nat) (team : List (CoInd γ ℚ))
    (w : W × Option (List (List (EvCell Unit ℚ (List γ))))) :
    PyM (ℚ × W × Option (List (List (EvCell Unit ℚ (List γ))))) :=
  match combine team with
  | .error e => .error e
  | .ok combined =>
    match evaluate combined.genome w.1 with
    | .error e => .error e
    | .ok (f, w1) =>
      match w.2 with
      | none => .ok (f, w1, none)
      | some rows =>
        match logTrial generation cur team { combined with fitness := some f } rows with
        | .error e => .error e
        | .ok rows' => .ok (f, w1, some rows')

/-- A selection iterator beside a log. For leap_ec/ops.py:1376-1409. -/
def besideLog {L ι : Type} (next : Nat → Gen W σ ι) : Nat → Gen (W × L) σ ι := fun i s w =>
  match next i s w.1 with
  | .error e => .error e
  | .ok (x, s', w') => .ok (x, s', w', w.2)

/-- `CooperativeEvaluate` on one individual with an optional log stream (leap_ec/ops.py:1376-1409). -/
def cooperativeLogged (combine : List (CoInd γ ℚ) → PyM (CoInd γ ℚ)) (evaluate : List γ → W → PyM (ℚ × W))
    (init : Nat → σ) (next : Nat → Gen W σ (CoInd γ ℚ)) (generation : Option Int) (numTrials n : Nat)
    (current : CoInd γ ℚ) (cur : Nat) (w : W) (log : Option (List (List (EvCell Unit ℚ (List γ))))) :
    PyM (ℚ × List (List (CoInd γ ℚ) × ℚ) × W × Option (List (List (EvCell Unit ℚ (List γ))))) :=
  cooperativeEvaluate init (besideLog next) (loggedTeam combine evaluate generation cur) numTrials n current cur (w, log)

end

end Leap
