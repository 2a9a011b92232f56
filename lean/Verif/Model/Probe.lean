import Mathlib.Algebra.Order.Field.Rat
import Verif.Py.Gen
import Verif.Py.Order

/-!
# Probes

Models the probes of `leap_ec/probe.py` that write rows. `α` is the type of individuals, `gt` their comparison `>` (it does
not raise here), `fitness` reads the attribute. Rows are lists of cells instead of text.
-/

namespace Leap

variable {α F U : Type}

/-- `assert ('leap' in self.context)`, `assert ('generation' in self.context['leap'])`
(leap_ec/probe.py:125-126 and in every other probe). -/
def probeGeneration (ctx : Option (Option Int)) : PyM Int :=
  match ctx with
  | some (some g) => .ok g
  | _ => .error .assertionError

/-- The state of a best-so-far probe: `self.bsf` and the rows written (leap_ec/probe.py:116-121, 186-191). -/
structure BsfState (α F : Type) where
  bsf : Option α
  rows : List (Int × Option F)

/-- `if self.bsf is None or (ind > self.bsf): self.bsf = ind` (leap_ec/probe.py:130-131, 201-202, 372-373). -/
def bsfUpdate (gt : α → α → Bool) (bsf : Option α) (ind : α) : α :=
  match bsf with
  | none => ind
  | some b => if gt ind b then ind else b

/-- `BestSoFarProbe.__call__` (leap_ec/probe.py:123-137). -/
def bestSoFarProbe (gt : α → α → Bool) (fitness : α → Option F) (ctx : Option (Option Int)) (population : List α)
    (st : BsfState α F) : PyM (List α × BsfState α F) :=
  match probeGeneration ctx with
  | .error e => .error e
  | .ok generation =>
    match pyMax gt population with
    | .error e => .error e
    | .ok ind =>
      if fitness ind = none then .error .assertionError
      else
        let bsf := bsfUpdate gt st.bsf ind
        .ok (population, ⟨some bsf, st.rows ++ [(generation, fitness bsf)]⟩)

/-- The state of the generator returned by `BestSoFarIterProbe.__call__`: whether its body has begun, and the state of the
probe. For leap_ec/probe.py:193-208. -/
structure BsfIterState (α F : Type) where
  started : Bool
  probe : BsfState α F

/-- One `next` on the generator returned by `BestSoFarIterProbe.__call__` (leap_ec/probe.py:193-208). The assertions are part
of the generator's body, so they run at the first `next`. `ctx` reads the context from the world. -/
def bestSoFarIterProbe (gt : α → α → Bool) (fitness : α → Option F) (ctx : U → Option (Option Int))
    (next : U → PyM (α × U)) : Gen U (BsfIterState α F) α :=
  fun st u =>
    match (if st.started then Except.ok 0 else probeGeneration (ctx u)) with
    | .error e => .error e
    | .ok _ =>
      match next u with
      | .error e => pep479 (.error e)
      | .ok (ind, u) =>
        if fitness ind = none then .error .assertionError
        else
          let bsf := bsfUpdate gt st.probe.bsf ind
          match ctx u with
          | some (some generation) =>
            .ok (ind, ⟨true, ⟨some bsf, st.probe.rows ++ [(generation, fitness bsf)]⟩⟩, u)
          | _ => .error .keyError

/-- A value in a row of `FitnessStatsCSVProbe`. `variance` stands for the standard deviation, of which it is the square.
For leap_ec/probe.py:381-398. -/
inductive StatCell (F M : Type) where
  | text (s : String)
  | step (g : Int)
  | fit (f : F)
  | mean (x : ℚ)
  | variance (x : ℚ)
  | metric (m : M)
deriving DecidableEq

/-- The configuration of a `FitnessStatsCSVProbe` (leap_ec/probe.py:318-344). Notes and extra metrics are in the order of their
dictionaries. -/
structure StatsConfig (α M : Type) where
  header : Bool
  extraMetrics : List (String × (List α → M))
  job : Option String
  notes : List (String × String)
  modulo : Int

/-- The state: `self.bsf_ind` and the rows written. For leap_ec/probe.py:362-399. -/
structure StatsState (α M : Type) where
  bsf : Option α
  rows : List (List (StatCell ℚ M))

/-- The column names of `write_header` (leap_ec/probe.py:346-353). -/
def statsHeader {M : Type} (c : StatsConfig α M) : List String :=
  (match c.job with | some _ => ["job"] | none => []) ++ c.notes.map Prod.fst
    ++ ["step", "bsf", "mean_fitness", "std_fitness", "min_fitness", "max_fitness"] ++ c.extraMetrics.map Prod.fst

/-- `np.mean`. For leap_ec/probe.py:381-398. -/
def statMean (l : List ℚ) : ℚ := l.sum / l.length

/-- `np.std` squared. For leap_ec/probe.py:381-398. -/
def statVariance (l : List ℚ) : ℚ := statMean (l.map fun x => (x - statMean l) ^ 2)

/-- `np.min` and `np.max` of a non-empty list. For leap_ec/probe.py:381-398. -/
def statMin (l : List ℚ) : ℚ := match l with | [] => 0 | x :: xs => xs.foldl min x

/-- `np.max` of a non-empty list. For leap_ec/probe.py:381-398. -/
def statMax (l : List ℚ) : ℚ := match l with | [] => 0 | x :: xs => xs.foldl max x

/-- The row written by `FitnessStatsCSVProbe.__call__` (leap_ec/probe.py:381-398). -/
def statsRow {M : Type} (c : StatsConfig α M) (fitness : α → ℚ) (generation : Int) (bsf : α) (population : List α) :
    List (StatCell ℚ M) :=
  (match c.job with | some j => [.text j] | none => []) ++ c.notes.map (fun n => .text n.2)
    ++ [.step generation, .fit (fitness bsf), .mean (statMean (population.map fitness)),
      .variance (statVariance (population.map fitness)), .fit (statMin (population.map fitness)),
      .fit (statMax (population.map fitness))]
    ++ c.extraMetrics.map fun m => .metric (m.2 population)

/-- `FitnessStatsCSVProbe.__call__` (leap_ec/probe.py:362-399). The state is also given when it raises: the best so far is
updated before `generation % self.modulo` may divide by zero. -/
def statsProbe {M : Type} (c : StatsConfig α M) (gt : α → α → Bool) (fitness : α → ℚ) (ctx : Option (Option Int))
    (population : List α) (st : StatsState α M) : PyM (List α) × StatsState α M :=
  match probeGeneration ctx with
  | .error e => (.error e, st)
  | .ok generation =>
    if population.length > 0 then
      match pyMax gt population with
      | .error e => (.error e, st)
      | .ok best =>
        let bsf := bsfUpdate gt st.bsf best
        if c.modulo = 0 then (.error .zeroDivisionError, ⟨some bsf, st.rows⟩)
        else if Int.fmod generation c.modulo ≠ 0 then (.ok population, ⟨some bsf, st.rows⟩)
        else (.ok population, ⟨some bsf, st.rows ++ [statsRow c fitness generation bsf population]⟩)
    else (.error .assertionError, st)

/-- `best_of_gen` (leap_ec/probe.py:1308-1320). -/
def bestOfGen (gt : α → α → Bool) (population : List α) : PyM α :=
  if population.length > 0 then pyMax gt population else .error .assertionError

/-! ### `AttributesCSVProbe` -/

/-- The configuration of an `AttributesCSVProbe` (leap_ec/probe.py:487-508). `V` are the values in cells; the extra metrics are
applied to the row. -/
structure AttrConfig (V : Type) where
  attributes : List String
  bestOnly : Bool
  doFitness : Bool
  doGenome : Bool
  notes : List (String × V)
  extraMetrics : List (String × (List (String × V) → V))
  job : Option V
  stream : Bool
  doDataframe : Bool

/-- `self.fieldnames` (leap_ec/probe.py:513-526); `ValueError` when the data goes nowhere (leap_ec/probe.py:509-511). -/
def attrFieldnames {V : Type} (c : AttrConfig V) : PyM (List String) :=
  if c.doDataframe = false ∧ c.stream = false then .error .valueError
  else .ok ((match c.job with | some _ => ["job"] | none => []) ++ c.notes.map Prod.fst ++ ["step"] ++ c.attributes
    ++ (if c.doFitness then ["fitness"] else []) ++ (if c.doGenome then ["genome"] else []) ++ c.extraMetrics.map Prod.fst)

/-- `row[k] = v` on a dict: overwrite in place, or append. For leap_ec/probe.py:578-583. -/
def dictSet {V : Type} (row : List (String × V)) (k : String) (v : V) : List (String × V) :=
  if k ∈ row.map Prod.fst then row.map fun e => if e.1 = k then (k, v) else e else row ++ [(k, v)]

/-- `row.get(k)`. For leap_ec/probe.py:563-571. -/
def dictGet {V : Type} (row : List (String × V)) (k : String) : Option V := (row.find? fun e => e.1 = k).map Prod.snd

/-- The loop over the attributes (leap_ec/probe.py:578-583). -/
def attrRowFrom {V : Type} (get : String → Option V) : List String → List (String × V) → PyM (List (String × V))
  | [], row => .ok row
  | a :: as, row =>
    match get a with
    | none => .error .valueError
    | some v => attrRowFrom get as (dictSet row a v)

/-- What a row needs of an individual: `__dict__`, `fitness` and `genome`. For leap_ec/probe.py:574-596. -/
structure AttrInd (V : Type) where
  get : String → Option V
  fitness : V
  genome : V

/-- `if self.job is not None: row['job'] = self.job` (leap_ec/probe.py:585-586). -/
def attrSetJob {V : Type} (row : List (String × V)) : Option V → List (String × V)
  | some j => dictSet row "job" j
  | none => row

/-- `get_row_dict` (leap_ec/probe.py:574-596). -/
def attrRow {V : Type} (c : AttrConfig V) (step : V) (ind : AttrInd V) : PyM (List (String × V)) :=
  match attrRowFrom ind.get c.attributes [("step", step)] with
  | .error e => .error e
  | .ok row =>
    let row := attrSetJob row c.job
    let row := c.notes.foldl (fun row n => dictSet row n.1 n.2) row
    let row := if c.doFitness then dictSet row "fitness" ind.fitness else row
    let row := if c.doGenome then dictSet row "genome" ind.genome else row
    .ok (c.extraMetrics.foldl (fun row m => dictSet row m.1 (m.2 row)) row)

/-- The rows written to the stream (each restricted to the field names, in their order) and those kept for the
dataframe. For leap_ec/probe.py:563-571. -/
structure AttrState (V : Type) where
  written : List (List (Option V))
  data : List (List (String × V))

/-- The loop of `__call__` (leap_ec/probe.py:563-571). Rows of earlier individuals stay written when a later one raises.
`csv.DictWriter.writerow` writes an empty cell for a missing field; a row never has a field that is not declared. -/
def attrRows {V : Type} (c : AttrConfig V) (fieldnames : List String) (step : V) :
    List (AttrInd V) → AttrState V → PyM Unit × AttrState V
  | [], st => (.ok (), st)
  | ind :: rest, st =>
    match attrRow c step ind with
    | .error e => (.error e, st)
    | .ok row =>
      attrRows c fieldnames step rest
        ⟨if c.stream then st.written ++ [fieldnames.map (dictGet row)] else st.written,
          if c.doDataframe then st.data ++ [row] else st.data⟩

/-- `AttributesCSVProbe.__call__` (leap_ec/probe.py:553-572); `ofStep` makes a cell of the generation number. -/
def attrProbe {V : Type} (c : AttrConfig V) (fieldnames : List String) (gt : AttrInd V → AttrInd V → Bool)
    (ofStep : Int → V) (ctx : Option (Option Int)) (population : List (AttrInd V)) (st : AttrState V) :
    PyM (List (AttrInd V)) × AttrState V :=
  match probeGeneration ctx with
  | .error e => (.error e, st)
  | .ok generation =>
    match (if c.bestOnly then (pyMax gt population).map (fun b => [b]) else .ok population) with
    | .error e => (.error e, st)
    | .ok individuals =>
      match attrRows c fieldnames (ofStep generation) individuals st with
      | (.error e, st) => (.error e, st)
      | (.ok _, st) => (.ok population, st)

end Leap
