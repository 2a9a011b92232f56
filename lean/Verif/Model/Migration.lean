import Verif.Py.Basic

/-!
# Island migration (leap_ec/ops.py:1123-1249)

Individuals are values of a type `α`. `lt a b` is `a < b` on individuals, so `a >= b` is `not a < b`
(leap_ec/individual.py:16). The selection operators, the customs stamp and the random choice are arguments.
-/

namespace Leap

variable {α : Type}

/-- The arguments of `migrate` (leap_ec/ops.py:1123-1127). -/
structure MigConfig (α : Type) where
  /-- `topology.number_of_nodes()` -/
  numIslands : Nat
  /-- `list(topology.neighbors(i))` -/
  neighbors : Nat → List Nat
  gap : Int
  stamp : α → Nat → α
  lt : α → α → Bool
  /-- `sponsor.clone()` followed by `emi.fitness = sponsor.fitness` (leap_ec/ops.py:1235-1236) -/
  copy : α → α

/-- The choices made during one call: the position that `replacement_selector` selects for the `k`-th
immigrant (it yields the individual there and writes the position to `indices`), the position selected by
`emigrant_selector`, and the position drawn by `random.choice` in a list of a given length. For leap_ec/ops.py:1203-1223. -/
structure MigDraws (α : Type) where
  replace : Nat → List α → PyM Nat
  sponsor : List α → PyM Nat
  dest : Nat → Nat

/-- What one call of `metric` is told: immigrant, contestant, success. For leap_ec/ops.py:1203-1223. -/
structure MetricCall (α : Type) where
  immigrant : α
  contestant : α
  success : Bool
deriving DecidableEq, Repr

/-- The immigration loop (leap_ec/ops.py:1203-1223) over the rest of the queue, `k` immigrants having been
processed. The population is changed in place, so its contents are returned even after an exception, with the
metric calls made. -/
def immigrate (c : MigConfig α) (d : MigDraws α) (cur : Nat) :
    List α → Nat → List α → PyM Unit × List α × List (MetricCall α)
  | [], _, pop => (.ok (), pop, [])
  | x :: xs, k, pop =>
    let imm := c.stamp x cur
    match d.replace k pop with
    | .error e => (.error e, pop, [])
    | .ok i =>
      match pop[i]? with
      | none => (.error .indexError, pop, [])
      | some contestant =>
        let success := !(c.lt imm contestant)
        let pop' := if success then pop.set i imm else pop
        let (r, p, ms) := immigrate c d cur xs (k + 1) pop'
        (r, p, ⟨imm, contestant, success⟩ :: ms)

/-- What a call of the operator leaves behind: its outcome, the population, the queues of immigrants, the metric
calls, and the emigrant sent (destination and individual; for the statements). For leap_ec/ops.py:1199-1245. -/
structure MigResult (α : Type) where
  outcome : PyM Unit
  pop : List α
  queues : List (List α)
  metrics : List (MetricCall α)
  sent : Option (Nat × α)

/-- The emigration step (leap_ec/ops.py:1227-1245). `generation % 0` raises `ZeroDivisionError`. -/
def emigrate (c : MigConfig α) (d : MigDraws α) (generation : Int) (cur : Nat) (pop : List α)
    (queues : List (List α)) (ms : List (MetricCall α)) : MigResult α :=
  if c.gap = 0 then ⟨.error .zeroDivisionError, pop, queues, ms, none⟩
  else if generation % c.gap = 0 then
    match d.sponsor pop with
    | .error e => ⟨.error e, pop, queues, ms, none⟩
    | .ok i =>
      match pop[i]? with
      | none => ⟨.error .indexError, pop, queues, ms, none⟩
      | some sponsor =>
        let emi := c.copy sponsor
        match (c.neighbors cur)[d.dest (c.neighbors cur).length]? with
        | none => ⟨.error .indexError, pop, queues, ms, none⟩
        | some dest =>
          match queues[dest]? with
          | none => ⟨.error .indexError, pop, queues, ms, none⟩
          | some q => ⟨.ok (), pop, queues.set dest (q ++ [emi]), ms, some (dest, emi)⟩
  else ⟨.ok (), pop, queues, ms, none⟩

/-- One call `do_migrate(population)` (leap_ec/ops.py:1198-1247) with the given generation and current
sub-population in the context. -/
def migrateCall (c : MigConfig α) (d : MigDraws α) (generation : Int) (cur : Nat) (pop : List α)
    (queues : List (List α)) : MigResult α :=
  match queues[cur]? with
  | none => ⟨.error .indexError, pop, queues, [], none⟩
  | some queue =>
    match immigrate c d cur queue 0 pop with
    | (.error e, pop, ms) => ⟨.error e, pop, queues, ms, none⟩
    | (.ok _, pop, ms) => emigrate c d generation cur pop (queues.set cur []) ms

/-- The state of the closure when `migrate` returns (leap_ec/ops.py:1191). -/
def migrateInit (c : MigConfig α) : List (List α) := List.replicate c.numIslands []

/-- A call in a history: what the context says, the population given (other operators change populations
between calls), the choices made. For leap_ec/ops.py:1199-1245. -/
structure MigStep (α : Type) where
  generation : Int
  cur : Nat
  pop : List α
  draws : MigDraws α

/-- A history of calls of one migration operator, up to the first exception: the results, and the queues at the
end. For leap_ec/ops.py:1199-1245. -/
def migrateRun (c : MigConfig α) : List (MigStep α) → List (List α) → List (MigResult α) × List (List α)
  | [], qs => ([], qs)
  | s :: ss, qs =>
    let r := migrateCall c s.draws s.generation s.cur s.pop qs
    match r.outcome with
    | .error _ => ([r], r.queues)
    | .ok _ =>
      let (rs, qs') := migrateRun c ss r.queues
      (r :: rs, qs')

end Leap
