import Verif.Model.Pipeline
import Verif.Model.Wrappers

/-!
# Cooperative coevolution over the object memory

`multi_population_ea` (leap_ec/algorithm.py:147-292) with the shared pipeline `select, clone, stages...,
CooperativeEvaluate(...), pool(size)` of examples/advanced/coevolution.py:61-84. The combined individuals are objects
in memory like all others; the sub-populations are looked up in the context while the offspring are made.
The log stream is modelled in `Model/EventLog.lean`.
-/

namespace Leap

variable {γ ψ ρ : Type}

/-- `collaborator_selector`: the private state of a new iterator over a population, and which position it picks next. It
writes nothing but the random state. For leap_ec/ops.py:1412-1429. -/
structure Collab (γ ψ ρ : Type) where
  σ : Type
  init : σ
  pick : List Nat → σ → Mem γ ψ ℚ ρ → PyM (Nat × σ) × ρ

/-- `next(selectors[i])` (leap_ec/ops.py:1419). -/
def Collab.next (c : Collab γ ψ ρ) (pop : List Nat) : HGen (Mem γ ψ ℚ ρ) c.σ Nat := fun s m =>
  match c.pick pop s m with
  | (.error e, t) => (.error e, { m with rng := t })
  | (.ok (i, s'), t) =>
    match pop[i]? with
    | none => (.error .indexError, { m with rng := t })
    | some r => (.ok (r, s'), { m with rng := t })

/-- `_choose_collaborators` (leap_ec/ops.py:1411-1428), from sub-population `i` on: the members of the team and the states of the
selection iterators. -/
def chooseTeam (c : Collab γ ψ ρ) (current cur : Nat) :
    Nat → List (List Nat) → List c.σ → HM (Mem γ ψ ℚ ρ) (List Nat × List c.σ)
  | i, pop :: pops, s :: ss =>
    if i ≠ cur then do
      let (x, s') ← c.next pop s
      let (xs, ss') ← chooseTeam c current cur (i + 1) pops ss
      pure (x :: xs, s' :: ss')
    else do
      let (xs, ss') ← chooseTeam c current cur (i + 1) pops ss
      pure (current :: xs, s :: ss')
  | _, _, _ => pure ([], [])

/-- `[ind.genome for ind in collaborators]` (leap_ec/ops.py:1332). -/
def genomesOf : List Nat → HM (Mem γ ψ ℚ ρ) (List (List γ))
  | [] => pure []
  | r :: rs => do
    let o ← getObj r
    let g ← getArr o.genome
    let gs ← genomesOf rs
    pure (g :: gs)

/-- `concat_combine` (leap_ec/ops.py:1324-1334): a clone of the first collaborator that gets a new array with all genes. -/
def combineInds (team : List Nat) : HM (Mem γ ψ ℚ ρ) Nat :=
  match team with
  | [] => HM.raise .indexError
  | r0 :: rs => do
    let c ← cloneInd r0
    let gs ← genomesOf (r0 :: rs)
    let a ← newArr gs.flatten
    modObj c fun x => { x with genome := a }
    pure c

/-- `combined_ind.evaluate()` (leap_ec/ops.py:1395): the combined individual has the decoder and the problem of the first
collaborator. `env` gives them for the identity of a problem; one decoder goes with each problem. -/
def evaluateCombined (env : Nat → Dec γ ψ × Prob γ ψ ℚ ρ) (c : Nat) : HM (Mem γ ψ ℚ ρ) ℚ := do
  let o ← getObj c
  evaluateInd (env o.problem).1 (env o.problem).2 c

/-- The trials (leap_ec/ops.py:1389-1405); the selection iterators go on from trial to trial. -/
def coopTrials (env : Nat → Dec γ ψ × Prob γ ψ ℚ ρ) (c : Collab γ ψ ρ) (pops : List (List Nat)) (current cur : Nat) :
    Nat → List c.σ → HM (Mem γ ψ ℚ ρ) (List ℚ)
  | 0, _ => pure []
  | k + 1, ss => do
    let (team, ss') ← chooseTeam c current cur 0 pops ss
    let combined ← combineInds team
    let f ← evaluateCombined env combined
    let fs ← coopTrials env c pops current cur k ss'
    pure (f :: fs)

/-- One turn of the loop of `CooperativeEvaluate.__call__` on the individual received (leap_ec/ops.py:1380-1407). `mean` of nothing
raises `StatisticsError`, a `ValueError`. -/
def coopEvaluate (env : Nat → Dec γ ψ × Prob γ ψ ℚ ρ) (c : Collab γ ψ ρ) (numTrials : Nat) (pops : List (List Nat))
    (current cur : Nat) : HM (Mem γ ψ ℚ ρ) Unit := do
  let fs ← coopTrials env c pops current cur numTrials (pops.map fun _ => c.init)
  HM.lift (if fs = [] then .error .valueError else .ok ())
  modObj current fun x => { x with fitness := some (mean fs) }

/-- `CooperativeEvaluate(...)` applied to an upstream iterator (leap_ec/ops.py:1376-1409). -/
def coopApply (env : Nat → Dec γ ψ × Prob γ ψ ℚ ρ) (c : Collab γ ψ ρ) (numTrials : Nat) (pops : List (List Nat)) (cur : Nat)
    (up : HIter (Mem γ ψ ℚ ρ)) : HIter (Mem γ ψ ℚ ρ) :=
  { σ := up.σ, init := up.init,
    next := fun s => HM.pep479 do
      let (r, s') ← up.next s
      coopEvaluate env c numTrials pops r cur
      pure (r, s') }

/-- What a run is configured with. For leap_ec/algorithm.py:147-292. -/
structure CoopConfig (γ ψ ρ : Type) where
  /-- the decoder and the problem with a given identity -/
  env : Nat → Dec γ ψ × Prob γ ψ ℚ ρ
  collab : Collab γ ψ ρ
  numTrials : Nat
  /-- parent selection in a generation, in a sub-population, on a population: which position it picks next -/
  choose : Int → Nat → List Nat → Mem γ ψ ℚ ρ → PyM Nat × ρ
  /-- the operators between `clone` and `CooperativeEvaluate` -/
  stages : List (Stage γ ψ ℚ ρ)
  /-- the argument of `pool` -/
  size : Nat
  stop : Int → List (List Nat) → Mem γ ψ ℚ ρ → Bool

/-- The pipeline on sub-population `cur`, `pops` being the sub-populations in the context (leap_ec/algorithm.py:282-285). -/
def coopPipeline (cfg : CoopConfig γ ψ ρ) (g : Int) (cur : Nat) (pops : List (List Nat)) (parents : List Nat) :
    HM (Mem γ ψ ℚ ρ) (List Nat) := do
  let it := coopApply cfg.env cfg.collab cfg.numTrials pops cur
    (stagesIter (selectionIter parents (cfg.choose g cur parents)) (Stage.clone :: cfg.stages))
  let (out, _) ← hpull it.next cfg.size it.init
  pure out

/-- The `for` loop over the sub-populations (leap_ec/algorithm.py:277-287), `k` to go from `cur`. The list in the context is the
list whose entries are replaced (leap_ec/algorithm.py:268, 287), so later ones see the offspring of earlier ones. -/
def coopSweep (cfg : CoopConfig γ ψ ρ) (g : Int) : Nat → Nat → List (List Nat) → HM (Mem γ ψ ℚ ρ) (List (List Nat))
  | 0, _, pops => pure pops
  | k + 1, cur, pops => do
    let off ← coopPipeline cfg g cur pops (pops.getD cur [])
    coopSweep cfg g k (cur + 1) (pops.set cur off)

/-- The `while` loop (leap_ec/algorithm.py:274-289), with `fuel` generations to go at generation `g`. -/
def coopLoop (cfg : CoopConfig γ ψ ρ) : Nat → Int → List (List Nat) → HM (Mem γ ψ ℚ ρ) (List (List Nat))
  | 0, _, pops => pure pops
  | fuel + 1, g, pops => fun m =>
    if cfg.stop g pops m then (.ok pops, m)
    else (coopSweep cfg g pops.length 0 pops >>= fun ps => coopLoop cfg fuel (g + 1) ps) m

/-- `[r.create_population(pop_size, problem=p) for r, p in zip(representation, problem)]` (leap_ec/algorithm.py:262-263): the
initialiser and the problem of each sub-population. -/
def createTeams (popSize : Nat) : List ((ρ → PyM (List γ) × ρ) × Nat) → HM (Mem γ ψ ℚ ρ) (List (List Nat))
  | [] => pure []
  | ip :: rest => do
    let p ← createPopulation ip.1 ip.2 popSize
    let ps ← createTeams popSize rest
    pure (p :: ps)

/-- `[init_evaluate(p) for p in pops]` with `const_evaluate(value=...)` (leap_ec/algorithm.py:264, leap_ec/ops.py:305-320). -/
def constEvaluateAll (value : ℚ) : List (List Nat) → HM (Mem γ ψ ℚ ρ) Unit
  | [] => pure ()
  | p :: ps => do
    constEvaluate value p
    constEvaluateAll value ps

/-- A run of cooperative coevolution (leap_ec/algorithm.py:147-292, examples/advanced/coevolution.py:61-84). -/
def coopRun (cfg : CoopConfig γ ψ ρ) (subpops : List ((ρ → PyM (List γ) × ρ) × Nat)) (popSize : Nat) (value : ℚ)
    (maxGenerations : Int) : HM (Mem γ ψ ℚ ρ) (List (List Nat)) := do
  let pops ← createTeams popSize subpops
  constEvaluateAll value pops
  coopLoop cfg maxGenerations.toNat 0 pops

end Leap
