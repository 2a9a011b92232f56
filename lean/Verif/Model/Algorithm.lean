import Verif.Model.Selection
import Verif.Model.Counters

/-!
# Main loops (leap_ec/algorithm.py)

Pipelines, initialisers and stop conditions are arbitrary functions. `R` is everything else in the world
(random source, other objects); they can read and change it and the context.
-/

namespace Leap

variable {α R : Type}

/-- The world: the context and everything else. For leap_ec/algorithm.py:131-139. -/
structure World (R : Type) where
  ctx : LeapCtx
  rest : R

/-- `context['leap']['generation'] = g`. For leap_ec/algorithm.py:131-139. -/
def World.setGeneration (w : World R) (g : Int) : World R :=
  { w with ctx := { w.ctx with generation := some g } }

/-- `context['leap']['current_subpopulation'] = i`. For leap_ec/algorithm.py:277-287. -/
def World.setSubpop (w : World R) (i : Nat) : World R :=
  { w with ctx := { w.ctx with currentSubpopulation := some i } }

/-- A pipeline from population to population. For leap_ec/algorithm.py:131-139. -/
abbrev Pipeline (R α : Type) := World R → List α → PyM (List α × World R)

/-- The `while` loop of `generational_ea` (leap_ec/algorithm.py:131-139). `g` is the counter's private
value. -/
def generationalLoop (lt : α → α → Bool) (maxGenerations : Int) (kElites : Nat)
    (pipeline : Pipeline R α) (stop : World R → List α → Bool) (g : Int) (parents : List α)
    (w : World R) : PyM (List α × World R) :=
  if h : g < maxGenerations then
    if stop w parents then .ok (parents, w)
    else
      match pipeline w parents with
      | .error e => .error e
      | .ok (offspring, w) =>
        let offspring := (elitistSurvival lt offspring parents kElites).1
        generationalLoop lt maxGenerations kElites pipeline stop (g + 1) offspring
          (w.setGeneration (g + 1))
  else .ok (parents, w)
termination_by (maxGenerations - g).toNat
decreasing_by omega

/-- `generational_ea` (leap_ec/algorithm.py:21-141). `create` is `representation.create_population`. -/
def generationalEa (lt : α → α → Bool) (maxGenerations : Int) (kElites : Nat)
    (create : World R → PyM (List α × World R)) (initEvaluate : Pipeline R α)
    (pipeline : Pipeline R α) (stop : World R → List α → Bool) (startGeneration : Int)
    (w : World R) : PyM (List α × World R) :=
  match create w with
  | .error e => .error e
  | .ok (parents, w) =>
    match initEvaluate (w.setGeneration startGeneration) parents with
    | .error e => .error e
    | .ok (parents, w) =>
      generationalLoop lt maxGenerations kElites pipeline stop startGeneration parents w

/-- An operator in a multi-population pipeline: it may also look at all sub-populations, which are in the
context (leap_ec/algorithm.py:266-268). -/
abbrev SubpopOp (R α : Type) := World R → List (List α) → List α → PyM (List α × World R)

/-- `pipe(parents, *operators)` (leap_ec/algorithm.py:285). -/
def runOps (ops : List (SubpopOp R α)) (pops : List (List α)) (parents : List α) (w : World R) :
    PyM (List α × World R) :=
  match ops with
  | [] => .ok (parents, w)
  | op :: ops =>
    match op w pops parents with
    | .error e => .error e
    | .ok (p, w) => runOps ops pops p w

/-- `list(subpop_pipelines[i]) if subpop_pipelines else []` (leap_ec/algorithm.py:284); both `None` and an empty
list are false. -/
def subpopOps (subpopPipelines : List (List (SubpopOp R α))) (i : Nat) : PyM (List (SubpopOp R α)) :=
  if subpopPipelines.isEmpty then .ok []
  else match subpopPipelines[i]? with
    | some ops => .ok ops
    | none => .error .indexError

/-- The `for i, parents in enumerate(pops)` loop (leap_ec/algorithm.py:277-287) from index `i`, with `n`
indices to go. Simplification: operators do not replace entries of the list of sub-populations themselves. -/
def sweep (shared : List (SubpopOp R α)) (subpopPipelines : List (List (SubpopOp R α))) :
    Nat → Nat → List (List α) → World R → PyM (List (List α) × World R)
  | 0, _, pops, w => .ok (pops, w)
  | n + 1, i, pops, w =>
    match pops[i]? with
    | none => .ok (pops, w)
    | some parents =>
      let w := w.setSubpop i
      match subpopOps subpopPipelines i with
      | .error e => .error e
      | .ok own =>
        match runOps (shared ++ own) pops parents w with
        | .error e => .error e
        | .ok (offspring, w) => sweep shared subpopPipelines n (i + 1) (pops.set i offspring) w

/-- The `while` loop of `multi_population_ea` (leap_ec/algorithm.py:274-289). -/
def multiPopLoop (maxGenerations : Int) (shared : List (SubpopOp R α))
    (subpopPipelines : List (List (SubpopOp R α))) (stop : World R → List (List α) → Bool)
    (g : Int) (pops : List (List α)) (w : World R) : PyM (List (List α) × World R) :=
  if h : g < maxGenerations then
    if stop w pops then .ok (pops, w)
    else
      match sweep shared subpopPipelines pops.length 0 pops w with
      | .error e => .error e
      | .ok (pops, w) =>
        multiPopLoop maxGenerations shared subpopPipelines stop (g + 1) pops (w.setGeneration (g + 1))
  else .ok (pops, w)
termination_by (maxGenerations - g).toNat
decreasing_by omega

/-- Run the creators or evaluators one after the other (leap_ec/algorithm.py:262-264). -/
def runEach {β γ : Type} (f : β → World R → PyM (γ × World R)) : List β → World R →
    PyM (List γ × World R)
  | [], w => .ok ([], w)
  | b :: bs, w =>
    match f b w with
    | .error e => .error e
    | .ok (c, w) =>
      match runEach f bs w with
      | .error e => .error e
      | .ok (cs, w) => .ok (c :: cs, w)

/-- `multi_population_ea` (leap_ec/algorithm.py:147-292). `creators` are the calls
`r.create_population(pop_size, problem=p)`, one per pair; the assertion that there are as many
representations as problems is `lengthsAgree`. -/
def multiPopulationEa (maxGenerations : Int) (lengthsAgree : Bool)
    (creators : List (World R → PyM (List α × World R))) (initEvaluate : Pipeline R α)
    (shared : List (SubpopOp R α)) (subpopPipelines : List (List (SubpopOp R α)))
    (stop : World R → List (List α) → Bool) (w : World R) : PyM (List (List α) × World R) :=
  if lengthsAgree then
    match runEach (fun c w => c w) creators w with
    | .error e => .error e
    | .ok (pops, w) =>
      match runEach (fun p w => initEvaluate w p) pops w with
      | .error e => .error e
      | .ok (pops, w) =>
        multiPopLoop maxGenerations shared subpopPipelines stop 0 pops (w.setGeneration 0)
  else .error .assertionError

/-- The loop of `random_search` (leap_ec/algorithm.py:360-374). The world's context is here the library's
global one: the counter is made without passing the `context` argument on
(leap_ec/algorithm.py:358). -/
def randomSearchLoop (evaluations : Int) (pipeline : World R → α → PyM (List α × World R)) (g : Int)
    (individual : α) (trajectory : List α) (w : World R) : PyM (List α × World R) :=
  if h : g < evaluations then
    match pipeline w individual with
    | .error e => .error e
    | .ok (out, w) =>
      match out with
      | [] => .error .indexError
      | i :: _ =>
        randomSearchLoop evaluations pipeline (g + 1) i (trajectory ++ out) (w.setGeneration (g + 1))
  else .ok (trajectory, w)
termination_by (evaluations - g).toNat
decreasing_by omega

/-- `random_search` (leap_ec/algorithm.py:298-377). `createEvaluated` creates and evaluates the first
individual. -/
def randomSearch (evaluations : Int) (createEvaluated : World R → PyM (α × World R))
    (pipeline : World R → α → PyM (List α × World R)) (w : World R) : PyM (List α × World R) :=
  match createEvaluated w with
  | .error e => .error e
  | .ok (i, w) => randomSearchLoop evaluations pipeline 1 i [i] (w.setGeneration 1)

/-- `stop_at_generation` (leap_ec/algorithm.py:383-416): the assertion, and the test that the returned
function makes; `KeyError` when the context has no generation. -/
def stopAtGeneration (maxGeneration : Int) (ctx : LeapCtx) : PyM Bool :=
  if 0 ≤ maxGeneration then
    match ctx.generation with
    | some g => .ok (!decide (g < maxGeneration))
    | none => .error .keyError
  else .error .assertionError

end Leap
