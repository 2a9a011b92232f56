import Verif.Model.Segmented
import Verif.Model.Selection

/-!
# Whole runs over segmented genomes

Pipelines of the operators of `leap_ec/segmented_rep/ops.py` and the main loop of `generational_ea` around them. The genome of an
individual is a Python list of numpy arrays: the individual, the list and the arrays are three kinds of objects in memory, each with
an address of its own. `apply_mutation` and `segmented_mutate` give the individual a new list; `add_segment`, `remove_segment` and
`copy_segment` change its list in place.

Left out of an individual: its identifier, parents and problem (`Model/Individual.lean` has them) and the phenome, which `evaluate` computes
anew at every call before it is read.
-/

namespace Leap

/-- An individual: the address of its genome (a list object) and its fitness (leap_ec/individual.py:48-88). -/
structure SegObj (φ : Type) where
  genome : Nat
  fitness : Option φ
deriving DecidableEq, Repr

/-- The memory: arrays, list objects holding addresses of arrays, individuals, and the rest of the world with the random source.
For leap_ec/segmented_rep/ops.py:57-60, 83-86. -/
structure SegStore (γ φ ρ : Type) where
  segs : List (List γ)
  lists : List (List Nat)
  inds : List (SegObj φ)
  rng : ρ
deriving DecidableEq, Repr

variable {γ φ ρ : Type}

/-- Code that only touches arrays and the random source. For leap_ec/segmented_rep/ops.py:44-62. -/
def onSegs {α : Type} (x : HM (SegMem γ ρ) α) : HM (SegStore γ φ ρ) α := fun m =>
  ((x ⟨m.segs, m.rng⟩).1, { m with segs := (x ⟨m.segs, m.rng⟩).2.segs, rng := (x ⟨m.segs, m.rng⟩).2.rng })

/-- A call that only touches the random source, and may raise. For leap_ec/individual.py:166-189. -/
def segDraw {α : Type} (f : ρ → PyM α × ρ) : HM (SegStore γ φ ρ) α := fun m => ((f m.rng).1, { m with rng := (f m.rng).2 })

/-- `individual.genome` and `individual.fitness` of the individual at `r`. For leap_ec/individual.py:118-151. -/
def readSegInd (r : Nat) : HM (SegStore γ φ ρ) (SegInd φ) := fun m =>
  match m.inds[r]? with
  | none => (.error .attributeError, m)
  | some o =>
    match m.lists[o.genome]? with
    | none => (.error .attributeError, m)
    | some l => (.ok ⟨l, o.fitness⟩, m)

/-- `individual.genome = g; individual.fitness = None` for a list `g` just built (leap_ec/segmented_rep/ops.py:57-60, 83-86). -/
def putNewList (r : Nat) (g : List Nat) : HM (SegStore γ φ ρ) Unit := fun m =>
  (.ok (), { m with lists := m.lists ++ [g], inds := m.inds.set r ⟨m.lists.length, none⟩ })

/-- Change the individual's list in place so that it holds `g`, then `individual.fitness = None`
(leap_ec/segmented_rep/ops.py:129-137, 173-175, 207-218). -/
def editList (r : Nat) (g : List Nat) : HM (SegStore γ φ ρ) Unit := fun m =>
  match m.inds[r]? with
  | none => (.error .attributeError, m)
  | some o => (.ok (), { m with lists := m.lists.set o.genome g, inds := m.inds.set r ⟨o.genome, none⟩ })

/-- `deepcopy` of the entries of a list (leap_ec/individual.py:145): `memo` relates the arrays already copied to their copies, so
that an array that occurs twice is copied once. -/
def deepcopySegs : List Nat → List (Nat × Nat) → HM (SegStore γ φ ρ) (List Nat)
  | [], _ => pure []
  | a :: as, memo => fun m =>
    match memo.lookup a with
    | some b =>
      match deepcopySegs as memo m with
      | (.ok bs, m') => (.ok (b :: bs), m')
      | (.error e, m') => (.error e, m')
    | none =>
      match m.segs[a]? with
      | none => (.error .attributeError, m)
      | some g =>
        match deepcopySegs as ((a, m.segs.length) :: memo) { m with segs := m.segs ++ [g] } with
        | (.ok bs, m') => (.ok (m.segs.length :: bs), m')
        | (.error e, m') => (.error e, m')

/-- A new individual whose genome is a new list. For leap_ec/individual.py:118-151. -/
def newSegInd (g : List Nat) : HM (SegStore γ φ ρ) Nat := fun m =>
  (.ok m.inds.length, { m with lists := m.lists ++ [g], inds := m.inds ++ [⟨m.lists.length, none⟩] })

/-- `Individual.clone` (leap_ec/individual.py:118-151). -/
def cloneSeg (r : Nat) : HM (SegStore γ φ ρ) Nat := do
  let ind ← readSegInd r
  let g ← deepcopySegs ind.genome []
  newSegInd g

/-- The contents of the arrays of a genome. For leap_ec/individual.py:166-189. -/
def readSegs (g : List Nat) : HM (SegStore γ φ ρ) (List (List γ)) := fun m =>
  match g.mapM (fun a => m.segs[a]?) with
  | none => (.error .attributeError, m)
  | some gs => (.ok gs, m)

/-- `self.fitness = f`. For leap_ec/individual.py:166-189. -/
def setSegFitness (r : Nat) (f : φ) : HM (SegStore γ φ ρ) Unit := fun m =>
  match m.inds[r]? with
  | none => (.error .attributeError, m)
  | some o => (.ok (), { m with inds := m.inds.set r { o with fitness := some f } })

/-- `Individual.evaluate` (leap_ec/individual.py:166-189). `score` is `decoder.decode` followed by `problem.evaluate`; the random
state stands for whatever else they depend on. -/
def evaluateSeg (score : List (List γ) → ρ → PyM φ × ρ) (r : Nat) : HM (SegStore γ φ ρ) Unit := do
  let ind ← readSegInd r
  let gs ← readSegs ind.genome
  let f ← segDraw (score gs)
  setSegFitness r f

/-- The operators of a pipeline. `hit` is the outcome of `random.random() < probability`, `range n` that of
`random.randrange(n)`. For leap_ec/segmented_rep/ops.py:19-220. -/
inductive SegStage (γ φ ρ : Type) where
  | clone
  | apply (mutator : ℚ → MutFn γ ρ) (expected : ℚ)
  | segmented (mutators : List (MutFn γ ρ))
  | each (mutator : MutFn γ ρ)
  | add (hit : ρ → Bool × ρ) (init : ρ → PyM (List γ) × ρ) (append : Bool) (range : Nat → ρ → Nat × ρ)
  | remove (hit : ρ → Bool × ρ) (range : Nat → ρ → Nat × ρ)
  | copy (hit : ρ → Bool × ρ) (append : Bool) (range : Nat → ρ → Nat × ρ)
  | evaluate (score : List (List γ) → ρ → PyM φ × ρ)

/-- `apply_mutation` (leap_ec/segmented_rep/ops.py:44-62). -/
def applyAct (mutator : ℚ → MutFn γ ρ) (expected : ℚ) (r : Nat) : HM (SegStore γ φ ρ) Unit := do
  let ind ← readSegInd r
  let out ← onSegs (applyMutation mutator expected ind)
  putNewList r out.genome

/-- `segmented_mutate` (leap_ec/segmented_rep/ops.py:74-88). -/
def segmentedAct (mutators : List (MutFn γ ρ)) (r : Nat) : HM (SegStore γ φ ρ) Unit := do
  let ind ← readSegInd r
  let out ← onSegs (segmentedMutate mutators ind)
  putNewList r out.genome

/-- The loop body of the operator returned by `PittRulesDecoder.mutator` (leap_ec/executable_rep/rules.py:344-359): every segment of
the genome, which is a list, is put through the same function, one after the other. -/
def eachAct (mutator : MutFn γ ρ) (r : Nat) : HM (SegStore γ φ ρ) Unit := do
  let ind ← readSegInd r
  let g ← onSegs (mutateSegments (List.replicate ind.genome.length mutator) ind.genome)
  putNewList r g

/-- A draw that does not raise. For leap_ec/segmented_rep/ops.py:120-139. -/
def segPick {α : Type} (f : ρ → α × ρ) : HM (SegStore γ φ ρ) α := segDraw fun s => (.ok (f s).1, (f s).2)

/-- A draw that is made only when it is needed. For leap_ec/segmented_rep/ops.py:120-139. -/
def segPickIf (needed : Bool) (f : ρ → Nat × ρ) : HM (SegStore γ φ ρ) Nat := if needed then segPick f else pure 0

/-- `add_segment` (leap_ec/segmented_rep/ops.py:120-139). -/
def addAct (hit : ρ → Bool × ρ) (init : ρ → PyM (List γ) × ρ) (append : Bool) (range : Nat → ρ → Nat × ρ) (r : Nat) :
    HM (SegStore γ φ ρ) Unit := do
  let ind ← readSegInd r
  let h ← segPick hit
  if h then do
    let new ← segDraw init
    let pos ← segPickIf (!append) (range (ind.genome.length + 1))
    let out ← onSegs (addSegment true append new pos ind)
    editList r out.genome
  else pure ()

/-- `remove_segment` (leap_ec/segmented_rep/ops.py:164-177). The random number is drawn only when there is more than one segment. -/
def removeAct (hit : ρ → Bool × ρ) (range : Nat → ρ → Nat × ρ) (r : Nat) : HM (SegStore γ φ ρ) Unit := do
  let ind ← readSegInd r
  if ind.genome.length > 1 then do
    let h ← segPick hit
    if h then do
      let pos ← segPick (range ind.genome.length)
      editList r (removeSegment true pos ind).genome
    else pure ()
  else pure ()

/-- `copy_segment` (leap_ec/segmented_rep/ops.py:200-220). On an empty genome `random.randrange(0)` raises `ValueError` without
drawing; the second number is drawn after the segment has been looked up. -/
def copyAct (hit : ρ → Bool × ρ) (append : Bool) (range : Nat → ρ → Nat × ρ) (r : Nat) : HM (SegStore γ φ ρ) Unit := do
  let ind ← readSegInd r
  let h ← segPick hit
  if h then do
    let src ← segPickIf (ind.genome.length != 0) (range ind.genome.length)
    let pos ← segPickIf (!append && (ind.genome[src]?).isSome) (range (ind.genome.length + 1))
    let out ← HM.lift (copySegment true append src pos ind)
    editList r out.genome
  else pure ()

/-- What an operator does with the individual it receives, and which individual it yields.
For leap_ec/segmented_rep/ops.py:19-220. -/
def SegStage.act : SegStage γ φ ρ → Nat → HM (SegStore γ φ ρ) Nat
  | .clone, r => cloneSeg r
  | .apply mutator expected, r => do applyAct mutator expected r; pure r
  | .segmented mutators, r => do segmentedAct mutators r; pure r
  | .each mutator, r => do eachAct mutator r; pure r
  | .add hit init append range, r => do addAct hit init append range r; pure r
  | .remove hit range, r => do removeAct hit range r; pure r
  | .copy hit append range, r => do copyAct hit append range r; pure r
  | .evaluate score, r => do evaluateSeg score r; pure r

/-- The selection operator at the head of a pipeline: `choose` gives the position of the next individual.
For leap_ec/algorithm.py:131-139. -/
def segSelect (pop : List Nat) (choose : SegStore γ φ ρ → PyM Nat × ρ) : HM (SegStore γ φ ρ) Nat := fun m =>
  match choose m with
  | (.error e, s) => (.error e, { m with rng := s })
  | (.ok i, s) =>
    match pop[i]? with
    | none => (.error .indexError, { m with rng := s })
    | some r => (.ok r, { m with rng := s })

/-- `next` on a chain of operators. None of them has state of its own between two calls; each is a generator, so an escaping
`StopIteration` becomes `RuntimeError`. For leap_ec/algorithm.py:131-139. -/
def segChain (up : HM (SegStore γ φ ρ) Nat) : List (SegStage γ φ ρ) → HM (SegStore γ φ ρ) Nat
  | [] => up
  | st :: rest => segChain (HM.pep479 (up >>= st.act)) rest

/-- `pool` (leap_ec/ops.py:1089-1117). -/
def segPool (next : HM (SegStore γ φ ρ) Nat) : Nat → HM (SegStore γ φ ρ) (List Nat)
  | 0 => pure []
  | n + 1 => do
    let r ← next
    let rs ← segPool next n
    pure (r :: rs)

/-- A whole pipeline: selection, operators, pool. For leap_ec/algorithm.py:131-139. -/
def segPipeline (pop : List Nat) (choose : SegStore γ φ ρ → PyM Nat × ρ) (stages : List (SegStage γ φ ρ)) (size : Nat) :
    HM (SegStore γ φ ρ) (List Nat) :=
  segPool (segChain (HM.pep479 (segSelect pop choose)) stages) size

/-- What a run is configured with; the same as `EvoConfig`. For leap_ec/algorithm.py:21-139. -/
structure SegConfig (γ φ ρ : Type) where
  /-- `individual < other` -/
  worse : Option φ → Option φ → Bool
  choose : Int → List Nat → SegStore γ φ ρ → PyM Nat × ρ
  stages : List (SegStage γ φ ρ)
  /-- the argument of `pool` -/
  size : Nat
  kElites : Nat
  stop : Int → List Nat → SegStore γ φ ρ → Bool

/-- `a < b` for individuals in memory (leap_ec/individual.py:211-253). -/
def SegConfig.lt (cfg : SegConfig γ φ ρ) (m : SegStore γ φ ρ) (a b : Nat) : Bool :=
  cfg.worse ((m.inds[a]?).bind SegObj.fitness) ((m.inds[b]?).bind SegObj.fitness)

/-- The `while` loop of `generational_ea` (leap_ec/algorithm.py:131-139). -/
def segLoop (cfg : SegConfig γ φ ρ) : Nat → Int → List Nat → HM (SegStore γ φ ρ) (List Nat)
  | 0, _, parents => pure parents
  | fuel + 1, g, parents => fun m =>
    if cfg.stop g parents m then (.ok parents, m)
    else
      match segPipeline parents (cfg.choose g parents) cfg.stages cfg.size m with
      | (.error e, m1) => (.error e, m1)
      | (.ok offspring, m1) =>
        segLoop cfg fuel (g + 1) (elitistSurvival (cfg.lt m1) offspring parents cfg.kElites).1 m1

/-- Arrays made by an initialiser, one after the other. For leap_ec/individual.py:90-103. -/
def newSegs : List (List γ) → HM (SegStore γ φ ρ) (List Nat)
  | [] => pure []
  | g :: gs => fun m =>
    match newSegs gs { m with segs := m.segs ++ [g] } with
    | (.ok as, m') => (.ok (m.segs.length :: as), m')
    | (.error e, m') => (.error e, m')

/-- `Individual.create_population` (leap_ec/individual.py:90-103) with `create_segmented_sequence(length, init)` as initialiser
(leap_ec/segmented_rep/initializers.py:34-45). `length` is the number given, or the call of the function given. -/
def createSegPop (length : ρ → Nat × ρ) (init : ρ → PyM (List γ) × ρ) : Nat → HM (SegStore γ φ ρ) (List Nat)
  | 0 => pure []
  | n + 1 => do
    let k ← segPick length
    let gs ← segDraw (createSegmented init k)
    let as ← newSegs gs
    let r ← newSegInd as
    let rs ← createSegPop length init n
    pure (r :: rs)

/-- `Individual.evaluate_population` (leap_ec/individual.py:105-116). -/
def evaluateSegPop (score : List (List γ) → ρ → PyM φ × ρ) : List Nat → HM (SegStore γ φ ρ) Unit
  | [] => pure ()
  | r :: rs => do
    evaluateSeg score r
    evaluateSegPop score rs

/-- `generational_ea` (leap_ec/algorithm.py:21-141) on a segmented representation. -/
def segRun (cfg : SegConfig γ φ ρ) (length : ρ → Nat × ρ) (init : ρ → PyM (List γ) × ρ)
    (score : List (List γ) → ρ → PyM φ × ρ) (popSize : Nat) (startGeneration maxGenerations : Int) :
    HM (SegStore γ φ ρ) (List Nat) := do
  let parents ← createSegPop length init popSize
  evaluateSegPop score parents
  segLoop cfg (maxGenerations - startGeneration).toNat startGeneration parents

end Leap
