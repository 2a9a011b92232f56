import Verif.Py.Heap

/-!
# Individuals as objects in memory

Models `leap_ec/individual.py` and the evaluation operators of `leap_ec/ops.py` (236-352). Genome arrays,
sets of parent identities and individuals are objects with identity: an individual holds the
*addresses* of its genome array and of its `parents` set, so that sharing is visible.

Simplifications: a genome is one flat array (numpy array). Every `uuid.uuid4()` is a new number
(collisions are not modelled). The random source and everything else a problem may consult is one
value `rng`. Problems do not write to phenomes (documented at leap_ec/problem.py:52).
-/

namespace Leap

/-- A decoded phenome: `IdentityDecoder` returns the genome array itself (leap_ec/decoder.py), other
decoders return a new value. For leap_ec/decoder.py:89-107. -/
inductive Phen (ψ : Type) where
  | alias (addr : Nat)
  | decoded (v : ψ)
deriving DecidableEq, Repr

/-- The attributes of an individual (leap_ec/individual.py:60-75, 293-299). -/
structure Obj (ψ φ : Type) where
  /-- address of the genome array -/
  genome : Nat
  fitness : Option φ
  /-- `_phenome`, the cached phenome -/
  phenome : Option (Phen ψ)
  uuid : Nat
  /-- address of the `parents` set -/
  parents : Nat
  /-- identity of the problem object -/
  problem : Nat
  /-- `is_viable`; `none` when the attribute does not exist -/
  viable : Option Bool := none
  /-- `exception`; `none` when the attribute does not exist -/
  exception : Option PyErr := none
deriving DecidableEq, Repr

/-- The memory: genome arrays, sets of identities and individuals, each addressed by position. For leap_ec/individual.py:52-75. -/
structure Mem (γ ψ φ ρ : Type) where
  arrays : List (List γ)
  sets : List (List Nat)
  inds : List (Obj ψ φ)
  nextUuid : Nat
  rng : ρ

section
variable {γ ψ φ ρ : Type}

/-- Read an individual. For leap_ec/individual.py:144-151. -/
def getObj (r : Nat) : HM (Mem γ ψ φ ρ) (Obj ψ φ) := fun m =>
  match m.inds[r]? with
  | some o => (.ok o, m)
  | none => (.error .attributeError, m)

/-- Change attributes of an individual. For leap_ec/individual.py:144-151. -/
def modObj (r : Nat) (f : Obj ψ φ → Obj ψ φ) : HM (Mem γ ψ φ ρ) Unit := fun m =>
  (.ok (), { m with inds := m.inds.modify r f })

/-- Make a new individual object. For leap_ec/individual.py:52-75. -/
def newObj (o : Obj ψ φ) : HM (Mem γ ψ φ ρ) Nat := fun m =>
  (.ok m.inds.length, { m with inds := m.inds ++ [o] })

/-- Read a genome array. For leap_ec/individual.py:144-151. -/
def getArr (a : Nat) : HM (Mem γ ψ φ ρ) (List γ) := fun m =>
  match m.arrays[a]? with
  | some g => (.ok g, m)
  | none => (.error .attributeError, m)

/-- Overwrite the contents of a genome array in place. For leap_ec/ops.py:483-499, 578-612. -/
def setArr (a : Nat) (g : List γ) : HM (Mem γ ψ φ ρ) Unit := fun m =>
  (.ok (), { m with arrays := m.arrays.set a g })

/-- Make a new array. For leap_ec/individual.py:90-103. -/
def newArr (g : List γ) : HM (Mem γ ψ φ ρ) Nat := fun m =>
  (.ok m.arrays.length, { m with arrays := m.arrays ++ [g] })

/-- Read a set. For leap_ec/ops.py:395-400. -/
def getSet (a : Nat) : HM (Mem γ ψ φ ρ) (List Nat) := fun m =>
  match m.sets[a]? with
  | some g => (.ok g, m)
  | none => (.error .attributeError, m)

/-- Overwrite a set in place. For leap_ec/ops.py:395-400. -/
def setSet (a : Nat) (g : List Nat) : HM (Mem γ ψ φ ρ) Unit := fun m =>
  (.ok (), { m with sets := m.sets.set a g })

/-- Make a new set. For leap_ec/individual.py:52-75. -/
def newSet (g : List Nat) : HM (Mem γ ψ φ ρ) Nat := fun m =>
  (.ok m.sets.length, { m with sets := m.sets ++ [g] })

/-- `uuid.uuid4()`. For leap_ec/individual.py:52-75. -/
def freshUuid : HM (Mem γ ψ φ ρ) Nat := fun m =>
  (.ok m.nextUuid, { m with nextUuid := m.nextUuid + 1 })

/-- Use the random source. For leap_ec/individual.py:90-103. -/
def useRng {α : Type} (f : ρ → PyM α × ρ) : HM (Mem γ ψ φ ρ) α := fun m =>
  ((f m.rng).1, { m with rng := (f m.rng).2 })

/-! ### Creation and cloning -/

/-- `Individual(genome, decoder, problem)` (leap_ec/individual.py:52-75) for a genome array at `genome`.
The checks for classes passed instead of instances are not modelled. -/
def makeIndividual (genome problem : Nat) : HM (Mem γ ψ φ ρ) Nat := do
  let u ← freshUuid
  let s ← newSet []
  newObj { genome := genome, fitness := none, phenome := none, uuid := u, parents := s,
           problem := problem }

/-- `Individual.create_population(n, initialize, decoder, problem)` (leap_ec/individual.py:90-103), for an
`initialize` that makes a new array each time. -/
def createPopulation (initGenome : ρ → PyM (List γ) × ρ) (problem : Nat) :
    Nat → HM (Mem γ ψ φ ρ) (List Nat)
  | 0 => pure []
  | n + 1 => do
    let g ← useRng initGenome
    let a ← newArr g
    let r ← makeIndividual a problem
    let rs ← createPopulation initGenome problem n
    pure (r :: rs)

/-- `Individual.clone()` (leap_ec/individual.py:144-151). -/
def cloneInd (r : Nat) : HM (Mem γ ψ φ ρ) Nat := do
  let o ← getObj r
  let c ← newObj o                                      -- cloned = copy(self)
  let g ← getArr o.genome
  let a ← newArr g                                      -- deepcopy(self.genome)
  modObj c fun x => { x with genome := a }
  modObj c fun x => { x with fitness := none }
  let u ← freshUuid
  modObj c fun x => { x with uuid := u }
  let s ← newSet [o.uuid]                               -- {self.uuid}
  modObj c fun x => { x with parents := s }
  pure c

/-! ### Decoding and evaluation -/

/-- A decoder: the identity, or a function to a new value that may raise. For leap_ec/decoder.py:15-107. -/
inductive Dec (γ ψ : Type) where
  | identity
  | fn (f : List γ → PyM ψ)

/-- What a problem sees of a phenome: the current contents of an array, or a decoded value. For leap_ec/problem.py:58-64. -/
inductive Content (γ ψ : Type) where
  | raw (g : List γ)
  | value (v : ψ)
deriving DecidableEq, Repr

/-- `Individual.decode()` (leap_ec/individual.py:153-164). -/
def decodeInd (dec : Dec γ ψ) (r : Nat) : HM (Mem γ ψ φ ρ) (Phen ψ) := do
  let o ← getObj r
  match dec with
  | .identity =>
    modObj r fun x => { x with phenome := some (.alias o.genome) }
    pure (.alias o.genome)
  | .fn f =>
    let g ← getArr o.genome
    let v ← HM.lift (f g)
    modObj r fun x => { x with phenome := some (.decoded v) }
    pure (.decoded v)

/-- The `phenome` property (leap_ec/individual.py:78-83): decode only when nothing is cached. -/
def phenomeOf (dec : Dec γ ψ) (r : Nat) : HM (Mem γ ψ φ ρ) (Phen ψ) := do
  let o ← getObj r
  match o.phenome with
  | none => decodeInd dec r
  | some p => pure p

/-- Reading a phenome. For leap_ec/individual.py:166-174. -/
def contentOf : Phen ψ → HM (Mem γ ψ φ ρ) (Content γ ψ)
  | .alias a => do
    let g ← getArr a
    pure (.raw g)
  | .decoded v => pure (.value v)

/-- A problem: its score for a phenome, and its `evaluate_multiple`; both may raise and use the
random source. `takesIndividuals` says whether `evaluate_multiple` accepts the keyword argument
`individuals`. For leap_ec/individual.py:166-174. -/
structure Prob (γ ψ φ ρ : Type) where
  evaluate : Content γ ψ → ρ → PyM φ × ρ
  evaluateMultiple : List (Content γ ψ) → ρ → PyM (List φ) × ρ
  takesIndividuals : Bool

/-- `Individual.evaluate_imp()` (leap_ec/individual.py:166-174): decode, then evaluate `self.phenome`,
which after decoding is the cached value. -/
def evaluateImp (dec : Dec γ ψ) (prob : Prob γ ψ φ ρ) (r : Nat) : HM (Mem γ ψ φ ρ) φ := do
  let _ ← decodeInd dec r
  let p ← phenomeOf dec r
  let c ← contentOf p
  useRng (prob.evaluate c)

/-- `Individual.evaluate()` (leap_ec/individual.py:176-189). -/
def evaluateInd (dec : Dec γ ψ) (prob : Prob γ ψ φ ρ) (r : Nat) : HM (Mem γ ψ φ ρ) φ := do
  let f ← evaluateImp dec prob r
  modObj r fun x => { x with fitness := some f }
  pure f

/-- `RobustIndividual.evaluate()` (leap_ec/individual.py:281-304). -/
def robustEvaluate (nan : φ) (dec : Dec γ ψ) (prob : Prob γ ψ φ ρ) (r : Nat) :
    HM (Mem γ ψ φ ρ) φ := fun m =>
  match evaluateImp dec prob r m with
  | (.ok f, m1) =>
    (.ok f, { m1 with inds := m1.inds.modify r fun x => { x with fitness := some f, viable := some true } })
  | (.error e, m1) =>
    (.ok nan, { m1 with inds := m1.inds.modify r fun x =>
      { x with fitness := some nan, exception := some e, viable := some false } })

/-- `Individual.evaluate_population(population)` (leap_ec/individual.py:105-116). -/
def evaluatePopulation (dec : Dec γ ψ) (prob : Prob γ ψ φ ρ) : List Nat → HM (Mem γ ψ φ ρ) Unit
  | [] => pure ()
  | r :: rs => do
    let _ ← evaluateInd dec prob r
    evaluatePopulation dec prob rs

/-- `const_evaluate(population, value)` (leap_ec/ops.py:305-320). -/
def constEvaluate (value : φ) : List Nat → HM (Mem γ ψ φ ρ) Unit
  | [] => pure ()
  | r :: rs => do
    modObj r fun x => { x with fitness := some value }
    constEvaluate value rs

/-! ### Grouped evaluation -/

/-- The phenomes of a chunk (leap_ec/ops.py:293): the `phenome` property of each, in order. -/
def phenomesOf (dec : Dec γ ψ) : List Nat → HM (Mem γ ψ φ ρ) (List (Phen ψ))
  | [] => pure []
  | r :: rs => do
    let p ← phenomeOf dec r
    let ps ← phenomesOf dec rs
    pure (p :: ps)

/-- Reading several phenomes. For leap_ec/ops.py:288-294. -/
def contentsOf : List (Phen ψ) → HM (Mem γ ψ φ ρ) (List (Content γ ψ))
  | [] => pure []
  | p :: ps => do
    let c ← contentOf p
    let cs ← contentsOf ps
    pure (c :: cs)

/-- `chunks(lst, n)` for `n > 0` (leap_ec/ops.py:280-283). -/
def chunksOf (n : Nat) (hn : 0 < n) (l : List Nat) : List (List Nat) :=
  match l with
  | [] => []
  | x :: xs => (x :: xs).take n :: chunksOf n hn ((x :: xs).drop n)
termination_by l.length
decreasing_by simp; omega

/-- The loop over the chunks (leap_ec/ops.py:288-294). A problem whose `evaluate_multiple` does not accept
`individuals` raises `TypeError`. -/
def evaluateChunks (dec : Dec γ ψ) (prob : Prob γ ψ φ ρ) : List (List Nat) → HM (Mem γ ψ φ ρ) (List φ)
  | [] => pure []
  | ch :: chs => do
    let ps ← phenomesOf dec ch
    if prob.takesIndividuals then
      let cs ← contentsOf ps
      let fit ← useRng (prob.evaluateMultiple cs)
      let rest ← evaluateChunks dec prob chs
      pure (fit ++ rest)
    else HM.raise .typeError

/-- `for fit, ind in zip(fitnesses, population): ind.fitness = fit` (leap_ec/ops.py:296-297). -/
def assignFitnesses : List φ → List Nat → HM (Mem γ ψ φ ρ) Unit
  | f :: fs, r :: rs => do
    modObj r fun x => { x with fitness := some f }
    assignFitnesses fs rs
  | _, _ => pure ()

/-- The problem identities of the population (leap_ec/ops.py:286). -/
def problemsOf : List Nat → HM (Mem γ ψ φ ρ) (List Nat)
  | [] => pure []
  | r :: rs => do
    let o ← getObj r
    let ps ← problemsOf rs
    pure (o.problem :: ps)

/-- `grouped_evaluate(population, max_individuals_per_chunk)` (leap_ec/ops.py:270-299). `prob` is the problem
of the first individual. `range` with step 0 raises `ValueError`; a negative size gives an empty range
and is not modelled. -/
def groupedEvaluate (dec : Dec γ ψ) (prob : Prob γ ψ φ ρ) (chunk : Option Nat) (population : List Nat) :
    HM (Mem γ ψ φ ρ) (List Nat) := do
  match population with
  | [] => HM.raise .indexError                          -- population[0]
  | p0 :: _ =>
    let o ← getObj p0
    let ps ← problemsOf population
    if ps.all (fun q => q == o.problem) then
      let n := chunk.getD population.length
      if hn : 0 < n then
        let fitnesses ← evaluateChunks dec prob (chunksOf n hn population)
        assignFitnesses fitnesses population
        pure population
      else HM.raise .valueError
    else HM.raise .assertionError

end

end Leap
