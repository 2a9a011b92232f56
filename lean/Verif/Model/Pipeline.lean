import Verif.Model.Individual
import Verif.Model.Mutation
import Verif.Model.Crossover

/-!
# Reproduction pipelines over the object memory

A pipeline is a chain of generators: a selection operator, `clone`, mutation and crossover operators,
`evaluate`, and finally `pool`. Here they act on the memory of `Model/Individual.lean`, so that who shares
what with whom is part of the model.
-/

namespace Leap

/-- What a mutation function does to the array it is given: the contents it leaves in that array,
and what it returns: the same array (`none`) or a new array with other contents. For leap_ec/binary_rep/ops.py:93-96. -/
structure MutResult (γ ρ : Type) where
  left : List γ
  result : PyM (Option (List γ))
  rng : ρ

/-- A genome mutation function. For leap_ec/binary_rep/ops.py:93-96. -/
abbrev MutFn (γ ρ : Type) := List γ → ρ → MutResult γ ρ

/-- `genome_mutate_bitflip` changes its argument in place and returns it
(leap_ec/binary_rep/ops.py:93-96). `rand` gives the random numbers. -/
def bitflipFn {ρ : Type} (expected probability : Option ℚ) (rand : ρ → List ℚ × ρ) : MutFn Int ρ :=
  fun g s =>
    match genomeMutateBitflip expected probability (rand s).1 g with
    | .error e => ⟨g, .error e, (rand s).2⟩
    | .ok g' => ⟨g', .ok none, (rand s).2⟩

/-- `individual_mutate_randint` changes its argument in place and returns it
(leap_ec/int_rep/ops.py:102-108). -/
def randintFn {ρ : Type} (bounds : List (Int × Int)) (expected probability : Option ℚ)
    (rand : ρ → (List ℚ × List Int) × ρ) : MutFn Int ρ :=
  fun g s =>
    match individualMutateRandint bounds expected probability (rand s).1.1 (rand s).1.2 g with
    | .error e => ⟨g, .error e, (rand s).2⟩
    | .ok g' => ⟨g', .ok none, (rand s).2⟩

/-- `genome_mutate_gaussian` writes the mutated genes into its argument (leap_ec/real_rep/ops.py:133) and
returns the new array made by `np.clip` (leap_ec/real_rep/ops.py:136-139). `unclipped` is the genome before
hard bounds are applied. -/
def gaussianFn {ρ : Type} (std : ScalarOrList ℚ) (expected : GaussRate) (bounds : HardBounds ℚ)
    (slope intercept : ℚ) (rand : ρ → (List ℚ × List ℚ) × ρ) : MutFn ℚ ρ :=
  fun g s =>
    match genomeMutateGaussian std expected (.all (none, none)) slope intercept (rand s).1.1 (rand s).1.2 g with
    | .error e => ⟨g, .error e, (rand s).2⟩
    | .ok unclipped =>
      match applyHardBounds unclipped bounds with
      | .error e => ⟨unclipped, .error e, (rand s).2⟩
      | .ok g' => ⟨unclipped, .ok (some g'), (rand s).2⟩

/-- How a crossover operator recombines, with its random draws. For leap_ec/ops.py:483-499, 578-612. -/
inductive Recombiner (ρ : Type) where
  /-- `UniformCrossover`: the swap mask for a given number of positions, or the exception raised when
  `p_swap` is not a probability -/
  | uniform (mask : ρ → Nat → PyM (List Bool) × ρ)
  /-- `NAryCrossover`: the cut points drawn for a given genome length -/
  | nary (numPoints : Nat) (cuts : ρ → Nat → List Nat × ρ)

section
variable {γ ψ φ ρ : Type}

/-- `recombine` on two individuals in memory (leap_ec/ops.py:483-499, 578-612). Uniform crossover swaps
genes inside the two arrays, statement by statement; n-ary crossover gives each individual a new
array. -/
def recombineInds (rec : Recombiner ρ) (ra rb : Nat) : HM (Mem γ ψ φ ρ) Unit := do
  let oa ← getObj ra
  let ob ← getObj rb
  let a ← getArr oa.genome
  let b ← getArr ob.genome
  match rec with
  | .uniform mask =>
    let mk ← useRng fun s => mask s (min a.length b.length)
    let tmp ← HM.lift (boolIndex a mk)
    let fromB ← HM.lift (boolIndex b mk)
    let a' ← HM.lift (boolAssign a mk fromB)
    setArr oa.genome a'
    let b1 ← getArr ob.genome
    let b' ← HM.lift (boolAssign b1 mk tmp)
    setArr ob.genome b'
  | .nary k cuts =>
    let xs ← useRng fun s => (.ok (cuts s a.length).1, (cuts s a.length).2)
    let (g1, g2) ← HM.lift (naryRecombine k xs a b)
    let a1 ← newArr g1
    modObj ra fun x => { x with genome := a1 }
    let a2 ← newArr g2
    modObj rb fun x => { x with genome := a2 }

/-- One mutation step on an individual (leap_ec/binary_rep/ops.py:49-54 and likewise in
leap_ec/int_rep/ops.py, leap_ec/real_rep/ops.py). -/
def mutateInd (f : MutFn γ ρ) (r : Nat) : HM (Mem γ ψ φ ρ) Unit := do
  let o ← getObj r
  let g ← getArr o.genome
  let res ← useRng fun s => (.ok (f g s), (f g s).rng)
  setArr o.genome res.left
  let new ← HM.lift res.result
  match new with
  | none => pure ()
  | some g' =>
    let a ← newArr g'
    modObj r fun x => { x with genome := a }
  modObj r fun x => { x with fitness := none }

/-- The crossover of two individuals when it takes place (leap_ec/ops.py:395-400); the sets of parents are
updated in place. -/
def crossInds (rec : Recombiner ρ) (ra rb : Nat) : HM (Mem γ ψ φ ρ) Unit := do
  recombineInds rec ra rb
  let oa ← getObj ra
  let ob ← getObj rb
  let sb ← getSet ob.parents
  let sa ← getSet oa.parents
  setSet oa.parents (setUnion sa sb)
  let sa' ← getSet oa.parents
  let sb' ← getSet ob.parents
  setSet ob.parents (setUnion sb' sa')
  modObj ra fun x => { x with fitness := none }
  modObj rb fun x => { x with fitness := none }

/-- An iterator: its private state and what `next()` does. For leap_ec/ops.py:326-352. -/
structure HIter (M : Type) where
  σ : Type
  init : σ
  next : HGen M σ Nat

/-- A pipeline operator after selection. For leap_ec/ops.py:326-352. -/
inductive Stage (γ ψ φ ρ : Type) where
  | clone
  /-- a mutation operator: its argument checks, whether it ends quietly when upstream ends -/
  | mutate (check : PyM Unit) (stopOk : Bool) (f : MutFn γ ρ)
  /-- a crossover operator: the test `np.random.uniform() > self.p_xover`, the recombination -/
  | crossover (skip : ρ → Bool × ρ) (rec : Recombiner ρ)
  | evaluate (dec : Dec γ ψ) (prob : Prob γ ψ φ ρ)
  /-- `evaluate` of `RobustIndividual`s -/
  | robustEvaluate (nan : φ) (dec : Dec γ ψ) (prob : Prob γ ψ φ ρ)

/-- `StopIteration` from upstream handled as in `mutate_randint` (leap_ec/int_rep/ops.py:45-48): the generator
returns, that is, it raises `StopIteration` itself. Any other operator turns it into `RuntimeError`. -/
def upstream {α : Type} (stopOk : Bool) (x : HM (Mem γ ψ φ ρ) α) : HM (Mem γ ψ φ ρ) α :=
  if stopOk then x else HM.pep479 x

/-- The generator made by applying a pipeline operator to an upstream iterator: `clone`
(leap_ec/ops.py:326-352), the mutation operators (leap_ec/binary_rep/ops.py:46-56), `Crossover.__call__` with no
child pending (leap_ec/ops.py:372-412), `evaluate` (leap_ec/ops.py:236-264). -/
def Stage.apply (up : HIter (Mem γ ψ φ ρ)) : Stage γ ψ φ ρ → HIter (Mem γ ψ φ ρ)
  | .clone =>
    { σ := up.σ, init := up.init,
      next := fun s => HM.pep479 do
        let (r, s') ← up.next s
        let c ← cloneInd r
        pure (c, s') }
  | .mutate check stopOk f =>
    { σ := Bool × up.σ, init := (false, up.init),
      next := fun (started, s) => do
        HM.lift (if started then .ok () else check)
        let (r, s') ← upstream stopOk (up.next s)
        HM.pep479 (mutateInd f r)
        pure (r, (true, s')) }
  | .crossover skip rec =>
    { σ := Option Nat × up.σ, init := (none, up.init),
      next := fun (pending, s) => HM.pep479 do
        match pending with
        | some b => pure (b, (none, s))
        | none =>
          let (a, s1) ← up.next s
          let (b, s2) ← up.next s1
          let sk ← useRng fun x => (.ok (skip x).1, (skip x).2)
          if sk then pure (a, (some b, s2))
          else
            crossInds rec a b
            pure (a, (some b, s2)) }
  | .evaluate dec prob =>
    { σ := up.σ, init := up.init,
      next := fun s => HM.pep479 do
        let (r, s') ← up.next s
        let _ ← evaluateInd dec prob r
        pure (r, s') }
  | .robustEvaluate nan dec prob =>
    { σ := up.σ, init := up.init,
      next := fun s => HM.pep479 do
        let (r, s') ← up.next s
        let _ ← Leap.robustEvaluate nan dec prob r
        pure (r, s') }

/-- A chain of operators. For leap_ec/ops.py:1089-1118. -/
def stagesIter (src : HIter (Mem γ ψ φ ρ)) : List (Stage γ ψ φ ρ) → HIter (Mem γ ψ φ ρ)
  | [] => src
  | st :: rest => stagesIter (st.apply src) rest

/-- A selection operator over a population, seen from the pipeline: each `next()` yields a member of the
population chosen somehow (the choice may depend on everything in memory), or raises; it writes
nothing but the random state (leap_ec/ops.py:667-760, 999-1107). `choose` gives the position chosen. -/
def selectionIter (pop : List Nat) (choose : Mem γ ψ φ ρ → PyM Nat × ρ) : HIter (Mem γ ψ φ ρ) :=
  { σ := Unit, init := (),
    next := fun _ m =>
      match choose m with
      | (.error e, s) => (.error e, { m with rng := s })
      | (.ok i, s) =>
        match pop[i]? with
        | none => (.error .indexError, { m with rng := s })
        | some r => (.ok (r, ()), { m with rng := s }) }

/-- `pool(size)` at the end of the pipeline `select, clone, stages...` (leap_ec/ops.py:1089-1118). -/
def runPipeline (pop : List Nat) (choose : Mem γ ψ φ ρ → PyM Nat × ρ) (stages : List (Stage γ ψ φ ρ))
    (size : Nat) : HM (Mem γ ψ φ ρ) (List Nat) := do
  let it := stagesIter (selectionIter pop choose) (Stage.clone :: stages)
  let (out, _) ← hpull it.next size it.init
  pure out

end

end Leap
