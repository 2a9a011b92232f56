import Verif.Model.Algorithm
import Verif.Model.Mutation
import Verif.Model.Crossover
import Verif.Model.Probe
import Verif.Model.Segmented

/-!
# The one-call optimiser `ea_solve` (leap_ec/simple.py)

Genomes are values here: the pipeline clones before it changes anything, and `Props/Pipeline.lean` shows that then no two
individuals share an array. Not modelled: `viz=True` and `dask_client`.
-/

namespace Leap

/-- What `ea_solve` uses of an individual. For leap_ec/problem.py:153-155. -/
structure EaInd (F : Type) where
  genome : List ℚ
  fitness : Option F

/-- The random numbers. For leap_ec/representation.py:32-42. -/
structure EaRandom (ρ : Type) where
  /-- `n` numbers from `[0, 1)` -/
  uniform : Nat → ρ → List ℚ × ρ
  /-- `n` normal numbers -/
  normal : Nat → ρ → List ℚ × ρ
  /-- `random.choices(range(n), k=k)` -/
  choices : Nat → Nat → ρ → List Nat × ρ

/-- The world during a run: random source, the points the function was called with in order, the best-so-far probe.
For leap_ec/problem.py:153-155. -/
structure EaRest (ρ F : Type) where
  rng : ρ
  calls : List (List ℚ)
  probe : BsfState (EaInd F) F

section
variable {ρ F : Type}

/-- `a > b` on evaluated individuals, where `gt` compares fitnesses (of two NaNs the code calls either one worse at random; here
`gt` is some fixed relation). Simplification: `False` when one is not evaluated (Python would raise); it does not
happen. For leap_ec/individual.py:16, 211-253. -/
def eaGt (gt : F → F → Bool) (a b : EaInd F) : Bool :=
  match a.fitness, b.fitness with
  | some x, some y => gt x y
  | _, _ => false

/-- Evaluate an individual with this genome: `FunctionProblem.evaluate` calls the function (leap_ec/problem.py:153-155). The individuals
are `DistributedIndividual`s (leap_ec/simple.py:117), whose `evaluate` catches every exception and sets the fitness to NaN
(leap_ec/individual.py:281-304). -/
def eaEvaluate (nan : F) (function : List ℚ → PyM F) (g : List ℚ) (w : EaRest ρ F) : EaInd F × EaRest ρ F :=
  match function g with
  | .error _ => (⟨g, some nan⟩, { w with calls := w.calls ++ [g] })
  | .ok f => (⟨g, some f⟩, { w with calls := w.calls ++ [g] })

/-- `Representation.create_population` (leap_ec/representation.py:32-42) with `create_real_vector(bounds)`. -/
def eaCreate (rand : EaRandom ρ) (bounds : List (ℚ × ℚ)) : Nat → EaRest ρ F → List (EaInd F) × EaRest ρ F
  | 0, w => ([], w)
  | n + 1, w =>
    let (u, s) := rand.uniform bounds.length w.rng
    let (rest, w) := eaCreate rand bounds n { w with rng := s }
    (⟨createRealVector bounds u, none⟩ :: rest, w)

/-- `Individual.evaluate_population`, the default `init_evaluate` (leap_ec/individual.py:105-116). -/
def eaEvaluateAll (nan : F) (function : List ℚ → PyM F) : List (EaInd F) → EaRest ρ F → List (EaInd F) × EaRest ρ F
  | [], w => ([], w)
  | i :: is, w =>
    let (i, w) := eaEvaluate nan function i.genome w
    let (is, w) := eaEvaluateAll nan function is w
    (i :: is, w)

/-- The `bounds` argument of the mutation operator (leap_ec/simple.py:87-92). -/
def eaHardBounds (hard : Bool) (bounds : List (ℚ × ℚ)) : HardBounds ℚ :=
  if hard then .each (bounds.map fun b => (some b.1, some b.2)) else .all (none, none)

/-- What `tournament_selection, clone, mutation_op` yields next (leap_ec/simple.py:96-98). -/
def eaChild (rand : EaRandom ρ) (gt : F → F → Bool) (std : ℚ) (hard : HardBounds ℚ) (parents : List (EaInd F))
    (w : EaRest ρ F) : PyM (List ℚ × EaRest ρ F) :=
  let (draws, s) := rand.choices parents.length 2 w.rng
  match tournamentStep (fun a b => eaGt gt b a) (eaGt gt) false parents 2 draws with
  | .error e => .error e
  | .ok (_, ind) =>
    let (u, s) := rand.uniform ind.genome.length s
    let (z, s) := rand.normal ind.genome.length s
    match genomeMutateGaussian (.scalar std) .isotropic hard 1 0 u z ind.genome with
    | .error e => .error e
    | .ok g => .ok (g, { w with rng := s })

/-- The crossover of two mutated children (leap_ec/ops.py:386-400, 479-499) with `p_xover=1.0` and `p_swap=0.2`. -/
def eaCross (rand : EaRandom ρ) (a b : List ℚ) (w : EaRest ρ F) : PyM ((List ℚ × List ℚ) × EaRest ρ F) :=
  let (x, s) := rand.uniform 1 w.rng
  if x.headD 0 > 1 then .ok ((a, b), { w with rng := s })
  else
    let (u, s) := rand.uniform (min a.length b.length) s
    match uniformRecombine (1 / 5) u a b with
    | (.error e, _, _) => .error e
    | (.ok _, a, b) => .ok ((a, b), { w with rng := s })

/-- `pool(size)` over `evaluate` over the crossover (leap_ec/simple.py:99-101): `pending` is the second child, not yet
evaluated. -/
def eaOffspring (rand : EaRandom ρ) (gt : F → F → Bool) (nan : F) (function : List ℚ → PyM F) (std : ℚ) (hard : HardBounds ℚ)
    (parents : List (EaInd F)) : Nat → Option (List ℚ) → EaRest ρ F → PyM (List (EaInd F) × EaRest ρ F)
  | 0, _, w => .ok ([], w)
  | n + 1, some g, w =>
    let (i, w) := eaEvaluate nan function g w
    match eaOffspring rand gt nan function std hard parents n none w with
    | .error e => .error e
    | .ok (is, w) => .ok (i :: is, w)
  | n + 1, none, w =>
    match eaChild rand gt std hard parents w with
    | .error e => .error e
    | .ok (a, w) =>
      match eaChild rand gt std hard parents w with
      | .error e => .error e
      | .ok (b, w) =>
        match eaCross rand a b w with
        | .error e => .error e
        | .ok ((a, b), w) =>
          let (i, w) := eaEvaluate nan function a w
          match eaOffspring rand gt nan function std hard parents n (some b) w with
          | .error e => .error e
          | .ok (is, w) => .ok (i :: is, w)

/-- The pipeline with the probe at its end (leap_ec/simple.py:94-103). -/
def eaPipeline (rand : EaRandom ρ) (gt : F → F → Bool) (nan : F) (function : List ℚ → PyM F) (std : ℚ) (hard : HardBounds ℚ)
    (popSize : Nat) : Pipeline (EaRest ρ F) (EaInd F) := fun w parents =>
  match eaOffspring rand gt nan function std hard parents popSize none w.rest with
  | .error e => .error e
  | .ok (offspring, rest) =>
    match bestSoFarProbe (eaGt gt) EaInd.fitness (some w.ctx.generation) offspring rest.probe with
    | .error e => .error e
    | .ok (offspring, probe) => .ok (offspring, { w with rest := { rest with probe := probe } })

/-- `ea_solve` (leap_ec/simple.py:24-126): the returned genome and the world at the end. `gt` is the comparison of
fitnesses, which depends on `maximize`; `generational_ea` runs with its default of one elite and no stop condition. -/
def eaSolve (rand : EaRandom ρ) (gt : F → F → Bool) (nan : F) (function : List ℚ → PyM F) (bounds : List (ℚ × ℚ))
    (generations : Int) (popSize : Nat) (std : ℚ) (hardBounds : Bool) (ctx : LeapCtx) (rng : ρ) :
    PyM (List ℚ × World (EaRest ρ F)) :=
  match generationalEa (fun a b => eaGt gt b a) generations 1
      (fun w => .ok ((eaCreate rand bounds popSize w.rest).1, { w with rest := (eaCreate rand bounds popSize w.rest).2 }))
      (fun w pop => .ok ((eaEvaluateAll nan function pop w.rest).1, { w with rest := (eaEvaluateAll nan function pop w.rest).2 }))
      (eaPipeline rand gt nan function std (eaHardBounds hardBounds bounds) popSize)
      (fun _ _ => false) 0 ⟨ctx, ⟨rng, [], ⟨none, []⟩⟩⟩ with
  | .error e => .error e
  | .ok (_, w) =>
    match w.rest.probe.bsf with
    | none => .error .attributeError                    -- None.genome
    | some b => .ok (b.genome, w)

end

end Leap
