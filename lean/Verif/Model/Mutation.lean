import Mathlib.Analysis.SpecialFunctions.Sqrt
import Mathlib.Algebra.Order.Floor.Ring
import Verif.Py.Numpy
import Verif.Py.Gen

/-!
# Mutation

Models `leap_ec/binary_rep/ops.py`, `leap_ec/int_rep/ops.py`, `leap_ec/real_rep/ops.py` and
`compute_expected_probability` of `leap_ec/ops.py`. Genomes are lists; each genome function here
returns the genome that the Python returns (the Python also writes it into the array it was given,
see `Model/Pipeline.lean`). The type test `isinstance(genome, np.ndarray)` always passes here.
-/

namespace Leap

/-! ### Mutation rate arguments -/

/-- The argument checks at the start of `mutate_bitflip`, `mutate_randint`, `mutate_binomial`
(leap_ec/binary_rep/ops.py:39-44, leap_ec/int_rep/ops.py:37-42, 190-195). -/
def checkRateOp (expected probability : Option ℚ) : PyM Unit :=
  if expected.isSome && probability.isSome then .error .valueError
  else if expected.isNone && probability.isNone then .error .valueError
  else match probability with
    | some p => if p < 0 ∨ p > 1 then .error .valueError else .ok ()
    | none => .ok ()

/-- The assertions at the start of the genome functions (leap_ec/binary_rep/ops.py:76-78,
leap_ec/int_rep/ops.py:82-84, 251-253). -/
def checkRateGenome (expected probability : Option ℚ) : PyM Unit :=
  if xor expected.isSome probability.isSome then
    match probability with
    | some p => if 0 ≤ p then (if p ≤ 1 then .ok () else .error .assertionError)
                else .error .assertionError
    | none => .ok ()
  else .error .assertionError

/-- `compute_expected_probability` (leap_ec/ops.py:1453-1469). -/
def computeExpectedProbability (expected : ℚ) (genomeLength : Nat) : PyM ℚ :=
  if genomeLength = 0 then .error .zeroDivisionError
  else .ok (1 / (genomeLength : ℚ) * expected)

/-- `p` as chosen in the genome functions (leap_ec/binary_rep/ops.py:84-90 and likewise in the
others). The last branch cannot be reached after the assertions. -/
def geneProbability (expected probability : Option ℚ) (genomeLength : Nat) : PyM ℚ :=
  match probability, expected with
  | some p, _ => .ok p
  | none, some e => computeExpectedProbability e genomeLength
  | none, none => .error .typeError

/-- The mask of genes to mutate: probability, then `random_bernoulli_vector` of the genome's shape.
`u` are the random numbers drawn. For leap_ec/binary_rep/ops.py:62-96. -/
def mutationMask (expected probability : Option ℚ) (u : List ℚ) (genomeLength : Nat) :
    PyM (List Bool) :=
  match geneProbability expected probability genomeLength with
  | .error e => .error e
  | .ok p => bernoulliVector (u.take genomeLength) p

/-! ### Bit flip -/

/-- `genome_mutate_bitflip` (leap_ec/binary_rep/ops.py:62-96). -/
def genomeMutateBitflip (expected probability : Option ℚ) (u : List ℚ) (genome : List Int) :
    PyM (List Int) :=
  match checkRateGenome expected probability with
  | .error e => .error e
  | .ok _ =>
    match mutationMask expected probability u genome.length with
    | .error e => .error e
    | .ok mask =>
      match boolIndex genome mask with
      | .error e => .error e
      | .ok sel => boolAssign genome mask (sel.map fun g => (g + 1) % 2)

/-! ### Integer resampling -/

/-- `np.random.randint(low, high, size)` with arrays of bounds: `ValueError` unless `low < high` in
each entry. `draws` are the numbers returned. For leap_ec/int_rep/ops.py:64-108. -/
def npRandint (lows highs : List Int) (draws : List Int) : PyM (List Int) :=
  if (List.zip lows highs).all (fun b => decide (b.1 < b.2)) then .ok draws else .error .valueError

/-- `individual_mutate_randint` (leap_ec/int_rep/ops.py:64-108). `draws` are the results of
`np.random.randint` for the selected genes, in order. Bounds are pairs of integers; an empty bounds
list cannot be indexed by column (`IndexError`). -/
def individualMutateRandint (bounds : List (Int × Int)) (expected probability : Option ℚ)
    (u : List ℚ) (draws : List Int) (genome : List Int) : PyM (List Int) :=
  match checkRateGenome expected probability with
  | .error e => .error e
  | .ok _ =>
    match mutationMask expected probability u genome.length with
    | .error e => .error e
    | .ok mask =>
      match boolIndex bounds mask with
      | .error e => .error e
      | .ok selected =>
        if bounds = [] then .error .indexError
        else
          match npRandint (selected.map Prod.fst) (selected.map fun b => b.2 + 1) draws with
          | .error e => .error e
          | .ok vals => boolAssign genome mask vals

/-- What `np.random.randint(low, high + 1)` may return for the selected bounds. For leap_ec/int_rep/ops.py:64-108. -/
def ValidRandints (selected : List (Int × Int)) (draws : List Int) : Prop :=
  List.Forall₂ (fun b d => b.1 ≤ d ∧ d ≤ b.2) selected draws

/-! ### Hard bounds -/

/-- One gene's bounds; `none` is `-inf` / `inf`. For leap_ec/real_rep/ops.py:145-181. -/
abbrev Bound (α : Type) := Option α × Option α

/-- `np.clip` of one value: `minimum(high, maximum(x, low))`. For leap_ec/real_rep/ops.py:145-181. -/
def clip1 {α : Type} [Max α] [Min α] (b : Bound α) (x : α) : α :=
  let y := match b.1 with
    | none => x
    | some lo => max x lo
  match b.2 with
  | none => y
  | some hi => min y hi

/-- The `hard_bounds` argument: one pair for every gene, or a sequence of pairs. For leap_ec/real_rep/ops.py:145-181. -/
inductive HardBounds (α : Type) where
  | all (b : Bound α)
  | each (bs : List (Bound α))

/-- `apply_hard_bounds` (leap_ec/real_rep/ops.py:145-181). Looking at `hard_bounds[0]` raises
`IndexError` on an empty sequence. `np.clip` broadcasts a sequence of length one (bounds or genome)
and raises `ValueError` on other length mismatches. -/
def applyHardBounds {α : Type} [Max α] [Min α] (genome : List α) (hard : HardBounds α) :
    PyM (List α) :=
  match hard with
  | .all b => .ok (genome.map (clip1 b))
  | .each [] => .error .indexError
  | .each (b :: bs) =>
    if (b :: bs).length = genome.length then .ok (List.zipWith clip1 (b :: bs) genome)
    else
      match bs, genome with
      | [], _ => .ok (genome.map (clip1 b))
      | _, [x] => .ok ((b :: bs).map fun b => clip1 b x)
      | _, _ => .error .valueError

/-! ### Binomial mutation -/

/-- `_binomial_p_from_std` (leap_ec/int_rep/ops.py:297-307), over the reals. -/
noncomputable def binomialPFromStd (n : Nat) (std : ℝ) : PyM ℝ :=
  if n = 0 then .error .zeroDivisionError
  else if 4 * std ^ 2 / n > 1 then .error .valueError
  else .ok ((1 - Real.sqrt (1 - 4 * std ^ 2 / n)) / 2)

/-- A scalar argument or one value per gene. For leap_ec/int_rep/ops.py:257-260. -/
inductive ScalarOrList (α : Type) where
  | scalar (a : α)
  | list (as : List α)

/-- The binomial parameter(s) computed when the mutator is made (leap_ec/int_rep/ops.py:257-260). -/
noncomputable def binomialParams (n : Nat) (std : ScalarOrList ℝ) : PyM (ScalarOrList ℝ) :=
  match std with
  | .scalar s => match binomialPFromStd n s with
    | .error e => .error e
    | .ok p => .ok (.scalar p)
  | .list ss => match ss.mapM (binomialPFromStd n) with
    | .error e => .error e
    | .ok ps => .ok (.list ps)

/-- `np.floor(binom_mean)` for the selected genes (leap_ec/int_rep/ops.py:281-285): one number per
selected gene. -/
noncomputable def binomialOffsets (n : Nat) (p : ScalarOrList ℝ) (mask : List Bool) : PyM (List Int) :=
  match p with
  | .scalar p => .ok (List.replicate (mask.count true) ⌊(n : ℝ) * p⌋)
  | .list ps =>
    match boolIndex ps mask with
    | .error e => .error e
    | .ok sel => .ok (sel.map fun p => ⌊(n : ℝ) * p⌋)

/-- The function made by `genome_mutate_binomial` (leap_ec/int_rep/ops.py:233-294). `flips` are the
results of `np.random.binomial` for the selected genes. -/
noncomputable def genomeMutateBinomial (n : Nat) (std : ScalarOrList ℝ) (bounds : HardBounds Int)
    (expected probability : Option ℚ) (u : List ℚ) (flips : List Nat) (genome : List Int) :
    PyM (List Int) :=
  match checkRateGenome expected probability with
  | .error e => .error e
  | .ok _ =>
    match binomialParams n std with
    | .error e => .error e
    | .ok p =>
      match mutationMask expected probability u genome.length with
      | .error e => .error e
      | .ok mask =>
        match binomialOffsets n p mask with
        | .error e => .error e
        | .ok offs =>
          match boolIndex genome mask with
          | .error e => .error e
          | .ok sel =>
            match boolAssign genome mask
                (List.zipWith (· + ·) sel (List.zipWith (fun (k : Nat) (o : Int) => (k : Int) - o) flips offs)) with
            | .error e => .error e
            | .ok mutated => applyHardBounds mutated bounds

/-! ### Gaussian mutation -/

/-- The `expected_num_mutations` argument of Gaussian mutation. For leap_ec/real_rep/ops.py:115-120. -/
inductive GaussRate where
  | isotropic
  | num (q : ℚ)

/-- The standard deviation(s) for the selected genes (leap_ec/real_rep/ops.py:123). -/
def gaussStd (std : ScalarOrList ℚ) (mask : List Bool) : PyM (List ℚ) :=
  match std with
  | .scalar s => .ok (List.replicate (mask.count true) s)
  | .list ss => boolIndex ss mask

/-- The assertion on a scalar standard deviation (leap_ec/real_rep/ops.py:103): a scalar one must not be
negative. -/
def stdAccepted : ScalarOrList ℚ → Bool
  | .scalar s => decide (0 ≤ s)
  | .list _ => true

/-- The per-gene probability of Gaussian mutation (leap_ec/real_rep/ops.py:115-120). -/
def gaussProbability (expected : GaussRate) (n : Nat) : PyM ℚ :=
  match expected with
  | .isotropic => .ok 1
  | .num q => computeExpectedProbability q n

/-- `genome_mutate_gaussian` (leap_ec/real_rep/ops.py:79-139). `z` are the standard normal numbers drawn
for the selected genes. -/
def genomeMutateGaussian (std : ScalarOrList ℚ) (expected : GaussRate) (bounds : HardBounds ℚ)
    (slope intercept : ℚ) (u z : List ℚ) (genome : List ℚ) : PyM (List ℚ) :=
  if stdAccepted std then
    match gaussProbability expected genome.length with
    | .error e => .error e
    | .ok p =>
      match bernoulliVector (u.take genome.length) p with
      | .error e => .error e
      | .ok mask =>
        match gaussStd std mask with
        | .error e => .error e
        | .ok stds =>
          match boolIndex genome mask with
          | .error e => .error e
          | .ok sel =>
            match boolAssign genome mask
                (List.zipWith (fun g zs => slope * (g + zs) + intercept) sel
                  (List.zipWith (· * ·) z stds)) with
            | .error e => .error e
            | .ok mutated => applyHardBounds mutated bounds
  else .error .assertionError

/-! ### The pipeline operators -/

/-- What a mutation operator reads and writes of an individual. For leap_ec/binary_rep/ops.py:39-56. -/
structure MInd (γ φ : Type) where
  genome : γ
  fitness : Option φ

/-- The common shape of the mutation operators (e.g. leap_ec/binary_rep/ops.py:39-56): check the
arguments when first resumed, then for each individual from upstream assign the mutated genome and
clear the fitness. `stopOk` is true for the operators that catch `StopIteration` and end cleanly
(leap_ec/int_rep/ops.py:45-48, 202-206); in the others it becomes `RuntimeError`. The state says whether the
body has been entered. `U` is everything upstream plus the random source. -/
def mutationGen {U γ φ : Type} (check : PyM Unit) (stopOk : Bool)
    (next : U → PyM (MInd γ φ × U)) (mutate : U → γ → PyM (γ × U)) :
    Gen U Bool (MInd γ φ) := fun started u =>
  match (if started then .ok () else check) with
  | .error e => .error e
  | .ok _ =>
    match next u with
    | .error .stopIteration => if stopOk then .error .stopIteration else .error .runtimeError
    | .error e => .error e
    | .ok (ind, u1) =>
      match mutate u1 ind.genome with
      | .error e => pep479 (.error e)
      | .ok (g, u2) => .ok (⟨g, none⟩, true, u2)

/-- `mutate_bitflip` (leap_ec/binary_rep/ops.py:17-56). `rand u` are the random numbers the operator will
draw and the world after drawing them. -/
def mutateBitflip {U φ : Type} (expected probability : Option ℚ)
    (rand : U → List ℚ × U) (next : U → PyM (MInd (List Int) φ × U)) :
    Gen U Bool (MInd (List Int) φ) :=
  mutationGen (checkRateOp expected probability) false next (fun u g =>
    match genomeMutateBitflip expected probability (rand u).1 g with
    | .error e => .error e
    | .ok g' => .ok (g', (rand u).2))

/-- `mutate_randint` (leap_ec/int_rep/ops.py:16-58). -/
def mutateRandint {U φ : Type} (bounds : List (Int × Int)) (expected probability : Option ℚ)
    (rand : U → (List ℚ × List Int) × U) (next : U → PyM (MInd (List Int) φ × U)) :
    Gen U Bool (MInd (List Int) φ) :=
  mutationGen (checkRateOp expected probability) true next (fun u g =>
    match individualMutateRandint bounds expected probability (rand u).1.1 (rand u).1.2 g with
    | .error e => .error e
    | .ok g' => .ok (g', (rand u).2))

/-- `mutate_binomial` (leap_ec/int_rep/ops.py:115-226). The genome mutator is made before the loop, so its
checks also come before the first `next`. -/
noncomputable def mutateBinomial {U φ : Type} (n : Nat) (std : ScalarOrList ℝ) (bounds : HardBounds Int)
    (expected probability : Option ℚ)
    (rand : U → (List ℚ × List Nat) × U) (next : U → PyM (MInd (List Int) φ × U)) :
    Gen U Bool (MInd (List Int) φ) :=
  mutationGen
    (match checkRateOp expected probability with
      | .error e => .error e
      | .ok _ => match binomialParams n std with
        | .error e => .error e
        | .ok _ => .ok ())
    true next (fun u g =>
      match genomeMutateBinomial n std bounds expected probability (rand u).1.1 (rand u).1.2 g with
      | .error e => .error e
      | .ok g' => .ok (g', (rand u).2))

/-- `mutate_gaussian` (leap_ec/real_rep/ops.py:18-73); `expected = none` is the default argument. -/
def mutateGaussian {U φ : Type} (std : ScalarOrList ℚ) (expected : Option GaussRate)
    (bounds : HardBounds ℚ) (slope intercept : ℚ)
    (rand : U → (List ℚ × List ℚ) × U) (next : U → PyM (MInd (List ℚ) φ × U)) :
    Gen U Bool (MInd (List ℚ) φ) :=
  mutationGen (match expected with
      | none => .error .valueError
      | some _ => .ok ())
    false next (fun u g =>
      match expected with
      | none => .error .valueError
      | some e =>
        match genomeMutateGaussian std e bounds slope intercept (rand u).1.1 (rand u).1.2 g with
        | .error e => .error e
        | .ok g' => .ok (g', (rand u).2))

end Leap
