import Verif.Py.Heap
import Verif.Model.Pipeline
import Verif.Model.Binary

/-!
# Segmented genomes and genome initialisers

Models `leap_ec/segmented_rep/{ops,decoders,initializers}.py`, `leap_ec/int_rep/initializers.py`,
`leap_ec/real_rep/initializers.py`, `leap_ec/binary_rep/initializers.py`. A segmented genome is a Python list of
numpy arrays, so it is a list of *addresses* of arrays: two entries may be the same array.
Each operator is modelled on one individual; the surrounding generator loop is that of
`mutationGen` with `stopOk = false`.
-/

namespace Leap

/-- The memory for segments, with the random source. For leap_ec/segmented_rep/ops.py:44-62. -/
structure SegMem (γ ρ : Type) where
  segs : List (List γ)
  rng : ρ
deriving DecidableEq, Repr

/-- An individual with a segmented genome: its list of segment addresses. For leap_ec/segmented_rep/ops.py:44-62. -/
structure SegInd (φ : Type) where
  genome : List Nat
  fitness : Option φ
deriving DecidableEq, Repr

section
variable {γ φ ρ : Type}

/-- Call a mutation function on the array at `a`: it may write into the array and returns that array or a
new one. The result is the address of the array returned. For leap_ec/segmented_rep/ops.py:44-62. -/
def mutateSegment (f : MutFn γ ρ) (a : Nat) : HM (SegMem γ ρ) Nat := fun m =>
  match m.segs[a]? with
  | none => (.error .attributeError, m)
  | some g =>
    match (f g m.rng).result with
    | .error e => (.error e, ⟨m.segs.set a (f g m.rng).left, (f g m.rng).rng⟩)
    | .ok none => (.ok a, ⟨m.segs.set a (f g m.rng).left, (f g m.rng).rng⟩)
    | .ok (some g') =>
      (.ok m.segs.length, ⟨m.segs.set a (f g m.rng).left ++ [g'], (f g m.rng).rng⟩)

/-- `[f(segment) for f, segment in zip(fs, genome)]`, one call after the other. For leap_ec/segmented_rep/ops.py:44-62. -/
def mutateSegments : List (MutFn γ ρ) → List Nat → HM (SegMem γ ρ) (List Nat)
  | f :: fs, a :: as => do
    let a' ← mutateSegment f a
    let as' ← mutateSegments fs as
    pure (a' :: as')
  | _, _ => pure []

/-- `apply_mutation` on one individual (leap_ec/segmented_rep/ops.py:44-62). `mutator` is given the expected
number of mutations per segment. -/
def applyMutation (mutator : ℚ → MutFn γ ρ) (expected : ℚ) (ind : SegInd φ) :
    HM (SegMem γ ρ) (SegInd φ) := do
  let p ← HM.lift (computeExpectedProbability expected ind.genome.length)
  let g ← mutateSegments (List.replicate ind.genome.length (mutator p)) ind.genome
  pure ⟨g, none⟩

/-- `segmented_mutate` on one individual (leap_ec/segmented_rep/ops.py:74-88). When the assertion fails, building
its message looks up the undefined name `mutators`: `NameError`. -/
def segmentedMutate (mutators : List (MutFn γ ρ)) (ind : SegInd φ) : HM (SegMem γ ρ) (SegInd φ) :=
  if ind.genome.length = mutators.length then do
    let g ← mutateSegments mutators ind.genome
    pure ⟨g, none⟩
  else HM.raise .nameError

/-- `add_segment` on one individual (leap_ec/segmented_rep/ops.py:120-139). `hit` is the outcome of
`random.random() < probability`, `new` the initialised segment, `pos` the number drawn by
`random.randrange(len(genome) + 1)`. -/
def addSegment (hit append : Bool) (new : List γ) (pos : Nat) (ind : SegInd φ) :
    HM (SegMem γ ρ) (SegInd φ) := fun m =>
  if hit then
    let a := m.segs.length
    let g := if append then ind.genome ++ [a] else ind.genome.insertIdx pos a
    (.ok ⟨g, none⟩, { m with segs := m.segs ++ [new] })
  else (.ok ind, m)

/-- `remove_segment` on one individual (leap_ec/segmented_rep/ops.py:164-177). `pos` is the number drawn by
`random.randrange(len(genome))`. -/
def removeSegment (hit : Bool) (pos : Nat) (ind : SegInd φ) : SegInd φ :=
  if ind.genome.length > 1 then
    if hit then ⟨ind.genome.eraseIdx pos, none⟩ else ind
  else ind

/-- `copy_segment` on one individual (leap_ec/segmented_rep/ops.py:200-220). `src` is the number drawn by
`random.randrange(len(genome))`, which raises `ValueError` on an empty genome; `pos` the one drawn by
`random.randrange(len(genome) + 1)`. The entry added is the same array. -/
def copySegment (hit append : Bool) (src pos : Nat) (ind : SegInd φ) : PyM (SegInd φ) :=
  if hit then
    if ind.genome.length = 0 then .error .valueError
    else
      match ind.genome[src]? with
      | none => .error .indexError
      | some a =>
        .ok ⟨if append then ind.genome ++ [a] else ind.genome.insertIdx pos a, none⟩
  else .ok ind

/-! ### Decoding segments -/

/-- `SegmentedDecoder(BinaryToIntDecoder(*descriptors)).decode(genome)`
(leap_ec/segmented_rep/decoders.py:38-55). The cache is the inner decoder's. -/
def segmentedDecode (descriptors : List Nat) :
    List (List Int) → Option (List Int) → PyM (List (List Int)) × Option (List Int)
  | [], cache => (.ok [], cache)
  | s :: ss, cache =>
    match decodeInt descriptors cache s with
    | (.error e, c) => (.error e, c)
    | (.ok v, c) =>
      match segmentedDecode descriptors ss c with
      | (.error e, c') => (.error e, c')
      | (.ok vs, c') => (.ok (v :: vs), c')

/-! ### Initialisers -/

/-- The function made by `create_segmented_sequence(length, seq_initializer)`
(leap_ec/segmented_rep/initializers.py:34-45): `n` is the length given or drawn. -/
def createSegmented (init : ρ → PyM (List γ) × ρ) : Nat → ρ → PyM (List (List γ)) × ρ
  | 0, s => (.ok [], s)
  | n + 1, s =>
    match init s with
    | (.error e, s') => (.error e, s')
    | (.ok g, s') =>
      match createSegmented init n s' with
      | (.error e, s'') => (.error e, s'')
      | (.ok gs, s'') => (.ok (g :: gs), s'')

/-- The function made by `create_int_vector(bounds)` (leap_ec/int_rep/initializers.py:37-42). `draws` are
the numbers returned by `np.random.randint(low, high)`. -/
def createIntVector (bounds : List (Int × Int)) (draws : List Int) : PyM (List Int) :=
  npRandint (bounds.map Prod.fst) (bounds.map fun b => b.2 + 1) draws

/-- The function made by `create_real_vector(bounds)` (leap_ec/real_rep/initializers.py:36-42):
`np.random.uniform(low, high)` is `low + (high - low) * u` for `u` drawn from `[0, 1)`. -/
def createRealVector (bounds : List (ℚ × ℚ)) (u : List ℚ) : List ℚ :=
  List.zipWith (fun (b : ℚ × ℚ) (x : ℚ) => b.1 + (b.2 - b.1) * x) bounds u

/-- The function made by `create_binary_sequence(length)` (leap_ec/binary_rep/initializers.py:33-36), with
the default probability 0.5 of `random_bernoulli_vector`. -/
def createBinarySequence (length : Nat) (u : List ℚ) : PyM (List Bool) :=
  bernoulliVector (u.take length) (1 / 2)

end

end Leap
