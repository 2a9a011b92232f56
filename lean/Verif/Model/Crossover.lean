import Verif.Py.Numpy
import Verif.Py.Gen
import Verif.Py.Order

/-!
# Crossover

Models `leap_ec/ops.py` lines 358-612.
-/

namespace Leap

variable {γ : Type}

/-- `UniformCrossover.recombine` (leap_ec/ops.py:483-499) on two distinct genome arrays. `u` are the
`min_length` random numbers drawn. The genomes are changed in place, so their final contents are
returned whether or not an exception is raised (first component). -/
def uniformRecombine (pSwap : ℚ) (u : List ℚ) (a b : List γ) : PyM Unit × List γ × List γ :=
  match bernoulliVector (u.take (min a.length b.length)) pSwap with
  | .error e => (.error e, a, b)
  | .ok mask =>
    match boolIndex a mask with                 -- tmp = parent_a.genome[indices_to_swap]
    | .error e => (.error e, a, b)
    | .ok tmp =>
      match boolIndex b mask with               -- parent_b.genome[indices_to_swap]
      | .error e => (.error e, a, b)
      | .ok fromB =>
        match boolAssign a mask fromB with      -- parent_a.genome[indices_to_swap] = ...
        | .error e => (.error e, a, b)
        | .ok a' =>
          match boolAssign b mask tmp with      -- parent_b.genome[indices_to_swap] = tmp
          | .error e => (.error e, a', b)
          | .ok b' => (.ok (), a', b')

/-- `NAryCrossover._pick_crossover_points` (leap_ec/ops.py:565-576). `draws` are the values returned by
`np.random.choice(pp, size=num_points, replace=False)`. -/
def pickCrossoverPoints (draws : List Nat) (genomeSize : Nat) : List Nat :=
  [0] ++ sortedAsc (fun x y : Nat => decide (x < y)) draws ++ [genomeSize]

/-- The loop of `NAryCrossover.recombine` over `sliding_window(2, xpts)` (leap_ec/ops.py:592-597) from
the window starting at `start`; `stops` are the remaining crossover points. `src1`/`src2` are the
genomes currently copied into the first and second child; they swap after each section. The
sections are concatenated as they are produced. -/
def naryLoop (src1 src2 : List γ) (start : Nat) : List Nat → List γ × List γ
  | [] => ([], [])
  | stop :: stops =>
    let rest := naryLoop src2 src1 stop stops
    (pySlice src1 start stop ++ rest.1, pySlice src2 start stop ++ rest.2)

/-- `NAryCrossover.recombine` (leap_ec/ops.py:578-612): the new genomes of the two individuals. -/
def naryRecombine (numPoints : Nat) (draws : List Nat) (a b : List γ) : PyM (List γ × List γ) :=
  if a.length < numPoints ∨ b.length < numPoints then .error .runtimeError
  else
    match pickCrossoverPoints draws a.length with
    | [] => .ok ([], [])
    | start :: stops => .ok (naryLoop a b start stops)

/-- What `np.random.choice(np.arange(size), size=(num_points,), replace=False)` can return. For leap_ec/ops.py:565-576. -/
def ValidCuts (numPoints size : Nat) (draws : List Nat) : Prop :=
  draws.length = numPoints ∧ draws.Nodup ∧ ∀ d ∈ draws, d < size

/-- What the crossover operator reads and writes of an individual. For leap_ec/ops.py:384-400. -/
structure XInd (γ φ : Type) where
  genome : γ
  fitness : Option φ
  /-- the set of parent identities -/
  parents : List Nat
deriving DecidableEq, Repr

/-- Set union `a |= b`. For leap_ec/ops.py:384-400. -/
def setUnion (a b : List Nat) : List Nat := a ++ b.filter (fun x => !a.contains x)

/-- Where a generator returned by `Crossover.__call__` is suspended. For leap_ec/ops.py:384-405. -/
inductive XPc where
  | start       -- not yet started
  | loopTop     -- after the `yield` of a second child
  | afterFirst  -- at `yield first_child`
deriving DecidableEq, Repr

/-- What the generators of one crossover operator share: the operator's `second_child` attribute and
everything upstream (the iterator, random source, ...), of type `U`. For leap_ec/ops.py:384-405. -/
structure XWorld (U ι : Type) where
  secondChild : Option ι
  up : U
deriving DecidableEq, Repr

section
variable {U φ : Type}

/-- The part of the loop body between two parents arriving and `yield first_child`
(leap_ec/ops.py:384-400). `skip` is the outcome of `np.random.uniform() > self.p_xover`;
`recombine` works on the genomes. -/
def xoverPair (skip : Bool) (recombined : γ × γ) (a b : XInd γ φ) : XInd γ φ × XInd γ φ :=
  if skip then (a, b)
  else
    let parents1 := setUnion a.parents b.parents      -- first_child.parents |= second_child.parents
    let parents2 := setUnion b.parents parents1       -- second_child.parents |= first_child.parents
    (⟨recombined.1, none, parents1⟩, ⟨recombined.2, none, parents2⟩)

/-- The loop body from its top to `yield first_child` (leap_ec/ops.py:384-405). `next` is the upstream
iterator, `draw` the test of `p_xover`, `recombine` the recombination (which may raise and may use
the random source). A `StopIteration` from upstream becomes `RuntimeError`, since this is the body of
a generator. If an exception is raised the generator is finished. -/
def xoverBody (next : U → PyM (XInd γ φ × U)) (draw : U → Bool × U)
    (recombine : U → γ → γ → PyM ((γ × γ) × U)) (w : XWorld U (XInd γ φ)) :
    PyM (Option (XInd γ φ) × XPc × XWorld U (XInd γ φ)) :=
  pep479 (match next w.up with
  | .error e => .error e
  | .ok (a, u1) =>
    match next u1 with
    | .error e => .error e
    | .ok (b, u2) =>
      match draw u2 with
      | (true, u3) =>
        let pair := xoverPair true (a.genome, b.genome) a b
        .ok (some pair.1, .afterFirst, ⟨some pair.2, u3⟩)
      | (false, u3) =>
        match recombine u3 a.genome b.genome with
        | .error e => .error e
        | .ok (g, u4) =>
          let pair := xoverPair false g a b
          .ok (some pair.1, .afterFirst, ⟨some pair.2, u4⟩))

/-- The generator returned by `Crossover.__call__` (leap_ec/ops.py:372-412). A yielded `none` is Python's
`None`. -/
def xoverGen (persist : Bool) (next : U → PyM (XInd γ φ × U)) (draw : U → Bool × U)
    (recombine : U → γ → γ → PyM ((γ × γ) × U)) :
    Gen (XWorld U (XInd γ φ)) XPc (Option (XInd γ φ)) := fun pc w =>
  match pc with
  | .start =>
    if persist && w.secondChild.isSome then
      .ok (w.secondChild, .loopTop, ⟨none, w.up⟩)
    else xoverBody next draw recombine w
  | .loopTop => xoverBody next draw recombine w
  | .afterFirst => .ok (w.secondChild, .loopTop, ⟨none, w.up⟩)

/-- Using the operator several times: for each `k` in the list a new generator is made from the
operator (`op(next_individual)`), resumed `k` times and dropped. Returns everything yielded. For leap_ec/ops.py:372-405. -/
def xoverSessions (persist : Bool) (next : U → PyM (XInd γ φ × U)) (draw : U → Bool × U)
    (recombine : U → γ → γ → PyM ((γ × γ) × U)) :
    List Nat → XWorld U (XInd γ φ) → PyM (List (Option (XInd γ φ)) × XWorld U (XInd γ φ))
  | [], w => .ok ([], w)
  | k :: ks, w =>
    match pull (xoverGen persist next draw recombine) k .start w with
    | .error e => .error e
    | .ok (out, _, w1) =>
      match xoverSessions persist next draw recombine ks w1 with
      | .error e => .error e
      | .ok (out2, w2) => .ok (out ++ out2, w2)

end

end Leap
