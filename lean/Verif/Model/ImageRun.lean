import Verif.Model.CgpOps
import Verif.Model.Images
import Verif.Model.EvoRun

/-!
# Evolving images

The run of `examples/advanced/cgp_images.py`: `generational_ea` on genomes with two segments, a CGP circuit and a constant for each of its nodes,
scored by an `ImageXYProblem`. A segment is a value here: that no two individuals share one is C114.
-/

namespace Leap

variable {ρ : Type}

/-- The segments of a genome (leap_ec/executable_rep/cgp.py:591-597): integers for the circuit, numbers for the parameters. -/
inductive ImageSegment where
  | circuit (genes : List Int)
  | parameters (values : List ℚ)

/-- What a wire of the circuit carries: an array with a number for each pixel, or a plain number.
For leap_ec/executable_rep/cgp.py:147-149. -/
inductive Pix where
  | num (v : ℚ)
  | arr (vs : List ℚ)

/-- The number of pixels of an array. For leap_ec/executable_rep/cgp.py:147-149. -/
def Pix.size? : Pix → Option Nat
  | .num _ => none
  | .arr vs => some vs.length

/-- The value at pixel `i`: a plain number counts for every pixel. For leap_ec/executable_rep/cgp.py:147-149. -/
def Pix.at : Pix → Nat → ℚ
  | .num v, _ => v
  | .arr vs, i => vs.getD i 0

/-- numpy applies a function pixel by pixel; arrays of different sizes raise `ValueError`. Simplification: an array of a single pixel is
not stretched; all arrays in a circuit have the size of the image. For leap_ec/executable_rep/cgp.py:147-149. -/
def broadcastPix (f : List ℚ → ℚ) (args : List Pix) : PyM Pix :=
  match args.filterMap Pix.size? with
  | [] => .ok (.num (f (args.map fun a => a.at 0)))
  | n :: ns =>
    if ns.all fun k => k = n then .ok (.arr ((List.range n).map fun i => f (args.map fun a => a.at i)))
    else .error .valueError

/-- A primitive made of numpy functions, like those of `cgp_art_primitives` (leap_ec/executable_rep/cgp.py:658-679): its attribute `arity`, if
it has one, the number of arguments it takes, and what it does at each pixel. Any function at a pixel is covered; it gives a number, so what numpy writes as
`nan` or infinity is left out. -/
structure PixelFn where
  arity : Option Nat
  args : Nat
  f : List ℚ → ℚ

/-- The primitive on arrays; another number of arguments raises `TypeError` (leap_ec/executable_rep/cgp.py:147-149). -/
def PixelFn.onArrays (p : PixelFn) : CgpPrimitive Pix :=
  ⟨p.arity, fun args => if args.length = p.args then broadcastPix p.f args else .error .typeError⟩

/-- The arguments of `CGPWithParametersDecoder` that vary (examples/advanced/cgp_images.py:79-87): there are two inputs, the coordinates, and
three outputs, the colours. -/
structure ImageCircuits where
  fns : List PixelFn
  numLayers : Nat
  nodesPerLayer : Nat
  maxArity : Nat
  perNode : Nat
  prune : Bool
  levelsBack : Int

/-- The decoder (leap_ec/executable_rep/cgp.py:521-536). -/
def ImageCircuits.decoder (c : ImageCircuits) : CgpDecoder Pix :=
  ⟨c.fns.map PixelFn.onArrays, 2, 3, c.numLayers, c.nodesPerLayer, c.maxArity, c.prune, c.levelsBack⟩

/-- The number of parameters of a genome (leap_ec/executable_rep/cgp.py:569-570). -/
def ImageCircuits.numParameters (c : ImageCircuits) : Nat := c.perNode * c.nodesPerLayer * c.numLayers

/-- An output that `np.stack(…, axis=1)` can take (leap_ec/executable_rep/problems.py:242): a plain number has no axis to stack along, which raises
`AxisError`, a `ValueError`. -/
def stackable : Pix → PyM (List ℚ)
  | .num _ => .error .valueError
  | .arr vs => .ok vs

/-- Calling the executable on arrays of coordinates (leap_ec/executable_rep/cgp.py:117-161, leap_ec/executable_rep/problems.py:241-242). A call starts from
a graph without values, see `cgp_call_history_free`. -/
def imageExecutable (g : CgpGraph Pix) (input : List (List Int)) : PyM (List (List ℚ)) :=
  match cgpCall g 2 3 (fun _ => none) (input.map fun xs => Pix.arr (xs.map fun (x : Int) => (x : ℚ))) with
  | .error e => .error e
  | .ok (outputs, _) => pyMapM stackable outputs

/-- `CGPWithParametersDecoder.decode` (leap_ec/executable_rep/cgp.py:538-582) with the executable it returns. Two segments of the wrong kinds are not
told apart from a wrong number of segments. -/
def imageDecode (c : ImageCircuits) (genome : List ImageSegment) : PyM (List (List Int) → PyM (List (List ℚ))) :=
  match genome with
  | [.circuit genes, .parameters values] =>
    match cgpDecodeWithParameters c.decoder c.perNode genes (values.map Pix.num) with
    | .error e => .error e
    | .ok g => .ok (imageExecutable g)
  | _ => .error .assertionError

/-- `ImageXYProblem.evaluate` as the problem of a run (leap_ec/executable_rep/problems.py:244-262): it draws nothing, and asserts that what it is given can
be called. `evaluate_multiple` (leap_ec/problem.py:58-64) is not used by this run and left out. -/
noncomputable def imageProblem (im : RgbImage) : Prob ImageSegment (List (List Int) → PyM (List (List ℚ))) ℝ ρ where
  evaluate := fun x s =>
    match x with
    | .raw _ => (.error .assertionError, s)
    | .value ex => (imageXYEvaluate im (some ex), s)
  evaluateMultiple := fun _ s => (.error .typeError, s)
  takesIndividuals := false

/-- A mutation function for integers on the circuit (leap_ec/segmented_rep/ops.py:80-81). -/
def onCircuit (f : MutFn Int ρ) (seg : ImageSegment) (s : ρ) : PyM ImageSegment × ρ :=
  match seg with
  | .circuit g =>
    match (f g s).result with
    | .error e => (.error e, (f g s).rng)
    | .ok none => (.ok (.circuit (f g s).left), (f g s).rng)
    | .ok (some g') => (.ok (.circuit g'), (f g s).rng)
  | .parameters _ => (.error .typeError, s)

/-- A mutation function for numbers on the parameters (leap_ec/segmented_rep/ops.py:80-81). -/
def onParameters (f : MutFn ℚ ρ) (seg : ImageSegment) (s : ρ) : PyM ImageSegment × ρ :=
  match seg with
  | .circuit _ => (.error .typeError, s)
  | .parameters g =>
    match (f g s).result with
    | .error e => (.error e, (f g s).rng)
    | .ok none => (.ok (.parameters (f g s).left), (f g s).rng)
    | .ok (some g') => (.ok (.parameters g'), (f g s).rng)

/-- The loop of `segmented_mutate` (leap_ec/segmented_rep/ops.py:79-81). -/
def mutateEach : List (ImageSegment → ρ → PyM ImageSegment × ρ) → List ImageSegment → ρ → PyM (List ImageSegment) × ρ
  | f :: fs, x :: xs, s =>
    match f x s with
    | (.error e, s1) => (.error e, s1)
    | (.ok y, s1) =>
      match mutateEach fs xs s1 with
      | (.error e, s2) => (.error e, s2)
      | (.ok ys, s2) => (.ok (y :: ys), s2)
  | _, _, s => (.ok [], s)

/-- `segmented_mutate` on one individual (leap_ec/segmented_rep/ops.py:75-88); with another number of segments the message of the assertion
raises `NameError`. -/
def segmentsFn (fs : List (ImageSegment → ρ → PyM ImageSegment × ρ)) : MutFn ImageSegment ρ := fun g s =>
  if g.length = fs.length then ⟨g, (mutateEach fs g s).1.map some, (mutateEach fs g s).2⟩
  else ⟨g, .error .nameError, s⟩

/-- `decoder.initialize(create_real_vector(bounds=[(lo, hi)]*…))` (leap_ec/executable_rep/cgp.py:584-599, examples/advanced/cgp_images.py:89-96) called
once with its random numbers. -/
def imageInitialize (c : ImageCircuits) (lo hi : ℚ) (draws : List Int) (uniform : List ℚ) : PyM (List ImageSegment) :=
  match cgpParametersInitialize c.decoder draws (.ok (createRealVector (List.replicate c.numParameters (lo, hi)) uniform)) with
  | .error e => .error e
  | .ok (genes, values) => .ok [.circuit genes, .parameters values]

/-- The run of the example (examples/advanced/cgp_images.py:128-151) with any selection, rates of mutation, bounds for the parameters, number
of elites and stop condition. -/
noncomputable def imageRun (c : ImageCircuits) (im : RgbImage) (lo hi : ℚ) (init : ρ → (List Int × List ℚ) × ρ) (expected probability : Option ℚ)
    (draw : ρ → (List ℚ × List Int) × ρ) (std : ScalarOrList ℚ) (gaussExpected : GaussRate) (normal : ρ → (List ℚ × List ℚ) × ρ)
    (worse : Option ℝ → Option ℝ → Bool)
    (choose : Int → List Nat → Mem ImageSegment (List (List Int) → PyM (List (List ℚ))) ℝ ρ → PyM Nat × ρ)
    (stop : Int → List Nat → Mem ImageSegment (List (List Int) → PyM (List (List ℚ))) ℝ ρ → Bool) (popSize kElites problem : Nat) (generations : Int) :
    HM (Mem ImageSegment (List (List Int) → PyM (List (List ℚ))) ℝ ρ) (List Nat) :=
  evoRun ⟨worse, choose,
      [.mutate (.ok ()) false (segmentsFn [onCircuit (randintFn c.decoder.bounds expected probability draw),
          onParameters (gaussianFn std gaussExpected (.all (some lo, some hi)) 1 0 normal)]),
        .evaluate (.fn (imageDecode c)) (imageProblem im)], popSize, kElites, stop⟩
    (fun s => (imageInitialize c lo hi (init s).1.1 (init s).1.2, (init s).2)) (.fn (imageDecode c)) (imageProblem im) problem popSize 0 generations

end Leap
