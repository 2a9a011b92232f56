import Verif.Model.Compare
import Verif.Model.Wrappers
import Verif.Model.NonDom

/-!
# Problems wrapped in problems, to any depth

Problem objects as users build them: a scalar problem, wrapped any number of times by `FitnessOffsetProblem`,
`AverageFitnessProblem`, `AlternatingProblem`, `CooperativeProblem` (leap_ec/problem.py) or one of the wrappers that move the
phenome (`TranslatedProblem`, `ScaledProblem`, `MatrixTransformedProblem`, leap_ec/real_rep/problems.py:1235-1574). Fitness
values are exact rationals. `ρ` is whatever state evaluations use.
-/

namespace Leap

variable {P ρ : Type}

/-- The Python type of a fitness value: `int`, `float`, or a NumPy number. For leap_ec/problem.py:303. -/
inductive FitKind where
  | int
  | float
  | numpy
  deriving DecidableEq

/-- The type of `fitness + offset` for a `float` offset (leap_ec/problem.py:303). -/
def FitKind.plusFloat : FitKind → FitKind
  | .numpy => .numpy
  | _ => .float

/-- A problem object. For leap_ec/problem.py:84-86. -/
inductive WProblem (P ρ : Type) where
  /-- a `ScalarProblem` (leap_ec/problem.py:78-86) with its own `evaluate`; `acceptsIndividual` says whether that method takes
  an `individual` keyword (`FunctionProblem` and `ConstantProblem` do, leap_ec/problem.py:153, 190) -/
  | base (maximize : Bool) (kind : FitKind) (acceptsIndividual : Bool) (ev : Eval P ρ)
  /-- `FitnessOffsetProblem(problem, fitness_offset, maximize)` (leap_ec/problem.py:276-288), for a `float` offset -/
  | offset (p : WProblem P ρ) (c : ℚ) (maximize : Option Bool)
  /-- a wrapper that moves the phenome before evaluation; `f` may raise (leap_ec/real_rep/problems.py:1306-1330, 1359-1368) -/
  | moved (p : WProblem P ρ) (f : P → PyM P) (maximize : Option Bool)
  /-- `AverageFitnessProblem(wrapped_problem, n)` (leap_ec/problem.py:335-340) -/
  | average (p : WProblem P ρ) (n : Int)
  /-- `AlternatingProblem(problems, modulo)` (leap_ec/problem.py:556-563); the list of problems is given by its length and its
  entries -/
  | alternating (count : Nat) (ps : Nat → WProblem P ρ) (modulo : Int)
  /-- `CooperativeProblem(wrapped_problem, num_trials, ...)` (leap_ec/problem.py:428-440); `team` draws the collaborators of one
  trial and combines and decodes them with the individual -/
  | cooperative (p : WProblem P ρ) (team : P → ρ → PyM P × ρ) (numTrials : Int)

/-- The attribute `maximize`. Only scalar problems have it: it is set by `ScalarProblem.__init__` (leap_ec/problem.py:84-86), and
inherited through `problem.maximize` when the argument is `None` (leap_ec/problem.py:277-279). -/
def WProblem.maximizeAttr : WProblem P ρ → Option Bool
  | .base m _ _ _ => some m
  | .offset p _ mx => match mx with | some m => some m | none => p.maximizeAttr
  | .moved p _ mx => match mx with | some m => some m | none => p.maximizeAttr
  | .average _ _ => none
  | .alternating _ _ _ => none
  | .cooperative _ _ _ => none

/-- `maximize = problem.maximize` when it is not given (leap_ec/problem.py:277-278, leap_ec/real_rep/problems.py:1263-1264):
`AttributeError` when the wrapped problem has no such attribute. -/
def inheritCheck (p : WProblem P ρ) (maximize : Option Bool) : PyM Unit :=
  match maximize with
  | some _ => .ok ()
  | none =>
    match p.maximizeAttr with
    | some _ => .ok ()
    | none => .error .attributeError

/-- Building the object from the inside out: the assertions and errors of the constructors (leap_ec/problem.py:276-288,
335-340, 428-440, 556-563). -/
def WProblem.construct : WProblem P ρ → PyM Unit
  | .base _ _ _ _ => .ok ()
  | .offset p _ mx => do
    p.construct
    inheritCheck p mx
  | .moved p _ mx => do
    p.construct
    inheritCheck p mx
  | .average p n => do
    p.construct
    if 0 < n then .ok () else .error .assertionError
  | .alternating count ps modulo => do
    let _ ← pyMapM (fun i => (ps i).construct) (List.range count)
    alternatingInit (List.range count) modulo
  | .cooperative p _ n => do
    p.construct
    if 0 < n then .ok () else .error .assertionError

/-- `worse_than` on two fitnesses, `None` before evaluation: scalar problems compare in their own direction
(leap_ec/problem.py:88-120), the other wrappers ask the wrapped or the active problem (leap_ec/problem.py:373-374, 545-546,
577-579). `generation` is `context['leap']['generation']`, if set; `coin` is the result of `random.choice`. -/
def WProblem.worse (generation : Option Int) (coin : Bool) : WProblem P ρ → FitSlot → FitSlot → PyM Bool
  | .base m _ _ _, a, b => indLt ⟨m⟩ coin a b
  | .offset p c mx, a, b =>
    match (WProblem.offset p c mx).maximizeAttr with
    | some m => indLt ⟨m⟩ coin a b
    | none => .error .attributeError
  | .moved p f mx, a, b =>
    match (WProblem.moved p f mx).maximizeAttr with
    | some m => indLt ⟨m⟩ coin a b
    | none => .error .attributeError
  | .average p _, a, b => p.worse generation coin a b
  | .alternating count ps modulo, a, b =>
    match currentProblem (List.range count) modulo generation with
    | .error e => .error e
    | .ok i => (ps i).worse generation coin a b
  | .cooperative p _ _, a, b => p.worse generation coin a b

/-- `equivalent` on two fitnesses (leap_ec/problem.py:122-139, 376-377, 548-549, 581-583). -/
def WProblem.equiv (generation : Option Int) : WProblem P ρ → FitSlot → FitSlot → PyM Bool
  | .base m _ _ _, a, b => indEq ⟨m⟩ a b
  | .offset _ _ _, a, b => indEq ⟨true⟩ a b
  | .moved _ _ _, a, b => indEq ⟨true⟩ a b
  | .average p _, a, b => p.equiv generation a b
  | .alternating count ps modulo, a, b =>
    match currentProblem (List.range count) modulo generation with
    | .error e => .error e
    | .ok i => (ps i).equiv generation a b
  | .cooperative p _ _, a, b => p.equiv generation a b

/-- The trials of a cooperative evaluation (leap_ec/problem.py:464-482). -/
def teamTrials (ev : Eval P ρ) (team : P → ρ → PyM P × ρ) (x : P) : Nat → ρ → PyM (List ℚ) × ρ
  | 0, s => (.ok [], s)
  | n + 1, s =>
    match team x s with
    | (.error e, s1) => (.error e, s1)
    | (.ok y, s1) =>
      match ev y s1 with
      | (.error e, s2) => (.error e, s2)
      | (.ok v, s2) =>
        match teamTrials ev team x n s2 with
        | (.error e, s3) => (.error e, s3)
        | (.ok vs, s3) => (.ok (v :: vs), s3)

/-- `evaluate(phenome)`, or `evaluate(phenome, individual=...)` when `whole` holds, as `WholeEvaluatedIndividual.evaluate_imp`
calls it (leap_ec/individual.py:329-337). The wrappers' `evaluate` takes no keywords, so `individual=` is a `TypeError`
(leap_ec/problem.py:290, 342, 574), and they call the wrapped problem without it; `CooperativeProblem` asserts that it was
given (leap_ec/problem.py:454-482). -/
def WProblem.evaluate (generation : Option Int) : Bool → WProblem P ρ → Eval P ρ
  | whole, .base _ _ acceptsIndividual ev => fun x s =>
    if whole && !acceptsIndividual then (.error .typeError, s) else ev x s
  | whole, .offset p c _ => fun x s =>
    if whole then (.error .typeError, s) else offsetEvaluate (p.evaluate generation false) c x s
  | whole, .moved p f _ => fun x s =>
    if whole then (.error .typeError, s)
    else
      match f x with
      | .error e => (.error e, s)
      | .ok y => p.evaluate generation false y s
  | whole, .average p n => fun x s =>
    if whole then (.error .typeError, s) else averageEvaluate (p.evaluate generation false) n.toNat x s
  | whole, .alternating count ps modulo => fun x s =>
    if whole then (.error .typeError, s)
    else
      match currentProblem (List.range count) modulo generation with
      | .error e => (.error e, s)
      | .ok i => (ps i).evaluate generation false x s
  | whole, .cooperative p team n => fun x s =>
    if whole then
      match teamTrials (p.evaluate generation false) team x n.toNat s with
      | (.error e, s1) => (.error e, s1)
      | (.ok fs, s1) => (.ok (mean fs), s1)
    else (.error .assertionError, s)

/-- The Python type of the fitness: a mean is a NumPy number (leap_ec/problem.py:345, 482), an offset adds a `float`. -/
def WProblem.kind (generation : Option Int) : WProblem P ρ → FitKind
  | .base _ k _ _ => k
  | .offset p _ _ => (p.kind generation).plusFloat
  | .moved p _ _ => p.kind generation
  | .average _ _ => .numpy
  | .alternating count ps modulo =>
    match currentProblem (List.range count) modulo generation with
    | .error _ => .numpy
    | .ok i => (ps i).kind generation
  | .cooperative _ _ _ => .numpy

/-- The fitness an individual carries after evaluation gave `v` (leap_ec/individual.py:186-196). -/
def WProblem.fitnessOf (generation : Option Int) (t : WProblem P ρ) (v : ℚ) : FitSlot :=
  some ⟨t.kind generation == .float, .fin v⟩

end Leap
