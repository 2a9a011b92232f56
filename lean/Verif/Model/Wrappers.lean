import Mathlib.Data.Rat.Floor
import Verif.Py.Gen

/-!
# Problems that wrap other problems (leap_ec/problem.py), cooperative evaluation (leap_ec/ops.py)

Fitness values are exact rationals; a numpy mean is the exact mean. `ρ` is the random source (or any other
state) that evaluations use.
-/

namespace Leap

variable {P ρ : Type}

/-- `problem.evaluate`: may raise, may use the random source. For leap_ec/problem.py:58-64. -/
abbrev Eval (P ρ : Type) := P → ρ → PyM ℚ × ρ

/-- `[self.evaluate(p) for p in phenomes]`, the default `Problem.evaluate_multiple`
(leap_ec/problem.py:58-64). -/
def evalMultiple (ev : Eval P ρ) : List P → ρ → PyM (List ℚ) × ρ
  | [], s => (.ok [], s)
  | p :: ps, s =>
    match ev p s with
    | (.error e, s1) => (.error e, s1)
    | (.ok v, s1) =>
      match evalMultiple ev ps s1 with
      | (.error e, s2) => (.error e, s2)
      | (.ok vs, s2) => (.ok (v :: vs), s2)

/-- `np.mean` of a non-empty list (for an empty one numpy gives NaN; it does not occur here). For leap_ec/problem.py:342-345. -/
def mean (l : List ℚ) : ℚ := l.sum / l.length

/-- `AverageFitnessProblem.__init__` (leap_ec/problem.py:335-340): the assertion on `n`. -/
def averageInit (n : Int) : PyM Nat := if 0 < n then .ok n.toNat else .error .assertionError

/-- `AverageFitnessProblem.evaluate` (leap_ec/problem.py:342-345). -/
def averageEvaluate (ev : Eval P ρ) (n : Nat) (p : P) (s : ρ) : PyM ℚ × ρ :=
  match evalMultiple ev (List.replicate n p) s with
  | (.error e, s1) => (.error e, s1)
  | (.ok fs, s1) => (.ok (mean fs), s1)

/-- `mean_by_chunk` (leap_ec/problem.py:353-359); for `n = 0` the Python would not terminate, but `n > 0`. -/
def meanByChunk (n : Nat) (l : List ℚ) : List ℚ :=
  if h : l = [] ∨ n = 0 then []
  else mean (l.take n) :: meanByChunk n (l.drop n)
termination_by l.length
decreasing_by
  have : 0 < l.length := List.length_pos_iff.mpr (fun h' => h (Or.inl h'))
  have : n ≠ 0 := fun h' => h (Or.inr h')
  simp; omega

/-- `AverageFitnessProblem.evaluate_multiple` (leap_ec/problem.py:347-371). `em` is the wrapped problem's
`evaluate_multiple`. -/
def averageEvaluateMultiple (em : List P → ρ → PyM (List ℚ) × ρ) (n : Nat) (ps : List P) (s : ρ) :
    PyM (List ℚ) × ρ :=
  match em (ps.flatMap fun p => List.replicate n p) s with
  | (.error e, s1) => (.error e, s1)
  | (.ok fs, s1) =>
    let contracted := meanByChunk n fs
    if contracted.length = ps.length then (.ok contracted, s1) else (.error .assertionError, s1)

/-- `FitnessOffsetProblem.evaluate` (leap_ec/problem.py:290-303). -/
def offsetEvaluate (ev : Eval P ρ) (offset : ℚ) (p : P) (s : ρ) : PyM ℚ × ρ :=
  match ev p s with
  | (.error e, s1) => (.error e, s1)
  | (.ok v, s1) => (.ok (v + offset), s1)

/-- The direction of a `FitnessOffsetProblem` (leap_ec/problem.py:278-281). -/
def offsetMaximize (wrapped : Bool) (maximize : Option Bool) : Bool :=
  match maximize with
  | none => wrapped
  | some b => b

/-- `ConstantProblem.evaluate` (leap_ec/problem.py:191-204). -/
def constantEvaluate (c : ℚ) : Eval P ρ := fun _ s => (.ok c, s)

/-- `AlternatingProblem.get_current_problem` (leap_ec/problem.py:565-572) for an integer modulus: which of the
problems answers. `generation = none`: not in the context. `floor(step / modulo)` is exact here. -/
def currentProblem {Q : Type} (problems : List Q) (modulo : Int) (generation : Option Int) : PyM Q :=
  match generation with
  | none => .error .assertionError
  | some step =>
    let i : Int := ⌊(step : ℚ) / (modulo : ℚ)⌋ % (problems.length : Int)
    match problems[i.toNat]? with
    | some q => .ok q
    | none => .error .indexError

/-- `AlternatingProblem.__init__` (leap_ec/problem.py:556-563): the assertions. -/
def alternatingInit {Q : Type} (problems : List Q) (modulo : Int) : PyM Unit :=
  if 0 < problems.length then
    if 0 < modulo then .ok () else .error .assertionError
  else .error .assertionError

/-! ### External processes -/

/-- `bytes.split(b'\n')` (leap_ec/problem.py:247): always at least one piece. -/
def splitLines : List Char → List (List Char)
  | [] => [[]]
  | c :: cs =>
    if c = '\n' then [] :: splitLines cs
    else
      match splitLines cs with
      | l :: ls => (c :: l) :: ls
      | [] => [[c]]

/-- The bytes sent to the process (leap_ec/problem.py:230-233): the phenomes, each with its elements joined by
commas, joined by newlines. -/
def phenomeBytes {E : Type} (str : E → List Char) (phenomes : List (List E)) : List Char :=
  ['\n'].intercalate (phenomes.map fun p => [','].intercalate (p.map str))

/-- `ExternalProcessProblem.evaluate_multiple` (leap_ec/problem.py:231-258). `process` is the external program: its
exit status and output for an input; `float` parses a number or raises `ValueError`. -/
def externalEvaluateMultiple {E : Type} (str : E → List Char) (process : List Char → Int × List Char)
    (float : List Char → PyM ℚ) (phenomes : List (List E)) : PyM (List ℚ) :=
  let out := process (phenomeBytes str phenomes)
  if out.1 ≠ 0 then .error .runtimeError
  else
    match (splitLines out.2).dropLast.mapM float with
    | .error e => .error e
    | .ok fs => if fs.length ≠ phenomes.length then .error .runtimeError else .ok fs

/-- `ExternalProcessProblem.evaluate` (leap_ec/problem.py:226-229). -/
def externalEvaluate {E : Type} (str : E → List Char) (process : List Char → Int × List Char)
    (float : List Char → PyM ℚ) (phenome : List E) : PyM ℚ :=
  match externalEvaluateMultiple str process float [phenome] with
  | .error e => .error e
  | .ok [f] => .ok f
  | .ok _ => .error .assertionError

/-! ### Cooperative evaluation -/

section
variable {W σ ι : Type}

/-- `_choose_collaborators` (leap_ec/ops.py:1411-1428, leap_ec/problem.py:497-518), from sub-population `i` on; `states`
are the states of the selection iterators from there on. -/
def chooseCollaborators (next : Nat → Gen W σ ι) (current : ι) (cur : Nat) :
    Nat → List σ → W → PyM (List ι × List σ × W)
  | _, [], w => .ok ([], [], w)
  | i, s :: ss, w =>
    if i ≠ cur then
      match next i s w with
      | .error e => .error e
      | .ok (x, s', w1) =>
        match chooseCollaborators next current cur (i + 1) ss w1 with
        | .error e => .error e
        | .ok (xs, ss', w2) => .ok (x :: xs, s' :: ss', w2)
    else
      match chooseCollaborators next current cur (i + 1) ss w with
      | .error e => .error e
      | .ok (xs, ss', w2) => .ok (current :: xs, s :: ss', w2)

/-- The trials of `CooperativeEvaluate.__call__` (leap_ec/ops.py:1390-1405): the selection iterators are made once per
evaluated individual and go on from trial to trial. `evalTeam` combines the collaborators and evaluates
the combined individual. Returns the fitnesses with the teams they came from. -/
def cooperativeTrials (next : Nat → Gen W σ ι) (evalTeam : List ι → W → PyM (ℚ × W)) (current : ι) (cur : Nat) :
    Nat → List σ → W → PyM (List (List ι × ℚ) × W)
  | 0, _, w => .ok ([], w)
  | n + 1, ss, w =>
    match chooseCollaborators next current cur 0 ss w with
    | .error e => .error e
    | .ok (team, ss', w1) =>
      match evalTeam team w1 with
      | .error e => .error e
      | .ok (f, w2) =>
        match cooperativeTrials next evalTeam current cur n ss' w2 with
        | .error e => .error e
        | .ok (rest, w3) => .ok ((team, f) :: rest, w3)

/-- The evaluation of one individual by `CooperativeEvaluate` (leap_ec/ops.py:1376-1409): the fitness assigned.
`statistics.mean` of nothing raises `StatisticsError`, a `ValueError`. `init i` is the state of a new
selection iterator for sub-population `i` of the `n` sub-populations. -/
def cooperativeEvaluate (init : Nat → σ) (next : Nat → Gen W σ ι) (evalTeam : List ι → W → PyM (ℚ × W))
    (numTrials n : Nat) (current : ι) (cur : Nat) (w : W) : PyM (ℚ × List (List ι × ℚ) × W) :=
  match cooperativeTrials next evalTeam current cur numTrials ((List.range n).map init) w with
  | .error e => .error e
  | .ok (ts, w') =>
    if ts = [] then .error .valueError else .ok (mean (ts.map Prod.snd), ts, w')

/-- The trials of `CooperativeProblem.evaluate` (leap_ec/problem.py:464-482): the selection iterators are made anew
in every trial (leap_ec/problem.py:503). -/
def cooperativeProblemTrials (init : Nat → σ) (next : Nat → Gen W σ ι) (evalTeam : List ι → W → PyM (ℚ × W))
    (n : Nat) (current : ι) (cur : Nat) : Nat → W → PyM (List (List ι × ℚ) × W)
  | 0, w => .ok ([], w)
  | k + 1, w =>
    match chooseCollaborators next current cur 0 ((List.range n).map init) w with
    | .error e => .error e
    | .ok (team, _, w1) =>
      match evalTeam team w1 with
      | .error e => .error e
      | .ok (f, w2) =>
        match cooperativeProblemTrials init next evalTeam n current cur k w2 with
        | .error e => .error e
        | .ok (rest, w3) => .ok ((team, f) :: rest, w3)

/-- `CooperativeProblem(num_trials=...).evaluate` (leap_ec/problem.py:428-482): the assertion of the constructor, the
assertion that the individual was passed, the mean over the trials. With a log stream the first trial
raises `AttributeError`, because `_log_trial` reads `.genome` of genomes (leap_ec/problem.py:520-531). -/
def cooperativeProblem (init : Nat → σ) (next : Nat → Gen W σ ι) (evalTeam : List ι → W → PyM (ℚ × W))
    (numTrials : Int) (n : Nat) (individualPassed logging : Bool) (current : ι) (cur : Nat) (w : W) :
    PyM (ℚ × List (List ι × ℚ) × W) :=
  if 0 < numTrials then
    if individualPassed then
      if logging then
        -- only the first trial is reached
        match cooperativeProblemTrials init next evalTeam n current cur 1 w with
        | .error e => .error e
        | .ok _ => .error .attributeError
      else
        match cooperativeProblemTrials init next evalTeam n current cur numTrials.toNat w with
        | .error e => .error e
        | .ok (ts, w') => .ok (mean (ts.map Prod.snd), ts, w')
    else .error .assertionError
  else .error .assertionError

end

end Leap
