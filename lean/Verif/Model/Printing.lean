import Verif.Model.Probe
import Verif.Model.Wrappers

/-!
# Printing (leap_ec/probe.py:27-73, 212-235, 341-360, 541-551 and leap_ec/util.py:32-42, 275-299)

Text is a list of characters; a stream is the text written to it so far.
-/

namespace Leap

variable {α : Type}

/-- `print_probe` (leap_ec/probe.py:27-47) without its decorators. `str` turns what the probe returns into text. The result is
given together with the stream. -/
def printProbe {β : Type} (probe : List α → PyM β) (str : β → List Char) (pre : List Char) (population : List α)
    (stream : List Char) : PyM (List α) × List Char :=
  match probe population with
  | .error e => (.error e, stream)
  | .ok v => (.ok population, stream ++ (pre ++ str v))

/-- `print_individual` (leap_ec/probe.py:54-73) without its decorators: the world is that of the upstream generator beside the
stream. A `StopIteration` from upstream leaves the generator as `RuntimeError`. -/
def printIndividual {W σ : Type} (next : Gen W σ α) (str : α → List Char) (pre : List Char) : Gen (W × List Char) σ α :=
  fun s w =>
    match next s w.1 with
    | .error e => pep479 (.error e)
    | .ok (ind, s', w') => .ok (ind, s', (w', w.2 ++ (pre ++ str ind ++ ['\n'])))

/-- `print_population` (leap_ec/util.py:32-42): one line per individual, its fields separated by blanks. -/
def printPopulation (genome fitness : α → List Char) (generation : List Char) (population : List α) : List Char :=
  population.foldl (fun out ind => out ++ (generation ++ [' '] ++ genome ind ++ [' '] ++ fitness ind ++ ['\n'])) []

/-- `', '.join(parts)` and the like. For leap_ec/util.py:275-299. -/
def pyJoin (sep : List Char) : List (List Char) → List Char
  | [] => []
  | [p] => p
  | p :: ps => p ++ sep ++ pyJoin sep ps

/-- `print_list` (leap_ec/util.py:275-299). -/
def printList (str : α → List Char) (l : List α) : List Char := ['['] ++ pyJoin [',', ' '] (l.map str) ++ [']', '\n']

/-! ### How numpy arrays are printed -/

/-- How arrays are turned into text. For leap_ec/probe.py:212-235. -/
inductive ArrayText where
  | numpyDefault
  | asList
  | custom (n : Nat)
deriving DecidableEq, Repr

/-- The two functions kept by numpy, for `repr` and for `str`. For leap_ec/probe.py:212-235. -/
structure NumpyText where
  repr : ArrayText
  str : ArrayText
deriving DecidableEq, Repr

/-- `with _maybe_list(numpy_as_list): body` (leap_ec/probe.py:212-235). The body may change the functions itself and may
raise. -/
def maybeList {β : Type} (numpyAsList : Bool) (body : NumpyText → PyM β × NumpyText) (t : NumpyText) : PyM β × NumpyText :=
  if numpyAsList then ((body ⟨.asList, .asList⟩).1, ⟨.numpyDefault, .numpyDefault⟩) else body t

/-! ### The head of a `FitnessStatsCSVProbe` -/

/-- `write_comment` (leap_ec/probe.py:355-360). -/
def commentText (character comment : List Char) : List Char :=
  if comment = [] then []
  else pyJoin ['\n'] ((splitLines comment).map fun line => character ++ [' '] ++ line) ++ ['\n']

/-- `write_header` (leap_ec/probe.py:346-353). -/
def headerText (job : Bool) (notes extras : List (List Char)) : List Char :=
  let jobHeader := if job then "job, ".toList else []
  let noteExtras := if notes = [] then [] else pyJoin [',', ' '] notes ++ [',', ' ']
  let extra := if extras = [] then [] else [',', ' '] ++ pyJoin [',', ' '] extras
  jobHeader ++ noteExtras ++ "step, bsf, mean_fitness, std_fitness, min_fitness, max_fitness".toList ++ extra ++ ['\n']

/-- What the constructor writes (leap_ec/probe.py:342-344). -/
def statsStart (header : Bool) (character comment : List Char) (job : Bool) (notes extras : List (List Char)) : List Char :=
  if header then commentText character comment ++ headerText job notes extras else []

/-! ### The dataframe of an `AttributesCSVProbe` -/

/-- `AttributesCSVProbe.dataframe` (leap_ec/probe.py:541-551): the rows restricted to the columns; a missing value is `none`. -/
def attrDataframe {V : Type} (c : AttrConfig V) (fieldnames : List String) (st : AttrState V) : PyM (List (List (Option V))) :=
  if c.doDataframe then .ok (st.data.map fun row => fieldnames.map (dictGet row)) else .error .valueError

/-- Calls of an `AttributesCSVProbe`, one after the other, each with its context and population; those that raise too.
For leap_ec/probe.py:563-571. -/
def attrHistory {V : Type} (c : AttrConfig V) (fieldnames : List String) (gt : AttrInd V → AttrInd V → Bool) (ofStep : Int → V) :
    List (Option (Option Int) × List (AttrInd V)) → AttrState V → AttrState V
  | [], st => st
  | call :: calls, st => attrHistory c fieldnames gt ofStep calls (attrProbe c fieldnames gt ofStep call.1 call.2 st).2

end Leap
