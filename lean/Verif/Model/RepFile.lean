import Mathlib.Algebra.Order.Field.Rat
import Verif.Py.Basic

/-!
# Saved repertoires

Models `PopulationSeedingRepertoire.export` and the reading of the file in `PopulationSeedingRepertoire.__init__`
(leap_ec/contrib/transfer/sequential.py) character by character. How numbers are written and read is a parameter, of which the
theorems assume that reading a number gives back what was written. Files are those without quotes, which `export` writes for genomes
of numbers.
-/

namespace Leap

/-- A gene: a `float`, an `int`, or a NumPy `bool`, as in the genomes of `create_binary_sequence`.
For leap_ec/contrib/transfer/sequential.py:92-95. -/
inductive RepGene where
  | float (q : ℚ)
  | int (z : Int)
  | bool (b : Bool)
  deriving DecidableEq

/-- How Python turns genes into text and text into floats (`none`: `float(text)` raises `ValueError`).
For leap_ec/contrib/transfer/sequential.py:92-95. -/
structure NumText where
  show' : RepGene → List Char
  float : List Char → Option ℚ

/-- The fields of a row, separated by commas. For leap_ec/contrib/transfer/sequential.py:92-95. -/
def commaSeparated : List (List Char) → List Char
  | [] => []
  | [f] => f
  | f :: fs => f ++ ',' :: commaSeparated fs

/-- `csv.writer(f).writerows(self.repertoire)` (leap_ec/contrib/transfer/sequential.py:92-95): the default dialect ends rows by
`\r\n`, and needs no quotes for texts without special characters. -/
def exportRepertoire (text : NumText) (repertoire : List (List RepGene)) : List Char :=
  repertoire.flatMap fun genome => commaSeparated (genome.map text.show') ++ ['\r', '\n']

/-- Reading a file opened in text mode: `\r\n` and `\r` become `\n`. For leap_ec/contrib/transfer/sequential.py:58-67. -/
def universalNewlines : List Char → List Char
  | [] => []
  | '\r' :: '\n' :: cs => '\n' :: universalNewlines cs
  | '\r' :: cs => '\n' :: universalNewlines cs
  | c :: cs => c :: universalNewlines cs

/-- A text cut at every occurrence of a character. For leap_ec/contrib/transfer/sequential.py:58-67. -/
def cutAt (c : Char) : List Char → List (List Char)
  | [] => [[]]
  | x :: xs =>
    if x = c then [] :: cutAt c xs
    else match cutAt c xs with
      | l :: ls => (x :: l) :: ls
      | [] => [[x]]

/-- The lines of a file: what follows the last `\n` is a line only when it is not empty.
For leap_ec/contrib/transfer/sequential.py:58-67. -/
def fileLines (cs : List Char) : List (List Char) :=
  let ls := cutAt '\n' cs
  if ls.getLast? = some [] then ls.dropLast else ls

/-- `csv.reader` on a line without quotes: an empty line has no fields. For leap_ec/contrib/transfer/sequential.py:58-67. -/
def csvFields (line : List Char) : List (List Char) := if line = [] then [] else cutAt ',' line

/-- With `quoting=csv.QUOTE_NONNUMERIC` every field without quotes is converted by `float`.
For leap_ec/contrib/transfer/sequential.py:58-67. -/
def readRow (text : NumText) (line : List Char) : PyM (List RepGene) :=
  (csvFields line).mapM fun f => match text.float f with
    | some q => .ok (.float q)
    | none => .error .valueError

/-- `PopulationSeedingRepertoire.__init__` (leap_ec/contrib/transfer/sequential.py:58-67): the repertoire of a new object, read from
a file when one is given. -/
def loadRepertoire (text : NumText) (hasAlgorithm : Bool) (repfile : Option (List Char)) : PyM (List (List RepGene)) :=
  if hasAlgorithm = false then .error .assertionError
  else match repfile with
    | none => .ok []
    | some content => (fileLines (universalNewlines content)).mapM (readRow text)

end Leap
