import Mathlib.Algebra.Order.Ring.Rat
import Mathlib.Data.Rat.Defs
import Verif.Model.Selection

/-!
# Parsimony pressure

Models `leap_ec/parsimony.py` for scalar fitnesses in exact rationals.
-/

namespace Leap

/-- What the key functions read of an individual. For leap_ec/parsimony.py:13-48. -/
structure ParsInd where
  maximize : Bool
  fitness : ℚ
  genomeLength : Nat
  deriving DecidableEq

/-- `lexical_parsimony` (leap_ec/parsimony.py:13-48). -/
def lexicalParsimony (ind : ParsInd) : ℚ × Int :=
  if ind.maximize then (ind.fitness, -(ind.genomeLength : Int))
  else (-ind.fitness, -(ind.genomeLength : Int))

/-- `koza_parsimony` (leap_ec/parsimony.py:51-93). -/
def kozaParsimony (penalty : ℚ) (ind : ParsInd) : ℚ :=
  if ind.maximize then ind.fitness - penalty * ind.genomeLength
  else -ind.fitness - penalty * ind.genomeLength

/-- Python's `<` on pairs: the first components that differ decide. For leap_ec/parsimony.py:13-48. -/
def pairLt (p q : ℚ × Int) : Bool := if p.1 = q.1 then decide (p.2 < q.2) else decide (p.1 < q.1)

/-- The comparison used by selection with `key=lexical_parsimony`. For leap_ec/parsimony.py:13-48. -/
def lexicalLt (a b : ParsInd) : Bool := pairLt (lexicalParsimony a) (lexicalParsimony b)

/-- The comparison used by selection with `key=koza_parsimony(penalty=c)`. For leap_ec/parsimony.py:52-93. -/
def kozaLt (penalty : ℚ) (a b : ParsInd) : Bool := decide (kozaParsimony penalty a < kozaParsimony penalty b)

end Leap
