import Verif.Py.NLargest
import Verif.Model.Compare

/-!
# Truncation and elitism with the comparisons individuals really have

`Verif/Model/Selection.lean` takes an order as given. Here the comparison may toss coins and `==` may have a tolerance, and the k best are found
by the heap of `Verif/Py/NLargest.lean`.
-/

namespace Leap

variable {α σ : Type}

/-- `truncation_selection` (leap_ec/ops.py:778-823). With parents, the candidates are an `itertools.chain`, which has no length. -/
def truncationAsk (lt : Ask α σ) (eq same : α → α → Bool) (offspring : List α) (size : Nat) (parents : Option (List α)) (s : σ) : List α × σ :=
  match parents with
  | some ps => nlargest lt eq same false size (offspring ++ ps) s
  | none => nlargest lt eq same true size offspring s

/-- `elitist_survival` (leap_ec/ops.py:829-900). -/
def elitistAsk (lt : Ask α σ) (eq same : α → α → Bool) (offspring parents : List α) (k : Nat) (s : σ) : List α × σ :=
  let elites := nlargest lt eq same true k parents s
  nlargest lt eq same true offspring.length (offspring ++ elites.1) elites.2

/-- `Individual.__lt__` between evaluated individuals of one scalar problem (leap_ec/individual.py:211-253, leap_ec/problem.py:88-120). `coin n` is
what the `n`-th `random.choice([True, False])` returns; the state counts the coins tossed, one per comparison of two NaN. -/
def fitAsk (p : ScalarProblem) (fit : α → SFit) (coin : Nat → Bool) : Ask α Nat := fun a b n =>
  (p.worseThan (coin n) (fit a) (fit b), if (fit a).val.isNan && (fit b).val.isNan then n + 1 else n)

/-- `Individual.__eq__` between evaluated individuals of one scalar problem (leap_ec/individual.py:198-209, leap_ec/problem.py:122-139). -/
def fitEq (p : ScalarProblem) (fit : α → SFit) (a b : α) : Bool := p.equivalent (fit a) (fit b)

end Leap
