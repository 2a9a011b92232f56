import Mathlib.Algebra.Order.Field.Rat
import Mathlib.Algebra.BigOperators.Group.Finset.Basic
import Mathlib.Data.Fintype.BigOperators
import Mathlib.SetTheory.Cardinal.Finite

/-!
# Specification of chances

Random numbers as NumPy and Python make them: `random()` returns one of the `N` fractions `0/N, 1/N, ...` below 1, all equally
likely (with `N = 2^53`), and successive numbers are independent; `choices` and `choice` return every index with the same chance.
So a chance is the share of the equally likely outcomes, counted.
-/

namespace Leap.Spec

/-- The share of the outcomes in which the event happens. -/
noncomputable def chance {Ω : Type} (E : Ω → Prop) : ℚ := (Nat.card {ω // E ω} : ℚ) / Nat.card Ω

/-- The mean of a number over all outcomes. -/
noncomputable def mean {Ω : Type} [Fintype Ω] (f : Ω → ℚ) : ℚ := (∑ ω, f ω) / Nat.card Ω

/-- `n` independent random numbers between 0 and 1. -/
def fractions {n N : Nat} (v : Fin n → Fin N) : List ℚ := List.ofFn fun i => ((v i : Nat) : ℚ) / N

/-- `k` independent random indices. -/
def indices {k n : Nat} (v : Fin k → Fin n) : List Nat := List.ofFn fun i => (v i : Nat)

/-- The chance of one random number being below `p`. -/
noncomputable def below (N : Nat) (p : ℚ) : ℚ := chance fun x : Fin N => ((x : Nat) : ℚ) / N < p

end Leap.Spec
