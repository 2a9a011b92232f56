import Mathlib.Data.List.Basic

/-!
# Specification vocabulary for binary strings
-/

namespace Leap.Spec

/-- Every gene is 0 or 1. -/
def Binary (l : List Int) : Prop := ∀ g ∈ l, g = 0 ∨ g = 1

/-- The number written in base two, most significant digit first. -/
def bigEndian (l : List Int) : Int := l.foldl (fun a b => 2 * a + b) 0

/-- Cut a sequence into consecutive pieces of the given lengths. -/
def pieces {α : Type} : List Nat → List α → List (List α)
  | [], _ => []
  | d :: ds, l => l.take d :: pieces ds (l.drop d)

/-- The reflected binary code of `x`. -/
def gray (x : Nat) : Nat := x ^^^ (x >>> 1)

/-- The two strings differ at exactly one position. -/
def DifferAtOne (a b : List Int) : Prop :=
  a.length = b.length ∧ ∃ i, i < a.length ∧ a[i]? ≠ b[i]? ∧ ∀ j, j ≠ i → a[j]? = b[j]?

end Leap.Spec
