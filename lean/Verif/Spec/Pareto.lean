import Verif.Spec.Compare

/-!
# Specification of Pareto dominance and of non-domination ranks
-/

namespace Leap.Spec

/-- `y` is at least as good as `x` in the given direction (both being actual numbers). -/
def NotWorse (maximize : Bool) (y x : Num) : Prop :=
  ∃ px py, point x = some px ∧ point y = some py ∧ (if maximize then px ≤ py else py ≤ px)

/-- Vector `y` Pareto-dominates vector `x`: at least as good in every objective and better in one. -/
def Dominates (maximize : List Bool) (y x : List Num) : Prop :=
  (∀ (i : Nat) (m : Bool) (a b : Num), maximize[i]? = some m → x[i]? = some a → y[i]? = some b → NotWorse m b a) ∧
  ∃ (i : Nat) (m : Bool) (a b : Num), maximize[i]? = some m ∧ x[i]? = some a ∧ y[i]? = some b ∧ Better m b a

section
variable {α : Type}

/-- What is left of a population after removing the non-dominated front `n` times. `dom y x` says that `y` dominates
`x`. -/
def remaining (dom : α → α → Bool) (population : List α) : Nat → List α
  | 0 => population
  | n + 1 => (remaining dom population n).filter fun x => (remaining dom population n).any fun y => dom y x

/-- `x` has non-domination rank `r` in the population: it survives `r - 1` removals of the front, and not the next. -/
def HasRank (dom : α → α → Bool) (population : List α) (x : α) (r : Nat) : Prop :=
  1 ≤ r ∧ x ∈ remaining dom population (r - 1) ∧ x ∉ remaining dom population r

/-- `layers` are the successive fronts of a population: no empty layer, nobody dominated within the own layer, everybody
in a later layer dominated by somebody in the layer just before. -/
structure Fronts (dom : α → α → Bool) (layers : List (List α)) : Prop where
  nonempty : ∀ l ∈ layers, l ≠ []
  within : ∀ l ∈ layers, ∀ x ∈ l, ∀ y ∈ l, dom x y = false
  below : ∀ (i : Nat) (l l' : List α), layers[i]? = some l → layers[i + 1]? = some l' →
    ∀ x ∈ l', ∃ y ∈ l, dom y x = true

end

end Leap.Spec
