/-!
# Specification vocabulary for orders and selection
-/

namespace Leap.Spec

/-- `lt` is a strict weak order: a consistent "worse than" in which incomparability is an
equivalence. -/
structure StrictWeak {α : Type _} (lt : α → α → Bool) : Prop where
  asymm : ∀ a b, lt a b = true → lt b a = false
  negTrans : ∀ a b c, lt a b = false → lt b c = false → lt a c = false

/-- `r` is a strict partial order: irreflexive and transitive. -/
structure StrictPartial {α : Type _} (r : α → α → Bool) : Prop where
  irrefl : ∀ a, r a a = false
  trans : ∀ a b c, r a b = true → r b c = true → r a c = true

/-- `kept` are `k` best elements of `all` (or all of them if there are fewer): they are taken from
`all` without repetition (`rest` is what is left), and nothing left out is better than anything
kept. -/
def KBest {α : Type _} (lt : α → α → Bool) (k : Nat) (all kept : List α) : Prop :=
  ∃ rest, (kept ++ rest).Perm all ∧ kept.length = min k all.length ∧
    ∀ x ∈ kept, ∀ y ∈ rest, lt x y = false

/-- `l` is ordered best first. -/
def BestFirst {α : Type _} (lt : α → α → Bool) (l : List α) : Prop :=
  l.Pairwise (fun a b => lt a b = false)

end Leap.Spec
