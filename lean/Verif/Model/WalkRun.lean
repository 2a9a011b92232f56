import Verif.Model.Pipeline

/-!
# `random_search` over the object memory

The walk of `Model/Algorithm.lean` for the pipelines of `Model/Pipeline.lean`: every individual is an object in memory, and the returned
trajectory is the list of all of them.
-/

namespace Leap

variable {γ ψ φ ρ : Type}

/-- The `while` loop of `random_search` (leap_ec/algorithm.py:360-374), with `fuel` evaluations to go at evaluation `g`; `choose` is the selection operator at the head of the
pipeline and `size` the argument of `pool` at its end. -/
def walkLoop (choose : Int → List Nat → Mem γ ψ φ ρ → PyM Nat × ρ) (stages : List (Stage γ ψ φ ρ)) (size : Nat) :
    Nat → Int → Nat → List Nat → HM (Mem γ ψ φ ρ) (List Nat)
  | 0, _, _, trajectory => pure trajectory
  | fuel + 1, g, individual, trajectory => fun m =>
    match runPipeline [individual] (choose g [individual]) stages size m with
    | (.error e, m1) => (.error e, m1)
    | (.ok [], m1) => (.error .indexError, m1)
    | (.ok (next :: more), m1) => walkLoop choose stages size fuel (g + 1) next (trajectory ++ next :: more) m1

/-- `random_search` (leap_ec/algorithm.py:298-377). `representation.create_individual` is what `create_population` calls once per individual, so a population of one is made;
the counter starts at 1 whatever `evaluations` is. -/
def walkRun (choose : Int → List Nat → Mem γ ψ φ ρ → PyM Nat × ρ) (stages : List (Stage γ ψ φ ρ)) (size : Nat)
    (initGenome : ρ → PyM (List γ) × ρ) (dec : Dec γ ψ) (prob : Prob γ ψ φ ρ) (problem : Nat) (evaluations : Int) : HM (Mem γ ψ φ ρ) (List Nat) := do
  let first ← createPopulation initGenome problem 1
  evaluatePopulation dec prob first
  walkLoop choose stages size (evaluations - 1).toNat 1 (first.headD 0) first

end Leap
