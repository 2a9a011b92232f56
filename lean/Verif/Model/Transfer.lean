import Verif.Py.Basic

/-!
# Seeding populations from past problems

Models `leap_ec/contrib/transfer/sequential.py` (not the CSV files). `W` is what fresh initialisation reads and changes
(the random generator).
-/

namespace Leap

/-- One call of the closure made by `initialize_seeded` (leap_ec/contrib/transfer/sequential.py:104-131); the state is the
counter `i` and the world. -/
def seededCreate (init : W → PyM (G × W)) (seedPop : List G) (s : Nat × W) : PyM (G × (Nat × W)) :=
  match seedPop[s.1]? with
  | some ind => .ok (ind, (s.1 + 1, s.2))
  | none => do
    let (g, w) ← init s.2
    .ok (g, (s.1, w))

/-- `[init() for _ in range(n)]`. For leap_ec/contrib/transfer/sequential.py:97-101. -/
def seededCreates (init : W → PyM (G × W)) (seedPop : List G) : Nat → Nat × W → PyM (List G × (Nat × W))
  | 0, s => .ok ([], s)
  | n + 1, s => do
    let (g, s) ← seededCreate init seedPop s
    let (gs, s) ← seededCreates init seedPop n s
    .ok (g :: gs, s)

/-- The loop appending the last individual of each run (leap_ec/contrib/transfer/sequential.py:88-90). The repertoire is
given also when it raises: earlier results have then been appended. -/
def appendLast : List (List (Nat × G)) → List G → PyM Unit × List G
  | [], repertoire => (.ok (), repertoire)
  | r :: rs, repertoire =>
    match r.getLast? with
    | none => (.error .indexError, repertoire)
    | some (_, last) => appendLast rs (repertoire ++ [last])

/-- `results = [list(algorithm(p, init, **kwargs)) ...]` (leap_ec/contrib/transfer/sequential.py:79-86): each run
yields (step, genome of the best) pairs, or raises. -/
def trainAll (algorithm : P → K → PyM (List (Nat × G))) : List (P × K) → PyM (List (List (Nat × G)))
  | [] => .ok []
  | (p, k) :: ps => do
    let r ← algorithm p k
    let rs ← trainAll algorithm ps
    .ok (r :: rs)

/-- `build_repertoire` (leap_ec/contrib/transfer/sequential.py:69-90). `none` keyword arguments stand for empty ones
everywhere. -/
def buildRepertoire (algorithm : P → K → PyM (List (Nat × G))) (empty : K) (problems : List P) (kwargs : Option (List K))
    (repertoire : List G) : PyM Unit × List G :=
  match kwargs with
  | some ks =>
    if ks.length = problems.length then
      match trainAll algorithm (problems.zip ks) with
      | .error e => (.error e, repertoire)
      | .ok results => appendLast results repertoire
    else (.error .assertionError, repertoire)
  | none =>
    match trainAll algorithm (problems.map fun p => (p, empty)) with
    | .error e => (.error e, repertoire)
    | .ok results => appendLast results repertoire

/-- `apply` (leap_ec/contrib/transfer/sequential.py:97-101), as far as the initial population of `n` individuals goes: a
new counter, over the repertoire. -/
def applyRepertoire (init : W → PyM (G × W)) (repertoire : List G) (n : Nat) (w : W) : PyM (List G × (Nat × W)) :=
  seededCreates init repertoire n (0, w)

end Leap
