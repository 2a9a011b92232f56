import Verif.Py.Order

/-!
# `heapq.nlargest` as it is written

`Verif/Py/Order.lean` takes `heapq.nlargest` by its documentation, as a stable sort. Here it is modelled by its code (Lib/heapq.py of CPython),
because the documentation only holds when `==` and `<` fit together. LEAP's individuals compare with `<` (which may toss a coin) and with `==`
(which has a tolerance), and `nlargest` uses both: it compares pairs of an element and a running number. The comparison is given
a state `σ`, for the coins.
-/

namespace Leap

variable {α β σ : Type}

/-- A call of `a < b`. Python, not LEAP: used for instance in leap_ec/individual.py:16. -/
abbrev Ask (β σ : Type) := β → β → σ → Bool × σ

/-- The loop of `_siftdown(heap, startpos, pos)` (Lib/heapq.py): move `newitem` towards the root while it is less than its parent.
Python, not LEAP: used for instance in leap_ec/ops.py:812-823. -/
def siftDown (lt : Ask β σ) (start : Nat) (newitem : β) : Nat → List β → Nat → σ → List β × σ
  | 0, h, pos, s => (h.set pos newitem, s)
  | fuel + 1, h, pos, s =>
    if start < pos then
      match h[(pos - 1) / 2]? with
      | none => (h.set pos newitem, s)
      | some parent =>
        if (lt newitem parent s).1 then siftDown lt start newitem fuel (h.set pos parent) ((pos - 1) / 2) (lt newitem parent s).2
        else (h.set pos newitem, (lt newitem parent s).2)
    else (h.set pos newitem, s)

/-- The smaller child of `pos`, if there is a choice (Lib/heapq.py, `_siftup`): the right one unless the left one is less.
Python, not LEAP: used for instance in leap_ec/ops.py:812-823. -/
def smallerChild (lt : Ask β σ) (h : List β) (pos : Nat) (s : σ) : Nat × σ :=
  match h[2 * pos + 1]?, h[2 * pos + 2]? with
  | some l, some r => (if (lt l r s).1 then 2 * pos + 1 else 2 * pos + 2, (lt l r s).2)
  | _, _ => (2 * pos + 1, s)

/-- The loop of `_siftup(heap, pos)` (Lib/heapq.py): bubble up the smaller child until hitting a leaf.
Python, not LEAP: used for instance in leap_ec/ops.py:812-823. -/
def siftToLeaf (lt : Ask β σ) : Nat → List β → Nat → σ → List β × Nat × σ
  | 0, h, pos, s => (h, pos, s)
  | fuel + 1, h, pos, s =>
    match h[(smallerChild lt h pos s).1]? with
    | none => (h, pos, s)
    | some c => siftToLeaf lt fuel (h.set pos c) (smallerChild lt h pos s).1 (smallerChild lt h pos s).2

/-- `_siftup(heap, pos)` (Lib/heapq.py). Python, not LEAP: used for instance in leap_ec/ops.py:812-823. -/
def siftUp (lt : Ask β σ) (h : List β) (pos : Nat) (s : σ) : List β × σ :=
  match h[pos]? with
  | none => (h, s)
  | some newitem =>
    match siftToLeaf lt h.length h pos s with
    | (h1, leaf, s1) => siftDown lt pos newitem h1.length h1 leaf s1

/-- `for i in reversed(range(k)): _siftup(x, i)` (Lib/heapq.py). Python, not LEAP: used for instance in leap_ec/ops.py:812-823. -/
def heapifyFrom (lt : Ask β σ) : Nat → List β → σ → List β × σ
  | 0, h, s => (h, s)
  | k + 1, h, s => heapifyFrom lt k (siftUp lt h k s).1 (siftUp lt h k s).2

/-- `heapify(x)` (Lib/heapq.py). Python, not LEAP: used for instance in leap_ec/ops.py:812-823. -/
def heapify (lt : Ask β σ) (h : List β) (s : σ) : List β × σ := heapifyFrom lt (h.length / 2) h s

/-- `heapreplace(heap, item)` (Lib/heapq.py), without the item it returns.
Python, not LEAP: used for instance in leap_ec/ops.py:812-823. -/
def heapReplace (lt : Ask β σ) (h : List β) (item : β) (s : σ) : List β × σ := siftUp lt (h.set 0 item) 0 s

/-- One step of `sort(reverse=True)`: put `x` behind everything before it that is not less.
Python, not LEAP: used for instance in leap_ec/ops.py:812-823. -/
def putDesc (lt : Ask β σ) (x : β) : List β → σ → List β × σ
  | [], s => ([x], s)
  | z :: l, s =>
    if (lt z x s).1 then (x :: z :: l, (lt z x s).2)
    else (z :: (putDesc lt x l (lt z x s).2).1, (putDesc lt x l (lt z x s).2).2)

/-- `sort(reverse=True)`. Simplification: as an insertion sort, which is stable like Python's; which pairs are compared can only make a
difference when comparisons do not fit together. Python, not LEAP: used for instance in leap_ec/ops.py:812-823. -/
def sortDescFrom (lt : Ask β σ) : List β → List β → σ → List β × σ
  | acc, [], s => (acc, s)
  | acc, x :: xs, s => sortDescFrom lt (putDesc lt x acc s).1 xs (putDesc lt x acc s).2

/-- `a > b` as `functools.total_ordering` derives it: `not a < b and a != b` (leap_ec/individual.py:16). -/
def askGt (lt : Ask α σ) (eq : α → α → Bool) : Ask α σ := fun a b s => (!(lt a b s).1 && !eq a b, (lt a b s).2)

/-- Python's `max`. Python, not LEAP: used for instance in leap_ec/ops.py:812-823. -/
def maxAsk (gt : Ask α σ) : α → List α → σ → α × σ
  | x, [], s => (x, s)
  | x, y :: ys, s => maxAsk gt (if (gt y x s).1 then y else x) ys (gt y x s).2

/-- `(a, i) < (b, j)` on Python tuples: the first entries decide unless they are equal, which for tuples includes being the same object.
Python, not LEAP: used for instance in leap_ec/ops.py:812-823. -/
def tupleLt (lt : Ask α σ) (eq same : α → α → Bool) : Ask (α × Int) σ := fun a b s =>
  if same a.1 b.1 || eq a.1 b.1 then (decide (a.2 < b.2), s) else lt a.1 b.1 s

/-- The loop of `nlargest` over the rest of the elements (Lib/heapq.py).
Python, not LEAP: used for instance in leap_ec/ops.py:812-823. -/
def nlargestLoop (lt : Ask α σ) (eq same : α → α → Bool) : List (α × Int) → Int → List α → σ → List (α × Int) × σ
  | heap, _, [], s => (heap, s)
  | heap, order, x :: xs, s =>
    match heap with
    | [] => (heap, s)
    | top :: _ =>
      if (lt top.1 x s).1 then
        nlargestLoop lt eq same (heapReplace (tupleLt lt eq same) heap (x, order) (lt top.1 x s).2).1 (order - 1) xs
          (heapReplace (tupleLt lt eq same) heap (x, order) (lt top.1 x s).2).2
      else nlargestLoop lt eq same heap order xs (lt top.1 x s).2

/-- `[(elem, i) for i, elem in zip(range(0, -n, -1), it)]` from number `i` on.
Python, not LEAP: used for instance in leap_ec/ops.py:812-823. -/
def numbered : Int → List α → List (α × Int)
  | _, [] => []
  | i, x :: xs => (x, i) :: numbered (i - 1) xs

/-- `heapq.nlargest(n, xs)` without a key (Lib/heapq.py), for which `toolz.topk` is another name. `hasLen` says whether `len(xs)` works: it
does for a list and does not for the chain that `truncation_selection` passes (leap_ec/ops.py:812-823). With a `key`, the entries are
`(key, number, element)`; the numbers differ, so only keys are compared: take `lt` and `eq` to be those of the keys. -/
def nlargest (lt : Ask α σ) (eq same : α → α → Bool) (hasLen : Bool) (n : Nat) (xs : List α) (s : σ) : List α × σ :=
  if n = 1 then
    match xs with
    | [] => ([], s)
    | x :: rest => ([(maxAsk (askGt lt eq) x rest s).1], (maxAsk (askGt lt eq) x rest s).2)
  else if hasLen && decide (xs.length ≤ n) then
    (((sortDescFrom lt [] xs s).1).take n, (sortDescFrom lt [] xs s).2)
  else
    match numbered 0 (xs.take n) with
    | [] => ([], s)
    | result =>
      let h := heapify (tupleLt lt eq same) result s
      let l := nlargestLoop lt eq same h.1 (-(n : Int)) (xs.drop n) h.2
      let r := sortDescFrom (tupleLt lt eq same) [] l.1 l.2
      (r.1.map Prod.fst, r.2)

end Leap
