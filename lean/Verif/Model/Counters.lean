import Verif.Py.Gen

/-!
# Counters and identifiers (leap_ec/util.py)
-/

namespace Leap

/-- The part of `context['leap']` that the counters and algorithms use: `none` = key absent. For leap_ec/util.py:104-149. -/
structure LeapCtx where
  generation : Option Int := none
  births : Option Int := none
  currentSubpopulation : Option Nat := none
deriving DecidableEq

/-! ### inc_generation -/

/-- State of an `inc_generation` closure together with the context it writes and the log of callback
calls (callback number, argument). For leap_ec/util.py:104-149. -/
structure GenCounter where
  curr : Int
  ctx : LeapCtx
  calls : List (Nat × Int)

/-- `inc_generation(start_generation, context, callbacks)` (leap_ec/util.py:104-149). -/
def incGeneration (start : Int) (ctx : LeapCtx) : GenCounter :=
  ⟨start, { ctx with generation := some start }, []⟩

/-- The `for f in callbacks: f(value)` loop (leap_ec/util.py:142-143, 215-216): callbacks are numbered; the
model records the calls. -/
def runCallbacks (numCallbacks : Nat) (value : Int) (calls : List (Nat × Int)) : List (Nat × Int) :=
  (List.range numCallbacks).foldl (fun l i => l ++ [(i, value)]) calls

/-- `do_increment()` (leap_ec/util.py:131-145): the returned value and the new state. Simplification:
callbacks do not raise and do not write to the context. -/
def GenCounter.increment (numCallbacks : Nat) (c : GenCounter) : Int × GenCounter :=
  let curr := c.curr + 1
  let ctx := { c.ctx with generation := some curr }
  (curr, ⟨curr, ctx, runCallbacks numCallbacks curr c.calls⟩)

/-- `generation()` (leap_ec/util.py:128-129). -/
def GenCounter.generation (c : GenCounter) : Int := c.curr

/-- What can happen to a generation counter: it is called, or some other code overwrites the context
entry. For leap_ec/util.py:128-149. -/
inductive GenEvent where
  | call
  | overwrite (v : Option Int)

/-- Run a history; returns the values returned by the calls. For leap_ec/util.py:128-149. -/
def GenCounter.run (n : Nat) : GenCounter → List GenEvent → List Int × GenCounter
  | c, [] => ([], c)
  | c, .call :: es =>
    let (v, c) := c.increment n
    let (vs, c) := GenCounter.run n c es
    (v :: vs, c)
  | c, .overwrite v :: es =>
    GenCounter.run n { c with ctx := { c.ctx with generation := v } } es

/-! ### inc_births -/

/-- State of an `inc_births` closure, with the context and the callback log. For leap_ec/util.py:155-237. -/
structure BirthCounter where
  curr : Int
  ctx : LeapCtx
  calls : List (Nat × Int)

/-- `inc_births(context, start, callbacks)` (leap_ec/util.py:155-237). -/
def incBirths (start : Int) (ctx : LeapCtx) : BirthCounter :=
  ⟨start, { ctx with births := some start }, []⟩

/-- `do_increment(size)` (leap_ec/util.py:204-218). If the context entry was removed the `+=` raises
`KeyError` (after `curr_births` has changed). -/
def BirthCounter.increment (numCallbacks : Nat) (size : Int) (c : BirthCounter) :
    PyM Int × BirthCounter :=
  let curr := c.curr + size
  match c.ctx.births with
  | none => (.error .keyError, { c with curr := curr })
  | some b =>
    (.ok curr, ⟨curr, { c.ctx with births := some (b + size) }, runCallbacks numCallbacks curr c.calls⟩)

/-- `do_decrement()` (leap_ec/util.py:220-231). -/
def BirthCounter.decrement (c : BirthCounter) : PyM Int × BirthCounter :=
  let curr := c.curr - 1
  match c.ctx.births with
  | none => (.error .keyError, { c with curr := curr })
  | some b => (.ok curr, { c with curr := curr, ctx := { c.ctx with births := some (b - 1) } })

/-- `births()` (leap_ec/util.py:201-202). -/
def BirthCounter.births (c : BirthCounter) : Int := c.curr

/-- A call on a birth counter. For leap_ec/util.py:201-237. -/
inductive BirthEvent where
  | inc (size : Int)
  | dec

/-- One call. For leap_ec/util.py:201-237. -/
def BirthCounter.step (n : Nat) (c : BirthCounter) : BirthEvent → PyM Int × BirthCounter
  | .inc size => c.increment n size
  | .dec => c.decrement

/-- A history of calls: results in order and final state. For leap_ec/util.py:201-237. -/
def BirthCounter.run (n : Nat) : BirthCounter → List BirthEvent → List (PyM Int) × BirthCounter
  | c, [] => ([], c)
  | c, e :: es =>
    let (r, c) := c.step n e
    let (rs, c) := BirthCounter.run n c es
    (r :: rs, c)

/-! ### get_step -/

/-- `get_step(context, use_generation, use_births)` (leap_ec/util.py:242-270). `ctx = none`: no `'leap'` key. The
result `none` is Python's `None`, returned when neither flag is true in the end. -/
def getStep (ctx : Option LeapCtx) (useGeneration useBirths : Option Bool) : PyM (Option Int) :=
  match ctx with
  | none => .error .assertionError
  | some c =>
    let chosen : PyM (Option Bool × Option Bool) :=
      match useGeneration, useBirths with
      | none, none =>
        if c.generation.isSome || c.births.isSome then
          .ok (some c.generation.isSome, some c.births.isSome)
        else .error .assertionError
      | g, b =>
        if g = some true ∧ c.generation = none then .error .assertionError
        else if b = some true ∧ c.births = none then .error .assertionError
        else .ok (g, b)
    match chosen with
    | .error e => .error e
    | .ok (g, b) =>
      if g ≠ b then
        if g = some true then
          match c.generation with
          | some v => .ok (some v)
          | none => .error .keyError
        else if b = some true then
          match c.births with
          | some v => .ok (some v)
          | none => .error .keyError
        else .ok none
      else .error .assertionError

/-! ### birth_brander -/

/-- What an iterator in `birth_brander` can produce: an individual (by object number) or, when an
individual itself was iterated (leap_ec/individual.py:191-196), one of its genes. -/
inductive Thing where
  | ind (id : Nat)
  | gene
deriving DecidableEq

/-- Objects and the closure state of one `birth_brander()` (leap_ec/util.py:326-331): for each individual
its `birth` attribute (`none` = absent) and genome length; the next number of
`itertools.count()`; the shared `iterator`. -/
structure BrandState where
  inds : List (Option Nat × Nat)
  next : Nat
  iterator : Option (List Thing)
deriving DecidableEq

/-- `brand(individual)` (leap_ec/util.py:333-341). Setting an attribute on a gene (a numpy scalar) raises
`AttributeError` after a number was taken. An unknown object is a `KeyError` (it cannot occur). -/
def brand (t : Thing) (s : BrandState) : PyM Unit × BrandState :=
  match t with
  | .gene => (.error .attributeError, { s with next := s.next + 1 })
  | .ind i =>
    match s.inds[i]? with
    | none => (.error .keyError, s)
    | some (some _, _) => (.ok (), s)
    | some (none, len) =>
      (.ok (), { s with inds := s.inds.set i (some s.next, len), next := s.next + 1 })

/-- `brand_population(population)` (leap_ec/util.py:343-351). -/
def brandPopulation : List Nat → BrandState → PyM Unit × BrandState
  | [], s => (.ok (), s)
  | i :: is, s =>
    match brand (.ind i) s with
    | (.error e, s) => (.error e, s)
    | (.ok _, s) => brandPopulation is s

/-- The local variable `next_thing` of `do_birth_branding`: a generator (what it will still yield), a
list, or the individual handled last. For leap_ec/util.py:371. -/
inductive NextThing where
  | generator (rest : List Nat)
  | population (l : List Nat)
  | ind (id : Nat)
deriving DecidableEq

/-- `iter(next_thing)` (leap_ec/util.py:371). -/
def iterOf (n : NextThing) (s : BrandState) : List Thing :=
  match n with
  | .generator rest => rest.map .ind
  | .population l => l.map .ind
  | .ind i =>
    match s.inds[i]? with
    | some (_, len) => List.replicate len .gene
    | none => []

/-- One resumption of `do_birth_branding` (leap_ec/util.py:364-376). -/
def brandingStep (n : NextThing) (s : BrandState) : PyM Nat × NextThing × BrandState :=
  let taken : PyM (Thing × BrandState) :=
    match n with
    | .generator [] => .error .runtimeError
    | .generator (i :: _) => .ok (.ind i, s)
    | n =>
      let it := match s.iterator with
        | none => iterOf n s
        | some it => it
      match it with
      | [] => .error .runtimeError
      | t :: ts => .ok (t, { s with iterator := some ts })
  match taken with
  | .error e =>
    -- the iterator variable is set even if it turns out to be exhausted
    (.error e, n, match n with
      | .generator _ => s
      | n => match s.iterator with
        | none => { s with iterator := some (iterOf n s) }
        | some _ => s)
  | .ok (t, s) =>
    match t, brand t s with
    | .ind i, (.ok _, s) => (.ok i, .ind i, s)
    | _, (.error e, s) => (.error e, n, s)
    | .gene, (.ok _, s) => (.error .attributeError, n, s)

/-- Resume the generator `k` times. For leap_ec/util.py:353-379. -/
def brandingRun : Nat → NextThing → BrandState → List (PyM Nat) × NextThing × BrandState
  | 0, n, s => ([], n, s)
  | k + 1, n, s =>
    let (r, n, s) := brandingStep n s
    let (rs, n, s) := brandingRun k n s
    (r :: rs, n, s)

/-- What can happen to the individuals around one brander. For leap_ec/util.py:303-383. -/
inductive BrandEvent where
  /-- a new individual is constructed (leap_ec/individual.py:27-75): no `birth` attribute -/
  | create (len : Nat)
  /-- `clone()` (leap_ec/individual.py:118-151) copies all attributes, including `birth` -/
  | clone (i : Nat)
  /-- an individual passes the brander -/
  | brand (i : Nat)

/-- Effect of an event. For leap_ec/util.py:303-383. -/
def BrandState.event (s : BrandState) : BrandEvent → BrandState
  | .create len => { s with inds := s.inds ++ [(none, len)] }
  | .clone i =>
    match s.inds[i]? with
    | some x => { s with inds := s.inds ++ [x] }
    | none => s
  | .brand i => (Leap.brand (.ind i) s).2

/-- Effect of a history, from a fresh brander and no individuals. For leap_ec/util.py:303-383. -/
def BrandState.history (es : List BrandEvent) : BrandState :=
  es.foldl BrandState.event ⟨[], 0, none⟩

end Leap
