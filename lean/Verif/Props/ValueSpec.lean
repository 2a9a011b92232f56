import Verif.Model.EvoRun
import Verif.Model.AsyncRun
import Verif.Model.SyncRun

/-!
# Runs over plain values (specification of C132)

What the algorithms would do if individuals were values that cannot be changed, and not objects in a memory that may be shared: every operator
takes values and gives new ones. There are no addresses, no arrays to write to, and it has no meaning to ask whether an individual was copied. All
that is left of the memory is the source of identities and the random source.
-/

namespace Leap

namespace Spec
end Spec

open Spec

section
variable {γ ψ φ ρ : Type}

/-- An individual as a value. -/
structure Spec.Val (γ φ : Type) where
  genes : List γ
  fitness : Option φ
  uuid : Nat
  parents : List Nat
  problem : Nat
  viable : Option Bool
  exception : Option PyErr
deriving DecidableEq, Repr

/-- What is left of the memory. -/
structure Spec.Luck (ρ : Type) where
  nextUuid : Nat
  rng : ρ
deriving DecidableEq, Repr

/-- A new identity. -/
def Spec.newUuid : HM (Luck ρ) Nat := fun w => (.ok w.nextUuid, { w with nextUuid := w.nextUuid + 1 })

/-- Use the random source. -/
def Spec.draw {α : Type} (f : ρ → PyM α × ρ) : HM (Luck ρ) α := fun w => ((f w.rng).1, { w with rng := (f w.rng).2 })

/-! ### Operators -/

/-- New individuals with random genes. -/
def Spec.newborns (initGenome : ρ → PyM (List γ) × ρ) (problem : Nat) : Nat → HM (Luck ρ) (List (Val γ φ))
  | 0 => pure []
  | n + 1 => do
    let g ← draw initGenome
    let u ← newUuid
    let vs ← newborns initGenome problem n
    pure (⟨g, none, u, [], problem, none, none⟩ :: vs)

/-- A clone: the same genes, no fitness, a new identity, and the one cloned as its only parent. -/
def Spec.cloned (v : Val γ φ) : HM (Luck ρ) (Val γ φ) := do
  let u ← newUuid
  pure { v with fitness := none, uuid := u, parents := [v.uuid] }

/-- The fitness of these genes. -/
def Spec.scoreOf (dec : Dec γ ψ) (prob : Prob γ ψ φ ρ) (genes : List γ) : HM (Luck ρ) φ :=
  match dec with
  | .identity => draw (prob.evaluate (.raw genes))
  | .fn f => do
    let p ← HM.lift (f genes)
    draw (prob.evaluate (.value p))

/-- The individual with its fitness. -/
def Spec.scored (dec : Dec γ ψ) (prob : Prob γ ψ φ ρ) (v : Val γ φ) : HM (Luck ρ) (Val γ φ) := do
  let f ← scoreOf dec prob v.genes
  pure { v with fitness := some f }

/-- The same if an exception is written down and not raised. -/
def Spec.scoredAnyway (nan : φ) (dec : Dec γ ψ) (prob : Prob γ ψ φ ρ) (v : Val γ φ) : HM (Luck ρ) (Val γ φ) := fun w =>
  match scoreOf dec prob v.genes w with
  | (.ok f, w1) => (.ok { v with fitness := some f, viable := some true }, w1)
  | (.error e, w1) => (.ok { v with fitness := some nan, exception := some e, viable := some false }, w1)

/-- All of a list with their fitness. -/
def Spec.allScored (dec : Dec γ ψ) (prob : Prob γ ψ φ ρ) : List (Val γ φ) → HM (Luck ρ) (List (Val γ φ))
  | [] => pure []
  | v :: vs => do
    let v' ← scored dec prob v
    let vs' ← allScored dec prob vs
    pure (v' :: vs')

/-- Mutation: the genes the mutation function returns, and no fitness. -/
def Spec.mutatedVal (f : MutFn γ ρ) (v : Val γ φ) : HM (Luck ρ) (Val γ φ) := do
  let res ← draw fun s => (.ok (f v.genes s), (f v.genes s).rng)
  let new ← HM.lift res.result
  pure { v with genes := new.getD res.left, fitness := none }

/-- The genes of the two children. -/
def Spec.recombined (rec : Recombiner ρ) (a b : List γ) : HM (Luck ρ) (List γ × List γ) :=
  match rec with
  | .uniform mask => do
    let mk ← draw fun s => mask s (min a.length b.length)
    let fromA ← HM.lift (boolIndex a mk)
    let fromB ← HM.lift (boolIndex b mk)
    let a' ← HM.lift (boolAssign a mk fromB)
    let b' ← HM.lift (boolAssign b mk fromA)
    pure (a', b')
  | .nary k cuts => do
    let xs ← draw fun s => (.ok (cuts s a.length).1, (cuts s a.length).2)
    HM.lift (naryRecombine k xs a b)

/-- Crossover: recombined genes, the parents of both, no fitness. -/
def Spec.crossed (rec : Recombiner ρ) (a b : Val γ φ) : HM (Luck ρ) (Val γ φ × Val γ φ) := do
  let (ga, gb) ← recombined rec a.genes b.genes
  let ps := setUnion a.parents b.parents
  pure ({ a with genes := ga, parents := ps, fitness := none },
        { b with genes := gb, parents := setUnion b.parents ps, fitness := none })

/-! ### Pipelines -/

/-- A generator of values. -/
structure Spec.VIter (γ φ ρ : Type) where
  σ : Type
  init : σ
  next : HGen (Luck ρ) σ (Val γ φ)

/-- Selection: a member of the population, at the position picked. -/
def Spec.selected (pop : List (Val γ φ)) (pick : ρ → PyM Nat × ρ) : VIter γ φ ρ :=
  { σ := Unit, init := (),
    next := fun _ => do
      let i ← draw pick
      match pop[i]? with
      | none => HM.raise .indexError
      | some v => pure (v, ()) }

/-- What an operator makes of the end of its input: its own end, or a `RuntimeError`. -/
def Spec.endOf {α : Type} (stopOk : Bool) (x : HM (Luck ρ) α) : HM (Luck ρ) α := if stopOk then x else HM.pep479 x

/-- A pipeline operator as a generator. -/
def Spec.through (up : VIter γ φ ρ) : Stage γ ψ φ ρ → VIter γ φ ρ
  | .clone =>
    { σ := up.σ, init := up.init,
      next := fun s => HM.pep479 do
        let (v, s') ← up.next s
        let c ← cloned v
        pure (c, s') }
  | .mutate check stopOk f =>
    { σ := Bool × up.σ, init := (false, up.init),
      next := fun (started, s) => do
        HM.lift (if started then .ok () else check)
        let (v, s') ← endOf stopOk (up.next s)
        let v' ← HM.pep479 (mutatedVal f v)
        pure (v', (true, s')) }
  | .crossover skip rec =>
    { σ := Option (Val γ φ) × up.σ, init := (none, up.init),
      next := fun (pending, s) => HM.pep479 do
        match pending with
        | some b => pure (b, (none, s))
        | none =>
          let (a, s1) ← up.next s
          let (b, s2) ← up.next s1
          let sk ← draw fun x => (.ok (skip x).1, (skip x).2)
          if sk then pure (a, (some b, s2))
          else
            let (a', b') ← crossed rec a b
            pure (a', (some b', s2)) }
  | .evaluate dec prob =>
    { σ := up.σ, init := up.init,
      next := fun s => HM.pep479 do
        let (v, s') ← up.next s
        let v' ← scored dec prob v
        pure (v', s') }
  | .robustEvaluate nan dec prob =>
    { σ := up.σ, init := up.init,
      next := fun s => HM.pep479 do
        let (v, s') ← up.next s
        let v' ← scoredAnyway nan dec prob v
        pure (v', s') }

/-- A chain of operators. -/
def Spec.chained (src : VIter γ φ ρ) : List (Stage γ ψ φ ρ) → VIter γ φ ρ
  | [] => src
  | st :: rest => chained (through src st) rest

/-- `size` individuals out of `select, clone, stages...`. -/
def Spec.offspringOf (pop : List (Val γ φ)) (pick : ρ → PyM Nat × ρ) (stages : List (Stage γ ψ φ ρ)) (size : Nat) : HM (Luck ρ) (List (Val γ φ)) := do
  let it := chained (selected pop pick) (Stage.clone :: stages)
  let (out, _) ← hpull it.next size it.init
  pure out

/-! ### Decisions

The selection operator, the stopping rule and the like are parameters of the algorithms that are shown a memory. Over values they are shown a memory in
which the individuals in question are laid out side by side, and nothing else is there. -/

/-- The individuals laid out in an empty memory, each with its own array and its own set: the one at position `i` at address `i`. -/
def Spec.laidOut (pop : List (Val γ φ)) (s : ρ) : Mem γ ψ φ ρ :=
  { arrays := pop.map (·.genes),
    sets := pop.map (·.parents),
    inds := pop.mapIdx fun i v =>
      { genome := i, fitness := v.fitness, phenome := none, uuid := v.uuid, parents := i, problem := v.problem, viable := v.viable, exception := v.exception },
    nextUuid := 0,
    rng := s }

/-- The individuals at these positions. -/
def Spec.atPositions (pop : List (Val γ φ)) (positions : List Nat) : List (Val γ φ) := positions.filterMap (pop[·]?)

/-! ### Runs -/

/-- The generations of `generational_ea`. -/
def Spec.valueLoop (cfg : EvoConfig γ ψ φ ρ) : Nat → Int → List (Val γ φ) → HM (Luck ρ) (List (Val γ φ))
  | 0, _, parents => pure parents
  | fuel + 1, g, parents => fun w =>
    if cfg.stop g (List.range parents.length) (laidOut parents w.rng) then (.ok parents, w)
    else
      (do
        let offspring ← offspringOf parents (fun s => cfg.choose g (List.range parents.length) (laidOut parents s)) cfg.stages cfg.size
        valueLoop cfg fuel (g + 1) (elitistSurvival (fun a b : Val γ φ => cfg.worse a.fitness b.fitness) offspring parents cfg.kElites).1) w

/-- `generational_ea`. -/
def Spec.valueRun (cfg : EvoConfig γ ψ φ ρ) (initGenome : ρ → PyM (List γ) × ρ) (dec : Dec γ ψ) (prob : Prob γ ψ φ ρ) (problem popSize : Nat)
    (start max : Int) : HM (Luck ρ) (List (Val γ φ)) := do
  let created ← newborns initGenome problem popSize
  let parents ← allScored dec prob created
  valueLoop cfg (max - start).toNat start parents

/-- The state of the asynchronous run. -/
structure Spec.ValState (γ φ : Type) where
  pending : List (Val γ φ)
  pop : List (Val γ φ)
  births : Int
  completed : List (Val γ φ)

/-- One round of the asynchronous run: the individual number `which` of those with a worker has been evaluated. -/
def Spec.valueStep (cfg : AsyncConfig γ ψ φ ρ) (which : Nat) (st : ValState γ φ) : HM (Luck ρ) (ValState γ φ) :=
  match st.pending[which % st.pending.length]? with
  | none => HM.lift (.error .stopAsync)
  | some v => do
    let x ← scoredAnyway cfg.nan cfg.dec cfg.prob v
    let births := if !isViable x.viable && !cfg.countNonviable then st.births - 1 else st.births
    let pending := st.pending.eraseIdx (which % st.pending.length)
    let n := st.pop.length
    let kept ← draw fun s => cfg.insert n (List.range n) (laidOut (st.pop ++ [x]) s)
    let pop := atPositions (st.pop ++ [x]) kept
    if births < cfg.maxBirths then do
      let offspring ← offspringOf pop (fun s => cfg.choose (List.range pop.length) (laidOut pop s)) cfg.stages cfg.size
      pure ⟨pending ++ offspring, pop, births + offspring.length, st.completed ++ [x]⟩
    else pure ⟨pending, pop, births, st.completed ++ [x]⟩

/-- The rounds of the asynchronous run. -/
def Spec.valueRounds (cfg : AsyncConfig γ ψ φ ρ) : List Nat → ValState γ φ → HM (Luck ρ) (ValState γ φ)
  | [], st => pure st
  | c :: cs, st => if st.pending.isEmpty then pure st else valueStep cfg c st >>= valueRounds cfg cs

/-- `steady_state` of `leap_ec.distrib.asynchronous`. -/
def Spec.valueSteady (cfg : AsyncConfig γ ψ φ ρ) (initGenome : ρ → PyM (List γ) × ρ) (problem initSize : Nat) (rounds : List Nat) :
    HM (Luck ρ) (ValState γ φ) := do
  let created ← newborns initGenome problem initSize
  valueRounds cfg rounds ⟨created, [], 0, []⟩

/-- The evaluation of the individual at one place on a worker, with the random numbers of this process or with the worker's own. -/
def Spec.workerScored (nan : φ) (dec : Dec γ ψ) (prob : Prob γ ψ φ ρ) (own : Option ρ) (v : Val γ φ) : HM (Luck ρ) (Val γ φ) := fun w =>
  match own with
  | none => scoredAnyway nan dec prob v w
  | some s =>
    match scoredAnyway nan dec prob v { w with rng := s } with
    | (x, w1) => (x, { w1 with rng := w.rng })

/-- The evaluations of a population in this order. -/
def Spec.valueComplete (nan : φ) (dec : Dec γ ψ) (prob : Prob γ ψ φ ρ) (own : Nat → Option ρ) : List Nat → List (Val γ φ) → HM (Luck ρ) (List (Val γ φ))
  | [], pop => pure pop
  | i :: is, pop =>
    match pop[i]? with
    | none => valueComplete nan dec prob own is pop
    | some v => do
      let v' ← workerScored nan dec prob (own i) v
      valueComplete nan dec prob own is (pop.set i v')

/-- Survival: the best of the parents join the offspring, and the best of these stay. -/
def Spec.valueSurvival (cfg : SyncConfig γ ψ φ ρ) (offspring parents : List (Val γ φ)) : HM (Luck ρ) (List (Val γ φ)) := do
  let elite ← draw fun s => (.ok (cfg.best cfg.kElites (List.range parents.length) (laidOut parents s)).1,
    (cfg.best cfg.kElites (List.range parents.length) (laidOut parents s)).2)
  let all := offspring ++ atPositions parents elite
  let stay ← draw fun s => (.ok (cfg.best offspring.length (List.range all.length) (laidOut all s)).1,
    (cfg.best offspring.length (List.range all.length) (laidOut all s)).2)
  pure (atPositions all stay)

/-- The generations of the synchronous distributed run. -/
def Spec.valueSyncLoop (cfg : SyncConfig γ ψ φ ρ) (order : Int → List Nat) (own : Int → Nat → Option ρ) :
    Nat → Int → List (Val γ φ) → HM (Luck ρ) (List (Val γ φ))
  | 0, _, parents => pure parents
  | fuel + 1, g, parents => fun w =>
    if cfg.stop g (List.range parents.length) (laidOut parents w.rng) then (.ok parents, w)
    else
      (do
        let pulled ← offspringOf parents (fun s => cfg.choose g (List.range parents.length) (laidOut parents s)) cfg.stages cfg.size
        let offspring ← valueComplete cfg.nan cfg.dec cfg.prob (own g) (order g) pulled
        let survivors ← valueSurvival cfg offspring parents
        valueSyncLoop cfg order own fuel (g + 1) survivors) w

/-- The synchronous distributed run. -/
def Spec.valueSync (cfg : SyncConfig γ ψ φ ρ) (initGenome : ρ → PyM (List γ) × ρ) (problem popSize generations : Nat) (order : Int → List Nat)
    (own : Int → Nat → Option ρ) : HM (Luck ρ) (List (Val γ φ)) := do
  let created ← newborns initGenome problem popSize
  let parents ← valueComplete cfg.nan cfg.dec cfg.prob (own (-1)) (order (-1)) created
  valueSyncLoop cfg order own generations 0 parents

/-! ### Doing the same -/

/-- Everything there is to see of an individual in memory. -/
def Spec.valueAt (m : Mem γ ψ φ ρ) (r : Nat) : Option (Val γ φ) := do
  let o ← m.inds[r]?
  let g ← m.arrays[o.genome]?
  let p ← m.sets[o.parents]?
  pure ⟨g, o.fitness, o.uuid, p, o.problem, o.viable, o.exception⟩

/-- From any memory, a program over memory does what a program over values does with the same source of identities and random source: it returns what is
seen in the end to be the value, or raises the same exception, and leaves the two sources alike. -/
def Spec.DoesAs {α β : Type} (run : HM (Mem γ ψ φ ρ) α) (values : HM (Luck ρ) β) (seen : Mem γ ψ φ ρ → α → β → Prop) : Prop :=
  ∀ m, match run m, values ⟨m.nextUuid, m.rng⟩ with
    | (.ok a, m1), (.ok b, w) => seen m1 a b ∧ w = ⟨m1.nextUuid, m1.rng⟩
    | (.error e, m1), (.error e', w) => e = e' ∧ w = ⟨m1.nextUuid, m1.rng⟩
    | _, _ => False

end

end Leap
