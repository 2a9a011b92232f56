import Verif.Lemmas.Shift
import Verif.Model.IslandRun
import Verif.Model.AsyncRun
import Verif.Props.EvoRun
import Verif.Props.IslandRun
import Verif.Props.AsyncRun

/-!
# C109: runs do not depend on what happened before in the same process

A process usually makes many runs. The objects of earlier runs are still in memory. Here it is shown that they make no difference, for the
whole algorithms over memory, and that a run leaves them alone even if it ends with an exception.
-/

namespace Leap

open Spec

/-! ### Specification -/

section
variable {γ ψ φ ρ : Type}

/-- What there is to see of an individual: genes, fitness, viability. Not its identity. -/
def Spec.looks (m : Mem γ ψ φ ρ) (r : Nat) : Option (List γ) × Option (Option φ) × Option Bool := (genes m r, fitness m r, (m.inds[r]?).bind Obj.viable)

/-- A decision about a population that looks at nothing but its members' genes, fitness and viability, in order, and the random source. -/
def Spec.ByAppearance {β : Type} (choose : List Nat → Mem γ ψ φ ρ → β) : Prop :=
  ∀ pop1 m1 pop2 m2, m1.rng = m2.rng → pop1.map (looks m1) = pop2.map (looks m2) → choose pop1 m1 = choose pop2 m2

/-- The same for several populations. -/
def Spec.AllByAppearance {β : Type} (choose : List (List Nat) → Mem γ ψ φ ρ → β) : Prop :=
  ∀ pops1 m1 pops2 m2, m1.rng = m2.rng → pops1.map (·.map (looks m1)) = pops2.map (·.map (looks m2)) → choose pops1 m1 = choose pops2 m2

/-- From two memories with the same random state, and whatever else in them, the run returns populations that look the same, or raises the same exception. The random
state is the same afterwards. -/
def Spec.RunsAlike {α V : Type} (run : HM (Mem γ ψ φ ρ) α) (view : Mem γ ψ φ ρ → α → V) : Prop :=
  ∀ m1 m2, m1.rng = m2.rng →
    match run m1, run m2 with
    | (.ok a1, n1), (.ok a2, n2) => view n1 a1 = view n2 a2 ∧ n1.rng = n2.rng
    | (.error e1, n1), (.error e2, n2) => e1 = e2 ∧ n1.rng = n2.rng
    | _, _ => False

/-- Whatever happens, nothing that existed before is changed. -/
def Spec.LeavesOlder {α : Type} (run : HM (Mem γ ψ φ ρ) α) : Prop := ∀ m, Unchanged m (run m).2

end

/-! ### From doing the same behind older objects -/

section
variable {γ ψ φ ρ α V : Type}

theorem looks_after (o m : Mem γ ψ φ ρ) (r : Nat) : looks (after o m) (r + o.inds.length) = looks m r := by
  simp only [looks, genes, fitness, after, getElem?_behind, List.getElem?_map]
  cases m.inds[r]? with
  | none => rfl
  | some x =>
    simp only [Option.map_some, shiftObj, getElem?_behind]
    rfl

theorem looks_map_after (o m : Mem γ ψ φ ρ) (pop : List Nat) : (pop.map (· + o.inds.length)).map (looks (after o m)) = pop.map (looks m) := by
  simp [Function.comp_def, looks_after]

theorem byAppearance_after {β : Type} {choose : List Nat → Mem γ ψ φ ρ → β} (h : ByAppearance choose) (o m : Mem γ ψ φ ρ) (pop : List Nat) :
    choose (pop.map (· + o.inds.length)) (after o m) = choose pop m := h _ _ _ _ rfl (looks_map_after o m pop)

/-- Memory with nothing in it. -/
def blank (s : ρ) : Mem γ ψ φ ρ := ⟨[], [], [], 0, s⟩

theorem after_blank (m : Mem γ ψ φ ρ) : after m (blank m.rng) = m := by
  simp [after, blank]

theorem run_alone (run : Nat → HM (Mem γ ψ φ ρ) α) (mv : Nat → α → α) (h : ∀ o, Same o (mv o.inds.length) (run 0) (run o.inds.length)) (m : Mem γ ψ φ ρ) :
    run m.inds.length m = (outcome (mv m.inds.length) (run 0 (blank m.rng)).1, after m (run 0 (blank m.rng)).2) := by
  have := h m (blank m.rng)
  rwa [after_blank] at this

theorem runsAlike_of_same (run : Nat → HM (Mem γ ψ φ ρ) α) (mv : Nat → α → α) (view : Mem γ ψ φ ρ → α → V)
    (h : ∀ o, Same o (mv o.inds.length) (run 0) (run o.inds.length)) (hv : ∀ o m a, view (after o m) (mv o.inds.length a) = view m a) :
    RunsAlike (fun m => run m.inds.length m) view := by
  intro m1 m2 hr
  simp only [run_alone run mv h, hr]
  rcases run 0 (blank m2.rng) with ⟨r, n⟩
  cases r with
  | error e => exact ⟨rfl, rfl⟩
  | ok a =>
    refine ⟨?_, rfl⟩
    rw [hv, hv]

theorem leavesOlder_of_same (run : Nat → HM (Mem γ ψ φ ρ) α) (mv : Nat → α → α)
    (h : ∀ o, Same o (mv o.inds.length) (run 0) (run o.inds.length)) : LeavesOlder fun m => run m.inds.length m := by
  intro m
  simp only [run_alone run mv h]
  exact ⟨fun r hr => List.getElem?_append_left hr, fun r hr => List.getElem?_append_left hr, fun r hr => List.getElem?_append_left hr⟩

end

/-! ### The generational algorithm -/

section
variable {γ ψ φ ρ : Type} {o : Mem γ ψ φ ρ}

theorem same_evoLoop (cfg : EvoConfig γ ψ φ ρ) (hc : ∀ g, ByAppearance (cfg.choose g)) (hs : ∀ g, ByAppearance (cfg.stop g)) (fuel : Nat) :
    ∀ g parents, Same o (·.map (· + o.inds.length)) (evoLoop cfg fuel g parents) (evoLoop cfg fuel g (parents.map (· + o.inds.length))) := by
  induction fuel with
  | zero => intro g parents; exact same_pure rfl
  | succ fuel ih =>
    intro g parents m
    unfold evoLoop
    simp only [byAppearance_after (hs g) o m parents]
    by_cases hst : cfg.stop g parents m = true
    · rw [if_pos hst, if_pos hst]; rfl
    · rw [if_neg hst, if_neg hst, same_runPipeline parents (fun m => byAppearance_after (hc g) o m parents) cfg.stages cfg.size m]
      rcases runPipeline parents (cfg.choose g parents) cfg.stages cfg.size m with ⟨r, m1⟩
      cases r with
      | error e => rfl
      | ok offspring =>
        simp only [outcome]
        rw [elitistSurvival_map (· + o.inds.length) (cfg.lt m1) (cfg.lt (after o m1)) (fun a b => by simp only [EvoConfig.lt, fitness_after])]
        exact ih _ _ m1

/-- **C109** (`generational_ea`). Two runs with the same settings from the same random state give populations that look the same, or raise the same exception, whatever
is in memory; and whatever was there before the run is unchanged, even if the run raises. -/
theorem evo_run_history_free (cfg : EvoConfig γ ψ φ ρ) (hc : ∀ g, ByAppearance (cfg.choose g)) (hs : ∀ g, ByAppearance (cfg.stop g))
    (initGenome : ρ → PyM (List γ) × ρ) (dec : Dec γ ψ) (prob : Prob γ ψ φ ρ) (problem popSize : Nat) (start max : Int) :
    RunsAlike (evoRun cfg initGenome dec prob problem popSize start max) (fun m out => out.map (looks m)) ∧
    LeavesOlder (evoRun cfg initGenome dec prob problem popSize start max) := by
  have h : ∀ o, Same o (·.map (· + o.inds.length)) (evoRun cfg initGenome dec prob problem popSize start max)
      (evoRun cfg initGenome dec prob problem popSize start max) := fun o =>
    same_bind (same_createPopulation initGenome problem popSize) fun ps => same_bind (same_evaluatePopulation dec prob ps) fun _ => same_evoLoop cfg hc hs _ _ ps
  exact ⟨runsAlike_of_same (fun _ => _) (fun k => List.map (· + k)) _ h (fun o m a => looks_map_after o m a), leavesOlder_of_same (fun _ => _) (fun k => List.map (· + k)) h⟩

/-! ### Random search -/

theorem same_walkLoop (choose : Int → List Nat → Mem γ ψ φ ρ → PyM Nat × ρ) (hc : ∀ g, ByAppearance (choose g)) (stages : List (Stage γ ψ φ ρ)) (size fuel : Nat) :
    ∀ g r traj, Same o (·.map (· + o.inds.length)) (walkLoop choose stages size fuel g r traj)
      (walkLoop choose stages size fuel g (r + o.inds.length) (traj.map (· + o.inds.length))) := by
  induction fuel with
  | zero => intro g r traj; exact same_pure rfl
  | succ fuel ih =>
    intro g r traj m
    unfold walkLoop
    have := same_runPipeline (o := o) [r] (fun m => byAppearance_after (hc g) o m [r]) stages size m
    simp only [List.map_cons, List.map_nil] at this
    rw [this]
    rcases runPipeline [r] (choose g [r]) stages size m with ⟨res, m1⟩
    cases res with
    | error e => rfl
    | ok off =>
      cases off with
      | nil => rfl
      | cons c more =>
        have := ih (g + 1) c (traj ++ c :: more) m1
        rw [List.map_append, List.map_cons] at this
        exact this

/-- **C109** (`random_search`). -/
theorem walk_run_history_free (choose : Int → List Nat → Mem γ ψ φ ρ → PyM Nat × ρ) (hc : ∀ g, ByAppearance (choose g)) (stages : List (Stage γ ψ φ ρ)) (size : Nat)
    (initGenome : ρ → PyM (List γ) × ρ) (dec : Dec γ ψ) (prob : Prob γ ψ φ ρ) (problem : Nat) (evaluations : Int) :
    RunsAlike (walkRun choose stages size initGenome dec prob problem evaluations) (fun m out => out.map (looks m)) ∧
    LeavesOlder (walkRun choose stages size initGenome dec prob problem evaluations) := by
  have h : ∀ o, Same o (·.map (· + o.inds.length)) (walkRun choose stages size initGenome dec prob problem evaluations)
      (walkRun choose stages size initGenome dec prob problem evaluations) := by
    intro o
    refine same_bind_ok (same_createPopulation initGenome problem 1) fun first m m' e => same_bind (same_evaluatePopulation dec prob first) fun _ => ?_
    obtain ⟨g, m1, -, e⟩ := bind_ok e
    obtain ⟨a, m2, -, e⟩ := bind_ok e
    obtain ⟨r, m3, -, e⟩ := bind_ok e
    obtain ⟨rs, m4, -, e⟩ := bind_ok e
    simp only [HM.pure_apply, Prod.mk.injEq, Except.ok.injEq] at e
    obtain ⟨rfl, rfl⟩ := e
    exact same_walkLoop choose hc stages size _ _ _ _
  exact ⟨runsAlike_of_same (fun _ => _) (fun k => List.map (· + k)) _ h (fun o m a => looks_map_after o m a), leavesOlder_of_same (fun _ => _) (fun k => List.map (· + k)) h⟩

/-! ### Islands -/

theorem same_pickOne (choose : List Nat → Mem γ ψ φ ρ → PyM Nat × ρ) (hc : ByAppearance choose) (pop : List Nat) :
    Same o (fun x : Nat × Nat => (x.1, x.2 + o.inds.length)) (pickOne (choose pop) pop)
      (pickOne (choose (pop.map (· + o.inds.length))) (pop.map (· + o.inds.length))) := by
  intro m
  simp only [pickOne, byAppearance_after hc o m pop]
  rcases choose pop m with ⟨r, t⟩
  cases r with
  | error e => rfl
  | ok i =>
    simp only [List.getElem?_map]
    cases pop[i]? <;> rfl

theorem islandLt_after (cfg : IslandConfig γ ψ φ ρ) (m : Mem γ ψ φ ρ) (a b : Nat) :
    cfg.lt (after o m) (a + o.inds.length) (b + o.inds.length) = cfg.lt m a b := by
  simp only [IslandConfig.lt, fitness_after]

theorem same_immigrateInds (cfg : IslandConfig γ ψ φ ρ) (hr : ByAppearance cfg.replace) (queue : List Nat) :
    ∀ pop, Same o (·.map (· + o.inds.length)) (immigrateInds cfg queue pop)
      (immigrateInds cfg (queue.map (· + o.inds.length)) (pop.map (· + o.inds.length))) := by
  induction queue with
  | nil => intro pop; exact same_pure rfl
  | cons imm rest ih =>
    intro pop
    refine same_bind (same_pickOne cfg.replace hr pop) fun x m => ?_
    simp only [islandLt_after]
    have := ih (if cfg.lt m imm x.2 then pop else pop.set x.1 imm) m
    rw [apply_ite (List.map (· + o.inds.length)), List.map_set] at this
    exact this

theorem same_cloneWithFitness (r : Nat) : Same o (· + o.inds.length) (cloneWithFitness r) (cloneWithFitness (r + o.inds.length)) :=
  same_bind (same_cloneInd r) fun c => same_bind (same_getObj r) fun x => same_bind (same_modObj c fun y => rfl) fun _ => same_pure rfl

theorem same_emigrateInds (cfg : IslandConfig γ ψ φ ρ) (hs : ByAppearance cfg.sponsor) (g : Int) (cur : Nat) (pop : List Nat) (queues : List (List Nat)) :
    Same o (·.map (·.map (· + o.inds.length))) (emigrateInds cfg g cur pop queues)
      (emigrateInds cfg g cur (pop.map (· + o.inds.length)) (queues.map (·.map (· + o.inds.length)))) := by
  unfold emigrateInds
  refine same_ite Iff.rfl (same_lift rfl) (same_ite Iff.rfl ?_ (same_pure rfl))
  refine same_bind (same_pickOne cfg.sponsor hs pop) fun x => same_bind (same_cloneWithFitness x.2) fun emi => same_bind (same_useRng _) fun k => ?_
  simp only [id]
  cases (cfg.neighbors cur)[k]? with
  | none => exact same_lift rfl
  | some d =>
    simp only [List.getElem?_map]
    cases queues[d]? with
    | none => exact same_lift rfl
    | some q => exact same_pure (by simp [List.map_set])

theorem same_islandStep (cfg : IslandConfig γ ψ φ ρ) (hc : ∀ g cur, ByAppearance (cfg.choose g cur)) (hr : ByAppearance cfg.replace) (hs : ByAppearance cfg.sponsor)
    (g : Int) (cur : Nat) (parents : List Nat) (queues : List (List Nat)) :
    Same o (fun x : List Nat × List (List Nat) => (x.1.map (· + o.inds.length), x.2.map (·.map (· + o.inds.length)))) (islandStep cfg g cur parents queues)
      (islandStep cfg g cur (parents.map (· + o.inds.length)) (queues.map (·.map (· + o.inds.length)))) := by
  refine same_bind (same_runPipeline parents (fun m => byAppearance_after (hc g cur) o m parents) cfg.stages cfg.size) fun off => ?_
  simp only [List.getElem?_map]
  cases queues[cur]? with
  | none => exact same_lift rfl
  | some queue =>
    refine same_bind (same_immigrateInds cfg hr queue off) fun pop => ?_
    have := same_emigrateInds (o := o) cfg hs g cur pop (queues.set cur [])
    rw [List.map_set] at this
    exact same_bind this fun qs => same_pure rfl

theorem same_islandSweep (cfg : IslandConfig γ ψ φ ρ) (hc : ∀ g cur, ByAppearance (cfg.choose g cur)) (hr : ByAppearance cfg.replace) (hs : ByAppearance cfg.sponsor)
    (g : Int) (k : Nat) : ∀ cur pops queues,
    Same o (fun x : List (List Nat) × List (List Nat) => (x.1.map (·.map (· + o.inds.length)), x.2.map (·.map (· + o.inds.length)))) (islandSweep cfg g k cur pops queues)
      (islandSweep cfg g k cur (pops.map (·.map (· + o.inds.length))) (queues.map (·.map (· + o.inds.length)))) := by
  induction k with
  | zero => intro cur pops queues; exact same_pure rfl
  | succ k ih =>
    intro cur pops queues
    have hd : (pops.map (·.map (· + o.inds.length))).getD cur [] = (pops.getD cur []).map (· + o.inds.length) := by
      simp only [List.getD, List.getElem?_map]
      cases pops[cur]? <;> rfl
    unfold islandSweep
    rw [hd]
    refine same_bind (same_islandStep cfg hc hr hs g cur _ queues) fun x => ?_
    have := ih (cur + 1) (pops.set cur x.1) x.2
    rw [List.map_set] at this
    exact this

theorem same_islandLoop (cfg : IslandConfig γ ψ φ ρ) (hc : ∀ g cur, ByAppearance (cfg.choose g cur)) (hr : ByAppearance cfg.replace) (hs : ByAppearance cfg.sponsor)
    (hst : ∀ g, AllByAppearance (cfg.stop g)) (fuel : Nat) : ∀ g pops queues,
    Same o (fun x : List (List Nat) × List (List Nat) => (x.1.map (·.map (· + o.inds.length)), x.2.map (·.map (· + o.inds.length)))) (islandLoop cfg fuel g pops queues)
      (islandLoop cfg fuel g (pops.map (·.map (· + o.inds.length))) (queues.map (·.map (· + o.inds.length)))) := by
  induction fuel with
  | zero => intro g pops queues; exact same_pure rfl
  | succ fuel ih =>
    intro g pops queues m
    unfold islandLoop
    have hs' : cfg.stop g (pops.map (·.map (· + o.inds.length))) (after o m) = cfg.stop g pops m := by
      refine hst g _ _ _ _ rfl ?_
      rw [List.map_map]
      exact List.map_congr_left fun p _ => looks_map_after o m p
    simp only [hs', List.length_map]
    by_cases hh : cfg.stop g pops m = true
    · rw [if_pos hh, if_pos hh]; rfl
    · rw [if_neg hh, if_neg hh]
      exact same_bind (same_islandSweep cfg hc hr hs g pops.length 0 pops queues) (fun x => ih (g + 1) x.1 x.2) m

theorem same_createIslands (initGenome : ρ → PyM (List γ) × ρ) (problem popSize k : Nat) :
    Same o (·.map (·.map (· + o.inds.length))) (createIslands initGenome problem popSize k) (createIslands initGenome problem popSize k) := by
  induction k with
  | zero => exact same_pure rfl
  | succ k ih => exact same_bind (same_createPopulation initGenome problem popSize) fun p => same_bind ih fun ps => same_pure rfl

theorem same_evaluateIslands (dec : Dec γ ψ) (prob : Prob γ ψ φ ρ) (pops : List (List Nat)) :
    Same o id (evaluateIslands dec prob pops) (evaluateIslands dec prob (pops.map (·.map (· + o.inds.length)))) := by
  induction pops with
  | nil => exact same_pure rfl
  | cons p ps ih => exact same_bind (same_evaluatePopulation dec prob p) fun _ => ih

/-- **C109** (`multi_population_ea`), with a `migrate` operator of its own: the islands and those still travelling look the same. -/
theorem island_run_history_free (cfg : IslandConfig γ ψ φ ρ) (hc : ∀ g cur, ByAppearance (cfg.choose g cur)) (hr : ByAppearance cfg.replace)
    (hs : ByAppearance cfg.sponsor) (hst : ∀ g, AllByAppearance (cfg.stop g)) (initGenome : ρ → PyM (List γ) × ρ) (dec : Dec γ ψ) (prob : Prob γ ψ φ ρ)
    (problem numPopulations popSize : Nat) (max : Int) :
    RunsAlike (islandRun cfg initGenome dec prob problem numPopulations popSize max) (fun m out => (out.1.map (·.map (looks m)), out.2.map (·.map (looks m)))) ∧
    LeavesOlder (islandRun cfg initGenome dec prob problem numPopulations popSize max) := by
  have h : ∀ o, Same o (fun x : List (List Nat) × List (List Nat) => (x.1.map (·.map (· + o.inds.length)), x.2.map (·.map (· + o.inds.length))))
      (islandRun cfg initGenome dec prob problem numPopulations popSize max) (islandRun cfg initGenome dec prob problem numPopulations popSize max) := by
    intro o
    refine same_bind (same_createIslands initGenome problem popSize numPopulations) fun pops => same_bind (same_evaluateIslands dec prob pops) fun _ => ?_
    have := same_islandLoop (o := o) cfg hc hr hs hst max.toNat 0 pops (List.replicate cfg.numIslands [])
    rw [List.map_replicate] at this
    exact this
  refine ⟨runsAlike_of_same (fun _ => _) (fun k x => (x.1.map (·.map (· + k)), x.2.map (·.map (· + k)))) _ h fun o m a => ?_,
    leavesOlder_of_same (fun _ => _) (fun k x => (x.1.map (·.map (· + k)), x.2.map (·.map (· + k)))) h⟩
  simp only [List.map_map]
  exact Prod.ext (List.map_congr_left fun p _ => looks_map_after o m p) (List.map_congr_left fun p _ => looks_map_after o m p)

/-! ### The asynchronous algorithm -/

/-- An inserter that goes by genes, fitness and viability: with other individuals that look the same, in the same places, it does the same. -/
def Spec.InsertsByAppearance (insert : Nat → List Nat → Mem γ ψ φ ρ → PyM (List Nat) × ρ) : Prop :=
  ∀ (f : Nat → Nat) (r : Nat) (pop : List Nat) (m1 m2 : Mem γ ψ φ ρ), m1.rng = m2.rng → looks m2 (f r) = looks m1 r → (∀ x ∈ pop, looks m2 (f x) = looks m1 x) →
    insert (f r) (pop.map f) m2 = ((insert r pop m1).1.map (·.map f), (insert r pop m1).2)

/-- The decisions of the environment about the individuals of a run that starts when there are `k` individuals already. -/
def Spec.counting (k : Nat) (c : AsyncRound) : AsyncRound := { c with copied := fun r => c.copied (r - k) }

theorem same_submitInd (b : Bool) (r : Nat) : Same o (· + o.inds.length) (submitInd b r) (submitInd b (r + o.inds.length)) := by
  cases b with
  | false => exact same_pure rfl
  | true =>
    exact same_bind (same_getObj r) fun x => same_bind (same_getArr x.genome) fun g => same_bind (same_newArr g) fun a =>
      same_bind (same_getSet x.parents) fun p => same_bind (same_newSet p) fun s => same_newObj { x with genome := a, parents := s, phenome := none }

theorem same_submitAll (copied : Nat → Bool) (l : List Nat) :
    Same o (·.map (· + o.inds.length)) (submitAll copied l) (submitAll (fun r => copied (r - o.inds.length)) (l.map (· + o.inds.length))) := by
  induction l with
  | nil => exact same_pure rfl
  | cons r rs ih =>
    unfold submitAll
    simp only [List.map_cons, Nat.add_sub_cancel]
    exact same_bind (same_submitInd _ r) fun c => same_bind ih fun cs => same_pure rfl

/-- A state of the loop with its individuals moved. -/
def movedState (k : Nat) (st : AsyncState) : AsyncState := ⟨st.pending.map (· + k), st.pop.map (· + k), st.births, st.completed.map (· + k)⟩

theorem same_insertInd (cfg : AsyncConfig γ ψ φ ρ) (hi : InsertsByAppearance cfg.insert) (r : Nat) (pop : List Nat) :
    Same o (·.map (· + o.inds.length)) (insertInd cfg r pop) (insertInd cfg (r + o.inds.length) (pop.map (· + o.inds.length))) := by
  intro m
  have := hi (· + o.inds.length) r pop m (after o m) rfl (looks_after o m r) fun x _ => looks_after o m x
  simp only [insertInd, this]
  cases (cfg.insert r pop m).1 <;> rfl

theorem viableInd_after (m : Mem γ ψ φ ρ) (r : Nat) : viableInd (after o m) (r + o.inds.length) = viableInd m r := by
  have := looks_after o m r
  simp only [looks, Prod.mk.injEq] at this
  simp only [viableInd, this.2.2]

theorem eraseIdx_moved {α β : Type} (f : α → β) (l : List α) : ∀ i, (l.map f).eraseIdx i = (l.eraseIdx i).map f := by
  induction l with
  | nil => intro i; simp
  | cons x xs ih => intro i; cases i <;> simp [List.eraseIdx, ih]

theorem same_asyncStep (cfg : AsyncConfig γ ψ φ ρ) (hi : InsertsByAppearance cfg.insert) (hc : ByAppearance cfg.choose) (c : AsyncRound) (st : AsyncState) :
    Same o (movedState o.inds.length) (asyncStep cfg c st) (asyncStep cfg (counting o.inds.length c) (movedState o.inds.length st)) := by
  unfold asyncStep
  simp only [movedState, counting, List.length_map, List.getElem?_map]
  cases st.pending[c.which % st.pending.length]? with
  | none => exact same_lift rfl
  | some x =>
    refine same_bind (same_robustEvaluate cfg.nan cfg.dec cfg.prob x) fun _ m => ?_
    simp only [viableInd_after]
    refine same_bind (same_insertInd cfg hi x st.pop) (fun pop => ?_) m
    refine same_ite Iff.rfl ?_ (same_pure (by simp [movedState, eraseIdx_moved]))
    exact same_bind (same_runPipeline pop (fun m => byAppearance_after hc o m pop) cfg.stages cfg.size) fun off => same_bind (same_submitAll c.copied off) fun sent =>
      same_pure (by simp [movedState, eraseIdx_moved])

theorem same_asyncLoop (cfg : AsyncConfig γ ψ φ ρ) (hi : InsertsByAppearance cfg.insert) (hc : ByAppearance cfg.choose) (cs : List AsyncRound) :
    ∀ st, Same o (movedState o.inds.length) (asyncLoop cfg cs st) (asyncLoop cfg (cs.map (counting o.inds.length)) (movedState o.inds.length st)) := by
  induction cs with
  | nil => intro st; exact same_pure rfl
  | cons c cs ih =>
    intro st
    refine same_ite (by simp [movedState]) (same_pure rfl) ?_
    exact same_bind (same_asyncStep cfg hi hc c st) fun st' => ih st'

/-- **C109** (`steady_state` of `leap_ec.distrib.asynchronous`). The environment makes the same decisions in both runs: who is finished next, and who of the individuals, counted
from the start of the run, is copied on the way to a worker. -/
theorem async_run_history_free (cfg : AsyncConfig γ ψ φ ρ) (hi : InsertsByAppearance cfg.insert) (hc : ByAppearance cfg.choose)
    (initGenome : ρ → PyM (List γ) × ρ) (problem initSize : Nat) (copied : Nat → Bool) (rounds : List AsyncRound) :
    RunsAlike (fun m => asyncRun cfg initGenome problem initSize (fun r => copied (r - m.inds.length)) (rounds.map (counting m.inds.length)) m)
      (fun m st => (st.pending.map (looks m), st.pop.map (looks m), st.births, st.completed.map (looks m))) ∧
    LeavesOlder (fun m => asyncRun cfg initGenome problem initSize (fun r => copied (r - m.inds.length)) (rounds.map (counting m.inds.length)) m) := by
  have h : ∀ o, Same o (movedState o.inds.length) (asyncRun cfg initGenome problem initSize (fun r => copied (r - 0)) (rounds.map (counting 0)))
      (asyncRun cfg initGenome problem initSize (fun r => copied (r - o.inds.length)) (rounds.map (counting o.inds.length))) := by
    intro o
    have e : rounds.map (counting 0) = rounds := List.map_id rounds
    rw [e]
    exact same_bind (same_createPopulation initGenome problem initSize) fun ini => same_bind (same_submitAll copied ini) fun sent =>
      same_asyncLoop cfg hi hc rounds ⟨sent, [], 0, []⟩
  refine ⟨runsAlike_of_same (fun k => asyncRun cfg initGenome problem initSize (fun r => copied (r - k)) (rounds.map (counting k))) movedState _ h fun o m a => ?_,
    leavesOlder_of_same (fun k => asyncRun cfg initGenome problem initSize (fun r => copied (r - k)) (rounds.map (counting k))) movedState h⟩
  simp only [movedState, looks_map_after]

/-! ### The operators of the library go by appearance -/

theorem looks_fitness {m1 m2 : Mem γ ψ φ ρ} {r1 r2 : Nat} (h : looks m2 r2 = looks m1 r1) :
    (m2.inds[r2]?).bind Obj.fitness = (m1.inds[r1]?).bind Obj.fitness ∧ viableInd m2 r2 = viableInd m1 r1 := by
  simp only [looks, fitness, Prod.mk.injEq] at h
  refine ⟨?_, by simp only [viableInd, h.2.2]⟩
  have := congrArg Option.join h.2.1
  cases e1 : m1.inds[r1]? <;> cases e2 : m2.inds[r2]? <;> simp_all

theorem replaceIf_renamed {α β : Type} (f : α → β) (v1 : α → Bool) (v2 : β → Bool) (g1 : α → α → Bool) (g2 : β → β → Bool) (new : α) (pop : List α) (i : Nat)
    (hv : ∀ x ∈ pop, v2 (f x) = v1 x) (hg : ∀ x ∈ pop, g2 (f new) (f x) = g1 new x) :
    replaceIf v2 g2 (f new) (pop.map f) i = (replaceIf v1 g1 new pop i).map (·.map f) := by
  unfold replaceIf
  rw [List.getElem?_map]
  cases e : pop[i]? with
  | none => rfl
  | some x =>
    have hx := List.mem_of_getElem? e
    simp only [Option.map_some, hv x hx, hg x hx]
    split
    · simp [Except.map, List.map_set]
    · split <;> simp [Except.map, List.map_set]

theorem tournament_inserter_by_appearance (gt : Option φ → Option φ → Bool) (draw : ρ → Nat × ρ) (popSize : Nat) :
    InsertsByAppearance (tournamentInserter gt draw popSize : Nat → List Nat → Mem γ ψ φ ρ → _) := by
  intro f r pop m1 m2 hr hl hp
  simp only [tournamentInserter, tournamentInsert, List.length_map, hr]
  refine Prod.ext ?_ rfl
  simp only
  split
  · simp [Except.map]
  · split
    · rfl
    · refine replaceIf_renamed f _ _ _ _ r pop _ (fun x hx => (looks_fitness (hp x hx)).2) fun x hx => ?_
      rw [(looks_fitness (hp x hx)).1, (looks_fitness hl).1]

theorem indexMinFrom_renamed {α β : Type} (f : α → β) (l1 : Nat → α → α → Bool) (l2 : Nat → β → β → Bool) (xs : List α) :
    ∀ (b : Nat × α) (i : Nat), (∀ j, ∀ x ∈ b.2 :: xs, ∀ y ∈ b.2 :: xs, l2 j (f x) (f y) = l1 j x y) →
      indexMinFrom l2 (b.1, f b.2) i (xs.map f) = indexMinFrom l1 b i xs := by
  induction xs with
  | nil => intro b i _; rfl
  | cons x xs ih =>
    intro b i h
    simp only [List.map_cons, indexMinFrom]
    rw [h i x (by simp) b.2 (by simp)]
    split
    · exact ih (i, x) (i + 1) fun j y hy z hz => h j y (List.mem_cons_of_mem _ hy) z (List.mem_cons_of_mem _ hz)
    · refine ih b (i + 1) fun j y hy z hz => h j y ?_ z ?_
      · rcases List.mem_cons.1 hy with rfl | hy
        · simp
        · exact List.mem_cons_of_mem _ (List.mem_cons_of_mem _ hy)
      · rcases List.mem_cons.1 hz with rfl | hz
        · simp
        · exact List.mem_cons_of_mem _ (List.mem_cons_of_mem _ hz)

theorem greedy_inserter_by_appearance (lt gt : Option φ → Option φ → Bool) (popSize : Nat) :
    InsertsByAppearance (greedyInserter lt gt popSize : Nat → List Nat → Mem γ ψ φ ρ → _) := by
  intro f r pop m1 m2 hr hl hp
  simp only [greedyInserter, greedyInsert, List.length_map, hr]
  refine Prod.ext ?_ rfl
  simp only
  split
  · simp [Except.map]
  · cases pop with
    | nil => rfl
    | cons x xs =>
      simp only [List.map_cons]
      rw [indexMinFrom_renamed f (fun _ a b => lt ((m1.inds[a]?).bind Obj.fitness) ((m1.inds[b]?).bind Obj.fitness)) _ xs (0, x) 1 fun j y hy z hz => by
        rw [(looks_fitness (hp y hy)).1, (looks_fitness (hp z hz)).1]]
      refine replaceIf_renamed f _ _ _ _ r (x :: xs) _ (fun y hy => (looks_fitness (hp y hy)).2) fun y hy => ?_
      rw [(looks_fitness (hp y hy)).1, (looks_fitness hl).1]

theorem tournamentStep_renamed {α β : Type} (f : α → β) (l g : β → β → Bool) (w : Bool) (pop : List α) (k : Nat) (draws : List Nat) :
    tournamentStep l g w (pop.map f) k draws =
      (tournamentStep (fun a b => l (f a) (f b)) (fun a b => g (f a) (f b)) w pop k draws).map fun x => (x.1, f x.2) := by
  have hc : ∀ h : β → β → Bool, cmpAt (pop.map f) h = cmpAt pop fun a b => h (f a) (f b) := by
    intro h
    funext i j
    simp only [cmpAt, List.getElem?_map]
    cases pop[i]? <;> cases pop[j]? <;> rfl
  simp only [tournamentStep, List.map_eq_nil_iff, hc]
  by_cases h0 : pop = [] ∧ 0 < k
  · rw [if_pos h0, if_pos h0]; rfl
  · rw [if_neg h0, if_neg h0]
    rcases (if w = true then _ else _ : PyM Nat) with e | b
    · rfl
    · simp only [List.getElem?_map]
      cases pop[b]? <;> rfl

theorem tournament_by_appearance (better : Option φ → Option φ → Bool) (k : Nat) (draw : ρ → Nat → List Nat × ρ) :
    ByAppearance (tournamentChoice better k draw : List Nat → Mem γ ψ φ ρ → _) := by
  intro pop1 m1 pop2 m2 hr hp
  have hl : pop1.length = pop2.length := by simpa using congrArg List.length hp
  have hf : pop1.map (fun r => (m1.inds[r]?).bind Obj.fitness) = pop2.map fun r => (m2.inds[r]?).bind Obj.fitness := by
    have := congrArg (List.map fun x : Option (List γ) × Option (Option φ) × Option Bool => x.2.1.join) hp
    have hj : ∀ (m : Mem γ ψ φ ρ) (r : Nat), ((m.inds[r]?).map Obj.fitness).join = (m.inds[r]?).bind Obj.fitness := by
      intro m r
      cases m.inds[r]? <;> rfl
    simpa [Function.comp_def, looks, fitness, hj] using this
  have key : ∀ (pop : List Nat) (m : Mem γ ψ φ ρ), tournamentChoice better k draw pop m =
      (match tournamentStep (fun a b => better b a) better false (pop.map fun r => (m.inds[r]?).bind Obj.fitness) k (draw m.rng pop.length).1 with
        | .ok ([i], _) => (.ok i, (draw m.rng pop.length).2)
        | .ok _ => (.error .valueError, (draw m.rng pop.length).2)
        | .error e => (.error e, (draw m.rng pop.length).2)) := by
    intro pop m
    rw [tournamentStep_renamed]
    simp only [tournamentChoice]
    rcases tournamentStep _ _ false pop k (draw m.rng pop.length).1 with e | ⟨l, x⟩
    · rfl
    · rcases l with _ | ⟨i, _ | ⟨j, l⟩⟩ <;> rfl
  rw [key, key, hf, hr, hl]

end

/-- A `migrate` operator used for the first time has nobody waiting. -/
theorem islandRun_fresh {γ ψ φ ρ : Type} (cfg : IslandConfig γ ψ φ ρ) (initGenome : ρ → PyM (List γ) × ρ) (dec : Dec γ ψ) (prob : Prob γ ψ φ ρ)
    (problem numPopulations popSize : Nat) (max : Int) :
    islandRunReusing cfg (List.replicate cfg.numIslands []) initGenome dec prob problem numPopulations popSize max =
      islandRun cfg initGenome dec prob problem numPopulations popSize max := rfl

/-- **C109** does not hold for a `migrate` operator that is used again, because the list of travellers lives in the operator: those who were on their way at the end of one
run arrive in the next. Two runs in a row with the same operator, random state and settings: the second ends with somebody on an island who was born in
the first, and its populations are not those of the first. -/
theorem reused_migrate_mixes_runs :
    let one := islandRun exIslands exInit .identity exSum 0 2 2 3 exStart
    let two := islandRunReusing exIslands [[21], []] exInit .identity exSum 0 2 2 1 { one.2 with rng := exStart.rng }
    let fresh := islandRun exIslands exInit .identity exSum 0 2 2 1 { one.2 with rng := exStart.rng }
    one.1 = .ok ([[15, 17], [18, 20]], [[21], []]) ∧ one.2.inds.length = 22 ∧
    two.1 = .ok ([[21, 27], [29, 30]], [[31], []]) ∧ fresh.1 = .ok ([[26, 27], [28, 30]], [[31], []]) ∧
    [[21, 27], [29, 30]].map (·.map (looks two.2)) ≠ [[26, 27], [28, 30]].map (·.map (looks fresh.2)) := by
  refine ⟨?_, ?_, ?_, ?_, ?_⟩ <;> decide +kernel

/-- The runs used as examples elsewhere meet the hypotheses, and a second run in the memory left by the first, from the same random state, ends with other individuals
that look the same. -/
example :
    (∀ g, ByAppearance (exEvo.choose g)) ∧ (∀ g, ByAppearance (exEvo.stop g)) ∧ (∀ g cur, ByAppearance (exIslands.choose g cur)) ∧
    ByAppearance exIslands.replace ∧ ByAppearance exIslands.sponsor ∧ (∀ g, AllByAppearance (exIslands.stop g)) ∧
    InsertsByAppearance exAsync.insert ∧ ByAppearance exAsync.choose ∧
    (let one := evoRun exEvo exInit .identity exSum 0 2 0 3 exStart
     let two := evoRun exEvo exInit .identity exSum 0 2 0 3 { one.2 with rng := 0 }
     one.1 = .ok [5, 6] ∧ two.1 = .ok [13, 14] ∧
       [5, 6].map (looks one.2) = [(some [1, 1], some (some 2), none), (some [0, 1], some (some 1), none)] ∧
       [13, 14].map (looks two.2) = [(some [1, 1], some (some 2), none), (some [0, 1], some (some 1), none)]) := by
  refine ⟨?_, ?_, ?_, ?_, ?_, ?_, tournament_inserter_by_appearance (fun a b : Option Int => decide (a.getD 0 > b.getD 0)) (fun s : Nat => (s, s + 1)) 2, ?_, ?_⟩
  · intro g pop1 m1 pop2 m2 hr _; simp only [exEvo, hr]
  · intro g pop1 m1 pop2 m2 _ _; rfl
  · intro g cur pop1 m1 pop2 m2 hr hp
    have hl : pop1.length = pop2.length := by simpa using congrArg List.length hp
    simp only [exIslands, hr, hl]
  · intro pop1 m1 pop2 m2 hr _; simp only [exIslands, hr]
  · intro pop1 m1 pop2 m2 hr hp
    have hl : pop1.length = pop2.length := by simpa using congrArg List.length hp
    simp only [exIslands, hr, hl]
  · intro g pops1 m1 pops2 m2 _ _; rfl
  · intro pop1 m1 pop2 m2 hr hp
    have hl : pop1.length = pop2.length := by simpa using congrArg List.length hp
    simp only [exAsync, hr, hl]
  · decide +kernel

end Leap
