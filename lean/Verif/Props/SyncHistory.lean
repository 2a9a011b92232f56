import Verif.Props.Values

/-!
# C109: synchronous distributed runs do not depend on the history of the process
-/

namespace Leap

open Spec

section
variable {γ ψ φ ρ : Type}

/-! ### Specification -/

/-- A choice of the best that goes by genes, fitness and viability and by who is who: with other individuals that look the same, in the same places, it is the same. -/
def Spec.RanksByAppearance (best : List Nat → Mem γ ψ φ ρ → List Nat × ρ) : Prop :=
  ∀ (f : Nat → Nat) (pop : List Nat) (m1 m2 : Mem γ ψ φ ρ), (∀ x ∈ pop, ∀ y ∈ pop, f x = f y → x = y) → m1.rng = m2.rng →
    (∀ x ∈ pop, looks m2 (f x) = looks m1 x) → best (pop.map f) m2 = ((best pop m1).1.map f, (best pop m1).2)

/-- The decisions of the environment in a run that starts when there are `k` individuals already: who is copied is decided by the number counted from the start of the run. -/
def Spec.countingRound (k : Nat) (c : SyncRound ρ) : SyncRound ρ := { c with copied := fun r => c.copied (r - k) }

/-! ### Runs -/

variable {o : Mem γ ψ φ ρ}

theorem same_workerEvaluate (nan : φ) (dec : Dec γ ψ) (prob : Prob γ ψ φ ρ) (own : Option ρ) (r : Nat) :
    Same o id (workerEvaluate nan dec prob own r) (workerEvaluate nan dec prob own (r + o.inds.length)) := by
  cases own with
  | none => exact same_robustEvaluate nan dec prob r
  | some s =>
    intro m
    have h : robustEvaluate nan dec prob (r + o.inds.length) { after o m with rng := s } = _ := same_robustEvaluate nan dec prob r { m with rng := s }
    unfold workerEvaluate
    simp only [h]
    rfl

theorem same_completeAll (nan : φ) (dec : Dec γ ψ) (prob : Prob γ ψ φ ρ) (own : Nat → Option ρ) (sent is : List Nat) :
    Same o id (completeAll nan dec prob own sent is) (completeAll nan dec prob own (sent.map (· + o.inds.length)) is) := by
  induction is with
  | nil => exact same_pure rfl
  | cons i is ih =>
    unfold completeAll
    rw [List.getElem?_map]
    cases sent[i]? with
    | none => exact ih
    | some r => exact same_bind (same_workerEvaluate nan dec prob (own i) r) fun _ => ih

theorem same_syncEvaluate (nan : φ) (dec : Dec γ ψ) (prob : Prob γ ψ φ ρ) (c : SyncRound ρ) (pop : List Nat) :
    Same o (·.map (· + o.inds.length)) (syncEvaluate nan dec prob c pop)
      (syncEvaluate nan dec prob (countingRound o.inds.length c) (pop.map (· + o.inds.length))) :=
  same_bind (same_submitAll c.copied pop) fun sent => same_bind (same_completeAll nan dec prob c.own sent c.order) fun _ => same_pure rfl

theorem same_syncSurvival (cfg : SyncConfig γ ψ φ ρ) (hb : ∀ k, RanksByAppearance (cfg.best k)) (off par : List Nat) :
    Same o (·.map (· + o.inds.length)) (syncSurvival cfg off par) (syncSurvival cfg (off.map (· + o.inds.length)) (par.map (· + o.inds.length))) := by
  intro m
  have inj : ∀ (l : List Nat), ∀ x ∈ l, ∀ y ∈ l, x + o.inds.length = y + o.inds.length → x = y := fun _ x _ y _ h => by omega
  have h1 := hb cfg.kElites (· + o.inds.length) par m (after o m) (inj par) rfl fun x _ => looks_after o m x
  have h2 := fun (s : ρ) (l : List Nat) => hb off.length (· + o.inds.length) l { m with rng := s } { after o m with rng := s } (inj l) rfl
    fun x _ => looks_after o { m with rng := s } x
  simp only [syncSurvival, h1, List.length_map, ← List.map_append, h2]
  rfl

theorem same_syncLoop (cfg : SyncConfig γ ψ φ ρ) (hc : ∀ g, ByAppearance (cfg.choose g)) (hs : ∀ g, ByAppearance (cfg.stop g))
    (hb : ∀ k, RanksByAppearance (cfg.best k)) (env : Int → SyncRound ρ) (fuel : Nat) :
    ∀ g parents, Same o (·.map (· + o.inds.length)) (syncLoop cfg env fuel g parents)
      (syncLoop cfg (fun g => countingRound o.inds.length (env g)) fuel g (parents.map (· + o.inds.length))) := by
  induction fuel with
  | zero => intro g parents; exact same_pure rfl
  | succ fuel ih =>
    intro g parents m
    unfold syncLoop
    simp only [byAppearance_after (hs g) o m parents]
    by_cases hst : cfg.stop g parents m = true
    · rw [if_pos hst, if_pos hst]; rfl
    · rw [if_neg hst, if_neg hst]
      exact same_bind (same_runPipeline parents (fun m => byAppearance_after (hc g) o m parents) cfg.stages cfg.size)
        (fun pulled => same_bind (same_syncEvaluate cfg.nan cfg.dec cfg.prob (env g) pulled) fun off =>
          same_bind (same_syncSurvival cfg hb off parents) fun survivors => ih (g + 1) survivors) m

/-- **C109** (synchronous distributed runs). The environment makes the same decisions in both runs: in which order evaluations are made, which random numbers the workers
have, and who of the individuals, counted from the start of the run, is copied on the way to a worker. -/
theorem sync_run_history_free (cfg : SyncConfig γ ψ φ ρ) (hc : ∀ g, ByAppearance (cfg.choose g)) (hs : ∀ g, ByAppearance (cfg.stop g))
    (hb : ∀ k, RanksByAppearance (cfg.best k)) (initGenome : ρ → PyM (List γ) × ρ) (problem popSize generations : Nat) (env : Int → SyncRound ρ) :
    RunsAlike (fun m => syncRun cfg initGenome problem popSize generations (fun g => countingRound m.inds.length (env g)) m) (fun m out => out.map (looks m)) ∧
    LeavesOlder (fun m => syncRun cfg initGenome problem popSize generations (fun g => countingRound m.inds.length (env g)) m) := by
  have h : ∀ o, Same o (·.map (· + o.inds.length)) (syncRun cfg initGenome problem popSize generations (fun g => countingRound 0 (env g)))
      (syncRun cfg initGenome problem popSize generations (fun g => countingRound o.inds.length (env g))) := fun o =>
    same_bind (same_createPopulation initGenome problem popSize) fun created =>
      same_bind (same_syncEvaluate cfg.nan cfg.dec cfg.prob (env (-1)) created) fun parents => same_syncLoop cfg hc hs hb env generations 0 parents
  exact ⟨runsAlike_of_same (fun k => syncRun cfg initGenome problem popSize generations (fun g => countingRound k (env g))) (fun k => List.map (· + k)) _ h
      (fun o m a => looks_map_after o m a),
    leavesOlder_of_same (fun k => syncRun cfg initGenome problem popSize generations (fun g => countingRound k (env g))) (fun k => List.map (· + k)) h⟩

/-- C109: `heapq.nlargest` on individuals goes by appearance, with any comparison of fitnesses that may toss coins. -/
theorem nlargest_ranks_by_appearance (ask : Ask (Option φ) ρ) (eq : Option φ → Option φ → Bool) (hasLen : Bool) (k : Nat) :
    RanksByAppearance fun (pop : List Nat) (m : Mem γ ψ φ ρ) =>
      nlargest (fun a b => ask (storedFitness m a) (storedFitness m b)) (fun a b => eq (storedFitness m a) (storedFitness m b)) (· == ·) hasLen k pop m.rng := by
  intro f pop m1 m2 hf hr hl
  have hfit : ∀ x : { x : Nat // x ∈ pop }, storedFitness m2 (f x.1) = storedFitness m1 x.1 := fun x => storedFitness_looks (hl x.1 x.2)
  have e1 := nlargest_map (f := fun x : { x : Nat // x ∈ pop } => x.1)
    (lt := fun a b => ask (storedFitness m1 a.1) (storedFitness m1 b.1)) (lt' := fun a b => ask (storedFitness m1 a) (storedFitness m1 b)) (fun _ _ _ => rfl)
    (eq := fun a b => eq (storedFitness m1 a.1) (storedFitness m1 b.1)) (eq' := fun a b => eq (storedFitness m1 a) (storedFitness m1 b)) (fun _ _ => rfl)
    (same := fun a b => a.1 == b.1) (same' := (· == ·)) (fun _ _ => rfl) hasLen k pop.attach m1.rng
  have e2 := nlargest_map (f := fun x : { x : Nat // x ∈ pop } => f x.1)
    (lt := fun a b => ask (storedFitness m1 a.1) (storedFitness m1 b.1)) (lt' := fun a b => ask (storedFitness m2 a) (storedFitness m2 b))
    (fun a b s => by simp only [hfit])
    (eq := fun a b => eq (storedFitness m1 a.1) (storedFitness m1 b.1)) (eq' := fun a b => eq (storedFitness m2 a) (storedFitness m2 b)) (fun a b => by simp only [hfit])
    (same := fun a b => a.1 == b.1) (same' := (· == ·)) (fun a b => by
      have := hf a.1 a.2 b.1 b.2
      by_cases e : a.1 = b.1
      · simp [e]
      · have e' : ¬ f a.1 = f b.1 := fun h => e (this h)
        simp [e, e']) hasLen k pop.attach m1.rng
  have m1e : pop.attach.map (fun x => x.1) = pop := by simp
  have m2e : pop.attach.map (fun x => f x.1) = pop.map f := by simp
  rw [m1e] at e1
  rw [m2e] at e2
  simp only [← hr]
  rw [e2, e1]
  simp [imaged]

end

/-! ### A run in a process with a past -/

/-- A run was made before; its random state is set back to that of a fresh start. -/
def exUsed : Mem Int Int Int Nat := { (syncRun exLargest exInit 0 2 1 exSyncEnv exStart).2 with rng := 0 }

/-- The run meets the hypotheses of `sync_run_history_free`. After another run other objects are made, and they look the same. -/
example :
    (∀ g, ByAppearance (exLargest.choose g)) ∧ (∀ g, ByAppearance (exLargest.stop g)) ∧ (∀ k, RanksByAppearance (exLargest.best k)) ∧
    exUsed.inds.length = 8 ∧
    (let fresh := syncRun exLargest exInit 0 2 3 (fun g => countingRound 0 (exSyncEnv g)) exStart
     let used := syncRun exLargest exInit 0 2 3 (fun g => countingRound 8 (exSyncEnv g)) exUsed
     fresh.1 = .ok [8, 15, 14] ∧ used.1 = .ok [16, 23, 22] ∧ [8, 15, 14].map (looks fresh.2) = [16, 23, 22].map (looks used.2)) := by
  refine ⟨?_, ?_, fun k => nlargest_ranks_by_appearance (fun x y s => if x.getD 0 = y.getD 0 then (s % 2 == 0, s + 1) else (decide (x.getD 0 < y.getD 0), s)) (· == ·) true k,
    by decide +kernel, by decide +kernel, by decide +kernel, by decide +kernel⟩
  · intro g pop1 m1 pop2 m2 hr hp
    have hl : pop1.length = pop2.length := by simpa using congrArg List.length hp
    simp only [exLargest, exSync, hr, hl]
  · intro g pop1 m1 pop2 m2 _ _; rfl

end Leap
