import Verif.Model.IslandRun
import Verif.Props.Rescore

/-!
# Islands on replaced fitnesses
-/

namespace Leap

open Spec

variable {γ ψ φ φ' ρ : Type} {h : φ → φ'}

theorem carries_pickOne (choose : Mem γ ψ φ ρ → PyM Nat × ρ) (choose' : Mem γ ψ φ' ρ → PyM Nat × ρ) (hc : ∀ m, choose' (rescored h m) = choose m)
    (pop : List Nat) : Rescores h id (pickOne choose pop) (pickOne choose' pop) := by
  intro m
  unfold pickOne
  rw [hc]
  rcases choose m with ⟨_ | i, s⟩
  · rfl
  · simp only
    cases pop[i]? <;> rfl

theorem carries_immigrateInds (cfg : IslandConfig γ ψ φ ρ) (cfg' : IslandConfig γ ψ φ' ρ) (hw : ∀ a b, cfg'.worse (a.map h) (b.map h) = cfg.worse a b)
    (hr : ∀ pop m, cfg'.replace pop (rescored h m) = cfg.replace pop m) (queue pop : List Nat) :
    Rescores h id (immigrateInds cfg queue pop) (immigrateInds cfg' queue pop) := by
  induction queue generalizing pop with
  | nil => exact Rescores.pure _ _
  | cons imm rest ih =>
    refine (carries_pickOne (cfg.replace pop) (cfg'.replace pop) (hr pop) pop).bind fun x => ?_
    intro m
    have hlt : cfg'.lt (rescored h m) = cfg.lt m := by
      funext a b
      simp only [IslandConfig.lt, fitness_rescored, hw]
    simp only [id, hlt]
    exact ih _ m

theorem carries_emigrateInds (cfg : IslandConfig γ ψ φ ρ) (cfg' : IslandConfig γ ψ φ' ρ) (hs : ∀ pop m, cfg'.sponsor pop (rescored h m) = cfg.sponsor pop m)
    (hgap : cfg'.gap = cfg.gap) (hnb : cfg'.neighbors = cfg.neighbors) (hdest : cfg'.dest = cfg.dest) (g : Int) (cur : Nat) (pop : List Nat)
    (queues : List (List Nat)) : Rescores h id (emigrateInds cfg g cur pop queues) (emigrateInds cfg' g cur pop queues) := by
  unfold emigrateInds
  rw [hgap, hnb, hdest]
  by_cases h0 : cfg.gap = 0
  · simp only [if_pos h0]; exact Rescores.lift _
  by_cases h1 : g % cfg.gap = 0
  · simp only [if_neg h0, if_pos h1]
    refine (carries_pickOne (cfg.sponsor pop) (cfg'.sponsor pop) (hs pop) pop).bind fun x => ?_
    refine Rescores.bind (k := id) (x := cloneWithFitness x.2) (y := cloneWithFitness x.2) ?_ fun emi => ?_
    · refine (carries_cloneInd _).bind fun c => (carries_getObj _).bind fun o => Rescores.bind (carries_modObj c _ _ ?_) fun _ => Rescores.pure _ _
      intro _
      rfl
    · refine (carries_useRng_same _).bind fun k => ?_
      simp only [id]
      cases (cfg.neighbors cur)[k]? with
      | none => exact Rescores.lift _
      | some d =>
        simp only
        cases queues[d]? with
        | none => exact Rescores.lift _
        | some q => exact Rescores.pure _ _
  · simp only [if_neg h0, if_neg h1]; exact Rescores.pure _ _

/-- Any island model whose selections and stop condition decide the same on the replaced fitnesses does the same. -/
theorem carries_islandRun (cfg : IslandConfig γ ψ φ ρ) (cfg' : IslandConfig γ ψ φ' ρ) (hw : ∀ a b, cfg'.worse (a.map h) (b.map h) = cfg.worse a b)
    (hc : ∀ g i pop m, cfg'.choose g i pop (rescored h m) = cfg.choose g i pop m) (hst : cfg'.stages = cfg.stages.map (rescoredStage h))
    (hsz : cfg'.size = cfg.size) (hni : cfg'.numIslands = cfg.numIslands) (hgap : cfg'.gap = cfg.gap) (hnb : cfg'.neighbors = cfg.neighbors)
    (hdest : cfg'.dest = cfg.dest) (hr : ∀ pop m, cfg'.replace pop (rescored h m) = cfg.replace pop m)
    (hs : ∀ pop m, cfg'.sponsor pop (rescored h m) = cfg.sponsor pop m) (hstop : ∀ g pops m, cfg'.stop g pops (rescored h m) = cfg.stop g pops m)
    (initGenome : ρ → PyM (List γ) × ρ) (dec : Dec γ ψ) (prob : Prob γ ψ φ ρ)
    (problem numPopulations popSize : Nat) (maxGenerations : Int) :
    Rescores h id (islandRun cfg initGenome dec prob problem numPopulations popSize maxGenerations)
      (islandRun cfg' initGenome dec (rescoredProb h prob) problem numPopulations popSize maxGenerations) := by
  have create : ∀ k, Rescores (ψ := ψ) (ρ := ρ) h id (createIslands initGenome problem popSize k) (createIslands initGenome problem popSize k) := by
    intro k
    induction k with
    | zero => exact Rescores.pure _ _
    | succ k ih => exact (carries_createPopulation _ _ _).bind fun _ => ih.bind fun _ => Rescores.pure _ _
  have evaluate : ∀ ps : List (List Nat), Rescores h id (evaluateIslands dec prob ps) (evaluateIslands dec (rescoredProb h prob) ps) := by
    intro ps
    induction ps with
    | nil => exact Rescores.pure _ _
    | cons q ps ih => exact (carries_evaluatePopulation dec prob q).bind fun _ => ih
  have step : ∀ g cur parents queues, Rescores h id (islandStep cfg g cur parents queues) (islandStep cfg' g cur parents queues) := by
    intro g cur parents queues
    unfold islandStep
    rw [hsz, hst]
    refine (carries_runPipeline parents (cfg.choose g cur parents) (cfg'.choose g cur parents) (hc g cur parents) _ _).bind fun off => ?_
    cases queues[cur]? with
    | none => exact Rescores.lift _
    | some q =>
      exact (carries_immigrateInds cfg cfg' hw hr q off).bind fun pop =>
        (carries_emigrateInds cfg cfg' hs hgap hnb hdest g cur pop _).bind fun _ => Rescores.pure _ _
  have sweep : ∀ g k cur pops queues, Rescores h id (islandSweep cfg g k cur pops queues) (islandSweep cfg' g k cur pops queues) := by
    intro g k
    induction k with
    | zero => intro cur pops queues; exact Rescores.pure _ _
    | succ k ih => intro cur pops queues; exact (step g cur _ queues).bind fun x => ih _ _ _
  refine (create _).bind fun pops => (evaluate pops).bind fun _ => ?_
  rw [hni]
  show Rescores h id (islandLoop cfg _ _ pops _) (islandLoop cfg' _ _ pops _)
  generalize maxGenerations.toNat = fuel
  generalize (0 : Int) = g
  generalize List.replicate cfg.numIslands ([] : List Nat) = queues
  induction fuel generalizing g pops queues with
  | zero => exact Rescores.pure _ _
  | succ fuel ih =>
    intro m
    unfold islandLoop
    rw [hstop]
    by_cases hs : cfg.stop g pops m = true
    · rw [if_pos hs, if_pos hs]; rfl
    · rw [if_neg hs, if_neg hs]
      exact (sweep g _ _ _ _).bind (fun x => ih x.1 (g + 1) x.2) m

end Leap
