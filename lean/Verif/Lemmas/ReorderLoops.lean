import Verif.Lemmas.Reorder
import Verif.Model.IslandRun
import Verif.Model.PlusRun

/-!
# Hand-written loops and islands on genomes with the genes in another order
-/

namespace Leap

open Spec

variable {γ ψ φ ρ : Type} {p : List Nat} {n : Nat}

/-- Any hand-written loop whose selection decides the same on the reordered genomes does the same. -/
theorem reorders_plusRun (hperm : p.Perm (List.range n)) (cfg : PlusConfig γ ψ φ ρ) (cfg' : PlusConfig γ ψ φ ρ) (hw : cfg'.worse = cfg.worse) (he : cfg'.equal = cfg.equal)
    (hc : ∀ g pop m, cfg'.choose g pop (reordered p m) = cfg.choose g pop m) (hst : ∀ g, List.Forall₂ (ReorderedStage p n) (cfg.stages g) (cfg'.stages g))
    (hb : cfg'.brood = cfg.brood) (hsv : cfg'.survival = cfg.survival) (initGenome : ρ → PyM (List γ) × ρ) (initGenome' : ρ → PyM (List γ) × ρ)
    (hi : ∀ s, initGenome' s = ((initGenome s).1.map (rearranged p), (initGenome s).2)) (hin : ∀ s g, (initGenome s).1 = .ok g → g.length = n)
    (dec : Dec γ ψ) (dec' : Dec γ ψ) (hd : ReorderedDec p n dec dec') (prob : Prob γ ψ φ ρ) (prob' : Prob γ ψ φ ρ) (hp : ReorderedProb p n prob prob')
    (problem popSize : Nat) (maxGenerations : Int) :
    Reorders p n Anything id (plusRun cfg initGenome dec prob problem popSize maxGenerations)
      (plusRun cfg' initGenome' dec' prob' problem popSize maxGenerations) := by
  refine (reorders_createPopulation _ _ hi hin _ _).bind fun parents _ => (reorders_evaluatePopulation dec dec' hd prob prob' hp parents).bind fun _ _ => ?_
  show Reorders p n Anything id (plusLoop cfg _ _ parents) (plusLoop cfg' _ _ parents)
  generalize maxGenerations.toNat = fuel
  generalize (0 : Int) = g
  induction fuel generalizing g parents with
  | zero => exact Reorders.pure _ _ trivial
  | succ fuel ih =>
    refine Reorders.bind (Q := Anything) (k := id) ?_ fun q _ => ih q trivial (g + 1)
    unfold plusStep
    rw [hb]
    refine (reorders_runPipeline hperm parents (cfg.choose g parents) (cfg'.choose g parents) (hc g parents) (hst g) _).bind fun off _ => ?_
    intro m hm
    have hlt : cfg'.lt (reordered p m) = cfg.lt m := by
      funext a b
      simp only [PlusConfig.lt, hw]
      rfl
    have hgt : cfg'.gt (reordered p m) = cfg.gt m := by
      funext a b
      simp only [PlusConfig.gt, hlt, he]
      rfl
    unfold survive
    rw [hsv]
    cases cfg.survival with
    | truncation => simp only [hlt]; exact ⟨rfl, hm, fun _ _ => trivial⟩
    | insertion draw =>
      simp only [hgt, except_map_id]
      exact ⟨rfl, hm, fun _ _ => trivial⟩

theorem reorders_pickOne (choose : Mem γ ψ φ ρ → PyM Nat × ρ) (choose' : Mem γ ψ φ ρ → PyM Nat × ρ) (hc : ∀ m, choose' (reordered p m) = choose m)
    (pop : List Nat) : Reorders p n Anything id (pickOne choose pop) (pickOne choose' pop) := by
  intro m hm
  unfold pickOne
  rw [hc]
  rcases choose m with ⟨_ | i, s⟩
  · exact ⟨rfl, hm, fun _ _ => trivial⟩
  · simp only
    cases pop[i]? <;> exact ⟨rfl, hm, fun _ _ => trivial⟩

theorem reorders_immigrateInds (cfg : IslandConfig γ ψ φ ρ) (cfg' : IslandConfig γ ψ φ ρ) (hw : cfg'.worse = cfg.worse)
    (hr : ∀ pop m, cfg'.replace pop (reordered p m) = cfg.replace pop m) (queue pop : List Nat) :
    Reorders p n Anything id (immigrateInds cfg queue pop) (immigrateInds cfg' queue pop) := by
  induction queue generalizing pop with
  | nil => exact Reorders.pure _ _ trivial
  | cons imm rest ih =>
    refine (reorders_pickOne (cfg.replace pop) (cfg'.replace pop) (hr pop) pop).bind fun x _ => ?_
    intro m hm
    have hlt : cfg'.lt (reordered p m) = cfg.lt m := by
      funext a b
      simp only [IslandConfig.lt, hw]
      rfl
    simp only [id, hlt]
    exact ih _ m hm

theorem reorders_emigrateInds (cfg : IslandConfig γ ψ φ ρ) (cfg' : IslandConfig γ ψ φ ρ) (hs : ∀ pop m, cfg'.sponsor pop (reordered p m) = cfg.sponsor pop m)
    (hgap : cfg'.gap = cfg.gap) (hnb : cfg'.neighbors = cfg.neighbors) (hdest : cfg'.dest = cfg.dest) (g : Int) (cur : Nat) (pop : List Nat)
    (queues : List (List Nat)) : Reorders p n Anything id (emigrateInds cfg g cur pop queues) (emigrateInds cfg' g cur pop queues) := by
  unfold emigrateInds
  rw [hgap, hnb, hdest]
  by_cases h0 : cfg.gap = 0
  · simp only [if_pos h0]; exact Reorders.lift_same _
  by_cases h1 : g % cfg.gap = 0
  · simp only [if_neg h0, if_pos h1]
    refine (reorders_pickOne (cfg.sponsor pop) (cfg'.sponsor pop) (hs pop) pop).bind fun x _ => ?_
    refine Reorders.bind (Q := Anything) (k := id) (x := cloneWithFitness x.2) (y := cloneWithFitness x.2) ?_ fun emi _ => ?_
    · exact (reorders_cloneInd _).bind fun _ _ => (reorders_getObj _).bind fun _ _ => (reorders_modObj _ _).bind fun _ _ => Reorders.pure _ _ trivial
    · refine (reorders_useRng_same _).bind fun k _ => ?_
      simp only [id]
      cases (cfg.neighbors cur)[k]? with
      | none => exact Reorders.lift_same _
      | some d =>
        simp only
        cases queues[d]? with
        | none => exact Reorders.lift_same _
        | some q => exact Reorders.pure _ _ trivial
  · simp only [if_neg h0, if_neg h1]; exact Reorders.pure _ _ trivial

/-- Any island model whose selections and stop condition decide the same on the reordered genomes does the same. -/
theorem reorders_islandRun (hperm : p.Perm (List.range n)) (cfg : IslandConfig γ ψ φ ρ) (cfg' : IslandConfig γ ψ φ ρ) (hw : cfg'.worse = cfg.worse)
    (hc : ∀ g i pop m, cfg'.choose g i pop (reordered p m) = cfg.choose g i pop m) (hst : List.Forall₂ (ReorderedStage p n) cfg.stages cfg'.stages)
    (hsz : cfg'.size = cfg.size) (hni : cfg'.numIslands = cfg.numIslands) (hgap : cfg'.gap = cfg.gap) (hnb : cfg'.neighbors = cfg.neighbors)
    (hdest : cfg'.dest = cfg.dest) (hr : ∀ pop m, cfg'.replace pop (reordered p m) = cfg.replace pop m)
    (hs : ∀ pop m, cfg'.sponsor pop (reordered p m) = cfg.sponsor pop m) (hstop : ∀ g pops m, cfg'.stop g pops (reordered p m) = cfg.stop g pops m)
    (initGenome : ρ → PyM (List γ) × ρ) (initGenome' : ρ → PyM (List γ) × ρ)
    (hi : ∀ s, initGenome' s = ((initGenome s).1.map (rearranged p), (initGenome s).2)) (hin : ∀ s g, (initGenome s).1 = .ok g → g.length = n)
    (dec : Dec γ ψ) (dec' : Dec γ ψ) (hd : ReorderedDec p n dec dec') (prob : Prob γ ψ φ ρ) (prob' : Prob γ ψ φ ρ) (hp : ReorderedProb p n prob prob')
    (problem numPopulations popSize : Nat) (maxGenerations : Int) :
    Reorders p n Anything id (islandRun cfg initGenome dec prob problem numPopulations popSize maxGenerations)
      (islandRun cfg' initGenome' dec' prob' problem numPopulations popSize maxGenerations) := by
  have create : ∀ k, Reorders (γ := γ) (ψ := ψ) (φ := φ) p n Anything id (createIslands initGenome problem popSize k) (createIslands initGenome' problem popSize k) := by
    intro k
    induction k with
    | zero => exact Reorders.pure _ _ trivial
    | succ k ih => exact (reorders_createPopulation _ _ hi hin _ _).bind fun _ _ => ih.bind fun _ _ => Reorders.pure _ _ trivial
  have evaluate : ∀ ps : List (List Nat), Reorders p n Anything id (evaluateIslands dec prob ps) (evaluateIslands dec' prob' ps) := by
    intro ps
    induction ps with
    | nil => exact Reorders.pure _ _ trivial
    | cons q ps ih => exact (reorders_evaluatePopulation dec dec' hd prob prob' hp q).bind fun _ _ => ih
  have step : ∀ g cur parents queues, Reorders p n Anything id (islandStep cfg g cur parents queues) (islandStep cfg' g cur parents queues) := by
    intro g cur parents queues
    unfold islandStep
    rw [hsz]
    refine (reorders_runPipeline hperm parents (cfg.choose g cur parents) (cfg'.choose g cur parents) (hc g cur parents) hst _).bind fun off _ => ?_
    cases queues[cur]? with
    | none => exact Reorders.lift_same _
    | some q =>
      exact (reorders_immigrateInds cfg cfg' hw hr q off).bind fun pop _ =>
        (reorders_emigrateInds cfg cfg' hs hgap hnb hdest g cur pop _).bind fun _ _ => Reorders.pure _ _ trivial
  have sweep : ∀ g k cur pops queues, Reorders p n Anything id (islandSweep cfg g k cur pops queues) (islandSweep cfg' g k cur pops queues) := by
    intro g k
    induction k with
    | zero => intro cur pops queues; exact Reorders.pure _ _ trivial
    | succ k ih => intro cur pops queues; exact (step g cur _ queues).bind fun x _ => ih _ _ _
  refine (create _).bind fun pops _ => (evaluate pops).bind fun _ _ => ?_
  rw [hni]
  show Reorders p n Anything id (islandLoop cfg _ _ pops _) (islandLoop cfg' _ _ pops _)
  generalize maxGenerations.toNat = fuel
  generalize (0 : Int) = g
  generalize List.replicate cfg.numIslands ([] : List Nat) = queues
  induction fuel generalizing g pops queues with
  | zero => exact Reorders.pure _ _ trivial
  | succ fuel ih =>
    intro m hm
    unfold islandLoop
    rw [hstop]
    by_cases hs : cfg.stop g pops m = true
    · rw [if_pos hs, if_pos hs]; exact ⟨rfl, hm, fun _ _ => trivial⟩
    · rw [if_neg hs, if_neg hs]
      exact (sweep g _ _ _ _).bind (fun x _ => ih x.1 trivial (g + 1) x.2) m hm

end Leap
