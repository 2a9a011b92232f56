import Verif.Lemmas.Recode
import Verif.Model.IslandRun
import Verif.Model.PlusRun

/-!
# Hand-written loops and islands on genomes in another code
-/

namespace Leap

open Spec

variable {γ γ' ψ φ ρ : Type} {h : Nat → γ → γ'} {n : Nat}

/-- Any hand-written loop whose selection decides the same on the recoded genomes does the same. -/
theorem recodes_plusRun (cfg : PlusConfig γ ψ φ ρ) (cfg' : PlusConfig γ' ψ φ ρ) (hw : cfg'.worse = cfg.worse) (he : cfg'.equal = cfg.equal)
    (hc : ∀ g pop m, cfg'.choose g pop (recoded h m) = cfg.choose g pop m) (hst : ∀ g, List.Forall₂ (RecodedStage h n) (cfg.stages g) (cfg'.stages g))
    (hb : cfg'.brood = cfg.brood) (hsv : cfg'.survival = cfg.survival) (initGenome : ρ → PyM (List γ) × ρ) (initGenome' : ρ → PyM (List γ') × ρ)
    (hi : ∀ s, initGenome' s = ((initGenome s).1.map (recode h), (initGenome s).2)) (hin : ∀ s g, (initGenome s).1 = .ok g → g.length = n)
    (dec : Dec γ ψ) (dec' : Dec γ' ψ) (hd : RecodedDec h n dec dec') (prob : Prob γ ψ φ ρ) (prob' : Prob γ' ψ φ ρ) (hp : RecodedProb h n prob prob')
    (problem popSize : Nat) (maxGenerations : Int) :
    Recodes h n Anything id (plusRun cfg initGenome dec prob problem popSize maxGenerations)
      (plusRun cfg' initGenome' dec' prob' problem popSize maxGenerations) := by
  refine (recodes_createPopulation _ _ hi hin _ _).bind fun parents _ => (recodes_evaluatePopulation dec dec' hd prob prob' hp parents).bind fun _ _ => ?_
  show Recodes h n Anything id (plusLoop cfg _ _ parents) (plusLoop cfg' _ _ parents)
  generalize maxGenerations.toNat = fuel
  generalize (0 : Int) = g
  induction fuel generalizing g parents with
  | zero => exact Recodes.pure _ _ trivial
  | succ fuel ih =>
    refine Recodes.bind (Q := Anything) (k := id) ?_ fun p _ => ih p trivial (g + 1)
    unfold plusStep
    rw [hb]
    refine (recodes_runPipeline parents (cfg.choose g parents) (cfg'.choose g parents) (hc g parents) (hst g) _).bind fun off _ => ?_
    intro m hm
    have hlt : cfg'.lt (recoded h m) = cfg.lt m := by
      funext a b
      simp only [PlusConfig.lt, hw]
      rfl
    have hgt : cfg'.gt (recoded h m) = cfg.gt m := by
      funext a b
      simp only [PlusConfig.gt, hlt, he]
      rfl
    unfold survive
    rw [hsv]
    cases cfg.survival with
    | truncation => simp only [hlt]; exact ⟨rfl, hm, fun _ _ => trivial⟩
    | insertion draw =>
      simp only [hgt, except_map_id]
      exact ⟨rfl, hm, fun _ _ => trivial⟩

theorem recodes_pickOne (choose : Mem γ ψ φ ρ → PyM Nat × ρ) (choose' : Mem γ' ψ φ ρ → PyM Nat × ρ) (hc : ∀ m, choose' (recoded h m) = choose m)
    (pop : List Nat) : Recodes h n Anything id (pickOne choose pop) (pickOne choose' pop) := by
  intro m hm
  unfold pickOne
  rw [hc]
  rcases choose m with ⟨_ | i, s⟩
  · exact ⟨rfl, hm, fun _ _ => trivial⟩
  · simp only
    cases pop[i]? <;> exact ⟨rfl, hm, fun _ _ => trivial⟩

theorem recodes_immigrateInds (cfg : IslandConfig γ ψ φ ρ) (cfg' : IslandConfig γ' ψ φ ρ) (hw : cfg'.worse = cfg.worse)
    (hr : ∀ pop m, cfg'.replace pop (recoded h m) = cfg.replace pop m) (queue pop : List Nat) :
    Recodes h n Anything id (immigrateInds cfg queue pop) (immigrateInds cfg' queue pop) := by
  induction queue generalizing pop with
  | nil => exact Recodes.pure _ _ trivial
  | cons imm rest ih =>
    refine (recodes_pickOne (cfg.replace pop) (cfg'.replace pop) (hr pop) pop).bind fun x _ => ?_
    intro m hm
    have hlt : cfg'.lt (recoded h m) = cfg.lt m := by
      funext a b
      simp only [IslandConfig.lt, hw]
      rfl
    simp only [id, hlt]
    exact ih _ m hm

theorem recodes_emigrateInds (cfg : IslandConfig γ ψ φ ρ) (cfg' : IslandConfig γ' ψ φ ρ) (hs : ∀ pop m, cfg'.sponsor pop (recoded h m) = cfg.sponsor pop m)
    (hgap : cfg'.gap = cfg.gap) (hnb : cfg'.neighbors = cfg.neighbors) (hdest : cfg'.dest = cfg.dest) (g : Int) (cur : Nat) (pop : List Nat)
    (queues : List (List Nat)) : Recodes h n Anything id (emigrateInds cfg g cur pop queues) (emigrateInds cfg' g cur pop queues) := by
  unfold emigrateInds
  rw [hgap, hnb, hdest]
  by_cases h0 : cfg.gap = 0
  · simp only [if_pos h0]; exact Recodes.lift_same _
  by_cases h1 : g % cfg.gap = 0
  · simp only [if_neg h0, if_pos h1]
    refine (recodes_pickOne (cfg.sponsor pop) (cfg'.sponsor pop) (hs pop) pop).bind fun x _ => ?_
    refine Recodes.bind (Q := Anything) (k := id) (x := cloneWithFitness x.2) (y := cloneWithFitness x.2) ?_ fun emi _ => ?_
    · exact (recodes_cloneInd _).bind fun _ _ => (recodes_getObj _).bind fun _ _ => (recodes_modObj _ _).bind fun _ _ => Recodes.pure _ _ trivial
    · refine (recodes_useRng_same _).bind fun k _ => ?_
      simp only [id]
      cases (cfg.neighbors cur)[k]? with
      | none => exact Recodes.lift_same _
      | some d =>
        simp only
        cases queues[d]? with
        | none => exact Recodes.lift_same _
        | some q => exact Recodes.pure _ _ trivial
  · simp only [if_neg h0, if_neg h1]; exact Recodes.pure _ _ trivial

/-- Any island model whose selections and stop condition decide the same on the recoded genomes does the same. -/
theorem recodes_islandRun (cfg : IslandConfig γ ψ φ ρ) (cfg' : IslandConfig γ' ψ φ ρ) (hw : cfg'.worse = cfg.worse)
    (hc : ∀ g i pop m, cfg'.choose g i pop (recoded h m) = cfg.choose g i pop m) (hst : List.Forall₂ (RecodedStage h n) cfg.stages cfg'.stages)
    (hsz : cfg'.size = cfg.size) (hni : cfg'.numIslands = cfg.numIslands) (hgap : cfg'.gap = cfg.gap) (hnb : cfg'.neighbors = cfg.neighbors)
    (hdest : cfg'.dest = cfg.dest) (hr : ∀ pop m, cfg'.replace pop (recoded h m) = cfg.replace pop m)
    (hs : ∀ pop m, cfg'.sponsor pop (recoded h m) = cfg.sponsor pop m) (hstop : ∀ g pops m, cfg'.stop g pops (recoded h m) = cfg.stop g pops m)
    (initGenome : ρ → PyM (List γ) × ρ) (initGenome' : ρ → PyM (List γ') × ρ)
    (hi : ∀ s, initGenome' s = ((initGenome s).1.map (recode h), (initGenome s).2)) (hin : ∀ s g, (initGenome s).1 = .ok g → g.length = n)
    (dec : Dec γ ψ) (dec' : Dec γ' ψ) (hd : RecodedDec h n dec dec') (prob : Prob γ ψ φ ρ) (prob' : Prob γ' ψ φ ρ) (hp : RecodedProb h n prob prob')
    (problem numPopulations popSize : Nat) (maxGenerations : Int) :
    Recodes h n Anything id (islandRun cfg initGenome dec prob problem numPopulations popSize maxGenerations)
      (islandRun cfg' initGenome' dec' prob' problem numPopulations popSize maxGenerations) := by
  have create : ∀ k, Recodes (ψ := ψ) (φ := φ) h n Anything id (createIslands initGenome problem popSize k) (createIslands initGenome' problem popSize k) := by
    intro k
    induction k with
    | zero => exact Recodes.pure _ _ trivial
    | succ k ih => exact (recodes_createPopulation _ _ hi hin _ _).bind fun _ _ => ih.bind fun _ _ => Recodes.pure _ _ trivial
  have evaluate : ∀ ps : List (List Nat), Recodes h n Anything id (evaluateIslands dec prob ps) (evaluateIslands dec' prob' ps) := by
    intro ps
    induction ps with
    | nil => exact Recodes.pure _ _ trivial
    | cons q ps ih => exact (recodes_evaluatePopulation dec dec' hd prob prob' hp q).bind fun _ _ => ih
  have step : ∀ g cur parents queues, Recodes h n Anything id (islandStep cfg g cur parents queues) (islandStep cfg' g cur parents queues) := by
    intro g cur parents queues
    unfold islandStep
    rw [hsz]
    refine (recodes_runPipeline parents (cfg.choose g cur parents) (cfg'.choose g cur parents) (hc g cur parents) hst _).bind fun off _ => ?_
    cases queues[cur]? with
    | none => exact Recodes.lift_same _
    | some q =>
      exact (recodes_immigrateInds cfg cfg' hw hr q off).bind fun pop _ =>
        (recodes_emigrateInds cfg cfg' hs hgap hnb hdest g cur pop _).bind fun _ _ => Recodes.pure _ _ trivial
  have sweep : ∀ g k cur pops queues, Recodes h n Anything id (islandSweep cfg g k cur pops queues) (islandSweep cfg' g k cur pops queues) := by
    intro g k
    induction k with
    | zero => intro cur pops queues; exact Recodes.pure _ _ trivial
    | succ k ih => intro cur pops queues; exact (step g cur _ queues).bind fun x _ => ih _ _ _
  refine (create _).bind fun pops _ => (evaluate pops).bind fun _ _ => ?_
  rw [hni]
  show Recodes h n Anything id (islandLoop cfg _ _ pops _) (islandLoop cfg' _ _ pops _)
  generalize maxGenerations.toNat = fuel
  generalize (0 : Int) = g
  generalize List.replicate cfg.numIslands ([] : List Nat) = queues
  induction fuel generalizing g pops queues with
  | zero => exact Recodes.pure _ _ trivial
  | succ fuel ih =>
    intro m hm
    unfold islandLoop
    rw [hstop]
    by_cases hs : cfg.stop g pops m = true
    · rw [if_pos hs, if_pos hs]; exact ⟨rfl, hm, fun _ _ => trivial⟩
    · rw [if_neg hs, if_neg hs]
      exact (sweep g _ _ _ _).bind (fun x _ => ih x.1 trivial (g + 1) x.2) m hm

end Leap
