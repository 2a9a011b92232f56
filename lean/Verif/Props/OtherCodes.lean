import Verif.Model.NsgaRun
import Verif.Model.SyncRun
import Verif.Model.WalkRun
import Verif.Props.NsgaRun
import Verif.Props.OtherLoops
import Verif.Props.SyncRun

/-!
# NSGA-II, `random_search` and synchronous distributed runs: other codes, other orders of genes, other fitness scales

C129, C131 and C133 for `generalized_nsga_2`, for `random_search` and for loops around `synchronous.eval_pool`.
-/

namespace Leap

open Spec

variable {γ γ' ψ φ ρ : Type}

/-! ### Another code -/

section
variable {h : Nat → γ → γ'} {n : Nat}

/-- The second configuration of NSGA-II is the first for genomes in another code: neither the selection nor the stop condition looks at genomes. -/
def Spec.NsgaRecoded (h : Nat → γ → γ') (n : Nat) (cfg : NsgaConfig γ ψ ρ) (cfg' : NsgaConfig γ' ψ ρ) : Prop :=
  cfg'.maximize = cfg.maximize ∧ (∀ g rank distance pop m, cfg'.choose g rank distance pop (recoded h m) = cfg.choose g rank distance pop m) ∧
    List.Forall₂ (RecodedStage h n) cfg.stages cfg'.stages ∧ cfg'.size = cfg.size ∧ ∀ g pop m, cfg'.stop g pop (recoded h m) = cfg.stop g pop m

/-- The second configuration of a synchronous distributed run is the first for genomes in another code. -/
def Spec.SyncRecoded (h : Nat → γ → γ') (n : Nat) (cfg : SyncConfig γ ψ φ ρ) (cfg' : SyncConfig γ' ψ φ ρ) : Prop :=
  (∀ g pop m, cfg'.choose g pop (recoded h m) = cfg.choose g pop m) ∧ List.Forall₂ (RecodedStage h n) cfg.stages cfg'.stages ∧ cfg'.size = cfg.size ∧
    cfg'.kElites = cfg.kElites ∧ (∀ g pop m, cfg'.stop g pop (recoded h m) = cfg.stop g pop m) ∧ (∀ k pop m, cfg'.best k pop (recoded h m) = cfg.best k pop m) ∧
    cfg'.nan = cfg.nan ∧ RecodedDec h n cfg.dec cfg'.dec ∧ RecodedProb h n cfg.prob cfg'.prob

theorem recodes_nsgaLoop (cfg : NsgaConfig γ ψ ρ) (cfg' : NsgaConfig γ' ψ ρ) (hcfg : NsgaRecoded h n cfg cfg') (fuel : Nat) :
    ∀ (g : Int) (st : NsgaState), Recodes h n Anything id (nsgaLoop cfg fuel g st) (nsgaLoop cfg' fuel g st) := by
  obtain ⟨hmax, hc, hst, hsz, hstop⟩ := hcfg
  induction fuel with
  | zero => exact fun _ st => Recodes.pure _ _ trivial
  | succ fuel ih =>
    intro g st m hm
    unfold nsgaLoop
    rw [hstop]
    by_cases hs : cfg.stop g st.pop m = true
    · simp only [if_pos hs]; exact ⟨rfl, hm, fun _ _ => trivial⟩
    · simp only [if_neg hs]
      refine Recodes.bind (Q := Anything) (k := id) ?_ (fun st' _ => ih (g + 1) st') m hm
      intro m hm
      obtain ⟨h1, h2, _⟩ := recodes_runPipeline st.pop (cfg.choose g st.rank st.distance st.pop) (cfg'.choose g st.rank st.distance st.pop)
        (fun m => hc g st.rank st.distance st.pop m) hst cfg.size m hm
      unfold nsgaGeneration
      rw [hsz, h1, hmax]
      rcases hx : runPipeline st.pop (cfg.choose g st.rank st.distance st.pop) cfg.stages cfg.size m with ⟨e | off, m1⟩
      · rw [hx] at h2; exact ⟨rfl, h2, fun _ _ => trivial⟩
      · rw [hx] at h2
        have hv : vectorOf (recoded h m1) = vectorOf m1 := rfl
        simp only [Except.map, id, hv]
        rcases nsga2Survive (fun _ => cfg.maximize) (fun _ => true) (vectorOf m1) off st.pop st.rank st.distance with e | ⟨kept, rank, distance⟩
        · exact ⟨rfl, h2, fun _ _ => trivial⟩
        · exact ⟨rfl, h2, fun _ _ => trivial⟩

/-- C131: `generalized_nsga_2` does the same on genomes in another code: the same survivors, ranks and crowding distances. -/
theorem nsga_recoded (cfg : NsgaConfig γ ψ ρ) (cfg' : NsgaConfig γ' ψ ρ) (hcfg : NsgaRecoded h n cfg cfg') (isMulti : Bool)
    (initGenome : ρ → PyM (List γ) × ρ) (initGenome' : ρ → PyM (List γ') × ρ) (hi : ∀ s, initGenome' s = ((initGenome s).1.map (recode h), (initGenome s).2))
    (hin : ∀ s g, (initGenome s).1 = .ok g → g.length = n) (dec : Dec γ ψ) (dec' : Dec γ' ψ) (hd : RecodedDec h n dec dec')
    (prob : Prob γ ψ (List ℚ) ρ) (prob' : Prob γ' ψ (List ℚ) ρ) (hprob : RecodedProb h n prob prob') (problem popSize : Nat)
    (startGeneration maxGenerations : Int) (rank : Nat → Nat) (distance : Nat → WithTop ℚ) (m : Mem γ ψ (List ℚ) ρ) (hm : Sized n m) :
    nsgaRun cfg' isMulti initGenome' dec' prob' problem popSize startGeneration maxGenerations rank distance (recoded h m) =
      recodedOutcome h (nsgaRun cfg isMulti initGenome dec prob problem popSize startGeneration maxGenerations rank distance m) := by
  have : Recodes h n Anything id (nsgaRun cfg isMulti initGenome dec prob problem popSize startGeneration maxGenerations rank distance)
      (nsgaRun cfg' isMulti initGenome' dec' prob' problem popSize startGeneration maxGenerations rank distance) := by
    unfold nsgaRun
    cases isMulti with
    | false => exact Recodes.lift_same _
    | true =>
      exact (recodes_createPopulation _ _ hi hin _ _).bind fun parents _ => (recodes_evaluatePopulation dec dec' hd prob prob' hprob parents).bind fun _ _ =>
        recodes_nsgaLoop cfg cfg' hcfg _ _ _
  rw [(this m hm).1]
  unfold recodedOutcome
  rw [except_map_id]

theorem recodes_workerEvaluate (nan : φ) (dec : Dec γ ψ) (dec' : Dec γ' ψ) (hd : RecodedDec h n dec dec') (prob : Prob γ ψ φ ρ) (prob' : Prob γ' ψ φ ρ)
    (hp : RecodedProb h n prob prob') (own : Option ρ) (r : Nat) :
    Recodes h n Anything id (workerEvaluate nan dec prob own r) (workerEvaluate nan dec' prob' own r) := by
  cases own with
  | none => exact recodes_robustEvaluate nan dec dec' hd prob prob' hp r
  | some s =>
    intro m hm
    obtain ⟨h1, h2, _⟩ := recodes_robustEvaluate nan dec dec' hd prob prob' hp r { m with rng := s } hm
    have h1' : robustEvaluate nan dec' prob' r { recoded h m with rng := s } = _ := h1
    unfold workerEvaluate
    simp only [h1']
    exact ⟨rfl, h2, fun _ _ => trivial⟩

theorem recodes_syncEvaluate (nan : φ) (dec : Dec γ ψ) (dec' : Dec γ' ψ) (hd : RecodedDec h n dec dec') (prob : Prob γ ψ φ ρ) (prob' : Prob γ' ψ φ ρ)
    (hp : RecodedProb h n prob prob') (c : SyncRound ρ) (population : List Nat) :
    Recodes h n Anything id (syncEvaluate nan dec prob c population) (syncEvaluate nan dec' prob' c population) := by
  refine (recodes_submitAll _ _).bind fun sent _ => ?_
  refine Recodes.bind (Q := Anything) (k := id) ?_ fun _ _ => Recodes.pure _ _ trivial
  show Recodes h n Anything id (completeAll nan dec prob c.own sent c.order) (completeAll nan dec' prob' c.own sent c.order)
  generalize c.order = is
  induction is with
  | nil => exact Recodes.pure _ _ trivial
  | cons i is ih =>
    unfold completeAll
    cases sent[i]? with
    | none => exact ih
    | some r => exact (recodes_workerEvaluate nan dec dec' hd prob prob' hp _ r).bind fun _ _ => ih

/-- C131: and so does a synchronous distributed run, in every order of evaluation, whether workers get copies or not and whatever random numbers they have. -/
theorem sync_recoded (cfg : SyncConfig γ ψ φ ρ) (cfg' : SyncConfig γ' ψ φ ρ) (hcfg : SyncRecoded h n cfg cfg')
    (initGenome : ρ → PyM (List γ) × ρ) (initGenome' : ρ → PyM (List γ') × ρ) (hi : ∀ s, initGenome' s = ((initGenome s).1.map (recode h), (initGenome s).2))
    (hin : ∀ s g, (initGenome s).1 = .ok g → g.length = n) (problem popSize generations : Nat) (env : Int → SyncRound ρ) (m : Mem γ ψ φ ρ) (hm : Sized n m) :
    syncRun cfg' initGenome' problem popSize generations env (recoded h m) =
      recodedOutcome h (syncRun cfg initGenome problem popSize generations env m) := by
  obtain ⟨hc, hst, hsz, hk, hstop, hbest, hnan, hd, hprob⟩ := hcfg
  have loop : ∀ (fuel : Nat) (g : Int) (parents : List Nat), Recodes h n Anything id (syncLoop cfg env fuel g parents) (syncLoop cfg' env fuel g parents) := by
    intro fuel
    induction fuel with
    | zero => exact fun _ st => Recodes.pure _ _ trivial
    | succ fuel ih =>
      intro g parents m hm
      unfold syncLoop
      rw [hstop]
      by_cases hs : cfg.stop g parents m = true
      · simp only [if_pos hs]; exact ⟨rfl, hm, fun _ _ => trivial⟩
      · simp only [if_neg hs, hsz, hnan]
        refine Recodes.bind (Q := Anything) (k := id) (recodes_runPipeline parents (cfg.choose g parents) (cfg'.choose g parents) (fun m => hc g parents m) hst cfg.size)
          (fun pulled _ => ?_) m hm
        refine Recodes.bind (Q := Anything) (k := id) (recodes_syncEvaluate cfg.nan cfg.dec cfg'.dec hd cfg.prob cfg'.prob hprob (env g) pulled) fun off _ => ?_
        refine Recodes.bind (Q := Anything) (k := id) ?_ fun survivors _ => ih (g + 1) survivors
        intro m hm
        have hb2 : ∀ (k : Nat) (pop : List Nat) (s : ρ), cfg'.best k pop { recoded h m with rng := s } = cfg.best k pop { m with rng := s } :=
          fun k pop s => hbest k pop { m with rng := s }
        simp only [syncSurvival, hk, hbest, hb2]
        exact ⟨rfl, hm, fun _ _ => trivial⟩
  have : Recodes h n Anything id (syncRun cfg initGenome problem popSize generations env) (syncRun cfg' initGenome' problem popSize generations env) := by
    unfold syncRun
    rw [hnan]
    exact (recodes_createPopulation _ _ hi hin _ _).bind fun created _ =>
      (recodes_syncEvaluate cfg.nan cfg.dec cfg'.dec hd cfg.prob cfg'.prob hprob (env (-1)) created).bind fun parents _ => loop _ _ parents
  rw [(this m hm).1]
  unfold recodedOutcome
  rw [except_map_id]

theorem recodes_walkLoop (choose : Int → List Nat → Mem γ ψ φ ρ → PyM Nat × ρ) (choose' : Int → List Nat → Mem γ' ψ φ ρ → PyM Nat × ρ)
    (hc : ∀ g pop m, choose' g pop (recoded h m) = choose g pop m) (stages : List (Stage γ ψ φ ρ)) (stages' : List (Stage γ' ψ φ ρ))
    (hst : List.Forall₂ (RecodedStage h n) stages stages') (size fuel : Nat) : ∀ (g : Int) (x : Nat) (trajectory : List Nat),
    Recodes h n Anything id (walkLoop choose stages size fuel g x trajectory) (walkLoop choose' stages' size fuel g x trajectory) := by
  induction fuel with
  | zero => exact fun _ _ _ => Recodes.pure _ _ trivial
  | succ fuel ih =>
    intro g x trajectory m hm
    obtain ⟨h1, h2, _⟩ := recodes_runPipeline [x] (choose g [x]) (choose' g [x]) (fun m => hc g [x] m) hst size m hm
    unfold walkLoop
    rw [h1]
    rcases hx : runPipeline [x] (choose g [x]) stages size m with ⟨e | (_ | ⟨next, more⟩), m1⟩ <;> rw [hx] at h2
    · exact ⟨rfl, h2, fun _ _ => trivial⟩
    · exact ⟨rfl, h2, fun _ _ => trivial⟩
    · exact ih _ _ _ m1 h2

/-- C131: and so does `random_search`. -/
theorem walk_recoded (choose : Int → List Nat → Mem γ ψ φ ρ → PyM Nat × ρ) (choose' : Int → List Nat → Mem γ' ψ φ ρ → PyM Nat × ρ)
    (hc : ∀ g pop m, choose' g pop (recoded h m) = choose g pop m) (stages : List (Stage γ ψ φ ρ)) (stages' : List (Stage γ' ψ φ ρ))
    (hst : List.Forall₂ (RecodedStage h n) stages stages') (size : Nat)
    (initGenome : ρ → PyM (List γ) × ρ) (initGenome' : ρ → PyM (List γ') × ρ) (hi : ∀ s, initGenome' s = ((initGenome s).1.map (recode h), (initGenome s).2))
    (hin : ∀ s g, (initGenome s).1 = .ok g → g.length = n) (dec : Dec γ ψ) (dec' : Dec γ' ψ) (hd : RecodedDec h n dec dec')
    (prob : Prob γ ψ φ ρ) (prob' : Prob γ' ψ φ ρ) (hprob : RecodedProb h n prob prob') (problem : Nat) (evaluations : Int) (m : Mem γ ψ φ ρ) (hm : Sized n m) :
    walkRun choose' stages' size initGenome' dec' prob' problem evaluations (recoded h m) =
      recodedOutcome h (walkRun choose stages size initGenome dec prob problem evaluations m) := by
  have : Recodes h n Anything id (walkRun choose stages size initGenome dec prob problem evaluations)
      (walkRun choose' stages' size initGenome' dec' prob' problem evaluations) :=
    (recodes_createPopulation _ _ hi hin _ _).bind fun first _ => (recodes_evaluatePopulation dec dec' hd prob prob' hprob first).bind fun _ _ =>
      recodes_walkLoop choose choose' hc stages stages' hst size _ _ _ _
  rw [(this m hm).1]
  unfold recodedOutcome
  rw [except_map_id]

end

/-! ### Another order of the genes -/

section
variable {p : List Nat} {n : Nat}

/-- The second configuration of NSGA-II is the first for genomes with the genes in another order. -/
def Spec.NsgaReordered (p : List Nat) (n : Nat) (cfg : NsgaConfig γ ψ ρ) (cfg' : NsgaConfig γ ψ ρ) : Prop :=
  cfg'.maximize = cfg.maximize ∧ (∀ g rank distance pop m, cfg'.choose g rank distance pop (reordered p m) = cfg.choose g rank distance pop m) ∧
    List.Forall₂ (ReorderedStage p n) cfg.stages cfg'.stages ∧ cfg'.size = cfg.size ∧ ∀ g pop m, cfg'.stop g pop (reordered p m) = cfg.stop g pop m

/-- The second configuration of a synchronous distributed run is the first for genomes with the genes in another order. -/
def Spec.SyncReordered (p : List Nat) (n : Nat) (cfg : SyncConfig γ ψ φ ρ) (cfg' : SyncConfig γ ψ φ ρ) : Prop :=
  (∀ g pop m, cfg'.choose g pop (reordered p m) = cfg.choose g pop m) ∧ List.Forall₂ (ReorderedStage p n) cfg.stages cfg'.stages ∧ cfg'.size = cfg.size ∧
    cfg'.kElites = cfg.kElites ∧ (∀ g pop m, cfg'.stop g pop (reordered p m) = cfg.stop g pop m) ∧ (∀ k pop m, cfg'.best k pop (reordered p m) = cfg.best k pop m) ∧
    cfg'.nan = cfg.nan ∧ ReorderedDec p n cfg.dec cfg'.dec ∧ ReorderedProb p n cfg.prob cfg'.prob

theorem reorders_nsgaLoop (hp : p.Perm (List.range n)) (cfg : NsgaConfig γ ψ ρ) (cfg' : NsgaConfig γ ψ ρ) (hcfg : NsgaReordered p n cfg cfg') (fuel : Nat) :
    ∀ (g : Int) (st : NsgaState), Reorders p n Anything id (nsgaLoop cfg fuel g st) (nsgaLoop cfg' fuel g st) := by
  obtain ⟨hmax, hc, hst, hsz, hstop⟩ := hcfg
  induction fuel with
  | zero => exact fun _ st => Reorders.pure _ _ trivial
  | succ fuel ih =>
    intro g st m hm
    unfold nsgaLoop
    rw [hstop]
    by_cases hs : cfg.stop g st.pop m = true
    · simp only [if_pos hs]; exact ⟨rfl, hm, fun _ _ => trivial⟩
    · simp only [if_neg hs]
      refine Reorders.bind (Q := Anything) (k := id) ?_ (fun st' _ => ih (g + 1) st') m hm
      intro m hm
      obtain ⟨h1, h2, _⟩ := reorders_runPipeline hp st.pop (cfg.choose g st.rank st.distance st.pop) (cfg'.choose g st.rank st.distance st.pop)
        (fun m => hc g st.rank st.distance st.pop m) hst cfg.size m hm
      unfold nsgaGeneration
      rw [hsz, h1, hmax]
      rcases hx : runPipeline st.pop (cfg.choose g st.rank st.distance st.pop) cfg.stages cfg.size m with ⟨e | off, m1⟩
      · rw [hx] at h2; exact ⟨rfl, h2, fun _ _ => trivial⟩
      · rw [hx] at h2
        have hv : vectorOf (reordered p m1) = vectorOf m1 := rfl
        simp only [Except.map, id, hv]
        rcases nsga2Survive (fun _ => cfg.maximize) (fun _ => true) (vectorOf m1) off st.pop st.rank st.distance with e | ⟨kept, rank, distance⟩
        · exact ⟨rfl, h2, fun _ _ => trivial⟩
        · exact ⟨rfl, h2, fun _ _ => trivial⟩

/-- C133: `generalized_nsga_2` does the same with the genes in another order. -/
theorem nsga_reordered (hp : p.Perm (List.range n)) (cfg : NsgaConfig γ ψ ρ) (cfg' : NsgaConfig γ ψ ρ) (hcfg : NsgaReordered p n cfg cfg') (isMulti : Bool)
    (initGenome : ρ → PyM (List γ) × ρ) (initGenome' : ρ → PyM (List γ) × ρ) (hi : ∀ s, initGenome' s = ((initGenome s).1.map (rearranged p), (initGenome s).2))
    (hin : ∀ s g, (initGenome s).1 = .ok g → g.length = n) (dec : Dec γ ψ) (dec' : Dec γ ψ) (hd : ReorderedDec p n dec dec')
    (prob : Prob γ ψ (List ℚ) ρ) (prob' : Prob γ ψ (List ℚ) ρ) (hprob : ReorderedProb p n prob prob') (problem popSize : Nat)
    (startGeneration maxGenerations : Int) (rank : Nat → Nat) (distance : Nat → WithTop ℚ) (m : Mem γ ψ (List ℚ) ρ) (hm : Sized n m) :
    nsgaRun cfg' isMulti initGenome' dec' prob' problem popSize startGeneration maxGenerations rank distance (reordered p m) =
      reorderedOutcome p (nsgaRun cfg isMulti initGenome dec prob problem popSize startGeneration maxGenerations rank distance m) := by
  have : Reorders p n Anything id (nsgaRun cfg isMulti initGenome dec prob problem popSize startGeneration maxGenerations rank distance)
      (nsgaRun cfg' isMulti initGenome' dec' prob' problem popSize startGeneration maxGenerations rank distance) := by
    unfold nsgaRun
    cases isMulti with
    | false => exact Reorders.lift_same _
    | true =>
      exact (reorders_createPopulation _ _ hi hin _ _).bind fun parents _ => (reorders_evaluatePopulation dec dec' hd prob prob' hprob parents).bind fun _ _ =>
        reorders_nsgaLoop hp cfg cfg' hcfg _ _ _
  rw [(this m hm).1]
  unfold reorderedOutcome
  rw [except_map_id]

theorem reorders_workerEvaluate (nan : φ) (dec : Dec γ ψ) (dec' : Dec γ ψ) (hd : ReorderedDec p n dec dec') (prob : Prob γ ψ φ ρ) (prob' : Prob γ ψ φ ρ)
    (hprob : ReorderedProb p n prob prob') (own : Option ρ) (r : Nat) :
    Reorders p n Anything id (workerEvaluate nan dec prob own r) (workerEvaluate nan dec' prob' own r) := by
  cases own with
  | none => exact reorders_robustEvaluate nan dec dec' hd prob prob' hprob r
  | some s =>
    intro m hm
    obtain ⟨h1, h2, _⟩ := reorders_robustEvaluate nan dec dec' hd prob prob' hprob r { m with rng := s } hm
    have h1' : robustEvaluate nan dec' prob' r { reordered p m with rng := s } = _ := h1
    unfold workerEvaluate
    simp only [h1']
    exact ⟨rfl, h2, fun _ _ => trivial⟩

theorem reorders_syncEvaluate (nan : φ) (dec : Dec γ ψ) (dec' : Dec γ ψ) (hd : ReorderedDec p n dec dec') (prob : Prob γ ψ φ ρ) (prob' : Prob γ ψ φ ρ)
    (hprob : ReorderedProb p n prob prob') (c : SyncRound ρ) (population : List Nat) :
    Reorders p n Anything id (syncEvaluate nan dec prob c population) (syncEvaluate nan dec' prob' c population) := by
  refine (reorders_submitAll _ _).bind fun sent _ => ?_
  refine Reorders.bind (Q := Anything) (k := id) ?_ fun _ _ => Reorders.pure _ _ trivial
  show Reorders p n Anything id (completeAll nan dec prob c.own sent c.order) (completeAll nan dec' prob' c.own sent c.order)
  generalize c.order = is
  induction is with
  | nil => exact Reorders.pure _ _ trivial
  | cons i is ih =>
    unfold completeAll
    cases sent[i]? with
    | none => exact ih
    | some r => exact (reorders_workerEvaluate nan dec dec' hd prob prob' hprob _ r).bind fun _ _ => ih

/-- C133: and so does a synchronous distributed run. -/
theorem sync_reordered (hp : p.Perm (List.range n)) (cfg : SyncConfig γ ψ φ ρ) (cfg' : SyncConfig γ ψ φ ρ) (hcfg : SyncReordered p n cfg cfg')
    (initGenome : ρ → PyM (List γ) × ρ) (initGenome' : ρ → PyM (List γ) × ρ) (hi : ∀ s, initGenome' s = ((initGenome s).1.map (rearranged p), (initGenome s).2))
    (hin : ∀ s g, (initGenome s).1 = .ok g → g.length = n) (problem popSize generations : Nat) (env : Int → SyncRound ρ) (m : Mem γ ψ φ ρ) (hm : Sized n m) :
    syncRun cfg' initGenome' problem popSize generations env (reordered p m) =
      reorderedOutcome p (syncRun cfg initGenome problem popSize generations env m) := by
  obtain ⟨hc, hst, hsz, hk, hstop, hbest, hnan, hd, hprob⟩ := hcfg
  have loop : ∀ (fuel : Nat) (g : Int) (parents : List Nat), Reorders p n Anything id (syncLoop cfg env fuel g parents) (syncLoop cfg' env fuel g parents) := by
    intro fuel
    induction fuel with
    | zero => exact fun _ st => Reorders.pure _ _ trivial
    | succ fuel ih =>
      intro g parents m hm
      unfold syncLoop
      rw [hstop]
      by_cases hs : cfg.stop g parents m = true
      · simp only [if_pos hs]; exact ⟨rfl, hm, fun _ _ => trivial⟩
      · simp only [if_neg hs, hsz, hnan]
        refine Reorders.bind (Q := Anything) (k := id) (reorders_runPipeline hp parents (cfg.choose g parents) (cfg'.choose g parents) (fun m => hc g parents m) hst cfg.size)
          (fun pulled _ => ?_) m hm
        refine Reorders.bind (Q := Anything) (k := id) (reorders_syncEvaluate cfg.nan cfg.dec cfg'.dec hd cfg.prob cfg'.prob hprob (env g) pulled) fun off _ => ?_
        refine Reorders.bind (Q := Anything) (k := id) ?_ fun survivors _ => ih (g + 1) survivors
        intro m hm
        have hb2 : ∀ (k : Nat) (pop : List Nat) (s : ρ), cfg'.best k pop { reordered p m with rng := s } = cfg.best k pop { m with rng := s } :=
          fun k pop s => hbest k pop { m with rng := s }
        simp only [syncSurvival, hk, hbest, hb2]
        exact ⟨rfl, hm, fun _ _ => trivial⟩
  have : Reorders p n Anything id (syncRun cfg initGenome problem popSize generations env) (syncRun cfg' initGenome' problem popSize generations env) := by
    unfold syncRun
    rw [hnan]
    exact (reorders_createPopulation _ _ hi hin _ _).bind fun created _ =>
      (reorders_syncEvaluate cfg.nan cfg.dec cfg'.dec hd cfg.prob cfg'.prob hprob (env (-1)) created).bind fun parents _ => loop _ _ parents
  rw [(this m hm).1]
  unfold reorderedOutcome
  rw [except_map_id]

theorem reorders_walkLoop (hp : p.Perm (List.range n)) (choose : Int → List Nat → Mem γ ψ φ ρ → PyM Nat × ρ) (choose' : Int → List Nat → Mem γ ψ φ ρ → PyM Nat × ρ)
    (hc : ∀ g pop m, choose' g pop (reordered p m) = choose g pop m) (stages : List (Stage γ ψ φ ρ)) (stages' : List (Stage γ ψ φ ρ))
    (hst : List.Forall₂ (ReorderedStage p n) stages stages') (size fuel : Nat) : ∀ (g : Int) (x : Nat) (trajectory : List Nat),
    Reorders p n Anything id (walkLoop choose stages size fuel g x trajectory) (walkLoop choose' stages' size fuel g x trajectory) := by
  induction fuel with
  | zero => exact fun _ _ _ => Reorders.pure _ _ trivial
  | succ fuel ih =>
    intro g x trajectory m hm
    obtain ⟨h1, h2, _⟩ := reorders_runPipeline hp [x] (choose g [x]) (choose' g [x]) (fun m => hc g [x] m) hst size m hm
    unfold walkLoop
    rw [h1]
    rcases hx : runPipeline [x] (choose g [x]) stages size m with ⟨e | (_ | ⟨next, more⟩), m1⟩ <;> rw [hx] at h2
    · exact ⟨rfl, h2, fun _ _ => trivial⟩
    · exact ⟨rfl, h2, fun _ _ => trivial⟩
    · exact ih _ _ _ m1 h2

/-- C133: and so does `random_search`. -/
theorem walk_reordered (hp : p.Perm (List.range n)) (choose : Int → List Nat → Mem γ ψ φ ρ → PyM Nat × ρ) (choose' : Int → List Nat → Mem γ ψ φ ρ → PyM Nat × ρ)
    (hc : ∀ g pop m, choose' g pop (reordered p m) = choose g pop m) (stages : List (Stage γ ψ φ ρ)) (stages' : List (Stage γ ψ φ ρ))
    (hst : List.Forall₂ (ReorderedStage p n) stages stages') (size : Nat)
    (initGenome : ρ → PyM (List γ) × ρ) (initGenome' : ρ → PyM (List γ) × ρ) (hi : ∀ s, initGenome' s = ((initGenome s).1.map (rearranged p), (initGenome s).2))
    (hin : ∀ s g, (initGenome s).1 = .ok g → g.length = n) (dec : Dec γ ψ) (dec' : Dec γ ψ) (hd : ReorderedDec p n dec dec')
    (prob : Prob γ ψ φ ρ) (prob' : Prob γ ψ φ ρ) (hprob : ReorderedProb p n prob prob') (problem : Nat) (evaluations : Int) (m : Mem γ ψ φ ρ) (hm : Sized n m) :
    walkRun choose' stages' size initGenome' dec' prob' problem evaluations (reordered p m) =
      reorderedOutcome p (walkRun choose stages size initGenome dec prob problem evaluations m) := by
  have : Reorders p n Anything id (walkRun choose stages size initGenome dec prob problem evaluations)
      (walkRun choose' stages' size initGenome' dec' prob' problem evaluations) :=
    (reorders_createPopulation _ _ hi hin _ _).bind fun first _ => (reorders_evaluatePopulation dec dec' hd prob prob' hprob first).bind fun _ _ =>
      reorders_walkLoop hp choose choose' hc stages stages' hst size _ _ _ _
  rw [(this m hm).1]
  unfold reorderedOutcome
  rw [except_map_id]

end

/-! ### Another fitness scale -/

section
variable {φ' : Type} {h : φ → φ'}

theorem carries_workerEvaluate (nan : φ) (dec : Dec γ ψ) (prob : Prob γ ψ φ ρ) (own : Option ρ) (r : Nat) :
    Rescores h h (workerEvaluate nan dec prob own r) (workerEvaluate (h nan) dec (rescoredProb h prob) own r) := by
  cases own with
  | none => exact carries_robustEvaluate nan dec prob r
  | some s =>
    intro m
    have h1 : robustEvaluate (h nan) dec (rescoredProb h prob) r { rescored h m with rng := s } = _ := carries_robustEvaluate nan dec prob r { m with rng := s }
    unfold workerEvaluate
    simp only [h1]
    rfl

theorem carries_syncEvaluate (nan : φ) (dec : Dec γ ψ) (prob : Prob γ ψ φ ρ) (c : SyncRound ρ) (population : List Nat) :
    Rescores h id (syncEvaluate nan dec prob c population) (syncEvaluate (h nan) dec (rescoredProb h prob) c population) := by
  refine (carries_submitAll _ _).bind fun sent => ?_
  refine Rescores.bind (k := id) ?_ fun _ => Rescores.pure _ _
  show Rescores h id (completeAll nan dec prob c.own sent c.order) (completeAll (h nan) dec (rescoredProb h prob) c.own sent c.order)
  generalize c.order = is
  induction is with
  | nil => exact Rescores.pure _ _
  | cons i is ih =>
    unfold completeAll
    cases sent[i]? with
    | none => exact ih
    | some r => exact (carries_workerEvaluate nan dec prob _ r).bind fun _ => ih

/-- C129: `random_search` does not look at fitness at all: whatever the fitnesses are replaced by, it walks the same way. -/
theorem walk_ignores_fitness (choose : Int → List Nat → Mem γ ψ φ ρ → PyM Nat × ρ) (choose' : Int → List Nat → Mem γ ψ φ' ρ → PyM Nat × ρ)
    (hc : ∀ g x m, choose' g [x] (rescored h m) = choose g [x] m) (stages : List (Stage γ ψ φ ρ)) (size : Nat)
    (initGenome : ρ → PyM (List γ) × ρ) (dec : Dec γ ψ) (prob : Prob γ ψ φ ρ) (problem : Nat) (evaluations : Int) (m : Mem γ ψ φ ρ) :
    walkRun choose' (stages.map (rescoredStage h)) size initGenome dec (rescoredProb h prob) problem evaluations (rescored h m) =
      rescoredOutcome h (walkRun choose stages size initGenome dec prob problem evaluations m) := by
  have loop : ∀ (fuel : Nat) (g : Int) (x : Nat) (trajectory : List Nat),
      Rescores h id (walkLoop choose stages size fuel g x trajectory) (walkLoop choose' (stages.map (rescoredStage h)) size fuel g x trajectory) := by
    intro fuel
    induction fuel with
    | zero => exact fun _ _ _ => Rescores.pure _ _
    | succ fuel ih =>
      intro g x trajectory m
      unfold walkLoop
      rw [carries_runPipeline [x] (choose g [x]) (choose' g [x]) (fun m => hc g x m) stages size m]
      rcases runPipeline [x] (choose g [x]) stages size m with ⟨e | (_ | ⟨next, more⟩), m1⟩
      · rfl
      · rfl
      · exact ih _ _ _ m1
  have : Rescores h id (walkRun choose stages size initGenome dec prob problem evaluations)
      (walkRun choose' (stages.map (rescoredStage h)) size initGenome dec (rescoredProb h prob) problem evaluations) :=
    (carries_createPopulation _ _ _).bind fun first => (carries_evaluatePopulation dec prob first).bind fun _ => loop _ _ _ _
  rw [this m]
  unfold rescoredOutcome
  rw [except_map_id]

end

/-- A synchronous distributed run on a scalar problem with this direction, tournaments of `k` and elitism; a failed evaluation is NaN. -/
def Spec.scalarSync (maximize pf coin : Bool) (k : Nat) (draw : ρ → Nat → List Nat × ρ) (stages : List (Stage γ ψ Num ρ)) (size kElites : Nat)
    (dec : Dec γ ψ) (prob : Prob γ ψ Num ρ) : SyncConfig γ ψ Num ρ where
  toEvoConfig := tournamentEa maximize pf coin k draw stages size kElites
  best j pop m := (topk (fun a b => lessFit maximize pf coin ((m.inds[a]?).bind Obj.fitness) ((m.inds[b]?).bind Obj.fitness)) j pop, m.rng)
  nan := .nan
  dec := dec
  prob := prob

/-- C129: and for synchronous distributed runs, in every order of evaluation, whether workers get copies or not and whatever random numbers they have. -/
theorem sync_depends_on_order (pf maximize maximize' coin : Bool) (h : Num → Num) (hh : KeepsOrder pf maximize maximize' h) (hnan : h .nan = .nan) (k : Nat)
    (draw : ρ → Nat → List Nat × ρ) (stages : List (Stage γ ψ Num ρ)) (size kElites : Nat) (dec : Dec γ ψ) (prob : Prob γ ψ Num ρ)
    (initGenome : ρ → PyM (List γ) × ρ) (problem popSize generations : Nat) (env : Int → SyncRound ρ) (m : Mem γ ψ Num ρ) :
    syncRun (scalarSync maximize' pf coin k draw (stages.map (rescoredStage h)) size kElites dec (rescoredProb h prob)) initGenome problem popSize
        generations env (rescored h m) =
      rescoredOutcome h (syncRun (scalarSync maximize pf coin k draw stages size kElites dec prob) initGenome problem popSize generations env m) := by
  have loop : ∀ (fuel : Nat) (g : Int) (parents : List Nat),
      Rescores h id (syncLoop (scalarSync maximize pf coin k draw stages size kElites dec prob) env fuel g parents)
        (syncLoop (scalarSync maximize' pf coin k draw (stages.map (rescoredStage h)) size kElites dec (rescoredProb h prob)) env fuel g parents) := by
    intro fuel
    induction fuel with
    | zero => exact fun _ _ => Rescores.pure _ _
    | succ fuel ih =>
      intro g parents
      refine Rescores.bind (k := id) (carries_runPipeline parents (tournamentChoice (moreFit maximize pf coin) k draw parents)
        (tournamentChoice (moreFit maximize' pf coin) k draw parents)
        (fun m => tournamentChoice_rescored _ _ (fun a b => (hh coin a b).2.2) k draw parents m) stages size) fun pulled => ?_
      have he := carries_syncEvaluate (h := h) Num.nan dec prob (env g) pulled
      rw [hnan] at he
      refine Rescores.bind (k := id) he fun off => ?_
      refine Rescores.bind (k := id) ?_ fun survivors => ih (g + 1) survivors
      intro m
      simp only [syncSurvival, scalarSync, tournamentEa, fitness_rescored, (hh coin _ _).1]
      rfl
  have : Rescores h id (syncRun (scalarSync maximize pf coin k draw stages size kElites dec prob) initGenome problem popSize generations env)
      (syncRun (scalarSync maximize' pf coin k draw (stages.map (rescoredStage h)) size kElites dec (rescoredProb h prob)) initGenome problem popSize generations env) := by
    refine (carries_createPopulation _ _ _).bind fun created => ?_
    have he := carries_syncEvaluate (h := h) Num.nan dec prob (env (-1)) created
    rw [hnan] at he
    exact Rescores.bind (k := id) he fun parents => loop _ _ parents
  rw [this m]
  unfold rescoredOutcome
  rw [except_map_id]

/-! ### Some runs -/

/-- Genes and rank of the survivors of NSGA-II. -/
def exTellFront {φ : Type} (r : PyM NsgaState × Mem γ ψ φ Nat) : Option (List (Option (List γ) × Nat)) :=
  r.1.toOption.map fun st => st.pop.map fun x => (genes r.2 x, st.rank x)

def exSyncBits (flips : Nat → List ℚ × Nat) (prob : Prob Int Int Int Nat) : SyncConfig Int Int Int Nat :=
  { exSync with stages := [.mutate (.ok ()) false (bitflipFn (some 1) none flips)], prob := prob }

set_option synthInstance.maxSize 1000 in
set_option synthInstance.maxHeartbeats 100000 in
/-- NSGA-II and a synchronous run with the first bit as it is and flipped. -/
example :
    NsgaRecoded (flipped (· == 0)) 2 (exNsgaRun exTwo) (exNsgaRun (hiddenProb (· == 0) exTwo)) ∧
    SyncRecoded (flipped (· == 0)) 2 (exSyncBits exTwoFlips exPicky) (exSyncBits exTwoFlips (hiddenProb (· == 0) exPicky)) ∧
    (∀ s g, (exInit s).1 = .ok g → g.length = 2) ∧ Sized 2 exEmpty ∧ Sized 2 exStart ∧
    exTellFront (nsgaRun (exNsgaRun exTwo) true exInit .identity exTwo 0 3 0 2 (fun _ => 0) (fun _ => 0) exEmpty) =
      some [(some [1, 1], 1), (some [0, 0], 1), (some [0, 0], 1)] ∧
    exTellFront (nsgaRun (exNsgaRun (hiddenProb (· == 0) exTwo)) true exOther .identity (hiddenProb (· == 0) exTwo) 0 3 0 2 (fun _ => 0) (fun _ => 0)
        (recoded (flipped (· == 0)) exEmpty)) =
      some [(some [0, 1], 1), (some [1, 0], 1), (some [1, 0], 1)] ∧
    exTell (syncRun (exSyncBits exTwoFlips exPicky) exInit 0 2 3 exSyncEnv exStart) =
      some [(some [1, 0], some (some 1)), (some [0, 1], some (some 1)), (some [0, 1], some (some 1))] ∧
    exTell (syncRun (exSyncBits exTwoFlips (hiddenProb (· == 0) exPicky)) exOther 0 2 3 exSyncEnv (recoded (flipped (· == 0)) exStart)) =
      some [(some [0, 0], some (some 1)), (some [1, 1], some (some 1)), (some [1, 1], some (some 1))] :=
  ⟨⟨rfl, fun _ _ _ _ _ => rfl, .cons (.mutate (bitflip_recoded _ 2 _ _ _)) (.cons (.evaluate (identity_recoded _ _) (hiddenProb_recoded _ 2 _)) .nil), rfl,
      fun _ _ _ => rfl⟩,
    ⟨fun _ _ _ => rfl, .cons (.mutate (bitflip_recoded _ 2 _ _ _)) .nil, rfl, rfl, fun _ _ _ => rfl, fun _ _ _ => rfl, rfl, identity_recoded _ _,
      hiddenProb_recoded _ 2 _⟩,
    by rintro s _ ⟨⟩; rfl, by simp [Sized, exEmpty], by simp [Sized, exStart], by decide +kernel, by decide +kernel, by decide +kernel, by decide +kernel⟩

/-- NSGA-II on three bits. -/
def exNsgaBits (flips : Nat → List ℚ × Nat) (prob : Prob Int Int (List ℚ) Nat) : NsgaConfig Int Int Nat :=
  { exNsgaRun prob with stages := [.mutate (.ok ()) false (bitflipFn (some 1) none flips), .evaluate .identity prob] }

set_option synthInstance.maxSize 1000 in
set_option synthInstance.maxHeartbeats 100000 in
/-- NSGA-II and a synchronous run with the genes in their order and with the last gene first. -/
example :
    [2, 0, 1].Perm (List.range 3) ∧
    NsgaReordered [2, 0, 1] 3 (exNsgaBits exFlips exTwo) (exNsgaBits (movedDraws [2, 0, 1] exFlips) (shuffledProb [2, 0, 1] 3 exTwo)) ∧
    SyncReordered [2, 0, 1] 3 (exSyncBits exFlips exWeighted) (exSyncBits (movedDraws [2, 0, 1] exFlips) (shuffledProb [2, 0, 1] 3 exWeighted)) ∧
    (∀ s g, (exThree s).1 = .ok g → g.length = 3) ∧ Sized 3 exEmpty ∧ Sized 3 exStart ∧
    exTellFront (nsgaRun (exNsgaBits exFlips exTwo) true exThree .identity exTwo 0 3 0 1 (fun _ => 0) (fun _ => 0) exEmpty) =
      some [(some [1, 0, 0], 2), (some [0, 0, 0], 2), (some [0, 0, 0], 2)] ∧
    exTellFront (nsgaRun (exNsgaBits (movedDraws [2, 0, 1] exFlips) (shuffledProb [2, 0, 1] 3 exTwo)) true exLastFirst .identity
        (shuffledProb [2, 0, 1] 3 exTwo) 0 3 0 1 (fun _ => 0) (fun _ => 0) (reordered [2, 0, 1] exEmpty)) =
      some [(some [0, 1, 0], 2), (some [0, 0, 0], 2), (some [0, 0, 0], 2)] ∧
    exTell (syncRun (exSyncBits exFlips exWeighted) exThree 0 2 3 exSyncEnv exStart) =
      some [(some [0, 1, 1], some (some 6)), (some [0, 1, 1], some (some 6)), (some [1, 0, 1], some (some 5))] ∧
    exTell (syncRun (exSyncBits (movedDraws [2, 0, 1] exFlips) (shuffledProb [2, 0, 1] 3 exWeighted)) exLastFirst 0 2 3 exSyncEnv
        (reordered [2, 0, 1] exStart)) =
      some [(some [1, 0, 1], some (some 6)), (some [1, 0, 1], some (some 6)), (some [1, 1, 0], some (some 5))] := by
  have hp : [2, 0, 1].Perm (List.range 3) := by decide
  refine ⟨hp, ⟨rfl, fun _ _ _ _ _ => rfl, .cons (.mutate (bitflip_reordered hp _ _ _ fun _ => rfl)) (.cons (.evaluate identity_reordered (shuffledProb_reordered hp _)) .nil),
      rfl, fun _ _ _ => rfl⟩,
    ⟨fun _ _ _ => rfl, .cons (.mutate (bitflip_reordered hp _ _ _ fun _ => rfl)) .nil, rfl, rfl, fun _ _ _ => rfl, fun _ _ _ => rfl, rfl, identity_reordered,
      shuffledProb_reordered hp _⟩,
    by rintro s _ ⟨⟩; rfl, by simp [Sized, exEmpty], by simp [Sized, exStart], by decide +kernel, by decide +kernel, by decide +kernel, by decide +kernel⟩

set_option synthInstance.maxSize 1000 in
set_option synthInstance.maxHeartbeats 100000 in
/-- A random walk with the first bit as it is and flipped, and with the genes in their order and with the last gene first. -/
example :
    exTell (walkRun (fun _ _ m => (.ok 0, m.rng)) (exBitStages exTwoFlips exSum) 1 exInit .identity exSum 0 3 exStart) =
      some [(some [0, 0], some (some 0)), (some [1, 0], some (some 1)), (some [1, 1], some (some 2))] ∧
    exTell (walkRun (fun _ _ m => (.ok 0, m.rng)) (exBitStages exTwoFlips (hiddenProb (· == 0) exSum)) 1 exOther .identity (hiddenProb (· == 0) exSum) 0 3
        (recoded (flipped (· == 0)) exStart)) =
      some [(some [1, 0], some (some 0)), (some [0, 0], some (some 1)), (some [0, 1], some (some 2))] ∧
    exTell (walkRun (fun _ _ m => (.ok 0, m.rng)) (exBitStages exFlips exWeighted) 1 exThree .identity exWeighted 0 3 exStart) =
      some [(some [0, 0, 0], some (some 0)), (some [0, 0, 0], some (some 0)), (some [0, 0, 1], some (some 4))] ∧
    exTell (walkRun (fun _ _ m => (.ok 0, m.rng)) (exBitStages (movedDraws [2, 0, 1] exFlips) (shuffledProb [2, 0, 1] 3 exWeighted)) 1 exLastFirst .identity
        (shuffledProb [2, 0, 1] 3 exWeighted) 0 3 (reordered [2, 0, 1] exStart)) =
      some [(some [0, 0, 0], some (some 0)), (some [0, 0, 0], some (some 0)), (some [1, 0, 0], some (some 4))] := by
  refine ⟨?_, ?_, ?_, ?_⟩ <;> decide +kernel

def exSyncNum (maximize : Bool) (prob : Prob Int Int Num Nat) : SyncConfig Int Int Num Nat :=
  scalarSync maximize false false 2 exNumDraw [.mutate (.ok ()) false (bitflipFn (some 1) none exTwoFlips)] 3 1 .identity prob

set_option synthInstance.maxSize 1000 in
set_option synthInstance.maxHeartbeats 100000 in
/-- A synchronous run that maximizes the sum of the genes and one that minimizes the negative sum, and a walk whose fitnesses are all replaced by 7. -/
example : KeepsOrder false true false (downward (-1 * ·)) ∧ downward (-1 * ·) .nan = .nan ∧
    exShow (syncRun (exSyncNum true (exNumSum true)) exInit 0 2 3 exSyncEnv ⟨[], [], [], 0, 0⟩) =
      some [(some [1, 0], some (some (.fin 1))), (some [0, 0], some (some (.fin 0))), (some [0, 0], some (some (.fin 0)))] ∧
    exShow (syncRun (exSyncNum false (rescoredProb (downward (-1 * ·)) (exNumSum true))) exInit 0 2 3 exSyncEnv ⟨[], [], [], 0, 0⟩) =
      some [(some [1, 0], some (some (.fin (-1)))), (some [0, 0], some (some (.fin 0))), (some [0, 0], some (some (.fin 0)))] ∧
    exShow (walkRun (fun _ _ m => (.ok 0, m.rng)) (exNumStages false) 1 exInit .identity (exNumSum false) 0 3 ⟨[], [], [], 0, 0⟩) =
      some [(some [0, 0], some (some (.fin 0))), (some [1, 0], some (some (.fin 1))), (some [1, 1], some (some (.fin 2)))] ∧
    exShow (walkRun (fun _ _ m => (.ok 0, m.rng)) ((exNumStages false).map (rescoredStage fun _ => .fin 7)) 1 exInit .identity
        (rescoredProb (fun _ => .fin 7) (exNumSum false)) 0 3 ⟨[], [], [], 0, 0⟩) =
      some [(some [0, 0], some (some (.fin 7))), (some [1, 0], some (some (.fin 7))), (some [1, 1], some (some (.fin 7)))] :=
  ⟨negating_keeps_order (-1) (by norm_num) false true, rfl, by decide +kernel, by decide +kernel, by decide +kernel, by decide +kernel⟩

end Leap
