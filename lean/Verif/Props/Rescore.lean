import Verif.Lemmas.Rescore
import Verif.Model.AsyncRun
import Verif.Model.Proportional
import Verif.Props.EvoRun

/-!
# C129: the order of fitnesses is all that matters

Two runs with the same random numbers, one on a problem with fitness `f`, the other on a problem with fitness `h f`.
-/

namespace Leap
open Spec

variable {γ ψ φ φ' ρ : Type}

/-! ### Specification -/

/-- A fitness as an individual holds it; `pf`: Python floats (compared for equality with a tolerance), not ints or numpy floats. -/
def Spec.slot (pf : Bool) (f : Option Num) : FitSlot := f.map fun q => ⟨pf, q⟩

/-- `a < b` between individuals with these fitnesses, for a scalar problem with this direction. The coin decides between two failed evaluations. -/
def Spec.lessFit (maximize pf coin : Bool) (a b : Option Num) : Bool := (indLt ⟨maximize⟩ coin (slot pf a) (slot pf b)).toOption.getD false

/-- `a == b`. -/
def Spec.sameFit (maximize pf : Bool) (a b : Option Num) : Bool := (indEq ⟨maximize⟩ (slot pf a) (slot pf b)).toOption.getD false

/-- `a > b`. -/
def Spec.moreFit (maximize pf coin : Bool) (a b : Option Num) : Bool := (indGt ⟨maximize⟩ coin (slot pf a) (slot pf b)).toOption.getD false

/-- Replacing every fitness `f` by `h f` and one direction by the other leaves all comparisons of individuals as they were. -/
def Spec.KeepsOrder (pf maximize maximize' : Bool) (h : Num → Num) : Prop :=
  ∀ (coin : Bool) (a b : Option Num), lessFit maximize' pf coin (a.map h) (b.map h) = lessFit maximize pf coin a b ∧
    sameFit maximize' pf (a.map h) (b.map h) = sameFit maximize pf a b ∧
    moreFit maximize' pf coin (a.map h) (b.map h) = moreFit maximize pf coin a b

/-- An increasing function of the finite fitnesses; infinities and NaN, the fitness of a failed evaluation, stay. -/
def Spec.upward (h : ℚ → ℚ) : Num → Num
  | .fin q => .fin (h q)
  | x => x

/-- A decreasing one: it exchanges the infinities, and NaN stays. -/
def Spec.downward (h : ℚ → ℚ) : Num → Num
  | .fin q => .fin (h q)
  | .posInf => .negInf
  | .negInf => .posInf
  | .nan => .nan

/-- The outcome of a run with every fitness in memory replaced. -/
def Spec.rescoredOutcome {α : Type} (h : φ → φ') (r : PyM α × Mem γ ψ φ ρ) : PyM α × Mem γ ψ φ' ρ := (r.1, rescored h r.2)

/-- `generational_ea` on a scalar problem with this direction, tournaments of `k` and elitism. -/
def Spec.tournamentEa (maximize pf coin : Bool) (k : Nat) (draw : ρ → Nat → List Nat × ρ) (stages : List (Stage γ ψ Num ρ)) (size kElites : Nat) :
    EvoConfig γ ψ Num ρ where
  worse := lessFit maximize pf coin
  choose _ pop := tournamentChoice (moreFit maximize pf coin) k draw pop
  stages := stages
  size := size
  kElites := kElites
  stop _ _ _ := false

/-- A hand-written loop on a scalar problem with this direction. -/
def Spec.scalarPlus (maximize pf coin : Bool) (k : Nat) (draw : ρ → Nat → List Nat × ρ) (stages : Int → List (Stage γ ψ Num ρ)) (brood : Nat)
    (survival : Survival ρ) : PlusConfig γ ψ Num ρ where
  worse := lessFit maximize pf coin
  equal := sameFit maximize pf
  choose _ pop := tournamentChoice (moreFit maximize pf coin) k draw pop
  stages := stages
  brood := brood
  survival := survival

/-! ### Which replacements keep the order -/

theorem keepsOrder_of (pf maximize maximize' : Bool) (h : Num → Num) (hn : ∀ a, (h a).isNan = a.isNan)
    (hl : ∀ a b : Num, (if maximize' then Num.lt (h a) (h b) else Num.lt (h b) (h a)) = if maximize then Num.lt a b else Num.lt b a)
    (he : ∀ a b : Num, (if pf then Num.isclose (h a) (h b) else Num.eq (h a) (h b)) = if pf then Num.isclose a b else Num.eq a b) :
    KeepsOrder pf maximize maximize' h := by
  have hless : ∀ (coin : Bool) (a b : Option Num),
      indLt ⟨maximize'⟩ coin (slot pf (a.map h)) (slot pf (b.map h)) = indLt ⟨maximize⟩ coin (slot pf a) (slot pf b) := by
    intro coin a b
    cases a <;> cases b <;> try rfl
    rename_i a b
    have := hl a b
    simp only [slot, Option.map_some, indLt, ScalarProblem.worseThan, hn]
    rw [this]
  have hsame : ∀ a b : Option Num, indEq ⟨maximize'⟩ (slot pf (a.map h)) (slot pf (b.map h)) = indEq ⟨maximize⟩ (slot pf a) (slot pf b) := by
    intro a b
    cases a <;> cases b <;> try rfl
    rename_i a b
    have := he a b
    cases pf <;> simpa [slot, indEq, ScalarProblem.equivalent] using this
  intro coin a b
  refine ⟨?_, ?_, ?_⟩
  · unfold lessFit; rw [hless]
  · unfold sameFit; rw [hsame]
  · unfold moreFit indGt; rw [hless, hsame]

theorem upward_nan (h : ℚ → ℚ) (a : Num) : (upward h a).isNan = a.isNan := by cases a <;> rfl

theorem downward_nan (h : ℚ → ℚ) (a : Num) : (downward h a).isNan = a.isNan := by cases a <;> rfl

theorem upward_lt (h : ℚ → ℚ) (hh : StrictMono h) (a b : Num) : Num.lt (upward h a) (upward h b) = Num.lt a b := by
  cases a <;> cases b <;> simp [upward, Num.lt, hh.lt_iff_lt]

theorem downward_lt (h : ℚ → ℚ) (hh : StrictAnti h) (a b : Num) : Num.lt (downward h a) (downward h b) = Num.lt b a := by
  cases a <;> cases b <;> simp [downward, Num.lt, hh.lt_iff_gt]

theorem upward_eq (h : ℚ → ℚ) (hh : Function.Injective h) (a b : Num) : Num.eq (upward h a) (upward h b) = Num.eq a b := by
  cases a <;> cases b <;> simp [upward, Num.eq, hh.eq_iff]

theorem downward_eq (h : ℚ → ℚ) (hh : Function.Injective h) (a b : Num) : Num.eq (downward h a) (downward h b) = Num.eq a b := by
  cases a <;> cases b <;> simp [downward, Num.eq, hh.eq_iff]

/-- C129: a strictly increasing function of the fitness keeps the order. -/
theorem increasing_keeps_order (h : ℚ → ℚ) (hh : StrictMono h) (maximize : Bool) : KeepsOrder false maximize maximize (upward h) := by
  refine keepsOrder_of _ _ _ _ (upward_nan h) (fun a b => ?_) (fun a b => ?_)
  · rw [upward_lt h hh, upward_lt h hh]
  · simp only [Bool.false_eq_true, if_false, upward_eq h hh.injective]

/-- C129: a strictly decreasing function keeps the order if the direction is reversed: minimizing `f` is maximizing `-f`. -/
theorem decreasing_keeps_order (h : ℚ → ℚ) (hh : StrictAnti h) (maximize : Bool) : KeepsOrder false maximize (!maximize) (downward h) := by
  refine keepsOrder_of _ _ _ _ (downward_nan h) (fun a b => ?_) (fun a b => ?_)
  · rw [downward_lt h hh, downward_lt h hh]
    cases maximize <;> rfl
  · simp only [Bool.false_eq_true, if_false, downward_eq h hh.injective]

theorem isclose_fin_scale (c : ℚ) (hc : c ≠ 0) (a b : ℚ) : Num.isclose (.fin (c * a)) (.fin (c * b)) = Num.isclose (.fin a) (.fin b) := by
  have hc' : 0 < |c| := abs_pos.2 hc
  have e1 : |c * a - c * b| = |c| * |a - b| := by rw [← mul_sub, abs_mul]
  have e2 : ∀ x, |relTol * (c * x)| = |c| * |relTol * x| := by intro x; rw [← abs_mul]; congr 1; ring
  unfold Num.isclose
  simp only [Num.eq, Num.isInf, Bool.or_self, Bool.false_eq_true, if_false, e1, e2, mul_le_mul_iff_right₀ hc', Num.fin.injEq, mul_right_inj' hc]

/-- C129: for Python floats, which count as equal when they differ by a billionth of the larger, every positive factor keeps all comparisons. -/
theorem scaling_keeps_order (c : ℚ) (hc : 0 < c) (pf maximize : Bool) : KeepsOrder pf maximize maximize (upward (c * ·)) := by
  have hm : StrictMono (c * · : ℚ → ℚ) := fun a b hab => mul_lt_mul_of_pos_left hab hc
  refine keepsOrder_of _ _ _ _ (upward_nan _) (fun a b => ?_) (fun a b => ?_)
  · rw [upward_lt _ hm, upward_lt _ hm]
  · rw [upward_eq _ hm.injective]
    have : Num.isclose (upward (c * ·) a) (upward (c * ·) b) = Num.isclose a b := by
      cases a <;> cases b <;> first | rfl | exact isclose_fin_scale c hc.ne' _ _
    rw [this]

/-- C129: and every negative one, with the direction reversed. -/
theorem negating_keeps_order (c : ℚ) (hc : c < 0) (pf maximize : Bool) : KeepsOrder pf maximize (!maximize) (downward (c * ·)) := by
  have hm : StrictAnti (c * · : ℚ → ℚ) := fun a b hab => mul_lt_mul_of_neg_left hab hc
  refine keepsOrder_of _ _ _ _ (downward_nan _) (fun a b => ?_) (fun a b => ?_)
  · rw [downward_lt _ hm, downward_lt _ hm]
    cases maximize <;> rfl
  · rw [downward_eq _ hm.injective]
    have : Num.isclose (downward (c * ·) a) (downward (c * ·) b) = Num.isclose a b := by
      cases a <;> cases b <;> first | rfl | exact isclose_fin_scale c hc.ne _ _
    rw [this]

/-! ### Runs -/

section
variable {h : φ → φ'}

/-- Any `generational_ea` whose selection and stop condition decide the same on the replaced fitnesses does the same. -/
theorem carries_evoRun (cfg : EvoConfig γ ψ φ ρ) (cfg' : EvoConfig γ ψ φ' ρ) (hw : ∀ a b, cfg'.worse (a.map h) (b.map h) = cfg.worse a b)
    (hc : ∀ g pop m, cfg'.choose g pop (rescored h m) = cfg.choose g pop m) (hst : cfg'.stages = cfg.stages.map (rescoredStage h))
    (hsz : cfg'.size = cfg.size) (hk : cfg'.kElites = cfg.kElites) (hstop : ∀ g pop m, cfg'.stop g pop (rescored h m) = cfg.stop g pop m)
    (initGenome : ρ → PyM (List γ) × ρ) (dec : Dec γ ψ) (prob : Prob γ ψ φ ρ) (problem popSize : Nat) (startGeneration maxGenerations : Int) :
    Rescores h id (evoRun cfg initGenome dec prob problem popSize startGeneration maxGenerations)
      (evoRun cfg' initGenome dec (rescoredProb h prob) problem popSize startGeneration maxGenerations) := by
  refine (carries_createPopulation _ _ _).bind fun parents => (carries_evaluatePopulation dec prob parents).bind fun _ => ?_
  show Rescores h id (evoLoop cfg _ _ parents) (evoLoop cfg' _ _ parents)
  generalize (maxGenerations - startGeneration).toNat = fuel
  generalize startGeneration = g
  induction fuel generalizing g parents with
  | zero => exact Rescores.pure _ _
  | succ fuel ih =>
    intro m
    unfold evoLoop
    rw [hstop]
    by_cases hs : cfg.stop g parents m = true
    · rw [if_pos hs, if_pos hs]; rfl
    · rw [if_neg hs, if_neg hs]
      have hp := carries_runPipeline parents (cfg.choose g parents) (cfg'.choose g parents) (hc g parents) cfg.stages cfg.size m
      rw [hst, hsz, hp]
      rcases runPipeline parents (cfg.choose g parents) cfg.stages cfg.size m with ⟨e | off, m1⟩
      · rfl
      · simp only [Except.map, id]
        have hlt : cfg'.lt (rescored h m1) = cfg.lt m1 := by
          funext a b
          simp only [EvoConfig.lt, fitness_rescored, hw]
        rw [hlt, hk]
        exact ih _ _ m1

/-- The same for loops written by hand. -/
theorem carries_plusRun (cfg : PlusConfig γ ψ φ ρ) (cfg' : PlusConfig γ ψ φ' ρ) (hw : ∀ a b, cfg'.worse (a.map h) (b.map h) = cfg.worse a b)
    (he : ∀ a b, cfg'.equal (a.map h) (b.map h) = cfg.equal a b) (hc : ∀ g pop m, cfg'.choose g pop (rescored h m) = cfg.choose g pop m)
    (hst : ∀ g, cfg'.stages g = (cfg.stages g).map (rescoredStage h)) (hb : cfg'.brood = cfg.brood) (hsv : cfg'.survival = cfg.survival)
    (initGenome : ρ → PyM (List γ) × ρ) (dec : Dec γ ψ) (prob : Prob γ ψ φ ρ) (problem popSize : Nat) (maxGenerations : Int) :
    Rescores h id (plusRun cfg initGenome dec prob problem popSize maxGenerations)
      (plusRun cfg' initGenome dec (rescoredProb h prob) problem popSize maxGenerations) := by
  refine (carries_createPopulation _ _ _).bind fun parents => (carries_evaluatePopulation dec prob parents).bind fun _ => ?_
  show Rescores h id (plusLoop cfg _ _ parents) (plusLoop cfg' _ _ parents)
  generalize maxGenerations.toNat = fuel
  generalize (0 : Int) = g
  induction fuel generalizing g parents with
  | zero => exact Rescores.pure _ _
  | succ fuel ih =>
    refine Rescores.bind (k := id) ?_ fun p => ih p (g + 1)
    unfold plusStep
    rw [hst, hb]
    refine (carries_runPipeline parents (cfg.choose g parents) (cfg'.choose g parents) (hc g parents) _ _).bind fun off => ?_
    intro m
    have hlt : cfg'.lt (rescored h m) = cfg.lt m := by
      funext a b
      simp only [PlusConfig.lt, fitness_rescored, hw]
    have hgt : cfg'.gt (rescored h m) = cfg.gt m := by
      funext a b
      simp only [PlusConfig.gt, hlt, fitness_rescored, he]
    unfold survive
    rw [hsv]
    cases cfg.survival with
    | truncation => simp only [hlt, Except.map, id]
    | insertion draw =>
      simp only [hgt, except_map_id]
      rfl

theorem tournamentChoice_rescored (better : Option φ → Option φ → Bool) (better' : Option φ' → Option φ' → Bool)
    (hb : ∀ a b, better' (a.map h) (b.map h) = better a b) (k : Nat) (draw : ρ → Nat → List Nat × ρ) (pop : List Nat) (m : Mem γ ψ φ ρ) :
    tournamentChoice better' k draw pop (rescored h m) = tournamentChoice better k draw pop m := by
  unfold tournamentChoice
  simp only [fitness_rescored, hb]
  rfl

theorem carries_submitInd (copied : Bool) (r : Nat) : Rescores (γ := γ) (ψ := ψ) (ρ := ρ) h id (submitInd copied r) (submitInd copied r) := by
  unfold submitInd
  cases copied with
  | false => exact Rescores.pure _ _
  | true =>
    exact (carries_getObj r).bind fun o => (carries_getArr _).bind fun _ => (carries_newArr _).bind fun a => (carries_getSet _).bind fun _ =>
      (carries_newSet _).bind fun s => carries_newObj { o with genome := a, parents := s, phenome := none }

theorem carries_submitAll (copied : Nat → Bool) (rs : List Nat) :
    Rescores (γ := γ) (ψ := ψ) (ρ := ρ) h id (submitAll copied rs) (submitAll copied rs) := by
  induction rs with
  | nil => exact Rescores.pure _ _
  | cons r rs ih => exact (carries_submitInd _ r).bind fun _ => ih.bind fun _ => Rescores.pure _ _

theorem viableInd_rescored (m : Mem γ ψ φ ρ) (r : Nat) : viableInd (rescored h m) r = viableInd m r := by
  simp only [viableInd, rescored, List.getElem?_map]
  cases m.inds[r]? <;> rfl

/-- The same for asynchronous runs, in every order of completion. -/
theorem carries_asyncRun (cfg : AsyncConfig γ ψ φ ρ) (cfg' : AsyncConfig γ ψ φ' ρ) (hb : cfg'.maxBirths = cfg.maxBirths)
    (hn : cfg'.countNonviable = cfg.countNonviable)
    (hi : ∀ r pop m, cfg'.insert r pop (rescored h m) = cfg.insert r pop m) (hc : ∀ pop m, cfg'.choose pop (rescored h m) = cfg.choose pop m)
    (hst : cfg'.stages = cfg.stages.map (rescoredStage h)) (hsz : cfg'.size = cfg.size) (hnan : cfg'.nan = h cfg.nan) (hd : cfg'.dec = cfg.dec)
    (hp : cfg'.prob = rescoredProb h cfg.prob) (initGenome : ρ → PyM (List γ) × ρ) (problem initSize : Nat) (copied : Nat → Bool)
    (rounds : List AsyncRound) :
    Rescores h id (asyncRun cfg initGenome problem initSize copied rounds) (asyncRun cfg' initGenome problem initSize copied rounds) := by
  refine (carries_createPopulation _ _ _).bind fun initial => (carries_submitAll _ _).bind fun sent => ?_
  show Rescores h id (asyncLoop cfg rounds ⟨sent, [], 0, []⟩) (asyncLoop cfg' rounds ⟨sent, [], 0, []⟩)
  generalize (⟨sent, [], 0, []⟩ : AsyncState) = st
  induction rounds generalizing st with
  | nil => exact Rescores.pure _ _
  | cons c cs ih =>
    unfold asyncLoop
    by_cases hp0 : st.pending.isEmpty = true
    · simp only [if_pos hp0]; exact Rescores.pure _ _
    · simp only [if_neg hp0]
      refine Rescores.bind (k := id) ?_ fun st' => ih st'
      unfold asyncStep
      cases st.pending[c.which % st.pending.length]? with
      | none => exact Rescores.lift _
      | some x =>
        simp only
        rw [hnan, hd, hp]
        refine (carries_robustEvaluate cfg.nan cfg.dec cfg.prob x).bind fun _ => ?_
        intro m
        simp only [viableInd_rescored, hn, hb]
        refine Rescores.bind (k := id) (x := insertInd cfg x st.pop) (y := insertInd cfg' x st.pop) ?_ (fun pop => ?_) m
        · intro m
          simp only [insertInd, hi, except_map_id]
          rfl
        · generalize (if (!viableInd m x && !cfg.countNonviable) = true then st.births - 1 else st.births) = births
          by_cases hlt : births < cfg.maxBirths
          · simp only [if_pos hlt, hst, hsz]
            exact Rescores.bind (k := id) (carries_runPipeline pop (cfg.choose pop) (cfg'.choose pop) (hc pop) cfg.stages cfg.size) fun off =>
              Rescores.bind (k := id) (carries_submitAll _ _) fun _ => Rescores.pure _ _
          · simp only [if_neg hlt]
            exact Rescores.pure _ _

end

/-- C129: `generational_ea` with tournaments of any size, any elitism, operators, decoder, problem, population, number of generations and random numbers: on a
problem whose fitnesses are replaced by a function that keeps the order, it does the same. It returns the same individuals, with the same genes, identities and
parents, or raises the same exception; it uses the same random numbers; and everybody's fitness is the replaced one. -/
theorem ea_depends_on_order (pf maximize maximize' coin : Bool) (h : Num → Num) (hh : KeepsOrder pf maximize maximize' h) (k : Nat)
    (draw : ρ → Nat → List Nat × ρ) (stages : List (Stage γ ψ Num ρ)) (size kElites : Nat) (initGenome : ρ → PyM (List γ) × ρ) (dec : Dec γ ψ)
    (prob : Prob γ ψ Num ρ) (problem popSize : Nat) (startGeneration maxGenerations : Int) (m : Mem γ ψ Num ρ) :
    evoRun (tournamentEa maximize' pf coin k draw (stages.map (rescoredStage h)) size kElites) initGenome dec (rescoredProb h prob) problem popSize
        startGeneration maxGenerations (rescored h m) =
      rescoredOutcome h (evoRun (tournamentEa maximize pf coin k draw stages size kElites) initGenome dec prob problem popSize
        startGeneration maxGenerations m) := by
  have := carries_evoRun (h := h) (tournamentEa maximize pf coin k draw stages size kElites)
    (tournamentEa maximize' pf coin k draw (stages.map (rescoredStage h)) size kElites) (fun a b => (hh coin a b).1)
    (fun g pop m => tournamentChoice_rescored _ _ (fun a b => (hh coin a b).2.2) k draw pop m) rfl rfl rfl (fun _ _ _ => rfl)
    initGenome dec prob problem popSize startGeneration maxGenerations m
  rw [this]
  unfold rescoredOutcome
  rw [except_map_id]

/-- C129: the same for the hand-written loops, evolution strategies and programs with truncation or with insertion. -/
theorem loop_depends_on_order (pf maximize maximize' coin : Bool) (h : Num → Num) (hh : KeepsOrder pf maximize maximize' h) (k : Nat)
    (draw : ρ → Nat → List Nat × ρ) (stages : Int → List (Stage γ ψ Num ρ)) (brood : Nat) (survival : Survival ρ)
    (initGenome : ρ → PyM (List γ) × ρ) (dec : Dec γ ψ)
    (prob : Prob γ ψ Num ρ) (problem popSize : Nat) (maxGenerations : Int) (m : Mem γ ψ Num ρ) :
    plusRun (scalarPlus maximize' pf coin k draw (fun g => (stages g).map (rescoredStage h)) brood survival) initGenome dec (rescoredProb h prob) problem popSize
        maxGenerations (rescored h m) =
      rescoredOutcome h (plusRun (scalarPlus maximize pf coin k draw stages brood survival) initGenome dec prob problem popSize maxGenerations m) := by
  have := carries_plusRun (h := h) (scalarPlus maximize pf coin k draw stages brood survival)
    (scalarPlus maximize' pf coin k draw (fun g => (stages g).map (rescoredStage h)) brood survival) (fun a b => (hh coin a b).1)
    (fun a b => (hh coin a b).2.1)
    (fun g pop m => tournamentChoice_rescored _ _ (fun a b => (hh coin a b).2.2) k draw pop m) (fun _ => rfl) rfl rfl
    initGenome dec prob problem popSize maxGenerations m
  rw [this]
  unfold rescoredOutcome
  rw [except_map_id]

/-- C129: and for asynchronous steady-state runs whose inserter decides by tournament, in every order of completion and whether workers get copies or not. -/
theorem async_depends_on_order (pf maximize maximize' coin : Bool) (h : Num → Num) (hh : KeepsOrder pf maximize maximize' h) (hnan : h .nan = .nan) (k : Nat)
    (draw : ρ → Nat → List Nat × ρ) (drawIns : ρ → Nat × ρ) (stages : List (Stage γ ψ Num ρ)) (size popSize : Nat) (maxBirths : Int)
    (countNonviable : Bool) (dec : Dec γ ψ) (prob : Prob γ ψ Num ρ) (initGenome : ρ → PyM (List γ) × ρ) (problem initSize : Nat)
    (copied : Nat → Bool) (rounds : List AsyncRound) (m : Mem γ ψ Num ρ) :
    asyncRun ⟨maxBirths, popSize, countNonviable, tournamentInserter (moreFit maximize' pf coin) drawIns popSize,
        tournamentChoice (moreFit maximize' pf coin) k draw, stages.map (rescoredStage h), size, .nan, dec, rescoredProb h prob⟩
        initGenome problem initSize copied rounds (rescored h m) =
      rescoredOutcome h (asyncRun ⟨maxBirths, popSize, countNonviable, tournamentInserter (moreFit maximize pf coin) drawIns popSize,
        tournamentChoice (moreFit maximize pf coin) k draw, stages, size, .nan, dec, prob⟩ initGenome problem initSize copied rounds m) := by
  have := carries_asyncRun (h := h)
    ⟨maxBirths, popSize, countNonviable, tournamentInserter (moreFit maximize pf coin) drawIns popSize,
        tournamentChoice (moreFit maximize pf coin) k draw, stages, size, .nan, dec, prob⟩
    ⟨maxBirths, popSize, countNonviable, tournamentInserter (moreFit maximize' pf coin) drawIns popSize,
        tournamentChoice (moreFit maximize' pf coin) k draw, stages.map (rescoredStage h), size, .nan, dec, rescoredProb h prob⟩
    rfl rfl (fun r pop m => by
      have hv : viableInd (rescored h m) = viableInd m := funext fun r => viableInd_rescored m r
      simp only [tournamentInserter, fitness_rescored, hv, (hh coin _ _).2.2]
      rfl)
    (fun pop m => tournamentChoice_rescored _ _ (fun a b => (hh coin a b).2.2) k draw pop m) rfl rfl hnan.symm rfl rfl
    initGenome problem initSize copied rounds m
  rw [this]
  unfold rescoredOutcome
  rw [except_map_id]

/-- C129: and with the greedy inserter. -/
theorem async_greedy_depends_on_order (pf maximize maximize' coin : Bool) (h : Num → Num) (hh : KeepsOrder pf maximize maximize' h) (hnan : h .nan = .nan) (k : Nat)
    (draw : ρ → Nat → List Nat × ρ) (stages : List (Stage γ ψ Num ρ)) (size popSize : Nat) (maxBirths : Int)
    (countNonviable : Bool) (dec : Dec γ ψ) (prob : Prob γ ψ Num ρ) (initGenome : ρ → PyM (List γ) × ρ) (problem initSize : Nat)
    (copied : Nat → Bool) (rounds : List AsyncRound) (m : Mem γ ψ Num ρ) :
    asyncRun ⟨maxBirths, popSize, countNonviable, greedyInserter (lessFit maximize' pf coin) (moreFit maximize' pf coin) popSize,
        tournamentChoice (moreFit maximize' pf coin) k draw, stages.map (rescoredStage h), size, .nan, dec, rescoredProb h prob⟩
        initGenome problem initSize copied rounds (rescored h m) =
      rescoredOutcome h (asyncRun ⟨maxBirths, popSize, countNonviable, greedyInserter (lessFit maximize pf coin) (moreFit maximize pf coin) popSize,
        tournamentChoice (moreFit maximize pf coin) k draw, stages, size, .nan, dec, prob⟩ initGenome problem initSize copied rounds m) := by
  have := carries_asyncRun (h := h)
    ⟨maxBirths, popSize, countNonviable, greedyInserter (lessFit maximize pf coin) (moreFit maximize pf coin) popSize,
        tournamentChoice (moreFit maximize pf coin) k draw, stages, size, .nan, dec, prob⟩
    ⟨maxBirths, popSize, countNonviable, greedyInserter (lessFit maximize' pf coin) (moreFit maximize' pf coin) popSize,
        tournamentChoice (moreFit maximize' pf coin) k draw, stages.map (rescoredStage h), size, .nan, dec, rescoredProb h prob⟩
    rfl rfl (fun r pop m => by
      have hv : viableInd (rescored h m) = viableInd m := funext fun r => viableInd_rescored m r
      simp only [greedyInserter, fitness_rescored, hv, (hh coin _ _).2.2, (hh coin _ _).1]
      rfl)
    (fun pop m => tournamentChoice_rescored _ _ (fun a b => (hh coin a b).2.2) k draw pop m) rfl rfl hnan.symm rfl rfl
    initGenome problem initSize copied rounds m
  rw [this]
  unfold rescoredOutcome
  rw [except_map_id]

/-! ### Some runs -/

/-- The sum of the genes as a fitness; scoring draws a number, and two ones cannot be evaluated if `picky`. -/
def exNumSum (picky : Bool) : Prob Int Int Num Nat where
  evaluate c s := match c with
    | .raw g => (if picky && decide (1 < g.sum) then .error .valueError else .ok (.fin g.sum), s + 1)
    | .value v => (.ok (.fin v), s + 1)
  evaluateMultiple cs s := (.ok (cs.map fun c => match c with | .raw g => .fin g.sum | .value v => .fin v), s)
  takesIndividuals := true

def exNumStages (picky : Bool) : List (Stage Int Int Num Nat) :=
  [.clone, .mutate (.ok ()) false (bitflipFn (some 1) none fun s => (if s % 5 < 3 then [1 / 4, 3 / 4] else [3 / 4, 1 / 4], s + 1)),
    .evaluate .identity (exNumSum picky)]

def exNumDraw (s k : Nat) : List Nat × Nat := ((List.range k).map fun i => (s + i) % 2, s + 1)

/-- Genes and fitness of those returned. -/
def exShow (r : PyM (List Nat) × Mem Int Int Num Nat) : Option (List (Option (List Int) × Option (Option Num))) :=
  r.1.toOption.map fun out => out.map fun x => (genes r.2 x, fitness r.2 x)

/-- Three generations of maximizing the sum and of maximizing its cube. -/
example : KeepsOrder false true true (upward (· ^ 3)) ∧
    exShow (evoRun (tournamentEa true false false 2 exNumDraw (exNumStages false) 2 1) exInit .identity (exNumSum false) 0 2 0 3 ⟨[], [], [], 0, 0⟩) =
      some [(some [1, 1], some (some (.fin 2))), (some [0, 1], some (some (.fin 1)))] ∧
    exShow (evoRun (tournamentEa true false false 2 exNumDraw ((exNumStages false).map (rescoredStage (upward (· ^ 3)))) 2 1) exInit .identity
        (rescoredProb (upward (· ^ 3)) (exNumSum false)) 0 2 0 3 ⟨[], [], [], 0, 0⟩) =
      some [(some [1, 1], some (some (.fin 8))), (some [0, 1], some (some (.fin 1)))] :=
  ⟨increasing_keeps_order _ (Odd.strictMono_pow (by decide)) _, by decide +kernel, by decide +kernel⟩

/-- A loop with Python floats that maximizes the sum, and one that minimizes minus twice the sum. -/
example : KeepsOrder true true false (downward (-2 * ·)) ∧
    exShow (plusRun (scalarPlus true true false 2 exNumDraw (fun _ => exNumStages false) 2 .truncation) exInit .identity (exNumSum false) 0 2 3
      ⟨[], [], [], 0, 0⟩) = some [(some [1, 1], some (some (.fin 2))), (some [1, 1], some (some (.fin 2)))] ∧
    exShow (plusRun (scalarPlus false true false 2 exNumDraw (fun _ => (exNumStages false).map (rescoredStage (downward (-2 * ·)))) 2 .truncation) exInit
      .identity (rescoredProb (downward (-2 * ·)) (exNumSum false)) 0 2 3 ⟨[], [], [], 0, 0⟩) = some [(some [1, 1], some (some (.fin (-4)))), (some [1, 1], some (some (.fin (-4))))] :=
  ⟨negating_keeps_order _ (by norm_num) _ _, by decide +kernel, by decide +kernel⟩

/-- An asynchronous run in which evaluations fail. -/
example :
    let run := fun (maximize : Bool) (h : Num → Num) => asyncRun ⟨6, 2, true, tournamentInserter (moreFit maximize true false) (fun s => (s % 2, s + 1)) 2,
        tournamentChoice (moreFit maximize true false) 2 exNumDraw, ((exNumStages true).dropLast).map (rescoredStage h), 1, .nan, .identity,
        rescoredProb h (exNumSum true)⟩ exInit 0 2 (fun _ => false) ((List.range 8).map fun i : Nat => ⟨i, fun _ => false⟩) ⟨[], [], [], 0, 0⟩
    downward (-2 * ·) .nan = .nan ∧
    exShow ((run true id).1.map (·.completed), (run true id).2) = some
      [(some [0, 0], some (some (.fin 0))), (some [1, 0], some (some (.fin 1))), (some [1, 0], some (some (.fin 1))), (some [1, 1], some (some .nan)), (some [1, 1], some (some .nan)), (some [0, 0], some (some (.fin 0))), (some [0, 0], some (some (.fin 0))), (some [0, 0], some (some (.fin 0)))] ∧
    exShow ((run false (downward (-2 * ·))).1.map (·.completed), (run false (downward (-2 * ·))).2) = some
      [(some [0, 0], some (some (.fin 0))), (some [1, 0], some (some (.fin (-2)))), (some [1, 0], some (some (.fin (-2)))), (some [1, 1], some (some .nan)), (some [1, 1], some (some .nan)), (some [0, 0], some (some (.fin 0))), (some [0, 0], some (some (.fin 0))), (some [0, 0], some (some (.fin 0)))] := by
  refine ⟨rfl, by decide +kernel, by decide +kernel⟩

/-! ### Selection by value -/

theorem weights_scale (k : ℚ) (hk : 0 < k) (values : List ℚ) :
    (if (values.map (k * ·)).any (fun v => decide (v < 0)) then (.error .valueError : PyM (List ℚ))
    else if values.map (k * ·) = [] then .error .indexError
    else if (values.map (k * ·)).sum = 0 then .error .valueError
    else .ok ((values.map (k * ·)).map fun v => v / (values.map (k * ·)).sum)) =
    if values.any (fun v => decide (v < 0)) then .error .valueError
    else if values = [] then .error .indexError
    else if values.sum = 0 then .error .valueError
    else .ok (values.map fun v => v / values.sum) := by
  have hany : (values.map (k * ·)).any (fun v => decide (v < 0)) = values.any fun v => decide (v < 0) := by
    rw [List.any_map]
    congr 1
    funext v
    simp only [Function.comp, decide_eq_decide]
    constructor
    · intro hv; by_contra hn; have := mul_nonneg hk.le (not_lt.1 hn); linarith
    · intro hv; exact mul_neg_of_pos_of_neg hk hv
  have hsum : (values.map (k * ·)).sum = k * values.sum := by
    have := List.sum_map_mul_left values id k
    simpa using this
  rw [hany, hsum]
  simp only [List.map_eq_nil_iff, mul_eq_zero, hk.ne', false_or, List.map_map]
  congr 4
  refine List.map_congr_left fun v _ => ?_
  simp only [Function.comp]
  rw [mul_div_mul_left _ _ hk.ne']

/-- C129: fitness-proportional weights with `offset='pop-min'` do not depend on the unit or the zero of the fitness. -/
theorem proportional_popMin_affine {α : Type} (key : α → ℚ) (c d : ℚ) (hc : 0 < c) (exponent : Nat) (population : List α) :
    proportionalWeights (fun x => c * key x + d) .popMin exponent population = proportionalWeights key .popMin exponent population := by
  cases population with
  | nil => rfl
  | cons p ps =>
    have hmin : ∀ (l : List α) (a : ℚ), ((l.map fun x => c * key x + d).foldl min (c * a + d)) = c * ((l.map key).foldl min a) + d := by
      intro l
      induction l with
      | nil => exact fun _ => rfl
      | cons x l ih =>
        intro a
        simp only [List.map_cons, List.foldl_cons]
        rw [← ih]
        congr 1
        rcases le_total a (key x) with hle | hle
        · rw [min_eq_left hle, min_eq_left (by nlinarith)]
        · rw [min_eq_right hle, min_eq_right (by nlinarith)]
    have hvals : computePopulationValues (fun x => c * key x + d) .popMin exponent (p :: ps) =
        (computePopulationValues key .popMin exponent (p :: ps)).map (List.map (c ^ exponent * ·)) := by
      have hm : npMin ((p :: ps).map fun x => c * key x + d) = .ok (c * ((ps.map key).foldl min (key p)) + d) := by
        rw [← hmin]; rfl
      have hm' : npMin ((p :: ps).map key) = .ok ((ps.map key).foldl min (key p)) := rfl
      unfold computePopulationValues
      simp only [hm, hm', Except.map, List.map_map]
      congr 1
      refine List.map_congr_left fun x _ => ?_
      simp only [Function.comp]
      rw [← mul_pow]; congr 1; ring
    unfold proportionalWeights
    rw [hvals]
    cases computePopulationValues key .popMin exponent (p :: ps) with
    | error e => rfl
    | ok values => exact weights_scale _ (pow_pos hc _) values

/-- C129: with a number for `offset` they do not depend on the unit, if the offset is in the same unit. -/
theorem proportional_scale {α : Type} (key : α → ℚ) (c q : ℚ) (hc : 0 < c) (exponent : Nat) (population : List α) :
    proportionalWeights (fun x => c * key x) (.num (c * q)) exponent population = proportionalWeights key (.num q) exponent population := by
  have hvals : computePopulationValues (fun x => c * key x) (.num (c * q)) exponent population =
      (computePopulationValues key (.num q) exponent population).map (List.map (c ^ exponent * ·)) := by
    unfold computePopulationValues
    simp only [Except.map, List.map_map]
    congr 1
    refine List.map_congr_left fun x _ => ?_
    simp only [Function.comp]
    rw [← mul_pow]; congr 1; ring
  unfold proportionalWeights
  rw [hvals]
  exact weights_scale _ (pow_pos hc _) _

/-- One case of each. -/
example : proportionalWeights (fun x : ℚ => 3 * x + 7) .popMin 2 [1, 2, 4] = .ok [0, 1 / 10, 9 / 10] ∧
    proportionalWeights (fun x : ℚ => x) .popMin 2 [1, 2, 4] = .ok [0, 1 / 10, 9 / 10] := by decide +kernel

/-- C129: with a number for `offset` they depend on the zero, and under an increasing function in general on the values, whatever the offset. -/
theorem proportional_depends_on_values :
    (proportionalWeights (fun x : ℚ => x) (.num 0) 1 [1, 2] = .ok [1 / 3, 2 / 3] ∧
      proportionalWeights (fun x : ℚ => x + 1) (.num 0) 1 [1, 2] = .ok [2 / 5, 3 / 5]) ∧
    (proportionalWeights (fun x : ℚ => x) .popMin 1 [0, 1, 2] = .ok [0, 1 / 3, 2 / 3] ∧
      proportionalWeights (fun x : ℚ => x ^ 3) .popMin 1 [0, 1, 2] = .ok [0, 1 / 9, 8 / 9]) := by decide +kernel

/-- C129: with Python floats, adding a constant to every fitness may change who wins a tournament: of 0 and a ten-billionth the second is better, and of these
plus one neither. -/
theorem shift_changes_tournament :
    let fit : Nat → Option Num := fun r => some (.fin (if r = 0 then 0 else 1 / 10000000000))
    let shifted : Nat → Option Num := fun r => (fit r).map (upward (· + 1))
    tournamentStep (fun a b => lessFit true true false (fit a) (fit b)) (fun a b => moreFit true true false (fit a) (fit b)) false [0, 1] 2 [0, 1] = .ok ([1], 1) ∧
    tournamentStep (fun a b => lessFit true true false (shifted a) (shifted b)) (fun a b => moreFit true true false (shifted a) (shifted b)) false [0, 1] 2 [0, 1] =
      .ok ([0], 0) := by decide +kernel

end Leap
