import Verif.Model.EvoRun
import Verif.Model.PlusRun

/-! # Runs on problems whose fitnesses have been replaced one for one -/

namespace Leap

variable {γ ψ φ φ' ρ α β α' β' : Type}

/-- An individual with its fitness replaced. -/
def Spec.rescoredInd (h : φ → φ') (o : Obj ψ φ) : Obj ψ φ' :=
  ⟨o.genome, o.fitness.map h, o.phenome, o.uuid, o.parents, o.problem, o.viable, o.exception⟩

/-- The same memory with every fitness `f` replaced by `h f`. -/
def Spec.rescored (h : φ → φ') (m : Mem γ ψ φ ρ) : Mem γ ψ φ' ρ := ⟨m.arrays, m.sets, m.inds.map (Spec.rescoredInd h), m.nextUuid, m.rng⟩

/-- The problem that answers `h f` where the given one answers `f`, and otherwise does the same. -/
def Spec.rescoredProb (h : φ → φ') (prob : Prob γ ψ φ ρ) : Prob γ ψ φ' ρ where
  evaluate c s := ((prob.evaluate c s).1.map h, (prob.evaluate c s).2)
  evaluateMultiple cs s := ((prob.evaluateMultiple cs s).1.map (List.map h), (prob.evaluateMultiple cs s).2)
  takesIndividuals := prob.takesIndividuals

/-- The same operator, evaluating with the other problem if it evaluates. -/
def Spec.rescoredStage (h : φ → φ') : Stage γ ψ φ ρ → Stage γ ψ φ' ρ
  | .clone => .clone
  | .mutate check stopOk f => .mutate check stopOk f
  | .crossover skip rec => .crossover skip rec
  | .evaluate dec prob => .evaluate dec (Spec.rescoredProb h prob)
  | .robustEvaluate nan dec prob => .robustEvaluate (h nan) dec (Spec.rescoredProb h prob)

open Spec

/-- `y` does to the rescored memory what `x` does to the memory, and returns or raises the same up to `k`. -/
def Rescores (h : φ → φ') (k : α → β) (x : HM (Mem γ ψ φ ρ) α) (y : HM (Mem γ ψ φ' ρ) β) : Prop :=
  ∀ m, y (rescored h m) = ((x m).1.map k, rescored h (x m).2)

variable {h : φ → φ'}

theorem Rescores.pure (a : α) (k : α → β) : Rescores (γ := γ) (ψ := ψ) (ρ := ρ) h k (Pure.pure a) (Pure.pure (k a)) := fun _ => rfl

theorem Rescores.bind {k : α → β} {k' : α' → β'} {x : HM (Mem γ ψ φ ρ) α} {y : HM (Mem γ ψ φ' ρ) β} {f : α → HM (Mem γ ψ φ ρ) α'}
    {f' : β → HM (Mem γ ψ φ' ρ) β'} (hx : Rescores h k x y) (hf : ∀ a, Rescores h k' (f a) (f' (k a))) :
    Rescores h k' (x >>= f) (y >>= f') := by
  intro m
  rw [HM.bind_apply, HM.bind_apply, hx m]
  rcases x m with ⟨_ | a, m1⟩
  · rfl
  · exact hf a m1

theorem Rescores.lift (r : PyM α) : Rescores (γ := γ) (ψ := ψ) (ρ := ρ) h id (HM.lift r) (HM.lift r) := by
  intro m; cases r <;> rfl

theorem Rescores.pep {k : α → β} {x : HM (Mem γ ψ φ ρ) α} {y : HM (Mem γ ψ φ' ρ) β} (hx : Rescores h k x y) :
    Rescores h k (HM.pep479 x) (HM.pep479 y) := by
  intro m
  simp only [HM.pep479, hx m]
  rcases x m with ⟨e | a, m1⟩
  · cases e <;> rfl
  · rfl

theorem Rescores.upstream {k : α → β} {x : HM (Mem γ ψ φ ρ) α} {y : HM (Mem γ ψ φ' ρ) β} (b : Bool) (hx : Rescores h k x y) :
    Rescores h k (upstream b x) (upstream b y) := by
  unfold Leap.upstream; cases b
  · exact hx.pep
  · exact hx

theorem carries_getObj (r : Nat) : Rescores (γ := γ) (ψ := ψ) (ρ := ρ) h (rescoredInd h) (getObj r) (getObj r) := by
  intro m
  simp only [getObj, rescored, List.getElem?_map]
  cases m.inds[r]? <;> rfl

theorem carries_modObj (r : Nat) (f : Obj ψ φ → Obj ψ φ) (f' : Obj ψ φ' → Obj ψ φ') (hf : ∀ o, f' (rescoredInd h o) = rescoredInd h (f o)) :
    Rescores (γ := γ) (ρ := ρ) h id (modObj r f) (modObj r f') := by
  intro m
  simp only [modObj, rescored, Except.map, id, Prod.mk.injEq, true_and]
  congr 1
  apply List.ext_getElem?
  intro i
  simp only [List.getElem?_modify, List.getElem?_map]
  by_cases hi : r = i
  · simp only [if_pos hi]; cases m.inds[i]? <;> simp [hf]
  · simp only [if_neg hi]; cases m.inds[i]? <;> rfl

theorem carries_newObj (o : Obj ψ φ) : Rescores (γ := γ) (ρ := ρ) h id (newObj o) (newObj (rescoredInd h o)) := by
  intro m
  simp [newObj, rescored, Except.map]

theorem carries_getArr (a : Nat) : Rescores (γ := γ) (ψ := ψ) (ρ := ρ) h id (getArr a) (getArr a) := by
  intro m
  simp only [getArr, rescored]
  cases m.arrays[a]? <;> rfl

theorem carries_setArr (a : Nat) (g : List γ) : Rescores (ψ := ψ) (ρ := ρ) h id (setArr a g) (setArr a g) := fun _ => rfl
theorem carries_newArr (g : List γ) : Rescores (ψ := ψ) (ρ := ρ) h id (newArr g) (newArr g) := fun _ => rfl

theorem carries_getSet (a : Nat) : Rescores (γ := γ) (ψ := ψ) (ρ := ρ) h id (getSet a) (getSet a) := by
  intro m
  simp only [getSet, rescored]
  cases m.sets[a]? <;> rfl

theorem carries_setSet (a : Nat) (g : List Nat) : Rescores (γ := γ) (ψ := ψ) (ρ := ρ) h id (setSet a g) (setSet a g) := fun _ => rfl
theorem carries_newSet (g : List Nat) : Rescores (γ := γ) (ψ := ψ) (ρ := ρ) h id (newSet g) (newSet g) := fun _ => rfl
theorem carries_freshUuid : Rescores (γ := γ) (ψ := ψ) (ρ := ρ) h id freshUuid freshUuid := fun _ => rfl

theorem carries_useRng (k : α → β) (f : ρ → PyM α × ρ) (f' : ρ → PyM β × ρ) (hf : ∀ s, f' s = ((f s).1.map k, (f s).2)) :
    Rescores (γ := γ) (ψ := ψ) h k (useRng f) (useRng f') := by
  intro m
  show ((f' m.rng).1, (⟨m.arrays, m.sets, m.inds.map (rescoredInd h), m.nextUuid, (f' m.rng).2⟩ : Mem γ ψ φ' ρ)) = _
  rw [hf]; rfl

theorem except_map_id (r : PyM α) : r.map id = r := by cases r <;> rfl

theorem carries_useRng_same (f : ρ → PyM α × ρ) : Rescores (γ := γ) (ψ := ψ) h id (useRng f) (useRng f) :=
  carries_useRng id f f fun s => by rw [except_map_id]

theorem carries_makeIndividual (g p : Nat) : Rescores (γ := γ) (ψ := ψ) (ρ := ρ) h id (makeIndividual g p) (makeIndividual g p) :=
  carries_freshUuid.bind fun _ => (carries_newSet _).bind fun _ => carries_newObj _

theorem carries_createPopulation (initGenome : ρ → PyM (List γ) × ρ) (problem n : Nat) :
    Rescores (ψ := ψ) h id (createPopulation initGenome problem n) (createPopulation initGenome problem n) := by
  induction n with
  | zero => exact Rescores.pure _ _
  | succ n ih =>
    exact (carries_useRng_same _).bind fun _ => (carries_newArr _).bind fun _ => (carries_makeIndividual _ _).bind fun _ =>
      ih.bind fun _ => Rescores.pure _ _

theorem carries_cloneInd (r : Nat) : Rescores (γ := γ) (ψ := ψ) (ρ := ρ) h id (cloneInd r) (cloneInd r) :=
  (carries_getObj r).bind fun o => (carries_newObj o).bind fun c => (carries_getArr _).bind fun _ => (carries_newArr _).bind fun _ =>
    (carries_modObj _ _ _ (by intro _; rfl)).bind fun _ => (carries_modObj _ _ _ (by intro _; rfl)).bind fun _ => carries_freshUuid.bind fun _ =>
    (carries_modObj _ _ _ (by intro _; rfl)).bind fun _ => (carries_newSet _).bind fun _ => (carries_modObj _ _ _ (by intro _; rfl)).bind fun _ =>
    Rescores.pure _ _

theorem carries_decodeInd (dec : Dec γ ψ) (r : Nat) : Rescores (ρ := ρ) h id (decodeInd dec r) (decodeInd dec r) := by
  refine (carries_getObj r).bind fun o => ?_
  cases dec with
  | identity => exact (carries_modObj _ _ _ (by intro _; rfl)).bind fun _ => Rescores.pure _ _
  | fn f => exact (carries_getArr _).bind fun _ => (Rescores.lift _).bind fun _ => (carries_modObj _ _ _ (by intro _; rfl)).bind fun _ => Rescores.pure _ _

theorem carries_phenomeOf (dec : Dec γ ψ) (r : Nat) : Rescores (ρ := ρ) h id (phenomeOf dec r) (phenomeOf dec r) := by
  refine (carries_getObj r).bind fun o => ?_
  show Rescores h id (match o.phenome with | none => decodeInd dec r | some p => pure p) (match o.phenome with | none => decodeInd dec r | some p => pure p)
  cases o.phenome with
  | none => exact carries_decodeInd dec r
  | some p => exact Rescores.pure _ _

theorem carries_contentOf (p : Phen ψ) : Rescores (γ := γ) (ρ := ρ) h id (contentOf p) (contentOf p) := by
  rcases p with a | v
  · exact (carries_getArr a).bind fun _ => Rescores.pure _ _
  · exact Rescores.pure _ _

theorem carries_evaluateImp (dec : Dec γ ψ) (prob : Prob γ ψ φ ρ) (r : Nat) :
    Rescores h h (evaluateImp dec prob r) (evaluateImp dec (rescoredProb h prob) r) :=
  (carries_decodeInd dec r).bind fun _ => (carries_phenomeOf dec r).bind fun _ => (carries_contentOf _).bind fun c =>
    carries_useRng h (prob.evaluate c) ((rescoredProb h prob).evaluate c) fun _ => rfl

theorem carries_evaluateInd (dec : Dec γ ψ) (prob : Prob γ ψ φ ρ) (r : Nat) :
    Rescores h h (evaluateInd dec prob r) (evaluateInd dec (rescoredProb h prob) r) :=
  (carries_evaluateImp dec prob r).bind fun _ => (carries_modObj _ _ _ (by intro _; rfl)).bind fun _ => Rescores.pure _ _

theorem carries_robustEvaluate (nan : φ) (dec : Dec γ ψ) (prob : Prob γ ψ φ ρ) (r : Nat) :
    Rescores h h (robustEvaluate nan dec prob r) (robustEvaluate (h nan) dec (rescoredProb h prob) r) := by
  intro m
  simp only [robustEvaluate, carries_evaluateImp dec prob r m]
  rcases evaluateImp dec prob r m with ⟨e | f, m1⟩
  · have := carries_modObj (γ := γ) (ρ := ρ) (h := h) r (fun x => { x with fitness := some nan, exception := some e, viable := some false })
      (fun x => { x with fitness := some (h nan), exception := some e, viable := some false }) (fun _ => rfl) m1
    simp only [modObj, Prod.mk.injEq] at this
    simp only [Except.map, this.2]
  · have := carries_modObj (γ := γ) (ρ := ρ) (h := h) r (fun x => { x with fitness := some f, viable := some true })
      (fun x => { x with fitness := some (h f), viable := some true }) (fun _ => rfl) m1
    simp only [modObj, Prod.mk.injEq] at this
    simp only [Except.map, this.2]

theorem carries_evaluatePopulation (dec : Dec γ ψ) (prob : Prob γ ψ φ ρ) (pop : List Nat) :
    Rescores h id (evaluatePopulation dec prob pop) (evaluatePopulation dec (rescoredProb h prob) pop) := by
  induction pop with
  | nil => exact Rescores.pure _ _
  | cons r rs ih => exact (carries_evaluateInd dec prob r).bind fun _ => ih

theorem carries_recombineInds (rec : Recombiner ρ) (ra rb : Nat) :
    Rescores (γ := γ) (ψ := ψ) h id (recombineInds rec ra rb) (recombineInds rec ra rb) := by
  refine (carries_getObj ra).bind fun oa => (carries_getObj rb).bind fun ob => (carries_getArr _).bind fun a => (carries_getArr _).bind fun b => ?_
  cases rec with
  | uniform mask =>
    exact (carries_useRng_same _).bind fun _ => (Rescores.lift _).bind fun _ => (Rescores.lift _).bind fun _ => (Rescores.lift _).bind fun _ =>
      (carries_setArr _ _).bind fun _ => (carries_getArr _).bind fun _ => (Rescores.lift _).bind fun _ => carries_setArr _ _
  | nary k cuts =>
    exact (carries_useRng_same _).bind fun _ => (Rescores.lift _).bind fun p => (carries_newArr _).bind fun _ =>
      (carries_modObj _ _ _ (by intro _; rfl)).bind fun _ => (carries_newArr _).bind fun _ => carries_modObj _ _ _ (by intro _; rfl)

theorem carries_mutateInd (f : MutFn γ ρ) (r : Nat) : Rescores (ψ := ψ) h id (mutateInd f r) (mutateInd f r) := by
  refine (carries_getObj r).bind fun o => (carries_getArr _).bind fun g => (carries_useRng_same _).bind fun res => (carries_setArr _ _).bind fun _ =>
    (Rescores.lift _).bind fun new => ?_
  cases new with
  | none =>
    exact carries_modObj r (fun x => { x with fitness := none }) (fun x => { x with fitness := none }) fun _ => rfl
  | some g' =>
    refine (carries_newArr g').bind fun _ => ?_
    refine (carries_modObj _ _ _ ?_).bind fun _ => carries_modObj _ _ _ ?_ <;> exact fun _ => rfl

theorem carries_crossInds (rec : Recombiner ρ) (ra rb : Nat) : Rescores (γ := γ) (ψ := ψ) h id (crossInds rec ra rb) (crossInds rec ra rb) :=
  (carries_recombineInds rec ra rb).bind fun _ => (carries_getObj ra).bind fun _ => (carries_getObj rb).bind fun _ => (carries_getSet _).bind fun _ =>
    (carries_getSet _).bind fun _ => (carries_setSet _ _).bind fun _ => (carries_getSet _).bind fun _ => (carries_getSet _).bind fun _ =>
    (carries_setSet _ _).bind fun _ => (carries_modObj _ _ _ (by intro _; rfl)).bind fun _ => carries_modObj _ _ _ (by intro _; rfl)

/-- Two iterators that do the same, up to a translation of their states. -/
def IterRescores (h : φ → φ') (it : HIter (Mem γ ψ φ ρ)) (it' : HIter (Mem γ ψ φ' ρ)) : Prop :=
  ∃ e : it.σ → it'.σ, it'.init = e it.init ∧ ∀ s, Rescores h (fun p => (p.1, e p.2)) (it.next s) (it'.next (e s))

theorem iterCarries_stage (up : HIter (Mem γ ψ φ ρ)) (up' : HIter (Mem γ ψ φ' ρ)) (hup : IterRescores h up up') (st : Stage γ ψ φ ρ) :
    IterRescores h (st.apply up) ((rescoredStage h st).apply up') := by
  obtain ⟨e, he, hn⟩ := hup
  cases st with
  | clone =>
    exact ⟨e, he, fun s => Rescores.pep ((hn s).bind fun p => (carries_cloneInd _).bind fun _ => Rescores.pure _ _)⟩
  | mutate check stopOk f =>
    refine ⟨fun p => (p.1, e p.2), by simp only [rescoredStage, Stage.apply, he], fun s => ?_⟩
    exact (Rescores.lift _).bind fun _ => ((hn s.2).upstream stopOk).bind fun p => (carries_mutateInd f p.1).pep.bind fun _ => Rescores.pure _ _
  | crossover skip rec =>
    refine ⟨fun p => (p.1, e p.2), by simp only [rescoredStage, Stage.apply, he], fun s => ?_⟩
    obtain ⟨pending, s⟩ := s
    refine Rescores.pep ?_
    cases pending with
    | some b => exact Rescores.pure _ _
    | none =>
      refine (hn s).bind fun p1 => (hn p1.2).bind fun p2 => (carries_useRng_same _).bind fun sk => ?_
      cases sk with
      | true => exact Rescores.pure _ _
      | false => exact (carries_crossInds rec p1.1 p2.1).bind fun _ => Rescores.pure _ _
  | evaluate dec prob =>
    exact ⟨e, he, fun s => Rescores.pep ((hn s).bind fun p => (carries_evaluateInd dec prob p.1).bind fun _ => Rescores.pure _ _)⟩
  | robustEvaluate nan dec prob =>
    exact ⟨e, he, fun s => Rescores.pep ((hn s).bind fun p => (carries_robustEvaluate nan dec prob p.1).bind fun _ => Rescores.pure _ _)⟩

theorem iterCarries_stages (stages : List (Stage γ ψ φ ρ)) : ∀ (src : HIter (Mem γ ψ φ ρ)) (src' : HIter (Mem γ ψ φ' ρ)),
    IterRescores h src src' → IterRescores h (stagesIter src stages) (stagesIter src' (stages.map (rescoredStage h))) := by
  induction stages with
  | nil => exact fun _ _ hs => hs
  | cons st rest ih => exact fun src src' hs => ih _ _ (iterCarries_stage src src' hs st)

theorem carries_hpull {σ σ' : Type} (g : HGen (Mem γ ψ φ ρ) σ Nat) (g' : HGen (Mem γ ψ φ' ρ) σ' Nat) (e : σ → σ')
    (hg : ∀ s, Rescores h (fun p => (p.1, e p.2)) (g s) (g' (e s))) (n : Nat) :
    ∀ s, Rescores h (fun p => (p.1, e p.2)) (hpull g n s) (hpull g' n (e s)) := by
  induction n with
  | zero => exact fun s => Rescores.pure _ _
  | succ n ih => exact fun s => (hg s).bind fun p => (ih p.2).bind fun _ => Rescores.pure _ _

theorem iterCarries_selection (pop : List Nat) (choose : Mem γ ψ φ ρ → PyM Nat × ρ) (choose' : Mem γ ψ φ' ρ → PyM Nat × ρ)
    (hc : ∀ m, choose' (rescored h m) = choose m) : IterRescores h (selectionIter pop choose) (selectionIter pop choose') := by
  refine ⟨id, rfl, fun s m => ?_⟩
  simp only [selectionIter, hc m]
  rcases choose m with ⟨_ | i, s'⟩
  · rfl
  · simp only
    cases pop[i]? <;> rfl

/-- A pipeline that selects by the same choices does the same. -/
theorem carries_runPipeline (pop : List Nat) (choose : Mem γ ψ φ ρ → PyM Nat × ρ) (choose' : Mem γ ψ φ' ρ → PyM Nat × ρ)
    (hc : ∀ m, choose' (rescored h m) = choose m) (stages : List (Stage γ ψ φ ρ)) (size : Nat) :
    Rescores h id (runPipeline pop choose stages size) (runPipeline pop choose' (stages.map (rescoredStage h)) size) := by
  obtain ⟨e, he, hn⟩ := iterCarries_stages (h := h) (Stage.clone :: stages) _ _ (iterCarries_selection pop choose choose' hc)
  unfold runPipeline
  refine Rescores.bind (k := fun p => (p.1, e p.2)) ?_ fun _ => Rescores.pure _ _
  have he' : (stagesIter (selectionIter pop choose') (Stage.clone :: stages.map (rescoredStage h))).init = e _ := he
  rw [he']
  exact carries_hpull _ _ e hn size _

theorem fitness_rescored (m : Mem γ ψ φ ρ) (r : Nat) :
    ((rescored h m).inds[r]?).bind Obj.fitness = ((m.inds[r]?).bind Obj.fitness).map h := by
  simp only [rescored, List.getElem?_map]
  cases m.inds[r]? <;> rfl

end Leap
