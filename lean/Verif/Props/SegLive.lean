import Verif.Props.SegRun

/-! # Runs over segmented genomes that complete (C114) -/

namespace Leap

variable {γ φ ρ : Type}

namespace Spec

/-- On every genome with good segments, as many as `N` allows, the operator does not raise. -/
def StageWorks (G : List γ → Prop) (N : Nat → Prop) (st : SegStage γ φ ρ) : Prop :=
  ∀ gs f s, gs ≠ [] → (∀ g ∈ gs, G g) → N gs.length → ∃ v, (byValue st (gs, f) s).1 = .ok v

/-- The selection operator finds somebody in every population that is evaluated and not empty. -/
def Selects (choose : List Nat → SegStore γ φ ρ → PyM Nat × ρ) : Prop :=
  ∀ pop m, pop ≠ [] → (∀ r ∈ pop, (segFitness m r).isSome) → ∃ i < pop.length, (choose pop m).1 = .ok i

end Spec

open Spec

/-- Somebody is next. -/
def LiveNext (c : SegCond γ φ) (pop : List Nat) (x : HM (SegStore γ φ ρ) Nat) : Prop :=
  ∀ m, AllWhole c pop m → (∀ r ∈ pop, (segFitness m r).isSome) → ∃ r, (x m).1 = .ok r

theorem pair_of_ok {M α : Type} {p : PyM α × M} {a : α} (h : p.1 = .ok a) : p = (.ok a, p.2) := by
  rcases p with ⟨x, y⟩
  simp only at h
  subst h
  rfl

theorem stage_works {G : List γ → Prop} {value : List (List γ) → φ → Prop} {N : Nat → Prop} {st : SegStage γ φ ρ}
    (hw : StageWorks G N st) {m : SegStore γ φ ρ} {r : Nat} {o : SegObj φ} {l : List Nat}
    (h : Whole ⟨true, G, value, false, N⟩ r o l m) : ∃ r', (st.act r m).1 = .ok r' := by
  obtain ⟨l', gs, h1, h2, h3, h4, h5, -⟩ := h.proper
  obtain ⟨gs', e, hN⟩ := h.counted
  rw [h2, Option.some.injEq] at e
  subst e
  obtain ⟨v, hv⟩ := hw gs (segFitness m r) m.rng h3 h4 hN
  have := (seg_act_by_value st m r l' gs h1 h2 fun _ => h5 rfl).2
  rw [hv] at this
  obtain ⟨r', h6, -⟩ := this
  exact ⟨r', h6⟩

theorem segChain_live {G : List γ → Prop} {value : List (List γ) → φ → Prop} {N : Nat → Prop} {pop : List Nat}
    (stages : List (SegStage γ φ ρ))
    (hf : ∀ st ∈ stages, (⟨true, G, value, false, N⟩ : SegCond γ φ).Fits st) (hw : ∀ st ∈ stages, StageWorks G N st)
    (up : HM (SegStore γ φ ρ) Nat) (hup : MakesNew ⟨true, G, value, false, N⟩ pop (fun _ => True) up)
    (hl : LiveNext ⟨true, G, value, false, N⟩ pop up) : LiveNext ⟨true, G, value, false, N⟩ pop (segChain up stages) := by
  induction stages generalizing up with
  | nil => exact hl
  | cons st rest ih =>
    refine ih (fun s hs => hf s (List.mem_cons_of_mem _ hs)) (fun s hs => hw s (List.mem_cons_of_mem _ hs)) _
      (hup.then _ fun m0 r o l => (act_mine st (hf st List.mem_cons_self)).mono (fun _ h => h) (fun _ _ ⟨o, l, h⟩ => ⟨o, l, h, trivial⟩)
        fun _ h => h) ?_
    intro m hm hs
    obtain ⟨r, hr⟩ := hl m hm hs
    have h1 := hup m hm m rfl
    rw [pair_of_ok hr] at h1
    obtain ⟨o, l, h2, -⟩ := h1
    obtain ⟨r', hr'⟩ := stage_works (hw st List.mem_cons_self) h2.whole
    refine ⟨r', ?_⟩
    have : (up >>= st.act) m = (.ok r', (st.act r (up m).2).2) := by
      rw [HM.bind_apply, pair_of_ok hr]
      exact pair_of_ok hr'
    rw [pep479_ok this]

theorem segSelectClone_live {G : List γ → Prop} {value : List (List γ) → φ → Prop} {N : Nat → Prop} {pop : List Nat} (hne : pop ≠ [])
    (choose : List Nat → SegStore γ φ ρ → PyM Nat × ρ) (hsel : Selects choose) :
    LiveNext ⟨true, G, value, false, N⟩ pop (HM.pep479 (HM.pep479 (segSelect pop (choose pop)) >>= SegStage.clone.act)) := by
  intro m hm hs
  obtain ⟨i, hi, e⟩ := hsel pop m hne hs
  have h1 : segSelect pop (choose pop) m = (.ok pop[i], { m with rng := (choose pop m).2 }) := by
    simp only [segSelect]
    rw [pair_of_ok e]
    simp only [List.getElem?_eq_getElem hi]
  obtain ⟨o, l, w⟩ := hm pop[i] (List.getElem_mem hi)
  have w' : Whole (⟨true, G, value, false, N⟩ : SegCond γ φ) pop[i] o l { m with rng := (choose pop m).2 } :=
    ⟨w.ind, w.list, w.arrays, w.good, w.truth⟩
  obtain ⟨cp, m2, e2, -, -, -, -⟩ := cloneSeg_ok w'
  refine ⟨m.inds.length, ?_⟩
  have : (HM.pep479 (segSelect pop (choose pop)) >>= SegStage.clone.act) m = (.ok m.inds.length, m2) := by
    rw [HM.bind_apply, pep479_ok h1]
    simp only [SegStage.act, e2]
  rw [pep479_ok this]

theorem fitness_later {m m' : SegStore γ φ ρ} (hk : NothingChanged m m') {r : Nat} (h : (segFitness m r).isSome) :
    (segFitness m' r).isSome := by
  cases e : m.inds[r]? with
  | none => simp [segFitness, e] at h
  | some o =>
    simp only [segFitness, e] at h
    simpa [segFitness, prefix_getSome hk.1 e] using h

theorem segPool_live {c : SegCond γ φ} {pop : List Nat} (next : HM (SegStore γ φ ρ) Nat) {Q : SegObj φ → Prop} (hn : MakesNew c pop Q next)
    (hl : LiveNext c pop next) (n : Nat) (m : SegStore γ φ ρ) (hm : AllWhole c pop m) (hs : ∀ r ∈ pop, (segFitness m r).isSome) :
    ∃ rs, (segPool next n m).1 = .ok rs := by
  induction n generalizing m with
  | zero => exact ⟨[], rfl⟩
  | succ n ih =>
    obtain ⟨r, hr⟩ := hl m hm hs
    have h1 := hn m hm m rfl
    rw [pair_of_ok hr] at h1
    obtain ⟨o, l, h2, -⟩ := h1
    obtain ⟨rs, hrs⟩ := ih (next m).2 (hm.later h2.kept) fun r hr => fitness_later h2.kept (hs r hr)
    refine ⟨r :: rs, ?_⟩
    simp only [segPool, HM.bind_apply]
    rw [pair_of_ok hr]
    simp only
    rw [pair_of_ok hrs]
    rfl

theorem evaluate_fits {G : List γ → Prop} {value : List (List γ) → φ → Prop} {shared : Bool} {N : Nat → Prop}
    (score : List (List γ) → ρ → PyM φ × ρ) (hscore : ∀ gs s x, (score gs s).1 = .ok x → value gs x) :
    (⟨true, G, value, shared, N⟩ : SegCond γ φ).Fits (.evaluate score : SegStage γ φ ρ) := fun _ => ⟨hscore, trivial⟩

/-- C114: a pipeline does not raise when none of its operators does on good genomes and selection finds somebody. -/
theorem seg_pipeline_completes (G : List γ → Prop) (value : List (List γ) → φ → Prop) (N : Nat → Prop) (pop : List Nat) (hne : pop ≠ [])
    (choose : List Nat → SegStore γ φ ρ → PyM Nat × ρ) (hsel : Selects choose) (ops : List (SegStage γ φ ρ))
    (score : List (List γ) → ρ → PyM φ × ρ) (hops : ∀ st ∈ ops, StageGood G value false st ∧ KeepsCount N st ∧ StageWorks G N st)
    (hscore : ∀ gs s x, (score gs s).1 = .ok x → value gs x) (hworks : StageWorks G N (.evaluate score : SegStage γ φ ρ)) (size : Nat)
    (m : SegStore γ φ ρ) (hpop : ∀ r ∈ pop, ProperInd G value false m r ∧ Counted N m r ∧ (segFitness m r).isSome) :
    ∃ rs, (segPipeline pop (choose pop) (.clone :: (ops ++ [.evaluate score])) size m).1 = .ok rs := by
  have hfit : ∀ st ∈ ops ++ [.evaluate score], (⟨true, G, value, false, N⟩ : SegCond γ φ).Fits st := by
    intro st hst
    rcases List.mem_append.1 hst with h | h
    · exact fun _ => ⟨(hops st h).1, (hops st h).2.1⟩
    · simp only [List.mem_singleton] at h
      subst h
      exact evaluate_fits score hscore
  have hw : ∀ st ∈ ops ++ [.evaluate score], StageWorks G N st := by
    intro st hst
    rcases List.mem_append.1 hst with h | h
    · exact (hops st h).2.2
    · simp only [List.mem_singleton] at h
      subst h
      exact hworks
  exact segPool_live _ (segChain_makesNew _ hfit _ (segSelectClone_makesNew pop (choose pop)))
    (segChain_live _ hfit hw _ (segSelectClone_makesNew pop (choose pop)) (segSelectClone_live hne choose hsel)) size m
    (fun r hr => whole_of_proper (hpop r hr).1 (hpop r hr).2.1) fun r hr => (hpop r hr).2.2

/-- C114: so does the main loop. -/
theorem seg_loop_completes (G : List γ → Prop) (value : List (List γ) → φ → Prop) (N : Nat → Prop) (cfg : SegConfig γ φ ρ)
    (ops : List (SegStage γ φ ρ)) (score : List (List γ) → ρ → PyM φ × ρ) (hst : cfg.stages = .clone :: (ops ++ [.evaluate score]))
    (hsize : 0 < cfg.size) (hsel : ∀ g, Selects (cfg.choose g))
    (hops : ∀ st ∈ ops, StageGood G value false st ∧ KeepsCount N st ∧ StageWorks G N st)
    (hscore : ∀ gs s x, (score gs s).1 = .ok x → value gs x) (hworks : StageWorks G N (.evaluate score : SegStage γ φ ρ)) (fuel : Nat)
    (g : Int) (parents : List Nat) (hne : parents ≠ []) (m : SegStore γ φ ρ)
    (hp : ∀ r ∈ parents, ProperInd G value false m r ∧ Counted N m r ∧ (segFitness m r).isSome) :
    ∃ rs, (segLoop cfg fuel g parents m).1 = .ok rs := by
  induction fuel generalizing g parents m with
  | zero => exact ⟨parents, rfl⟩
  | succ fuel ih =>
    simp only [segLoop]
    cases hs : cfg.stop g parents m with
    | true => exact ⟨parents, by simp⟩
    | false =>
      simp only [Bool.false_eq_true, if_false]
      have hsome : ∀ r ∈ parents, (segmentsOf m r).isSome := fun r hr => by
        obtain ⟨l, gs, -, h2, -⟩ := (hp r hr).1
        simp [h2]
      obtain ⟨off, hoff⟩ := seg_pipeline_completes G value N parents hne (cfg.choose g) (hsel g) ops score hops hscore hworks cfg.size m hp
      obtain ⟨h1, h2⟩ := seg_pipeline_isolated parents (cfg.choose g parents) (ops ++ [.evaluate score]) cfg.size m hsome
      have h3 := seg_pipeline_counted G value false parents (cfg.choose g parents) ops score N
        (fun st h => ⟨(hops st h).1, (hops st h).2.1⟩) hscore cfg.size m fun r hr => ⟨(hp r hr).1, (hp r hr).2.1⟩
      rw [← hst] at h1 h2 h3 hoff
      rcases e : segPipeline parents (cfg.choose g parents) cfg.stages cfg.size m with ⟨res, m1⟩
      rw [e] at h1 h2 h3 hoff
      simp only at hoff
      subst hoff
      simp only
      refine ih _ _ ?_ m1 fun r hr => ?_
      · intro h0
        have hl : (elitistSurvival (cfg.lt m1) off parents cfg.kElites).1.length = cfg.size := by
          simp only [elitistSurvival, topk_length, List.length_append, (h2 off rfl).1]
          omega
        rw [h0] at hl
        simp at hl
        omega
      · rcases elitist_from hr with h | h
        · exact h3 off rfl r h
        · obtain ⟨g1, -⟩ := proper_later h1 (hp r h).1
          obtain ⟨gs, c1, c2⟩ := (hp r h).2.1
          exact ⟨g1, ⟨gs, (segmentsOf_later h1 c1).1, c2⟩, fitness_later h1 (hp r h).2.2⟩

theorem createSegmented_live {init : ρ → PyM (List γ) × ρ} (hi : ∀ s, ∃ g, (init s).1 = .ok g) (n : Nat) (s : ρ) :
    ∃ gs, (createSegmented init n s).1 = .ok gs := by
  induction n generalizing s with
  | zero => exact ⟨[], rfl⟩
  | succ n ih =>
    obtain ⟨g, hg⟩ := hi s
    obtain ⟨gs, hgs⟩ := ih (init s).2
    refine ⟨g :: gs, ?_⟩
    simp only [createSegmented]
    rw [pair_of_ok hg]
    simp only
    rw [pair_of_ok hgs]

theorem createSegPop_live (length : ρ → Nat × ρ) {init : ρ → PyM (List γ) × ρ} (hi : ∀ s, ∃ g, (init s).1 = .ok g) (n : Nat)
    (m : SegStore γ φ ρ) : ∃ rs, (createSegPop length init n m).1 = .ok rs := by
  induction n generalizing m with
  | zero => exact ⟨[], rfl⟩
  | succ n ih =>
    simp only [createSegPop, HM.bind_apply, segPick_apply, segDraw_apply]
    obtain ⟨gs, hgs⟩ := createSegmented_live hi (length m.rng).1 (length m.rng).2
    rw [hgs]
    simp only
    obtain ⟨as, h1, -⟩ := newSegs_spec gs ({ m with rng := (createSegmented init (length m.rng).1 (length m.rng).2).2 } : SegStore γ φ ρ)
    rw [h1]
    simp only [newSegInd]
    obtain ⟨rs, hrs⟩ := ih { segs := m.segs ++ gs, lists := m.lists ++ [as], inds := m.inds ++ [⟨m.lists.length, none⟩],
                             rng := (createSegmented init (length m.rng).1 (length m.rng).2).2 }
    rw [pair_of_ok hrs]
    exact ⟨_, rfl⟩

theorem evaluateSegPop_live {G : List γ → Prop} {value : List (List γ) → φ → Prop} {N : Nat → Prop}
    (score : List (List γ) → ρ → PyM φ × ρ) (hscore : ∀ gs s x, (score gs s).1 = .ok x → value gs x)
    (hworks : StageWorks G N (.evaluate score : SegStage γ φ ρ)) (m0 : SegStore γ φ ρ) (all rs : List Nat) (hsub : ∀ r ∈ rs, r ∈ all)
    (m : SegStore γ φ ρ) (h0 : NothingChanged m0 m) (hm : ∀ r ∈ all, ∃ o l, Mine ⟨true, G, value, false, N⟩ m0 r o l m) :
    (evaluateSegPop score rs m).1 = .ok () := by
  induction rs generalizing m with
  | nil => rfl
  | cons r rs ih =>
    obtain ⟨o, l, h⟩ := hm r (hsub r List.mem_cons_self)
    obtain ⟨r', hr'⟩ := stage_works hworks h.whole
    have hev : (evaluateSeg score r m).1 = .ok () := by
      simp only [SegStage.act, HM.bind_apply] at hr'
      rcases e : evaluateSeg score r m with ⟨res, m1⟩
      rw [e] at hr'
      cases res with
      | error err => simp at hr'
      | ok u => rfl
    have h2 := evaluateSegPop_mine (c := ⟨true, G, value, false, N⟩) (m0 := m0) score (fun _ => hscore) all [r]
      (fun x hx => by simp only [List.mem_singleton] at hx; subst hx; exact hsub x List.mem_cons_self) [] m ⟨h0, hm, by simp⟩
    simp only [evaluateSegPop, HM.bind_apply] at h2 ⊢
    rw [pair_of_ok hev] at h2 ⊢
    exact ih (fun x hx => hsub x (List.mem_cons_of_mem _ hx)) _ h2.1 h2.2.1

/-- C114: a run over segmented genomes completes when the initialiser, the operators and the evaluation of good genomes do not raise,
and selection finds somebody in every evaluated population that is not empty. -/
theorem seg_run_completes (G : List γ → Prop) (value : List (List γ) → φ → Prop) (N : Nat → Prop) (cfg : SegConfig γ φ ρ)
    (ops : List (SegStage γ φ ρ)) (length : ρ → Nat × ρ) (init : ρ → PyM (List γ) × ρ) (score : List (List γ) → ρ → PyM φ × ρ)
    (hst : cfg.stages = .clone :: (ops ++ [.evaluate score])) (hsize : 0 < cfg.size) (hsel : ∀ g, Selects (cfg.choose g))
    (hops : ∀ st ∈ ops, StageGood G value false st ∧ KeepsCount N st ∧ StageWorks G N st)
    (hscore : ∀ gs s x, (score gs s).1 = .ok x → value gs x) (hworks : StageWorks G N (.evaluate score : SegStage γ φ ρ))
    (hlen : ∀ s, 1 ≤ (length s).1 ∧ N (length s).1) (hinit : ∀ s g, (init s).1 = .ok g → G g) (hmakes : ∀ s, ∃ g, (init s).1 = .ok g)
    (popSize : Nat) (hpos : 0 < popSize) (a b : Int) (m : SegStore γ φ ρ) :
    ∃ rs, (segRun cfg length init score popSize a b m).1 = .ok rs := by
  obtain ⟨ps, hps⟩ := createSegPop_live (φ := φ) length hmakes popSize m
  have h1 := createSegPop_brood (c := ⟨true, G, value, false, N⟩) (φ := φ) length init (fun _ => hlen) (fun _ => hinit) popSize m m rfl
  rw [pair_of_ok hps] at h1
  obtain ⟨hl, hb⟩ := h1
  have hm : ∀ r ∈ ps, ∃ o l, Mine (⟨true, G, value, false, N⟩ : SegCond γ φ) m r o l (createSegPop length init popSize m).2 := fun r hr =>
    let ⟨o, l, h, _⟩ := hb.mine r hr
    ⟨o, l, h⟩
  have hev := evaluateSegPop_live score hscore hworks m ps ps (fun _ h => h) _ hb.kept hm
  have h2 := evaluateSegPop_mine (c := ⟨true, G, value, false, N⟩) (m0 := m) score (fun _ => hscore) ps ps (fun _ h => h) []
    (createSegPop length init popSize m).2 ⟨hb.kept, hm, by simp⟩
  rw [pair_of_ok hev] at h2
  obtain ⟨-, h3, h4⟩ := h2
  simp only [segRun, HM.bind_apply]
  rw [pair_of_ok hps]
  simp only
  rw [pair_of_ok hev]
  refine seg_loop_completes G value N cfg ops score hst hsize hsel hops hscore hworks _ a ps ?_ _ fun r hr => ?_
  · rintro rfl
    simp at hl
    omega
  · obtain ⟨o, l, h⟩ := h3 r hr
    exact ⟨h.whole.proper, h.whole.counted, h4 r (by simpa using hr)⟩

/-! ### Example -/

example : ∃ rs, (segRun
    (⟨fun a b => decide (a.getD 0 < b.getD 0), fun _ pop m => exTurns pop.length m.rng, .clone :: (exSegOps.drop 1 ++ [.evaluate exSegOnes]),
      2, 1, fun _ _ _ => false⟩ : SegConfig Int Int Nat)
    (fun s => (2, s)) (fun s => (.ok [0, 1], s + 1)) exSegOnes 2 0 3 ⟨[], [], [], 0⟩).1 = .ok rs := by
  refine seg_run_completes (fun g => g.length = 2) (fun gs f => f = (gs.map List.sum).sum) (fun _ => True) _ (exSegOps.drop 1) _ _ exSegOnes rfl
    (by decide) (fun g pop m hne _ => ?_) (fun st hst => ?_) exSegOnes_value (fun gs f s _ _ _ => ⟨_, rfl⟩) (fun s => ⟨by simp, trivial⟩)
    (fun s g h => ?_) (fun s => ⟨_, rfl⟩) 2 (by decide) 0 3 _
  · exact ⟨m.rng % pop.length, Nat.mod_lt _ (List.length_pos_iff.2 hne), rfl⟩
  · refine ⟨exSegOps_good false st (List.mem_of_mem_drop hst), keepsCount_true st, ?_⟩
    simp only [exSegOps, List.drop_succ_cons, List.drop_zero, List.mem_cons, List.not_mem_nil, or_false] at hst
    rcases hst with rfl | rfl
    · intro gs f s hne hg _
      simp only [byValue]
      split
      · exact ⟨_, rfl⟩
      · exact ⟨_, rfl⟩
    · exact fun gs f s _ _ _ => ⟨_, rfl⟩
  · simp only [Except.ok.injEq] at h
    subst h
    rfl

end Leap
