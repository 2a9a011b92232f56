import Verif.Model.EvoRun
import Verif.Lemmas.Owns
import Verif.Lemmas.Live
import Verif.Props.Population
import Verif.Props.Mutation
import Verif.Props.Selection

/-! # Whole runs stay feasible, never carry stale fitnesses and never lose the best (C86) -/

namespace Leap
open Spec

variable {γ ψ φ ρ : Type} {n : Nat} {allowed : Nat → γ → Prop} {truth : List γ → φ → Prop}

/-- C86: a pipeline `select -> clone -> stages -> pool(size)`, with any selection, any chain of operators and any random
numbers, run on a population whose genomes are acceptable and whose fitnesses are true, returns individuals whose genomes
are acceptable and whose fitnesses, where present, are true of the genes they now have. If the last operator
evaluates, all of them have one. Nobody who existed before has changed. -/
theorem pipeline_keeps_feasible (m m' : Mem γ ψ φ ρ) (hm : Sound m) (pop : List Nat)
    (hpop : ∀ r ∈ pop, GoodInd (GenesIn n allowed) truth m r) (choose : Mem γ ψ φ ρ → PyM Nat × ρ)
    (stages : List (Stage γ ψ φ ρ)) (hst : ∀ st ∈ stages, StageOk n allowed truth st) (size : Nat) (out : List Nat)
    (h : runPipeline pop choose stages size m = (.ok out, m')) :
    Sound m' ∧ Unchanged m m' ∧ out.length = size ∧ out.Nodup ∧
    ∀ r ∈ out, m.inds.length ≤ r ∧ r < m'.inds.length ∧ GoodInd (GenesIn n allowed) truth m' r ∧
      (endsEvaluated stages = true → HasFitness m' r) := by
  obtain ⟨-, h2⟩ := pipeline_leaves_parents_alone m hm pop choose stages size
  rw [h] at h2
  obtain ⟨hl, hnd, -, -⟩ := h2 out rfl
  obtain ⟨pend, how⟩ := stages_owns hm stages hst _ _ _ (clone_first_owns hm pop hpop choose)
  have h : (hpull (stagesIter (selectionIter pop choose) (Stage.clone :: stages)).next size
    (stagesIter (selectionIter pop choose) (Stage.clone :: stages)).init >>= fun os => pure os.1) m = (.ok out, m') := h
  obtain ⟨⟨os, s'⟩, m1, e1, h⟩ := bind_ok h
  simp only [HM.pure_apply, Prod.mk.injEq, Except.ok.injEq] at h
  obtain ⟨rfl, rfl⟩ := h
  have hinit : pend (stagesIter (selectionIter pop choose) (Stage.clone :: stages)).init = [] := how.init
  have hfull : Full (GenesIn n allowed) truth m m := ⟨.refl m hm, fun r h1 h2 => by omega⟩
  obtain ⟨g1, -, -, g4⟩ := hpull_owns _ pend _ how size _ m _ _ _ hfull (by rw [hinit]; simp) (by rw [hinit]; simp) e1
  refine ⟨g1.1.sound, g1.1.unchanged, hl, hnd, fun r hr => ?_⟩
  obtain ⟨q1, q2, q3⟩ := g4 r hr
  exact ⟨q1, q2, g1.2 r q1 q2, q3⟩

/-- `f` is a score the problem gives to the decoding of `g`. -/
def Spec.ScoredBy (dec : Dec γ ψ) (prob : Prob γ ψ φ ρ) (g : List γ) (f : φ) : Prop :=
  ∃ c s, decodeOf dec g = .ok c ∧ (prob.evaluate c s).1 = .ok f

/-- A population member: acceptable genes and the problem's score of exactly these genes as its fitness. -/
def Spec.Member (n : Nat) (allowed : Nat → γ → Prop) (truth : List γ → φ → Prop) (m : Mem γ ψ φ ρ) (r : Nat) : Prop :=
  ∃ g f, genes m r = some g ∧ GenesIn n allowed g ∧ fitness m r = some (some f) ∧ truth g f

theorem member_iff (m : Mem γ ψ φ ρ) (r : Nat) :
    Member n allowed truth m r ↔ GoodInd (GenesIn n allowed) truth m r ∧ HasFitness m r := by
  constructor
  · rintro ⟨g, f, h1, h2, h3, h4⟩
    exact ⟨⟨g, some f, h1, h3, h2, fun f' e => by cases e; exact h4⟩, f, h3⟩
  · rintro ⟨⟨g, fo, h1, h2, h3, h4⟩, f, h5⟩
    rw [h2] at h5
    cases h5
    exact ⟨g, f, h1, h3, h2, h4 f rfl⟩

theorem member_same {m m' : Mem γ ψ φ ρ} {r : Nat} (h : SameInd m m' r) (hm : Member n allowed truth m r) :
    Member n allowed truth m' r := by
  obtain ⟨g, f, h1, h2, h3, h4⟩ := hm
  exact ⟨g, f, by rw [h.2, h1], h2, by rw [sameInd_fitness h, h3], h4⟩

theorem evo_lt_strictWeak (cfg : EvoConfig γ ψ φ ρ) (h : StrictWeak cfg.worse) (m : Mem γ ψ φ ρ) : StrictWeak (cfg.lt m) :=
  ⟨fun a b => h.asymm _ _, fun a b c => h.negTrans _ _ _⟩

theorem evo_lt_same (cfg : EvoConfig γ ψ φ ρ) {m m' : Mem γ ψ φ ρ} {a b : Nat} (ha : m'.inds[a]? = m.inds[a]?)
    (hb : m'.inds[b]? = m.inds[b]?) : cfg.lt m' a b = cfg.lt m a b := by
  simp [EvoConfig.lt, ha, hb]

theorem unchanged_trans {m m1 m2 : Mem γ ψ φ ρ} (h1 : Unchanged m m1) (h2 : Unchanged m1 m2) (hi : m.inds.length ≤ m1.inds.length)
    (ha : m.arrays.length ≤ m1.arrays.length) (hs : m.sets.length ≤ m1.sets.length) : Unchanged m m2 :=
  ⟨fun r hr => (h2.inds r (by omega)).trans (h1.inds r hr), fun r hr => (h2.arrays r (by omega)).trans (h1.arrays r hr),
    fun r hr => (h2.sets r (by omega)).trans (h1.sets r hr)⟩

theorem unchanged_length {m m' : Mem γ ψ φ ρ} (h : Unchanged m m') :
    m.inds.length ≤ m'.inds.length ∧ m.arrays.length ≤ m'.arrays.length ∧ m.sets.length ≤ m'.sets.length := by
  refine ⟨?_, ?_, ?_⟩
  · by_contra hlt
    have := h.inds m'.inds.length (by omega)
    rw [List.getElem?_eq_none (Nat.le_refl _), List.getElem?_eq_getElem (by omega)] at this
    cases this
  · by_contra hlt
    have := h.arrays m'.arrays.length (by omega)
    rw [List.getElem?_eq_none (Nat.le_refl _), List.getElem?_eq_getElem (by omega)] at this
    cases this
  · by_contra hlt
    have := h.sets m'.sets.length (by omega)
    rw [List.getElem?_eq_none (Nat.le_refl _), List.getElem?_eq_getElem (by omega)] at this
    cases this

theorem nodup_of_subperm {α : Type} {l l' : List α} (h : l.Subperm l') (hn : l'.Nodup) : l.Nodup := by
  obtain ⟨k, hp, hs⟩ := h
  exact hp.nodup_iff.1 (hs.nodup hn)

theorem topk_subperm {α : Type} (lt : α → α → Bool) (k : Nat) (xs : List α) : (topk lt k xs).Subperm xs :=
  (List.take_sublist _ _).subperm.trans (sortedDesc_perm lt xs).subperm

/-- The loop, from any population of members. -/
theorem evo_loop_members (cfg : EvoConfig γ ψ φ ρ) (hst : ∀ st ∈ cfg.stages, StageOk n allowed truth st)
    (hev : endsEvaluated cfg.stages = true) (fuel : Nat) : ∀ (g : Int) (parents : List Nat) (m m' : Mem γ ψ φ ρ) (out : List Nat),
      Sound m → parents.Nodup → (∀ r ∈ parents, Member n allowed truth m r) →
      evoLoop cfg fuel g parents m = (.ok out, m') →
      Sound m' ∧ Unchanged m m' ∧ out.Nodup ∧ (out = parents ∨ out.length = cfg.size) ∧
      (∀ r ∈ out, Member n allowed truth m' r ∧ (r ∈ parents ∨ m.inds.length ≤ r)) ∧
      (StrictWeak cfg.worse → 1 ≤ cfg.kElites → 1 ≤ cfg.size → ∀ x ∈ parents, ∃ b ∈ out, cfg.lt m' b x = false) := by
  induction fuel with
  | zero =>
    intro g parents m m' out hm hnd hp h
    simp only [evoLoop, HM.pure_apply, Prod.mk.injEq, Except.ok.injEq] at h
    obtain ⟨rfl, rfl⟩ := h
    refine ⟨hm, ⟨fun _ _ => rfl, fun _ _ => rfl, fun _ _ => rfl⟩, hnd, Or.inl rfl, fun r hr => ⟨hp r hr, Or.inl hr⟩, fun hw _ _ x hx => ⟨x, hx, ?_⟩⟩
    have hw := evo_lt_strictWeak cfg hw m
    cases e : cfg.lt m x x with
    | false => rfl
    | true => exact absurd (hw.asymm _ _ e) (by simp [e])
  | succ fuel ih =>
    intro g parents m m' out hm hnd hp h
    unfold evoLoop at h
    split at h
    · simp only [Prod.mk.injEq, Except.ok.injEq] at h
      obtain ⟨rfl, rfl⟩ := h
      refine ⟨hm, ⟨fun _ _ => rfl, fun _ _ => rfl, fun _ _ => rfl⟩, hnd, Or.inl rfl, fun r hr => ⟨hp r hr, Or.inl hr⟩, fun hw _ _ x hx => ⟨x, hx, ?_⟩⟩
      have hw := evo_lt_strictWeak cfg hw m
      cases e : cfg.lt m x x with
      | false => rfl
      | true => exact absurd (hw.asymm _ _ e) (by simp [e])
    · rcases e : runPipeline parents (cfg.choose g parents) cfg.stages cfg.size m with ⟨x, m1⟩
      rw [e] at h
      cases x with
      | error err => simp at h
      | ok off =>
        simp only at h
        obtain ⟨s1, u1, l1, nd1, q1⟩ := pipeline_keeps_feasible m m1 hm parents (fun r hr => ((member_iff m r).1 (hp r hr)).1) _
          cfg.stages hst cfg.size off e
        have hlt : ∀ r ∈ parents, r < m.inds.length := by
          intro r hr
          obtain ⟨g, f, hg, -⟩ := hp r hr
          obtain ⟨-, -, -, h⟩ := genes_lt hg
          exact h
        have hmem : ∀ r ∈ off ++ parents, Member n allowed truth m1 r := by
          intro r hr
          rcases List.mem_append.1 hr with hr | hr
          · obtain ⟨-, -, a1, a2⟩ := q1 r hr
            exact (member_iff m1 r).2 ⟨a1, a2 hev⟩
          · exact member_same (unchanged_same hm u1 (hlt r hr)) (hp r hr)
        have hsub : ∀ r ∈ (elitistSurvival (cfg.lt m1) off parents cfg.kElites).1, r ∈ off ++ parents := by
          intro r hr
          have := topk_mem hr
          rcases List.mem_append.1 this with h | h
          · exact List.mem_append.2 (Or.inl h)
          · exact List.mem_append.2 (Or.inr (topk_mem h))
        have hnd2 : (elitistSurvival (cfg.lt m1) off parents cfg.kElites).1.Nodup := by
          refine nodup_of_subperm (topk_subperm _ _ _) ?_
          rw [List.nodup_append]
          refine ⟨nd1, nodup_of_subperm (topk_subperm _ _ _) hnd, ?_⟩
          rintro a ha b hb rfl
          have h1 := (q1 a ha).1
          have h2 := hlt a (topk_mem hb)
          omega
        have hlen : (elitistSurvival (cfg.lt m1) off parents cfg.kElites).1.length = cfg.size := by
          simp [elitistSurvival, topk_length, l1]
        obtain ⟨s2, u2, nd2, l2, q2, b2⟩ := ih (g + 1) _ m1 m' out s1 hnd2 (fun r hr => hmem r (hsub r hr)) h
        obtain ⟨c1, c2, c3⟩ := unchanged_length u1
        refine ⟨s2, unchanged_trans u1 u2 c1 c2 c3, nd2, Or.inr ?_, fun r hr => ⟨(q2 r hr).1, ?_⟩, ?_⟩
        · rcases l2 with rfl | l2
          · exact hlen
          · exact l2
        · rcases (q2 r hr).2 with h | h
          · rcases List.mem_append.1 (hsub r h) with h | h
            · exact Or.inr (q1 r h).1
            · exact Or.inl h
          · exact Or.inr (by omega)
        · intro hw hk hs x hx
          have hne : off ≠ [] := by rintro rfl; simp at l1; omega
          obtain ⟨b, hb, hbest⟩ := elitist_never_loses_best (cfg.lt m1) (evo_lt_strictWeak cfg hw m1) off parents cfg.kElites hk hne
          have hb' : b ∈ (elitistSurvival (cfg.lt m1) off parents cfg.kElites).1 := List.mem_of_mem_head? hb
          obtain ⟨d, hd, hdb⟩ := b2 hw hk hs b hb'
          refine ⟨d, hd, ?_⟩
          have hx1 : x < m1.inds.length := Nat.lt_of_lt_of_le (hlt x hx) c1
          have hb1 : b < m1.inds.length := by
            obtain ⟨g, f, hg, -⟩ := hmem b (hsub b hb')
            obtain ⟨-, -, -, h⟩ := genes_lt hg
            exact h
          have hbx : cfg.lt m' b x = false := by
            rw [evo_lt_same cfg (u2.inds b hb1) (u2.inds x hx1)]
            exact hbest x (by simp [hx])
          exact (evo_lt_strictWeak cfg hw m').negTrans _ _ _ hdb hbx

theorem evaluateInd_sound (dec : Dec γ ψ) (prob : Prob γ ψ φ ρ) {m m' : Mem γ ψ φ ρ} {r : Nat} {f : φ} (hm : Sound m)
    (h : evaluateInd dec prob r m = (.ok f, m')) : Sound m' ∧ m'.arrays = m.arrays ∧ m'.sets = m.sets := by
  cases ho : m.inds[r]? with
  | none =>
    exfalso
    cases dec <;> simp [evaluateInd, evaluateImp, decodeInd, getObj, HM.bind_apply, ho] at h
  | some o =>
    have hlt := hm.genome o (List.mem_of_getElem? ho)
    obtain ⟨k, hk, he⟩ := evaluateImp_effect dec prob m r o _ ho (List.getElem?_eq_getElem hlt)
    rw [evaluateInd, HM.bind_apply, he] at h
    cases hc : decodeOf dec (m.arrays[o.genome]'hlt) with
    | error e => rw [hc] at h; simp at h
    | ok c =>
      rw [hc] at h
      simp only at h
      cases hp : (prob.evaluate c m.rng).1 with
      | error e => rw [hp] at h; simp at h
      | ok f' =>
        rw [hp] at h
        simp only [HM.bind_apply, modObj, HM.pure_apply, Prod.mk.injEq, Except.ok.injEq] at h
        obtain ⟨rfl, rfl⟩ := h
        have hback : ∀ x ∈ (m.inds.modify r k).modify r (fun x => { x with fitness := some f' }), ∃ y ∈ m.inds,
            x.genome = y.genome ∧ x.parents = y.parents ∧ x.uuid = y.uuid := by
          intro x hx
          have step : ∀ x ∈ m.inds.modify r k, ∃ y ∈ m.inds, x.genome = y.genome ∧ x.parents = y.parents ∧ x.uuid = y.uuid := by
            intro x hx
            rcases mem_modify hx with h | ⟨y, h, e⟩
            · exact ⟨x, h, rfl, rfl, rfl⟩
            · exact ⟨y, h, by rw [e, (hk y).1], by rw [e, (hk y).2.2.2.1], by rw [e, (hk y).2.2.1]⟩
          rcases mem_modify hx with h | ⟨y, h, e⟩
          · exact step x h
          · obtain ⟨z, hz, h1, h2, h3⟩ := step y h
            exact ⟨z, hz, by rw [e]; exact h1, by rw [e]; exact h2, by rw [e]; exact h3⟩
        refine ⟨⟨fun x hx => ?_, fun x hx => ?_, fun x hx => ?_⟩, rfl, rfl⟩
        · obtain ⟨y, hy, e1, e2, e3⟩ := hback x hx
          have := hm.genome y hy
          simpa [e1] using this
        · obtain ⟨y, hy, e1, e2, e3⟩ := hback x hx
          have := hm.parents y hy
          simpa [e2] using this
        · obtain ⟨y, hy, e1, e2, e3⟩ := hback x hx
          have := hm.uuid y hy
          simpa [e3] using this

theorem evaluatePopulation_members (dec : Dec γ ψ) (prob : Prob γ ψ φ ρ)
    (ht : ∀ g c s f, GenesIn n allowed g → decodeOf dec g = .ok c → (prob.evaluate c s).1 = .ok f → truth g f)
    (pop : List Nat) : ∀ (m m' : Mem γ ψ φ ρ), Sound m → (∀ r ∈ pop, GoodInd (GenesIn n allowed) truth m r) →
      evaluatePopulation dec prob pop m = (.ok (), m') →
      Sound m' ∧ (∀ y, y ∉ pop → SameInd m m' y) ∧ m'.arrays = m.arrays ∧ m'.sets = m.sets ∧ m'.inds.length = m.inds.length ∧
      (∀ r, GoodInd (GenesIn n allowed) truth m r → GoodInd (GenesIn n allowed) truth m' r) ∧
      (∀ r, HasFitness m r → HasFitness m' r) ∧ ∀ r ∈ pop, HasFitness m' r := by
  induction pop with
  | nil =>
    intro m m' hm _ h
    simp only [evaluatePopulation, HM.pure_apply, Prod.mk.injEq, true_and] at h
    subst h
    exact ⟨hm, fun _ _ => sameInd_refl _ _, rfl, rfl, rfl, fun _ h => h, fun _ h => h, by simp⟩
  | cons r rs ih =>
    intro m m' hm hg h
    obtain ⟨f, m1, e1, h⟩ := bind_ok h
    obtain ⟨s1, a1, b1⟩ := evaluateInd_sound dec prob hm e1
    obtain ⟨l1, g1, f1⟩ := evaluateInd_local dec prob ht (hg r (by simp)) e1
    have keep : ∀ y, GoodInd (GenesIn n allowed) truth m y → GoodInd (GenesIn n allowed) truth m1 y := by
      intro y hy
      by_cases hyr : y = r
      · rw [hyr]; exact g1
      · exact goodInd_same (l1.2 y (by simpa using hyr)) hy
    have keepf : ∀ y, HasFitness m y → HasFitness m1 y := by
      rintro y ⟨f', hf'⟩
      by_cases hyr : y = r
      · rw [hyr]; exact ⟨f, f1⟩
      · exact ⟨f', by rw [sameInd_fitness (l1.2 y (by simpa using hyr)), hf']⟩
    obtain ⟨s2, sm2, a2, b2, n2, k2, kf2, p2⟩ := ih m1 m' s1 (fun y hy => keep y (hg y (by simp [hy]))) h
    refine ⟨s2, fun y hy => ?_, a2.trans a1, b2.trans b1, n2.trans l1.1, fun y hy => k2 y (keep y hy), fun y hy => kf2 y (keepf y hy), ?_⟩
    · simp only [List.mem_cons, not_or] at hy
      exact sameInd_trans (l1.2 y (by simpa using hy.1)) (sm2 y hy.2)
    · intro y hy
      rcases List.mem_cons.1 hy with rfl | hy
      · exact kf2 _ ⟨f, f1⟩
      · exact p2 y hy

/-- Either the initialiser succeeded every time or it raised at some point. -/
theorem drawn_or_raises (initGenome : ρ → PyM (List γ) × ρ) (k : Nat) : ∀ s, (∃ gs s', Drawn initGenome k s gs s') ∨
    ∃ j gs s1 e s2, j < k ∧ Drawn initGenome j s gs s1 ∧ initGenome s1 = (.error e, s2) := by
  induction k with
  | zero => intro s; exact Or.inl ⟨_, _, .zero s⟩
  | succ k ih =>
    intro s
    rcases e : initGenome s with ⟨x, s1⟩
    cases x with
    | error err => exact Or.inr ⟨0, [], s, err, s1, by omega, .zero s, e⟩
    | ok g =>
      rcases ih s1 with ⟨gs, s', h⟩ | ⟨j, gs, s2, err, s3, h1, h2, h3⟩
      · exact Or.inl ⟨_, _, .succ e h⟩
      · exact Or.inr ⟨j + 1, _, s2, err, s3, by omega, .succ e h2, h3⟩

theorem drawn_all {initGenome : ρ → PyM (List γ) × ρ} {P : List γ → Prop} (hP : ∀ s g s', initGenome s = (.ok g, s') → P g)
    {k s gs s'} (h : Drawn initGenome k s gs s') : ∀ g ∈ gs, P g := by
  induction h with
  | zero => simp
  | succ h1 _ ih =>
    intro g hg
    rcases List.mem_cons.1 hg with rfl | hg
    · exact hP _ _ _ h1
    · exact ih g hg

/-- C86: run `generational_ea` with any selection, any chain of operators that ends with an evaluation, any stop
condition, any number of generations and any random numbers, in a program that may hold other individuals. If the
initialiser gives acceptable genomes and the mutation functions keep them acceptable, then whenever the run returns,
it returns different individuals, as many as the pool makes (or the initial population, if no generation ran), each with
an acceptable genome and with the problem's score of exactly that genome as its fitness. Nothing that existed before the
run has changed. With at least one elite, for each individual of the initial population the final population has one that is not
worse. -/
theorem evo_run_members (cfg : EvoConfig γ ψ φ ρ) (initGenome : ρ → PyM (List γ) × ρ) (dec : Dec γ ψ) (prob : Prob γ ψ φ ρ)
    (hinit : ∀ s g s', initGenome s = (.ok g, s') → GenesIn n allowed g)
    (hst : ∀ st ∈ cfg.stages, StageOk n allowed (ScoredBy dec prob) st) (hev : endsEvaluated cfg.stages = true)
    (problem popSize : Nat) (startGeneration maxGenerations : Int) (m m' : Mem γ ψ φ ρ) (hm : Sound m) (out : List Nat)
    (h : evoRun cfg initGenome dec prob problem popSize startGeneration maxGenerations m = (.ok out, m')) :
    Unchanged m m' ∧ out.Nodup ∧ (out.length = popSize ∨ out.length = cfg.size) ∧
    (∀ r ∈ out, m.inds.length ≤ r ∧ Member n allowed (ScoredBy dec prob) m' r) ∧
    (StrictWeak cfg.worse → 1 ≤ cfg.kElites → 1 ≤ cfg.size →
      ∀ x, m.inds.length ≤ x → x < m.inds.length + popSize → Member n allowed (ScoredBy dec prob) m' x ∧
        ∃ b ∈ out, cfg.lt m' b x = false) := by
  obtain ⟨parents, m1, e1, h⟩ := bind_ok h
  obtain ⟨_, m2, e2, h⟩ := bind_ok h
  rcases drawn_or_raises initGenome popSize m.rng with ⟨gs, s', hd⟩ | ⟨j, gs, s1, e, s2, h1, h2, h3⟩
  swap
  · have := create_population_raises initGenome problem popSize j m gs s1 s2 e h1 h2 h3
    rw [e1] at this
    cases this
  have heff := create_population_effect initGenome problem popSize m gs s' hd
  obtain ⟨out', m1', e1', -, -, u1, s1, q1⟩ := create_population_spec initGenome problem popSize m hm gs s' hd
  have hp : parents = List.range' m.inds.length popSize := by rw [e1] at heff; cases heff; rfl
  rw [e1] at e1'
  simp only [Prod.mk.injEq, Except.ok.injEq] at e1'
  obtain ⟨rfl, rfl⟩ := e1'
  have hgood : ∀ r ∈ parents, GoodInd (GenesIn n allowed) (ScoredBy dec prob) m1 r := by
    intro r hr
    obtain ⟨i, hi⟩ := List.mem_iff_getElem?.1 hr
    obtain ⟨-, a2, -, o, a3, a4, -⟩ := q1 i r hi
    have hil : i < gs.length := by
      have := (List.getElem?_eq_some_iff.1 hi).1
      rw [hd.length]; rw [hp] at this; simpa using this
    rw [List.getElem?_eq_getElem hil] at a2
    exact ⟨gs[i], none, a2, by simp [fitness, a3, a4], drawn_all hinit hd _ (List.getElem_mem hil), by simp⟩
  obtain ⟨s2, sm2, a2, b2, n2, k2, -, p2⟩ := evaluatePopulation_members dec prob (fun g c s f _ hc hf => ⟨c, s, hc, hf⟩) parents m1 m2 s1 hgood e2
  have hmem : ∀ r ∈ parents, Member n allowed (ScoredBy dec prob) m2 r := fun r hr => (member_iff m2 r).2 ⟨k2 r (hgood r hr), p2 r hr⟩
  have hnd : parents.Nodup := by rw [hp]; exact List.nodup_range'
  obtain ⟨l1, l2, l3⟩ := unchanged_length u1
  have u2 : Unchanged m m2 := by
    refine ⟨fun r hr => ?_, fun a ha => by rw [a2]; exact u1.arrays a ha, fun a ha => by rw [b2]; exact u1.sets a ha⟩
    rw [(sm2 r (by rw [hp]; simp; omega)).1]
    exact u1.inds r hr
  obtain ⟨s3, u3, nd3, len3, q3, best3⟩ := evo_loop_members cfg hst hev _ _ parents m2 m' out s2 hnd hmem h
  have u : Unchanged m m' := unchanged_trans u2 u3 (by omega) (by rw [a2]; omega) (by rw [b2]; omega)
  refine ⟨u, nd3, ?_, fun r hr => ⟨?_, (q3 r hr).1⟩, fun hw hk hs x hx1 hx2 => ?_⟩
  · rcases len3 with rfl | len3
    · left; rw [hp]; simp
    · exact Or.inr len3
  · rcases (q3 r hr).2 with h | h
    · rw [hp] at h; simp at h; omega
    · omega
  · have hx : x ∈ parents := by rw [hp]; simp; omega
    refine ⟨?_, best3 hw hk hs x hx⟩
    obtain ⟨g, f, hg, -⟩ := hmem x hx
    obtain ⟨-, -, -, hlt⟩ := genes_lt hg
    exact member_same (unchanged_same s2 u3 hlt) (hmem x hx)

/-! ## Operators of the library that qualify -/

/-- Evaluating with the problem gives its scores. -/
theorem evaluate_stage_ok (dec : Dec γ ψ) (prob : Prob γ ψ φ ρ) :
    StageOk n allowed (ScoredBy dec prob) (.evaluate dec prob) := fun g c s f _ hc hf => ⟨c, s, hc, hf⟩

/-- Cloning and uniform crossover qualify for any kind of genome. -/
theorem clone_stage_ok : StageOk n allowed truth (.clone : Stage γ ψ φ ρ) := trivial

theorem uniform_crossover_stage_ok (swap : ρ → Bool × ρ) (mask : ρ → Nat → PyM (List Bool) × ρ) :
    StageOk n allowed truth (.crossover swap (.uniform mask) : Stage γ ψ φ ρ) := trivial

theorem mem_maskStore {α : Type} {mk : List Bool} {l v : List α} {x : α} (h : x ∈ maskStore mk l v) : x ∈ l ∨ x ∈ v := by
  induction mk generalizing l v with
  | nil => cases l <;> simp_all [maskStore]
  | cons b mk ih =>
    cases l with
    | nil => cases b <;> simp [maskStore] at h
    | cons a l =>
      cases b with
      | false =>
        simp only [maskStore, List.mem_cons] at h
        rcases h with rfl | h
        · simp
        · rcases ih h with h | h <;> simp [h]
      | true =>
        cases v with
        | nil =>
          simp only [maskStore, List.mem_cons] at h
          rcases h with rfl | h
          · simp
          · rcases ih h with h | h <;> simp_all
        | cons w v =>
          simp only [maskStore, List.mem_cons] at h
          rcases h with rfl | h
          · simp
          · rcases ih h with h | h <;> simp [h]

/-- Bit-flip mutation keeps genomes of zeros and ones of their length, whatever its rate and random numbers. -/
theorem bitflip_stage_ok (name : PyM Unit) (pop : Bool) (expected probability : Option ℚ) (rand : ρ → List ℚ × ρ) (n : Nat)
    (truth : List Int → φ → Prop) :
    StageOk n (fun _ x => x = 0 ∨ x = 1) truth (.mutate name pop (bitflipFn expected probability rand) : Stage Int ψ φ ρ) := by
  intro g s hg
  unfold bitflipFn
  cases e : genomeMutateBitflip expected probability (rand s).1 g with
  | error err => trivial
  | ok g' =>
    simp only
    unfold genomeMutateBitflip at e
    split at e
    · cases e
    · split at e
      · cases e
      · split at e
        · cases e
        · rename_i sel _
          have := boolAssign_ok e
          subst this
          refine ⟨by rw [maskStore_length]; exact hg.1, fun i x hx => ?_⟩
          rcases mem_maskStore (List.mem_of_getElem? hx) with h | h
          · obtain ⟨j, hj⟩ := List.mem_iff_getElem?.1 h
            exact hg.2 j x hj
          · obtain ⟨y, -, rfl⟩ := List.mem_map.1 h
            omega

/-- Gaussian mutation with hard bounds keeps each gene within the bounds for its position, whatever its standard deviation, rate,
transform and random numbers. -/
theorem gaussian_stage_ok (name : PyM Unit) (pop : Bool) (std : ScalarOrList ℚ) (expected : GaussRate) (bounds : HardBounds ℚ)
    (slope intercept : ℚ) (rand : ρ → (List ℚ × List ℚ) × ρ) (n : Nat) (hf : Fits bounds n)
    (hp : ∀ i b, boundAt bounds i = some b → Proper b) (truth : List ℚ → φ → Prop) :
    StageOk n (fun i x => ∃ b, boundAt bounds i = some b ∧ Within b x) truth
      (.mutate name pop (gaussianFn std expected bounds slope intercept rand) : Stage ℚ ψ φ ρ) := by
  intro g s hg
  unfold gaussianFn
  cases e : genomeMutateGaussian std expected (.all (none, none)) slope intercept (rand s).1.1 (rand s).1.2 g with
  | error err => trivial
  | ok un =>
    have hl : un.length = n := by
      rw [← hg.1]
      unfold genomeMutateGaussian at e
      split at e
      · split at e
        · cases e
        · split at e
          · cases e
          · split at e
            · cases e
            · split at e
              · cases e
              · split at e
                · cases e
                · rename_i mt hmut
                  obtain ⟨g', e', l', -⟩ := hard_bounds_enforced (.all (none, none)) mt trivial (fun i b hb => by
                    simp only [boundAt, Option.some.injEq] at hb; subst hb; intro lo hi h1; cases h1)
                  rw [e] at e'
                  cases e'
                  rw [l', boolAssign_ok hmut, maskStore_length]
      · cases e
    obtain ⟨g', e', l', q⟩ := hard_bounds_enforced bounds un (by rw [hl]; exact hf) hp
    simp only [e']
    refine ⟨by omega, fun i x hx => ?_⟩
    have hi : i < un.length := by have := (List.getElem?_eq_some_iff.1 hx).1; omega
    obtain ⟨b, y, h1, h2, h3, -⟩ := q i _ (List.getElem?_eq_getElem hi)
    rw [hx] at h2
    cases h2
    exact ⟨b, h1, h3⟩

/-- So does binomial mutation. -/
theorem binomial_stage_ok (name : PyM Unit) (pop : Bool) (k : Nat) (std : ScalarOrList ℝ) (bounds : HardBounds Int)
    (expected probability : Option ℚ) (rand : ρ → (List ℚ × List Nat) × ρ) (n : Nat) (hf : Fits bounds n)
    (hp : ∀ i b, boundAt bounds i = some b → Proper b) (truth : List Int → φ → Prop) :
    StageOk n (fun i x => ∃ b, boundAt bounds i = some b ∧ Within b x) truth
      (.mutate name pop (binomialFn k std bounds expected probability rand) : Stage Int ψ φ ρ) := by
  intro g s hg
  unfold binomialFn
  cases e : genomeMutateBinomial k std (.all (none, none)) expected probability (rand s).1.1 (rand s).1.2 g with
  | error err => trivial
  | ok un =>
    have hl : un.length = n := by
      rw [← hg.1]
      unfold genomeMutateBinomial at e
      split at e
      · cases e
      · split at e
        · cases e
        · split at e
          · cases e
          · split at e
            · cases e
            · split at e
              · cases e
              · split at e
                · cases e
                · rename_i mt hmut
                  obtain ⟨g', e', l', -⟩ := hard_bounds_enforced (.all (none, none)) mt trivial (fun i b hb => by
                    simp only [boundAt, Option.some.injEq] at hb; subst hb; intro lo hi h1; cases h1)
                  rw [e] at e'
                  cases e'
                  rw [l', boolAssign_ok hmut, maskStore_length]
    obtain ⟨g', e', l', q⟩ := hard_bounds_enforced bounds un (by rw [hl]; exact hf) hp
    simp only [e']
    refine ⟨by omega, fun i x hx => ?_⟩
    have hi : i < un.length := by have := (List.getElem?_eq_some_iff.1 hx).1; omega
    obtain ⟨b, y, h1, h2, h3, -⟩ := q i _ (List.getElem?_eq_getElem hi)
    rw [hx] at h2
    cases h2
    exact ⟨b, h1, h3⟩

/-- Integer resampling keeps each gene within its bounds, given one random number per gene and draws within the bounds numpy
was asked for. -/
theorem randint_stage_ok (name : PyM Unit) (pop : Bool) (bounds : List (Int × Int)) (expected probability : Option ℚ)
    (rand : ρ → (List ℚ × List Int) × ρ) (p : ℚ) (hne : bounds ≠ []) (hr : RateGives expected probability bounds.length p) (h0 : 0 ≤ p)
    (h1 : p ≤ 1) (hu : ∀ s, (rand s).1.1.length = bounds.length)
    (hd : ∀ s, ValidRandints (((bounds.zip (rand s).1.1).filter (fun q => decide (q.2 < p))).map Prod.fst) (rand s).1.2)
    (truth : List Int → φ → Prop) :
    StageOk bounds.length (fun i x => ∃ b, bounds[i]? = some b ∧ b.1 ≤ x ∧ x ≤ b.2) truth
      (.mutate name pop (randintFn bounds expected probability rand) : Stage Int ψ φ ρ) := by
  intro g s hg
  unfold randintFn
  cases e : individualMutateRandint bounds expected probability (rand s).1.1 (rand s).1.2 g with
  | error err => trivial
  | ok g' =>
    simp only
    have hlen := hg.1
    have hin : List.Forall₂ (fun b x => b.1 ≤ x ∧ x ≤ b.2) bounds g := by
      rw [List.forall₂_iff_get]
      refine ⟨hlen.symm, fun i hi hi' => ?_⟩
      obtain ⟨b, hb, q⟩ := hg.2 i _ (List.getElem?_eq_getElem hi')
      rw [List.getElem?_eq_getElem hi] at hb
      cases hb
      simpa using q
    have := randint_stays_in_bounds bounds expected probability _ _ g g' p (by rw [hlen]; exact hr) h0 h1 (by rw [hlen]; exact hu s)
      hlen.symm (by rintro rfl; apply hne; exact List.eq_nil_of_length_eq_zero hlen.symm) (hd s) hin e
    rw [List.forall₂_iff_get] at this
    refine ⟨this.1.symm, fun i x hx => ?_⟩
    obtain ⟨hi, rfl⟩ := List.getElem?_eq_some_iff.1 hx
    have hib : i < bounds.length := by rw [this.1]; exact hi
    exact ⟨_, List.getElem?_eq_getElem hib, by simpa using this.2 i hib hi⟩

/-! ## Which generations ran -/

/-- From population `p` in memory `m` at generation `g`, `k` generations ran one after the other and led to `p'` and `m'`: in
each the stop condition did not hold, the pipeline returned its offspring, and the survivors are the best of offspring and
`kElites` best parents. -/
inductive Spec.Generations (cfg : EvoConfig γ ψ φ ρ) : Int → List Nat → Mem γ ψ φ ρ → Nat → List Nat → Mem γ ψ φ ρ → Prop
  | none (g p m) : Generations cfg g p m 0 p m
  | next {g p m off m1 k p' m'} (hstop : cfg.stop g p m = false)
      (hoff : runPipeline p (cfg.choose g p) cfg.stages cfg.size m = (.ok off, m1))
      (hrest : Generations cfg (g + 1) (elitistSurvival (cfg.lt m1) off p cfg.kElites).1 m1 k p' m') :
      Generations cfg g p m (k + 1) p' m'

/-- C86: the loop returns exactly after the generation at which the stop condition first holds or the budget is used up. -/
theorem evo_loop_generations (cfg : EvoConfig γ ψ φ ρ) (fuel : Nat) : ∀ (g : Int) (p : List Nat) (m : Mem γ ψ φ ρ) (out : List Nat)
    (m' : Mem γ ψ φ ρ), evoLoop cfg fuel g p m = (.ok out, m') ↔
      ∃ k ≤ fuel, Generations cfg g p m k out m' ∧ (k = fuel ∨ cfg.stop (g + k) out m' = true) := by
  induction fuel with
  | zero =>
    intro g p m out m'
    simp only [evoLoop, HM.pure_apply, Prod.mk.injEq, Except.ok.injEq]
    constructor
    · rintro ⟨rfl, rfl⟩
      exact ⟨0, Nat.le_refl _, .none _ _ _, Or.inl rfl⟩
    · rintro ⟨k, hk, h, -⟩
      cases h with
      | none => exact ⟨rfl, rfl⟩
      | next => omega
  | succ fuel ih =>
    intro g p m out m'
    unfold evoLoop
    constructor
    · intro h
      split at h
      · rename_i hs
        simp only [Prod.mk.injEq, Except.ok.injEq] at h
        obtain ⟨rfl, rfl⟩ := h
        exact ⟨0, Nat.zero_le _, .none _ _ _, Or.inr (by simpa using hs)⟩
      · rename_i hs
        rcases e : runPipeline p (cfg.choose g p) cfg.stages cfg.size m with ⟨x, m1⟩
        rw [e] at h
        cases x with
        | error err => simp at h
        | ok off =>
          obtain ⟨k, hk, hg, hor⟩ := (ih _ _ _ _ _).1 h
          refine ⟨k + 1, by omega, .next (by simpa using hs) e hg, ?_⟩
          rcases hor with h | h
          · exact Or.inl (by omega)
          · right
            have : g + ((k + 1 : Nat) : Int) = g + 1 + (k : Int) := by push_cast; ring
            rw [this]; exact h
    · rintro ⟨k, hk, h, hor⟩
      cases h with
      | none =>
        rcases hor with h | h
        · omega
        · simp only [Nat.cast_zero, add_zero] at h
          simp [h]
      | @next _ _ _ off m1 k _ _ hstop hoff hrest =>
        simp only [hstop, Bool.false_eq_true, if_false, hoff]
        refine (ih _ _ _ _ _).2 ⟨k, by omega, hrest, ?_⟩
        rcases hor with h | h
        · exact Or.inl (by omega)
        · right
          have : g + ((k + 1 : Nat) : Int) = g + 1 + (k : Int) := by push_cast; ring
          rw [this] at h; exact h

/-- C86: the whole run: the initial population is created and evaluated, then generations run from the start generation until the stop
condition holds or the maximum generation is reached. -/
theorem evo_run_generations (cfg : EvoConfig γ ψ φ ρ) (initGenome : ρ → PyM (List γ) × ρ) (dec : Dec γ ψ) (prob : Prob γ ψ φ ρ)
    (problem popSize : Nat) (startGeneration maxGenerations : Int) (m m' : Mem γ ψ φ ρ) (out : List Nat) :
    evoRun cfg initGenome dec prob problem popSize startGeneration maxGenerations m = (.ok out, m') ↔
      ∃ parents m1 m2 k, createPopulation initGenome problem popSize m = (.ok parents, m1) ∧
        evaluatePopulation dec prob parents m1 = (.ok (), m2) ∧
        Generations cfg startGeneration parents m2 k out m' ∧ (k = 0 ∨ startGeneration + k ≤ maxGenerations) ∧
        (maxGenerations ≤ startGeneration + k ∨ cfg.stop (startGeneration + k) out m' = true) := by
  constructor
  · intro h
    obtain ⟨parents, m1, e1, h⟩ := bind_ok h
    obtain ⟨_, m2, e2, h⟩ := bind_ok h
    obtain ⟨k, hk, hg, hor⟩ := (evo_loop_generations cfg _ _ _ _ _ _).1 h
    refine ⟨parents, m1, m2, k, e1, e2, hg, by omega, ?_⟩
    rcases hor with h | h
    · left; omega
    · exact Or.inr h
  · rintro ⟨parents, m1, m2, k, e1, e2, hg, hk, hor⟩
    simp only [evoRun, HM.bind_apply, e1, e2]
    refine (evo_loop_generations cfg _ _ _ _ _ _).2 ⟨k, by omega, hg, ?_⟩
    rcases hor with h | h
    · left; omega
    · exact Or.inr h

/-! ## Runs return -/

/-- C87: a pipeline of operators that accept acceptable genomes does not raise, as long as selection picks somebody. -/
theorem pipeline_returns (m : Mem γ ψ φ ρ) (hm : Sound m) (pop : List Nat)
    (hpop : ∀ r ∈ pop, GoodInd (GenesIn n allowed) truth m r) (choose : Mem γ ψ φ ρ → PyM Nat × ρ)
    (hc : ∀ m1, Unchanged m m1 → ∃ i, (choose m1).1 = .ok i ∧ i < pop.length)
    (stages : List (Stage γ ψ φ ρ)) (hst : ∀ st ∈ stages, StageOk n allowed truth st) (hsl : ∀ st ∈ stages, StageLive n allowed st)
    (size : Nat) : ∃ out m', runPipeline pop choose stages size m = (.ok out, m') := by
  obtain ⟨pend, ev, ho, hl⟩ := stages_live hm stages hst hsl _ _ _ (clone_first_owns hm pop hpop choose)
    (clone_first_live hm pop hpop choose hc)
  have hinit : pend (stagesIter (selectionIter pop choose) (Stage.clone :: stages)).init = [] := ho.init
  have hfull : Full (GenesIn n allowed) truth m m := ⟨.refl m hm, fun r h1 h2 => by omega⟩
  obtain ⟨out, s', m', e⟩ := hpull_live _ pend ev ho hl size (stagesIter (selectionIter pop choose) (Stage.clone :: stages)).init m hfull
    (by intro p hp; have := hinit ▸ hp; simp at this) (by exact hinit ▸ List.nodup_nil)
  refine ⟨out, m', ?_⟩
  show (hpull (stagesIter (selectionIter pop choose) (Stage.clone :: stages)).next size
    (stagesIter (selectionIter pop choose) (Stage.clone :: stages)).init >>= fun os => pure os.1) m = (.ok out, m')
  exact (bind_live (f := fun os => pure os.1) e).trans rfl

theorem evo_loop_returns (cfg : EvoConfig γ ψ φ ρ) (hst : ∀ st ∈ cfg.stages, StageOk n allowed truth st)
    (hsl : ∀ st ∈ cfg.stages, StageLive n allowed st) (hev : endsEvaluated cfg.stages = true) (hsize : 1 ≤ cfg.size)
    (hc : ∀ g pop m, pop ≠ [] → (∀ r ∈ pop, Member n allowed truth m r) → ∃ i, (cfg.choose g pop m).1 = .ok i ∧ i < pop.length)
    (fuel : Nat) : ∀ (g : Int) (parents : List Nat) (m : Mem γ ψ φ ρ), Sound m → parents ≠ [] →
      (∀ r ∈ parents, Member n allowed truth m r) → ∃ out m', evoLoop cfg fuel g parents m = (.ok out, m') := by
  induction fuel with
  | zero => intro g parents m _ _ _; exact ⟨parents, m, rfl⟩
  | succ fuel ih =>
    intro g parents m hm hne hp
    unfold evoLoop
    split
    · exact ⟨_, _, rfl⟩
    · have hlt : ∀ r ∈ parents, r < m.inds.length := by
        intro r hr
        obtain ⟨g, f, hg, -⟩ := hp r hr
        obtain ⟨-, -, -, h⟩ := genes_lt hg
        exact h
      have hgood : ∀ r ∈ parents, GoodInd (GenesIn n allowed) truth m r := fun r hr => ((member_iff m r).1 (hp r hr)).1
      obtain ⟨off, m1, e⟩ := pipeline_returns m hm parents hgood (cfg.choose g parents)
        (fun m1 hu => hc g parents m1 hne fun r hr => member_same (unchanged_same hm hu (hlt r hr)) (hp r hr)) cfg.stages hst hsl cfg.size
      rw [e]
      simp only
      obtain ⟨s1, u1, l1, nd1, q1⟩ := pipeline_keeps_feasible m m1 hm parents hgood _ cfg.stages hst cfg.size off e
      have hlen : (elitistSurvival (cfg.lt m1) off parents cfg.kElites).1.length = cfg.size := by
        simp [elitistSurvival, topk_length, l1]
      refine ih (g + 1) _ m1 s1 (by rintro h; rw [h] at hlen; simp at hlen; omega) fun r hr => ?_
      have hr' : r ∈ off ∨ r ∈ parents := by
        rcases List.mem_append.1 (topk_mem hr) with h | h
        · exact Or.inl h
        · exact Or.inr (topk_mem h)
      rcases hr' with h | h
      · obtain ⟨-, -, a1, a2⟩ := q1 r h
        exact (member_iff m1 r).2 ⟨a1, a2 hev⟩
      · exact member_same (unchanged_same hm u1 (hlt r h)) (hp r h)

theorem evaluatePopulation_returns (dec : Dec γ ψ) (prob : Prob γ ψ φ ρ)
    (hd : ∀ g, GenesIn n allowed g → ∃ c, decodeOf dec g = .ok c ∧ ∀ s, ∃ f, (prob.evaluate c s).1 = .ok f) (pop : List Nat) :
    ∀ (m : Mem γ ψ φ ρ), Sound m → (∀ r ∈ pop, GoodInd (GenesIn n allowed) (ScoredBy dec prob) m r) →
      ∃ m', evaluatePopulation dec prob pop m = (.ok (), m') := by
  induction pop with
  | nil => intro m _ _; exact ⟨m, rfl⟩
  | cons r rs ih =>
    intro m hm hg
    obtain ⟨f, m1, e1⟩ := evaluateInd_live dec prob hd (hg r (by simp))
    obtain ⟨s1, -, -⟩ := evaluateInd_sound dec prob hm e1
    obtain ⟨l1, g1, -⟩ := evaluateInd_local dec prob (fun g c s f _ hc hf => ⟨c, s, hc, hf⟩) (hg r (by simp)) e1
    obtain ⟨m2, e2⟩ := ih m1 s1 fun y hy => by
      by_cases hyr : y = r
      · rw [hyr]; exact g1
      · exact goodInd_same (l1.2 y (by simpa using hyr)) (hg y (by simp [hy]))
    exact ⟨m2, by rw [evaluatePopulation, bind_live e1]; exact e2⟩

/-- C87: the run does return when the initialiser returns acceptable genomes, the operators accept acceptable genomes, the problem scores
them, and selection picks somebody from every non-empty population of evaluated individuals. -/
theorem evo_run_returns (cfg : EvoConfig γ ψ φ ρ) (initGenome : ρ → PyM (List γ) × ρ) (dec : Dec γ ψ) (prob : Prob γ ψ φ ρ)
    (hinit : ∀ s, ∃ g, (initGenome s).1 = .ok g ∧ GenesIn n allowed g)
    (hst : ∀ st ∈ cfg.stages, StageOk n allowed (ScoredBy dec prob) st) (hsl : ∀ st ∈ cfg.stages, StageLive n allowed st)
    (hev : endsEvaluated cfg.stages = true)
    (hd : ∀ g, GenesIn n allowed g → ∃ c, decodeOf dec g = .ok c ∧ ∀ s, ∃ f, (prob.evaluate c s).1 = .ok f)
    (hc : ∀ g pop m, pop ≠ [] → (∀ r ∈ pop, Member n allowed (ScoredBy dec prob) m r) →
      ∃ i, (cfg.choose g pop m).1 = .ok i ∧ i < pop.length)
    (hsize : 1 ≤ cfg.size) (problem popSize : Nat) (hpop : 1 ≤ popSize) (startGeneration maxGenerations : Int) (m : Mem γ ψ φ ρ)
    (hm : Sound m) :
    ∃ out m', evoRun cfg initGenome dec prob problem popSize startGeneration maxGenerations m = (.ok out, m') := by
  have hinit' : ∀ s g s', initGenome s = (.ok g, s') → GenesIn n allowed g := by
    intro s g s' h
    obtain ⟨g', h1, h2⟩ := hinit s
    rw [h] at h1
    cases h1
    exact h2
  obtain ⟨gs, s', hd'⟩ : ∃ gs s', Drawn initGenome popSize m.rng gs s' := by
    rcases drawn_or_raises initGenome popSize m.rng with h | ⟨j, gs, s1, e, s2, h1, h2, h3⟩
    · exact h
    · obtain ⟨g, hg, -⟩ := hinit s1
      rw [h3] at hg
      cases hg
  have heff := create_population_effect initGenome problem popSize m gs s' hd'
  obtain ⟨parents, m1, e1, -, -, u1, s1, q1⟩ := create_population_spec initGenome problem popSize m hm gs s' hd'
  have hp : parents = List.range' m.inds.length popSize := by rw [e1] at heff; cases heff; rfl
  have hgood : ∀ r ∈ parents, GoodInd (GenesIn n allowed) (ScoredBy dec prob) m1 r := by
    intro r hr
    obtain ⟨i, hi⟩ := List.mem_iff_getElem?.1 hr
    obtain ⟨-, a2, -, o, a3, a4, -⟩ := q1 i r hi
    have hil : i < gs.length := by
      have := (List.getElem?_eq_some_iff.1 hi).1
      rw [hd'.length]; rw [hp] at this; simpa using this
    rw [List.getElem?_eq_getElem hil] at a2
    exact ⟨gs[i], none, a2, by simp [fitness, a3, a4], drawn_all hinit' hd' _ (List.getElem_mem hil), by simp⟩
  obtain ⟨m2, e2⟩ := evaluatePopulation_returns dec prob hd parents m1 s1 hgood
  obtain ⟨s2, -, -, -, -, k2, -, p2⟩ := evaluatePopulation_members dec prob (fun g c s f _ hc hf => ⟨c, s, hc, hf⟩) parents m1 m2 s1 hgood e2
  obtain ⟨out, m', e3⟩ := evo_loop_returns cfg hst hsl hev hsize hc (maxGenerations - startGeneration).toNat startGeneration parents m2 s2
    (by rw [hp]; intro h; have := congrArg List.length h; simp at this; omega)
    (fun r hr => (member_iff m2 r).2 ⟨k2 r (hgood r hr), p2 r hr⟩)
  refine ⟨out, m', ?_⟩
  rw [evoRun, bind_live e1, bind_live e2]
  exact e3

/-! ## A run -/

/-- The sum of the genes; scoring draws one random number. -/
def exSum : Prob Int Int Int Nat where
  evaluate c s := match c with
    | .raw g => (.ok g.sum, s + 1)
    | .value v => (.ok v, s + 1)
  evaluateMultiple cs s := (.ok (cs.map fun c => match c with | .raw g => g.sum | .value v => v), s)
  takesIndividuals := true

/-- Two genes; the random state counts the calls. Selection takes turns. -/
def exEvo : EvoConfig Int Int Int Nat where
  worse a b := decide (a.getD 0 < b.getD 0)
  choose _ _ m := (.ok (m.rng % 2), m.rng + 1)
  stages := [.mutate (.ok ()) false (bitflipFn (some 1) none fun s => (if s % 5 < 3 then [1 / 4, 3 / 4] else [3 / 4, 1 / 4], s + 1)),
    .crossover (fun s => (true, s)) (.uniform fun s k => (.ok (List.replicate k (s % 7 == 0)), s)),
    .evaluate .identity exSum]
  size := 2
  kElites := 1
  stop _ _ _ := false

def exInit (s : Nat) : PyM (List Int) × Nat := (.ok [((s % 2 : Nat) : Int), 0], s + 1)

def exStart : Mem Int Int Int Nat := ⟨[], [], [], 0, 0⟩

/-- The run meets the hypotheses of `evo_run_members`, returns after three generations and improved on its initial population
(best 1). -/
example :
    (∀ s g s', exInit s = (.ok g, s') → GenesIn 2 (fun _ x => x = 0 ∨ x = 1) g) ∧
    (∀ st ∈ exEvo.stages, StageOk 2 (fun _ x => x = 0 ∨ x = 1) (ScoredBy .identity exSum) st) ∧
    endsEvaluated exEvo.stages = true ∧ StrictWeak exEvo.worse ∧ Sound exStart ∧
    ((evoRun exEvo exInit .identity exSum 0 2 0 3 exStart).1.toOption.map fun out =>
      out.map fun r => (genes (evoRun exEvo exInit .identity exSum 0 2 0 3 exStart).2 r,
        fitness (evoRun exEvo exInit .identity exSum 0 2 0 3 exStart).2 r)) = some [(some [1, 1], some (some 2)), (some [0, 1], some (some 1))] := by
  refine ⟨?_, ?_, rfl, ⟨?_, ?_⟩, ⟨by simp [exStart], by simp [exStart], by simp [exStart]⟩, ?_⟩
  · intro s g s' h
    simp only [exInit, Prod.mk.injEq, Except.ok.injEq] at h
    obtain ⟨rfl, rfl⟩ := h
    refine ⟨rfl, fun i x hx => ?_⟩
    have := List.mem_of_getElem? hx
    simp only [List.mem_cons, List.not_mem_nil, or_false] at this
    rcases this with rfl | rfl
    · omega
    · exact Or.inl rfl
  · intro st hst
    simp only [exEvo, List.mem_cons, List.not_mem_nil, or_false] at hst
    rcases hst with rfl | rfl | rfl
    · exact bitflip_stage_ok _ _ _ _ _ _ _
    · exact uniform_crossover_stage_ok _ _
    · exact evaluate_stage_ok _ _
  · intro a b; simp [exEvo]; omega
  · intro a b c; simp [exEvo]; omega
  · decide +kernel

/-- The operators with bounds: the hypotheses are met by the bounds of a mixed problem. -/
example : Fits (.each [(some 0, some 1), (none, some 5)] : HardBounds ℚ) 2 ∧
    (∀ i b, boundAt (.each [(some 0, some 1), (none, some 5)] : HardBounds ℚ) i = some b → Proper b) := by
  refine ⟨⟨rfl, by simp⟩, fun i b hb => ?_⟩
  have := List.mem_of_getElem? (show ([(some 0, some 1), (none, some 5)] : List (Bound ℚ))[i]? = some b from hb)
  simp only [List.mem_cons, List.not_mem_nil, or_false] at this
  rcases this with rfl | rfl
  · intro lo hi h1 h2; cases h1; cases h2; norm_num
  · intro lo hi h1; cases h1

end Leap
