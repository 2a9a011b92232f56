import Verif.Model.LoggedRun
import Verif.Props.EvoRun
import Verif.Props.Probe

/-! # What a run's log records, and what is left when a run crashes (C112) -/

namespace Leap
open Spec

variable {γ ψ φ ρ σ M : Type} {n : Nat} {allowed : Nat → γ → Prop} {truth : List γ → φ → Prop}

namespace Spec

/-- Individual `r` of `m` is found in `m'` with the same attributes, genes and parents. -/
def Intact (m m' : Mem γ ψ φ ρ) (r : Nat) : Prop :=
  r < m.inds.length ∧ m'.inds[r]? = m.inds[r]? ∧ genes m' r = genes m r ∧ lineage m' r = lineage m r

/-- From population `p` in memory `m` at generation `g`, the generations listed ran one after the other and led to `p'` and `m'`. The
list gives for each its number, the offspring its pipeline made, and the memory at that moment. -/
inductive History (cfg : EvoConfig γ ψ φ ρ) :
    Int → List Nat → Mem γ ψ φ ρ → List (Int × List Nat × Mem γ ψ φ ρ) → List Nat → Mem γ ψ φ ρ → Prop
  | none (g p m) : History cfg g p m [] p m
  | next {g p m off m1 hs p' m'} (hstop : cfg.stop g p m = false)
      (hoff : runPipeline p (cfg.choose g p) cfg.stages cfg.size m = (.ok off, m1))
      (hrest : History cfg (g + 1) (elitistSurvival (cfg.lt m1) off p cfg.kElites).1 m1 hs p' m') :
      History cfg g p m ((g, off, m1) :: hs) p' m'

/-- The state of a probe that has been called on these populations in this order. -/
def told (probe : Int → List Nat → Mem γ ψ φ ρ → σ → PyM (List Nat) × σ) (hs : List (Int × List Nat × Mem γ ψ φ ρ)) (s : σ) : σ :=
  hs.foldl (fun s e => (probe e.1 e.2.1 e.2.2 s).2) s

/-- How a loop with a budget of `fuel` generations can end after the generations `hs`: it returns because it should stop; or the next
generation's pipeline raises; or the probe raises on the next generation's offspring. -/
inductive Ends (cfg : EvoConfig γ ψ φ ρ) (probe : Int → List Nat → Mem γ ψ φ ρ → σ → PyM (List Nat) × σ) (fuel : Nat) (g : Int)
    (hs : List (Int × List Nat × Mem γ ψ φ ρ)) (p : List Nat) (s : σ) (m : Mem γ ψ φ ρ) :
    PyM (List Nat) → σ → Mem γ ψ φ ρ → Prop
  | returns (h : hs.length = fuel ∨ cfg.stop (g + hs.length) p m = true) : Ends cfg probe fuel g hs p s m (.ok p) (told probe hs s) m
  | raises {e m'} (hlt : hs.length < fuel) (hstop : cfg.stop (g + hs.length) p m = false)
      (h : runPipeline p (cfg.choose (g + hs.length) p) cfg.stages cfg.size m = (.error e, m')) :
      Ends cfg probe fuel g hs p s m (.error e) (told probe hs s) m'
  | probeRaises {e off s' m'} (hlt : hs.length < fuel) (hstop : cfg.stop (g + hs.length) p m = false)
      (h : runPipeline p (cfg.choose (g + hs.length) p) cfg.stages cfg.size m = (.ok off, m'))
      (hp : probe (g + hs.length) off m' (told probe hs s) = (.error e, s')) :
      Ends cfg probe fuel g hs p s m (.error e) s' m'

end Spec

/-! ## Frames -/

theorem unchanged_refl (m : Mem γ ψ φ ρ) : Unchanged m m := ⟨fun _ _ => rfl, fun _ _ => rfl, fun _ _ => rfl⟩

theorem unchanged_comp {m m1 m2 : Mem γ ψ φ ρ} (h1 : Unchanged m m1) (h2 : Unchanged m1 m2) : Unchanged m m2 := by
  obtain ⟨a, b, c⟩ := unchanged_length h1
  exact unchanged_trans h1 h2 a b c

theorem unchanged_intact {m m' : Mem γ ψ φ ρ} (hs : Sound m) (h : Unchanged m m') {r : Nat} (hr : r < m.inds.length) : Intact m m' r := by
  have h1 := h.inds r hr
  refine ⟨hr, h1, (unchanged_same hs h hr).2, ?_⟩
  simp only [lineage, h1, List.getElem?_eq_getElem hr]
  exact h.sets _ (hs.parents _ (List.getElem_mem hr))

theorem intact_trans {m m1 m2 : Mem γ ψ φ ρ} {r : Nat} (h1 : Intact m m1 r) (h2 : Intact m1 m2 r) : Intact m m2 r :=
  ⟨h1.1, h2.2.1.trans h1.2.1, h2.2.2.1.trans h1.2.2.1, h2.2.2.2.trans h1.2.2.2⟩

theorem intact_same {m m' : Mem γ ψ φ ρ} {r : Nat} (h : Intact m m' r) : SameInd m m' r := ⟨h.2.1, h.2.2.1⟩

/-- A pipeline, however it ends. -/
theorem pipeline_grows (m : Mem γ ψ φ ρ) (hm : Sound m) (pop : List Nat) (choose : Mem γ ψ φ ρ → PyM Nat × ρ)
    (stages : List (Stage γ ψ φ ρ)) (size : Nat) :
    Sound (runPipeline pop choose stages size m).2 ∧ Unchanged m (runPipeline pop choose stages size m).2 ∧
    ∀ out, (runPipeline pop choose stages size m).1 = .ok out → out.length = size ∧ out.Nodup ∧
      ∀ r ∈ out, m.inds.length ≤ r ∧ r < (runPipeline pop choose stages size m).2.inds.length := by
  obtain ⟨J, hJ⟩ := stages_yieldsNew stages _ _
    (clone_first (m0 := m) (selectionIter pop choose) (fun s k => selection_fresh m pop choose s k))
  have hrun := hpull_yieldsNew _ J hJ size (stagesIter (selectionIter pop choose) (Stage.clone :: stages)).init
    m.inds.length m.inds.length (Nat.le_refl _)
  have hE : Ensures (fun x => x = m) (runPipeline pop choose stages size)
      (fun os m1 => FreshAt m m.inds.length m1 ∧ os.length = size ∧ os.Pairwise (· < ·) ∧
        ∀ r ∈ os, m.inds.length ≤ r ∧ r < m1.inds.length) (Fresh m) := by
    unfold runPipeline
    refine Ensures.seq (hrun.mono ?_ (fun _ _ h => h) (fun _ h => h)) fun os => ?_
    · rintro x rfl
      exact ⟨⟨.refl _ hm, Nat.le_refl _⟩, hJ.2.2.1 _ (Nat.le_refl _)⟩
    · exact Ensures.ret fun _ h => h
  have h := hE m rfl
  rcases e : runPipeline pop choose stages size m with ⟨x, m1⟩
  rw [e] at h
  cases x with
  | error err => exact ⟨h.sound, h.unchanged, by simp⟩
  | ok os =>
    obtain ⟨h1, h2, h3, h4⟩ := h
    refine ⟨h1.1.sound, h1.1.unchanged, ?_⟩
    rintro out ho
    cases ho
    exact ⟨h2, h3.imp (fun h => by omega), h4⟩

/-- One more new individual with its own new genome array and set of parents. -/
theorem fresh_add {m0 m : Mem γ ψ φ ρ} (h : Fresh m0 m) (g : List γ) (problem : Nat) (s : ρ) :
    Fresh m0 { arrays := m.arrays ++ [g], sets := m.sets ++ [[]], inds := m.inds ++ [
          { genome := m.arrays.length, fitness := none, phenome := none, uuid := m.nextUuid,
            parents := m.sets.length, problem := problem }], nextUuid := m.nextUuid + 1, rng := s } := by
  have hnew : ∀ (r : Nat) (o : Obj ψ φ), (m.inds ++ [(⟨m.arrays.length, none, none, m.nextUuid, m.sets.length, problem, none, none⟩ : Obj ψ φ)])[r]? = some o →
      (m.inds[r]? = some o ∧ r < m.inds.length) ∨ (r = m.inds.length ∧ o.genome = m.arrays.length ∧ o.parents = m.sets.length) := by
    intro r o ho
    rcases Nat.lt_or_ge r m.inds.length with hr | hr
    · rw [List.getElem?_append_left hr] at ho
      exact Or.inl ⟨ho, hr⟩
    · have hl := (List.getElem?_eq_some_iff.1 ho).1
      simp only [List.length_append, List.length_cons, List.length_nil] at hl
      have : r = m.inds.length := by omega
      subst this
      simp only [getElem?_append_last, Option.some.injEq] at ho
      subst ho
      exact Or.inr ⟨rfl, rfl, rfl⟩
  refine ⟨⟨fun i hi => ?_, fun i hi => ?_, fun i hi => ?_⟩, ⟨?_, ?_, ?_⟩, ?_, ?_, ?_, ?_, ?_⟩
  · rw [← h.unchanged.inds i hi]; exact List.getElem?_append_left (Nat.lt_of_lt_of_le hi h.inds)
  · rw [← h.unchanged.arrays i hi]; exact List.getElem?_append_left (Nat.lt_of_lt_of_le hi h.arrays)
  · rw [← h.unchanged.sets i hi]; exact List.getElem?_append_left (Nat.lt_of_lt_of_le hi h.sets)
  · intro o ho
    simp only [List.mem_append, List.mem_singleton] at ho
    rcases ho with ho | rfl
    · have := h.sound.genome o ho; simp; omega
    · simp
  · intro o ho
    simp only [List.mem_append, List.mem_singleton] at ho
    rcases ho with ho | rfl
    · have := h.sound.parents o ho; simp; omega
    · simp
  · intro o ho
    simp only [List.mem_append, List.mem_singleton] at ho
    rcases ho with ho | rfl
    · have := h.sound.uuid o ho; simp only; omega
    · simp
  · have := h.inds; simp; omega
  · have := h.arrays; simp; omega
  · have := h.sets; simp; omega
  · intro r o hr ho
    rcases hnew r o ho with ⟨ho, -⟩ | ⟨-, h1, h2⟩
    · exact h.owned r o hr ho
    · rw [h1, h2]; exact ⟨h.arrays, h.sets⟩
  · intro r r' o o' hr hr' hne ho ho'
    rcases hnew r o ho with ⟨ho, hl⟩ | ⟨e1, h1, h2⟩ <;> rcases hnew r' o' ho' with ⟨ho', hl'⟩ | ⟨e1', h1', h2'⟩
    · exact h.distinct r r' o o' hr hr' hne ho ho'
    · have a := h.sound.genome o (List.mem_of_getElem? ho)
      have b := h.sound.parents o (List.mem_of_getElem? ho)
      rw [h1', h2']; constructor <;> omega
    · have a := h.sound.genome o' (List.mem_of_getElem? ho')
      have b := h.sound.parents o' (List.mem_of_getElem? ho')
      rw [h1, h2]; constructor <;> omega
    · omega

theorem createPopulation_fresh (initGenome : ρ → PyM (List γ) × ρ) (problem : Nat) {m0 : Mem γ ψ φ ρ} : ∀ k j,
    Ensures (FreshAt m0 j) (createPopulation initGenome problem k)
      (fun pop m => FreshAt m0 j m ∧ ∀ r ∈ pop, m0.inds.length ≤ r ∧ r < m.inds.length) (Fresh m0)
  | 0, j => Ensures.ret fun _ h => ⟨h, by simp⟩
  | k + 1, j => by
    intro m hm
    rcases e : initGenome m.rng with ⟨x, s1⟩
    cases x with
    | error err =>
      simp only [createPopulation, HM.bind_apply, useRng, e]
      exact fresh_rng hm.1 s1
    | ok g =>
      have h1 := fresh_add hm.1 g problem s1
      have h2 := createPopulation_fresh initGenome problem k (m.inds.length + 1) _ ⟨h1, by simp⟩
      simp only [createPopulation, HM.bind_apply, useRng, e, newArr, makeIndividual, freshUuid, newSet, newObj]
      generalize createPopulation initGenome problem k _ = z at h2 ⊢
      rcases z with ⟨y, m'⟩
      cases y with
      | error err => exact h2
      | ok rs =>
        have hl := h2.1.2
        have hj := hm.2
        refine ⟨⟨h2.1.1, by omega⟩, fun r hr => ?_⟩
        rcases List.mem_cons.1 hr with rfl | hr
        · exact ⟨hm.1.inds, by omega⟩
        · exact h2.2 r hr

theorem evaluatePopulation_fresh (dec : Dec γ ψ) (prob : Prob γ ψ φ ρ) {m0 : Mem γ ψ φ ρ} {j : Nat} : ∀ pop : List Nat,
    (∀ r ∈ pop, m0.inds.length ≤ r) →
    Ensures (FreshAt m0 j) (evaluatePopulation dec prob pop) (fun _ => FreshAt m0 j) (Fresh m0)
  | [], _ => Ensures.ret fun _ h => h
  | r :: rs, h =>
    (evaluateInd_fresh dec prob r (h r (by simp))).seq fun _ => evaluatePopulation_fresh dec prob rs fun x hx => h x (by simp [hx])

/-! ## Histories -/

/-- What holds of all generations of a history. -/
theorem history_frame {cfg : EvoConfig γ ψ φ ρ} {g : Int} {p p' : List Nat} {m m' : Mem γ ψ φ ρ} {hs : List (Int × List Nat × Mem γ ψ φ ρ)}
    (h : History cfg g p m hs p' m') (hm : Sound m) (hp : ∀ r ∈ p, r < m.inds.length) :
    Sound m' ∧ Unchanged m m' ∧ (∀ r ∈ p', r < m'.inds.length) ∧
    (∀ (i : Nat) e, hs[i]? = some e → e.1 = g + i ∧ Sound e.2.2 ∧ Unchanged m e.2.2 ∧ Unchanged e.2.2 m' ∧ e.2.1.length = cfg.size ∧
      ∀ r ∈ e.2.1, m.inds.length ≤ r ∧ r < e.2.2.inds.length) ∧ (hs.flatMap fun e => e.2.1).Nodup := by
  induction h with
  | none => exact ⟨hm, unchanged_refl _, hp, by simp, by simp⟩
  | @next g p m off m1 hs p' m' hstop hoff hrest ih =>
    obtain ⟨s1, u1, h1⟩ := pipeline_grows m hm p (cfg.choose g p) cfg.stages cfg.size
    rw [hoff] at s1 u1 h1
    simp only at s1 u1 h1
    obtain ⟨l1, n1, r1⟩ := h1 off rfl
    have hlen := (unchanged_length u1).1
    obtain ⟨s2, u2, r2, q2, n2⟩ := ih s1 (by
      intro r hr
      have := (topk_subperm _ _ _).subset hr
      rcases List.mem_append.1 this with h | h
      · exact (r1 r h).2
      · exact Nat.lt_of_lt_of_le (hp r ((topk_subperm _ _ _).subset h)) hlen)
    refine ⟨s2, unchanged_comp u1 u2, r2, fun i e he => ?_, ?_⟩
    · cases i with
      | zero =>
        simp only [List.getElem?_cons_zero, Option.some.injEq] at he
        subst he
        exact ⟨by simp, s1, u1, u2, l1, r1⟩
      | succ i =>
        obtain ⟨a, b, c, d, e1, f⟩ := q2 i e (by simpa using he)
        refine ⟨by rw [a]; push_cast; ring, b, unchanged_comp u1 c, d, e1, fun r hr => ⟨?_, (f r hr).2⟩⟩
        have := (f r hr).1
        omega
    · simp only [List.flatMap_cons]
      refine List.nodup_append'.2 ⟨n1, n2, fun r hr hr2 => ?_⟩
      obtain ⟨e, he, hre⟩ := List.mem_flatMap.1 hr2
      obtain ⟨i, hi⟩ := List.mem_iff_getElem?.1 he
      have := ((q2 i e hi).2.2.2.2.2 r hre).1
      have := (r1 r hr).2
      omega

/-- The loop: which generations ran, how it ended, and what the probe was called on. -/
theorem logged_loop_outcome (cfg : EvoConfig γ ψ φ ρ) (probe : Int → List Nat → Mem γ ψ φ ρ → σ → PyM (List Nat) × σ)
    (hret : ∀ g pop m s x s', probe g pop m s = (.ok x, s') → x = pop) (fuel : Nat) : ∀ (g : Int) (p : List Nat) (s : σ) (m : Mem γ ψ φ ρ)
    (x : PyM (List Nat)) (s' : σ) (m' : Mem γ ψ φ ρ), loggedLoop cfg probe fuel g p s m = ((x, s'), m') →
    ∃ hs p1 m1, History cfg g p m hs p1 m1 ∧ hs.length ≤ fuel ∧ Ends cfg probe fuel g hs p1 s m1 x s' m' := by
  induction fuel with
  | zero =>
    intro g p s m x s' m' h
    simp only [loggedLoop, Prod.mk.injEq] at h
    obtain ⟨⟨rfl, rfl⟩, rfl⟩ := h
    exact ⟨[], p, m, .none _ _ _, le_refl _, .returns (Or.inl rfl)⟩
  | succ fuel ih =>
    intro g p s m x s' m' h
    unfold loggedLoop at h
    split at h
    · rename_i hs
      simp only [Prod.mk.injEq] at h
      obtain ⟨⟨rfl, rfl⟩, rfl⟩ := h
      exact ⟨[], p, m, .none _ _ _, Nat.zero_le _, .returns (Or.inr (by simpa using hs))⟩
    · rename_i hs
      have hs : cfg.stop g p m = false := by simpa using hs
      rcases e : runPipeline p (cfg.choose g p) cfg.stages cfg.size m with ⟨y, m1⟩
      rw [e] at h
      cases y with
      | error err =>
        simp only [Prod.mk.injEq] at h
        obtain ⟨⟨rfl, rfl⟩, rfl⟩ := h
        refine ⟨[], p, m, .none _ _ _, Nat.zero_le _, ?_⟩
        exact Ends.raises (cfg := cfg) (probe := probe) (g := g) (hs := []) (s := s) (Nat.succ_pos _) (by simpa using hs) (by simpa using e)
      | ok off =>
        simp only at h
        rcases ep : probe g off m1 s with ⟨z, s1⟩
        rw [ep] at h
        cases z with
        | error err =>
          simp only [Prod.mk.injEq] at h
          obtain ⟨⟨rfl, rfl⟩, rfl⟩ := h
          refine ⟨[], p, m, .none _ _ _, Nat.zero_le _, ?_⟩
          exact Ends.probeRaises (cfg := cfg) (probe := probe) (g := g) (hs := []) (s := s) (Nat.succ_pos _) (by simpa using hs)
            (by simpa using e) (by simpa [told] using ep)
        | ok off' =>
          obtain rfl := hret _ _ _ _ _ _ ep
          obtain ⟨hs', p1, m2, h1, h2, h3⟩ := ih _ _ _ _ _ _ _ h
          refine ⟨(g, off', m1) :: hs', p1, m2, .next hs e h1, by simpa using h2, ?_⟩
          have ht : told probe ((g, off', m1) :: hs') s = told probe hs' s1 := by simp [told, ep]
          have hg : g + (((g, off', m1) :: hs').length : Nat) = g + 1 + (hs'.length : Int) := by
            simp only [List.length_cons]; push_cast; ring
          cases h3 with
          | returns h =>
            rw [← ht]
            refine Ends.returns ?_
            rw [hg]
            simpa using h
          | raises hlt hstop h =>
            rw [← ht]
            exact Ends.raises (by simpa using hlt) (by rw [hg]; exact hstop) (by rw [hg]; exact h)
          | probeRaises hlt hstop h hp =>
            exact Ends.probeRaises (by simpa using hlt) (by rw [hg]; exact hstop) (by rw [hg]; exact h) (by rw [hg, ht]; exact hp)

/-- However the next generation goes, it leaves all before it alone. -/
theorem ends_frame {cfg : EvoConfig γ ψ φ ρ} {probe : Int → List Nat → Mem γ ψ φ ρ → σ → PyM (List Nat) × σ} {fuel : Nat} {g : Int}
    {hs : List (Int × List Nat × Mem γ ψ φ ρ)} {p : List Nat} {s s' : σ} {m m' : Mem γ ψ φ ρ} {x : PyM (List Nat)}
    (h : Ends cfg probe fuel g hs p s m x s' m') (hm : Sound m) : Sound m' ∧ Unchanged m m' := by
  cases h with
  | returns => exact ⟨hm, unchanged_refl _⟩
  | raises _ _ h =>
    obtain ⟨a, b, -⟩ := pipeline_grows m hm p (cfg.choose (g + hs.length) p) cfg.stages cfg.size
    rw [h] at a b
    exact ⟨a, b⟩
  | probeRaises _ _ h =>
    obtain ⟨a, b, -⟩ := pipeline_grows m hm p (cfg.choose (g + hs.length) p) cfg.stages cfg.size
    rw [h] at a b
    exact ⟨a, b⟩

/-- C112, however the run ends: run `generational_ea` with a probe that hands on the population it gets, in a program that may hold other
individuals. Whether the run returns or raises, in the initialiser, in the first evaluation, in an operator, in an evaluation or in the
probe: nothing that existed before the run has changed. If it raises before the first generation the probe has seen nothing. Otherwise
some generations `hs` ran to completion, and the probe has been called on the offspring of each of these, in order, with their generation
numbers; the initial population is not among these. If an operator raises in the next generation, the probe has been called on nothing
else. All that were logged, and the whole
population `p1` from which the interrupted generation was being bred, still have the attributes, genes and parents they had. -/
theorem logged_run_any_outcome (cfg : EvoConfig γ ψ φ ρ) (probe : Int → List Nat → Mem γ ψ φ ρ → σ → PyM (List Nat) × σ)
    (hret : ∀ g pop m s x s', probe g pop m s = (.ok x, s') → x = pop)
    (initGenome : ρ → PyM (List γ) × ρ) (dec : Dec γ ψ) (prob : Prob γ ψ φ ρ)
    (problem popSize : Nat) (startGeneration maxGenerations : Int) (s s' : σ) (m m' : Mem γ ψ φ ρ) (hm : Sound m) (x : PyM (List Nat))
    (h : loggedRun cfg probe initGenome dec prob problem popSize startGeneration maxGenerations s m = ((x, s'), m')) :
    Sound m' ∧ Unchanged m m' ∧
    ((∃ e, x = .error e ∧ s' = s ∧ (createPopulation initGenome problem popSize m = (.error e, m') ∨
        ∃ parents m1, createPopulation initGenome problem popSize m = (.ok parents, m1) ∧
          evaluatePopulation dec prob parents m1 = (.error e, m'))) ∨
    ∃ parents m1 m2 hs p1 m3, createPopulation initGenome problem popSize m = (.ok parents, m1) ∧
      evaluatePopulation dec prob parents m1 = (.ok (), m2) ∧
      History cfg startGeneration parents m2 hs p1 m3 ∧
      hs.length ≤ (maxGenerations - startGeneration).toNat ∧
      Ends cfg probe (maxGenerations - startGeneration).toNat startGeneration hs p1 s m3 x s' m' ∧
      (∀ r ∈ parents, Intact m2 m' r) ∧ (∀ r ∈ p1, Intact m3 m' r) ∧
      (hs.flatMap fun e => e.2.1).Nodup ∧
      ∀ (i : Nat) e, hs[i]? = some e → e.1 = startGeneration + i ∧ e.2.1.length = cfg.size ∧
        ∀ r ∈ e.2.1, m2.inds.length ≤ r ∧ r ∉ parents ∧ Intact e.2.2 m' r) := by
  have h1 := createPopulation_fresh initGenome problem (m0 := m) popSize 0 m ⟨.refl m hm, Nat.zero_le _⟩
  unfold loggedRun at h
  rcases e1 : createPopulation initGenome problem popSize m with ⟨y, m1⟩
  rw [e1] at h h1
  cases y with
  | error err =>
    simp only [Prod.mk.injEq] at h
    obtain ⟨⟨rfl, rfl⟩, rfl⟩ := h
    exact ⟨h1.sound, h1.unchanged, Or.inl ⟨err, rfl, rfl, Or.inl rfl⟩⟩
  | ok parents =>
    simp only at h
    have h2 := evaluatePopulation_fresh dec prob (m0 := m) (j := m1.inds.length) parents (fun r hr => (h1.2 r hr).1) m1 ⟨h1.1.1, le_refl _⟩
    rcases e2 : evaluatePopulation dec prob parents m1 with ⟨z, m2⟩
    rw [e2] at h h2
    cases z with
    | error err =>
      simp only [Prod.mk.injEq] at h
      obtain ⟨⟨rfl, rfl⟩, rfl⟩ := h
      exact ⟨h2.sound, h2.unchanged, Or.inl ⟨err, rfl, rfl, Or.inr ⟨parents, m1, rfl, e2⟩⟩⟩
    | ok u =>
      simp only at h
      have hp : ∀ r ∈ parents, r < m2.inds.length := fun r hr => Nat.lt_of_lt_of_le (h1.2 r hr).2 h2.2
      obtain ⟨hs, p1, m3, k1, k2, k3⟩ := logged_loop_outcome cfg probe hret _ _ _ _ _ _ _ _ h
      obtain ⟨s3, u3, r3, q3, n3⟩ := history_frame k1 h2.1.sound hp
      obtain ⟨s4, u4⟩ := ends_frame k3 s3
      refine ⟨s4, unchanged_comp h2.1.unchanged (unchanged_comp u3 u4), Or.inr ⟨parents, m1, m2, hs, p1, m3, rfl, e2, k1, k2, k3,
        fun r hr => unchanged_intact h2.1.sound (unchanged_comp u3 u4) (hp r hr), fun r hr => unchanged_intact s3 u4 (r3 r hr), n3, ?_⟩⟩
      intro i e he
      obtain ⟨a, b, c, d, l, f⟩ := q3 i e he
      refine ⟨a, l, fun r hr => ⟨(f r hr).1, fun h => ?_, unchanged_intact b (unchanged_comp d u4) (f r hr).2⟩⟩
      have := (f r hr).1
      have := hp r h
      omega

/-- C112: a probe that never raises and hands on the population it gets does not influence the run: the same individuals, the same
exceptions and the same memory come out as without it. -/
theorem logged_run_transparent (cfg : EvoConfig γ ψ φ ρ) (probe : Int → List Nat → Mem γ ψ φ ρ → σ → PyM (List Nat) × σ)
    (hret : ∀ g pop m s, (probe g pop m s).1 = .ok pop)
    (initGenome : ρ → PyM (List γ) × ρ) (dec : Dec γ ψ) (prob : Prob γ ψ φ ρ)
    (problem popSize : Nat) (startGeneration maxGenerations : Int) (s : σ) (m : Mem γ ψ φ ρ) :
    (loggedRun cfg probe initGenome dec prob problem popSize startGeneration maxGenerations s m).1.1 =
      (evoRun cfg initGenome dec prob problem popSize startGeneration maxGenerations m).1 ∧
    (loggedRun cfg probe initGenome dec prob problem popSize startGeneration maxGenerations s m).2 =
      (evoRun cfg initGenome dec prob problem popSize startGeneration maxGenerations m).2 := by
  have loop : ∀ (fuel : Nat) (g : Int) (p : List Nat) (s : σ) (m : Mem γ ψ φ ρ),
      (loggedLoop cfg probe fuel g p s m).1.1 = (evoLoop cfg fuel g p m).1 ∧
      (loggedLoop cfg probe fuel g p s m).2 = (evoLoop cfg fuel g p m).2 := by
    intro fuel
    induction fuel with
    | zero => intro g p s m; exact ⟨rfl, rfl⟩
    | succ fuel ih =>
      intro g p s m
      unfold loggedLoop evoLoop
      by_cases hs : cfg.stop g p m = true
      · simp [hs]
      · simp only [hs, Bool.false_eq_true, if_false]
        rcases runPipeline p (cfg.choose g p) cfg.stages cfg.size m with ⟨y, m1⟩
        cases y with
        | error e => exact ⟨rfl, rfl⟩
        | ok off =>
          have hp := hret g off m1 s
          rcases ep : probe g off m1 s with ⟨z, s1⟩
          rw [ep] at hp
          simp only at hp
          subst hp
          simp only [ep]
          exact ih _ _ _ _
  unfold loggedRun
  rw [evoRun, HM.bind_apply]
  rcases createPopulation initGenome problem popSize m with ⟨y, m1⟩
  cases y with
  | error e => exact ⟨rfl, rfl⟩
  | ok parents =>
    simp only [HM.bind_apply]
    rcases evaluatePopulation dec prob parents m1 with ⟨z, m2⟩
    cases z with
    | error e => exact ⟨rfl, rfl⟩
    | ok u => exact loop _ _ _ _ _

/-! ## Members -/

theorem history_members {cfg : EvoConfig γ ψ φ ρ} (hst : ∀ st ∈ cfg.stages, StageOk n allowed truth st)
    (hev : endsEvaluated cfg.stages = true) {g : Int} {p p' : List Nat} {m m' : Mem γ ψ φ ρ} {hs : List (Int × List Nat × Mem γ ψ φ ρ)}
    (h : History cfg g p m hs p' m') (hm : Sound m) (hp : ∀ r ∈ p, Member n allowed truth m r) :
    (∀ e ∈ hs, ∀ r ∈ e.2.1, Member n allowed truth e.2.2 r) ∧ ∀ r ∈ p', Member n allowed truth m' r := by
  induction h with
  | none => exact ⟨by simp, hp⟩
  | @next g p m off m1 hs p' m' hstop hoff hrest ih =>
    obtain ⟨s1, u1, -, -, q1⟩ := pipeline_keeps_feasible m m1 hm p (fun r hr => ((member_iff m r).1 (hp r hr)).1) _ cfg.stages hst _ off hoff
    have hoffm : ∀ r ∈ off, Member n allowed truth m1 r := fun r hr => (member_iff m1 r).2 ⟨(q1 r hr).2.2.1, (q1 r hr).2.2.2 hev⟩
    obtain ⟨a, b⟩ := ih s1 (by
      intro r hr
      rcases List.mem_append.1 ((topk_subperm _ _ _).subset hr) with h | h
      · exact hoffm r h
      · have hr := hp r ((topk_subperm _ _ _).subset h)
        obtain ⟨g, f, hg, -⟩ := id hr
        obtain ⟨-, -, -, hl⟩ := genes_lt hg
        exact member_same (unchanged_same hm u1 hl) hr)
    refine ⟨fun e he => ?_, b⟩
    rcases List.mem_cons.1 he with rfl | he
    · exact hoffm
    · exact a e he

/-- With elites, nobody ever bred is better than the best survivor. -/
theorem history_best {cfg : EvoConfig γ ψ φ ρ} (hw : StrictWeak cfg.worse) (hk : 1 ≤ cfg.kElites) (hsize : 1 ≤ cfg.size)
    {g : Int} {p p' : List Nat} {m m' : Mem γ ψ φ ρ} {hs : List (Int × List Nat × Mem γ ψ φ ρ)}
    (h : History cfg g p m hs p' m') (hm : Sound m) (hp : ∀ r ∈ p, r < m.inds.length) :
    (∀ x ∈ p, ∃ b ∈ p', cfg.lt m' b x = false) ∧ ∀ e ∈ hs, ∀ x ∈ e.2.1, ∃ b ∈ p', cfg.lt m' b x = false := by
  induction h with
  | none g p m =>
    refine ⟨fun x hx => ⟨x, hx, ?_⟩, by simp⟩
    have hw := evo_lt_strictWeak cfg hw m
    cases e : cfg.lt m x x with
    | false => rfl
    | true => exact absurd (hw.asymm _ _ e) (by simp [e])
  | @next g p m off m1 hs p' m' hstop hoff hrest ih =>
    obtain ⟨s1, u1, h1⟩ := pipeline_grows m hm p (cfg.choose g p) cfg.stages cfg.size
    rw [hoff] at s1 u1 h1
    simp only at s1 u1 h1
    obtain ⟨l1, -, r1⟩ := h1 off rfl
    have hlen := (unchanged_length u1).1
    have hin : ∀ r ∈ off ++ p, r < m1.inds.length := by
      intro r hr
      rcases List.mem_append.1 hr with h | h
      · exact (r1 r h).2
      · exact Nat.lt_of_lt_of_le (hp r h) hlen
    have hsub : ∀ r ∈ (elitistSurvival (cfg.lt m1) off p cfg.kElites).1, r ∈ off ++ p := by
      intro r hr
      rcases List.mem_append.1 ((topk_subperm _ _ _).subset hr) with h | h
      · exact List.mem_append_left _ h
      · exact List.mem_append_right _ ((topk_subperm _ _ _).subset h)
    obtain ⟨a, b⟩ := ih s1 (fun r hr => hin r (hsub r hr))
    have u2 := (history_frame hrest s1 (fun r hr => hin r (hsub r hr))).2.1
    obtain ⟨c, hc, hbest⟩ := elitist_never_loses_best (cfg.lt m1) (evo_lt_strictWeak cfg hw m1) off p cfg.kElites hk
      (by rintro rfl; simp at l1; omega)
    have hc' := List.mem_of_mem_head? hc
    obtain ⟨d, hd, hdc⟩ := a c hc'
    have key : ∀ x ∈ off ++ p, ∃ b ∈ p', cfg.lt m' b x = false := by
      intro x hx
      refine ⟨d, hd, (evo_lt_strictWeak cfg hw m').negTrans _ _ _ hdc ?_⟩
      rw [evo_lt_same cfg (u2.inds c (hin c (hsub c hc'))) (u2.inds x (hin x hx))]
      exact hbest x hx
    refine ⟨fun x hx => key x (by simp [hx]), fun e he x hx => ?_⟩
    rcases List.mem_cons.1 he with rfl | he
    · exact key x (by simp only at hx; simp [hx])
    · exact b e he x hx

/-- Without elites, the survivors are the last offspring. -/
theorem history_last {cfg : EvoConfig γ ψ φ ρ} (hk : cfg.kElites = 0)
    {g : Int} {p p' : List Nat} {m m' : Mem γ ψ φ ρ} {hs : List (Int × List Nat × Mem γ ψ φ ρ)}
    (h : History cfg g p m hs p' m') : ∀ e, hs.getLast? = some e → p'.Perm e.2.1 := by
  induction h with
  | none => simp
  | @next g p m off m1 hs p' m' hstop hoff hrest ih =>
    intro e he
    cases hs with
    | nil =>
      cases hrest
      simp only [List.getLast?_singleton, Option.some.injEq] at he
      subst he
      have ht : topk (cfg.lt m1) 0 p = [] := by simp [topk]
      simp only [elitistSurvival, hk, ht, List.append_nil]
      rw [topk]
      rw [List.take_of_length_le (by rw [(sortedDesc_perm _ _).length_eq])]
      exact sortedDesc_perm _ _
    | cons e1 hs => exact ih e (by simpa [List.getLast?_cons_cons] using he)

/-! ## The statistics file -/

theorem pyMaxFrom_congr {α : Type} {gt gt' : α → α → Bool} : ∀ (l : List α) (x : α), (∀ a ∈ x :: l, ∀ b ∈ x :: l, gt a b = gt' a b) →
    pyMaxFrom gt x l = pyMaxFrom gt' x l
  | [], _, _ => rfl
  | y :: ys, x, h => by
    simp only [pyMaxFrom]
    rw [h y (by simp) x (by simp)]
    refine pyMaxFrom_congr ys _ fun a ha b hb => h a ?_ b ?_
    · rcases List.mem_cons.1 ha with rfl | ha
      · split <;> simp
      · simp [ha]
    · rcases List.mem_cons.1 hb with rfl | hb
      · split <;> simp
      · simp [hb]

theorem pyMax_congr {α : Type} {gt gt' : α → α → Bool} (l : List α) (h : ∀ a ∈ l, ∀ b ∈ l, gt a b = gt' a b) : pyMax gt l = pyMax gt' l := by
  cases l with
  | nil => rfl
  | cons x xs => simp only [pyMax]; rw [pyMaxFrom_congr xs x h]

theorem pyMax_mem_ok {α : Type} {gt : α → α → Bool} {l : List α} {b : α} (h : pyMax gt l = .ok b) : b ∈ l := by
  cases l with
  | nil => simp [pyMax] at h
  | cons x xs =>
    simp only [pyMax, Except.ok.injEq] at h
    rw [← h]; exact pyMaxFrom_mem gt x xs

/-- `a > b` for individuals in memory. -/
def Spec.gtIn (better : Option φ → Option φ → Bool) (m : Mem γ ψ φ ρ) (a b : Nat) : Bool :=
  better ((m.inds[a]?).bind Obj.fitness) ((m.inds[b]?).bind Obj.fitness)

theorem intact_look {m m' : Mem γ ψ φ ρ} {r : Nat} (h : Intact m m' r) : lookAt m' r = lookAt m r := by
  obtain ⟨-, h1, h2, -⟩ := h
  cases ho : m.inds[r]? with
  | none => simp [lookAt, h1, ho]
  | some o =>
    simp only [genes, h1, ho] at h2
    simp [lookAt, h1, ho, h2]

/-- C112: what rows and extra metrics are computed from are the fitness and the genes that individuals have in memory. -/
theorem stats_cells_true (m : Mem γ ψ ℚ ρ) (r : Nat) (g : List γ) (f : ℚ) (hg : genes m r = some g) (hf : fitness m r = some (some f)) :
    fitnessAt m r = f ∧ lookAt m r = some (g, some f) := by
  obtain ⟨o, ho, ha, -⟩ := genes_lt hg
  simp only [fitness, ho, Option.map_some, Option.some.injEq] at hf
  simp [fitnessAt, lookAt, ho, hf, ha]

example : genes (⟨[[1, 1]], [[]], [⟨0, some 2, none, 0, 0, 0, none, none⟩], 1, 0⟩ : Mem Int Int ℚ Nat) 0 = some [1, 1] ∧
    fitness (⟨[[1, 1]], [[]], [⟨0, some 2, none, 0, 0, 0, none, none⟩], 1, 0⟩ : Mem Int Int ℚ Nat) 0 = some (some 2) := by decide +kernel

/-- A call of the probe gives the same in a later memory in which the individuals are intact. -/
theorem stats_later (c : StatsConfig (Option (List γ × Option ℚ)) M) (better : Option ℚ → Option ℚ → Bool) (g : Int) (pop : List Nat)
    (m m' : Mem γ ψ ℚ ρ) (st : StatsState Nat M) (hp : ∀ r ∈ pop, Intact m m' r) (hb : ∀ b, st.bsf = some b → Intact m m' b) :
    statsInMemory c better g pop m st = statsProbe (c.inMemory m') (gtIn better m') (fitnessAt m') (some (some g)) pop st := by
  have hgt : ∀ a b, Intact m m' a → Intact m m' b → gtIn better m a b = gtIn better m' a b := by
    intro a b ha hb
    simp [gtIn, ha.2.1, hb.2.1]
  have hfit : ∀ a, Intact m m' a → fitnessAt m a = fitnessAt m' a := by
    intro a ha
    simp [fitnessAt, ha.2.1]
  show statsProbe (c.inMemory m) (gtIn better m) (fitnessAt m) (some (some g)) pop st = _
  unfold statsProbe
  simp only [probeGeneration]
  by_cases hl : pop.length > 0
  · rw [if_pos hl, if_pos hl, pyMax_congr pop fun a ha b hb => hgt a b (hp a ha) (hp b hb)]
    cases em : pyMax (gtIn better m') pop with
    | error e => rfl
    | ok best =>
      have hbest := hp best (pyMax_mem_ok em)
      have hu : bsfUpdate (gtIn better m) st.bsf best = bsfUpdate (gtIn better m') st.bsf best := by
        cases hs : st.bsf with
        | none => rfl
        | some b => simp only [bsfUpdate, hgt best b hbest (hb b hs)]
      have hbi : Intact m m' (bsfUpdate (gtIn better m') st.bsf best) := by
        cases hs : st.bsf with
        | none => exact hbest
        | some b =>
          simp only [bsfUpdate]
          split
          · exact hbest
          · exact hb b hs
      have hrow : statsRow (c.inMemory m) (fitnessAt m) g (bsfUpdate (gtIn better m') st.bsf best) pop =
          statsRow (c.inMemory m') (fitnessAt m') g (bsfUpdate (gtIn better m') st.bsf best) pop := by
        have hmap : pop.map (fitnessAt m) = pop.map (fitnessAt m') := List.map_congr_left fun a ha => hfit a (hp a ha)
        have hlook : pop.map (lookAt m) = pop.map (lookAt m') := List.map_congr_left fun a ha => (intact_look (hp a ha)).symm
        simp only [statsRow, StatsConfig.inMemory, hmap, hfit _ hbi, List.map_map, Function.comp_def, hlook]
      simp only [hu]
      have hmod : (c.inMemory m).modulo = (c.inMemory m').modulo := rfl
      rw [hmod, hrow]
  · rw [if_neg hl, if_neg hl]

theorem stats_bsf (c : StatsConfig Nat M) (gt : Nat → Nat → Bool) (fit : Nat → ℚ) (ctx : Option (Option Int)) (pop : List Nat)
    (st : StatsState Nat M) (b : Nat) (h : (statsProbe c gt fit ctx pop st).2.bsf = some b) : b ∈ pop ∨ st.bsf = some b := by
  unfold statsProbe at h
  split at h
  · exact Or.inr h
  · split at h
    · split at h
      · exact Or.inr h
      · rename_i best hm
        have hb := pyMax_mem_ok hm
        have key : bsfUpdate gt st.bsf best = b → b ∈ pop ∨ st.bsf = some b := by
          rintro rfl
          cases hs : st.bsf with
          | none => exact Or.inl hb
          | some b' =>
            simp only [bsfUpdate]
            split
            · exact Or.inl hb
            · exact Or.inr rfl
        simp only at h
        split at h
        · exact key (Option.some.inj h)
        · split at h
          · exact key (Option.some.inj h)
          · exact key (Option.some.inj h)
    · exact Or.inr h

/-- The rows written during a history are those one would get by calling the probe on the same populations at the end. -/
theorem history_stats {cfg : EvoConfig γ ψ ℚ ρ} (c : StatsConfig (Option (List γ × Option ℚ)) M) (better : Option ℚ → Option ℚ → Bool)
    {g : Int} {p p' : List Nat} {m m' mEnd : Mem γ ψ ℚ ρ} {hs : List (Int × List Nat × Mem γ ψ ℚ ρ)}
    (h : History cfg g p m hs p' m') (hm : Sound m) (hp : ∀ r ∈ p, r < m.inds.length) (hend : Unchanged m' mEnd) :
    ∀ st : StatsState Nat M, (∀ b, st.bsf = some b → b < m.inds.length) →
    told (statsInMemory c better) hs st =
      (statsRun (c.inMemory mEnd) (gtIn better mEnd) (fitnessAt mEnd) (hs.map fun e => (e.1, e.2.1)) st).2 := by
  induction h with
  | none => intro st _; rfl
  | @next g p m off m1 hs p' m' hstop hoff hrest ih =>
    intro st hb
    obtain ⟨s1, u1, h1⟩ := pipeline_grows m hm p (cfg.choose g p) cfg.stages cfg.size
    rw [hoff] at s1 u1 h1
    simp only at s1 u1 h1
    obtain ⟨l1, -, r1⟩ := h1 off rfl
    have hlen := (unchanged_length u1).1
    have hin : ∀ r ∈ (elitistSurvival (cfg.lt m1) off p cfg.kElites).1, r < m1.inds.length := by
      intro r hr
      rcases List.mem_append.1 ((topk_subperm _ _ _).subset hr) with h | h
      · exact (r1 r h).2
      · exact Nat.lt_of_lt_of_le (hp r ((topk_subperm _ _ _).subset h)) hlen
    have u2 := (history_frame hrest s1 hin).2.1
    have hlater := stats_later c better g off m1 mEnd st
      (fun r hr => unchanged_intact s1 (unchanged_comp u2 hend) (r1 r hr).2)
      (fun b hs => unchanged_intact s1 (unchanged_comp u2 hend) (Nat.lt_of_lt_of_le (hb b hs) hlen))
    have hstep : told (statsInMemory c better) ((g, off, m1) :: hs) st =
        told (statsInMemory c better) hs (statsInMemory c better g off m1 st).2 := rfl
    rw [hstep, ih s1 hin hend _ ?_]
    · simp only [List.map_cons, statsRun]
      rw [hlater]
    · intro b hs
      rw [hlater] at hs
      rcases stats_bsf _ _ _ _ _ _ _ hs with h | h
      · exact (r1 b h).2
      · exact Nat.lt_of_lt_of_le (hb b h) hlen

/-- C112, the statistics file of a run: `generational_ea` with a `FitnessStatsCSVProbe` (with a non-zero `modulo`) at the end of a pipeline
that evaluates. However the run ends, the file holds exactly the rows of the generations `batches` that completed, numbered from the
start generation, one for each whose number `modulo` divides. Each row is what the offspring of that generation give *now*, in the memory
after the run: later generations have not changed any of them. They all are different individuals, made in this run, with the problem's
score of their genes; the initial population, which comes first in the new part of memory, is never logged. The best so far of a row is the best offspring of all generations until then, also of those that wrote no row.

When the run returns: without elites the population it returns is the last one logged; with elites the best of the returned population
is at least as good as all that was logged. -/
theorem stats_log_any_outcome (cfg : EvoConfig γ ψ ℚ ρ) (c : StatsConfig (Option (List γ × Option ℚ)) M) (hmod : c.modulo ≠ 0)
    (better : Option ℚ → Option ℚ → Bool) (hbetter : StrictPartial better)
    (initGenome : ρ → PyM (List γ) × ρ) (dec : Dec γ ψ) (prob : Prob γ ψ ℚ ρ)
    (hinit : ∀ s g s', initGenome s = (.ok g, s') → GenesIn n allowed g)
    (hst : ∀ st ∈ cfg.stages, StageOk n allowed (ScoredBy dec prob) st) (hev : endsEvaluated cfg.stages = true) (hsize : 1 ≤ cfg.size)
    (problem popSize : Nat) (startGeneration maxGenerations : Int) (s' : StatsState Nat M) (m m' : Mem γ ψ ℚ ρ) (hm : Sound m)
    (x : PyM (List Nat))
    (h : loggedRun cfg (statsInMemory c better) initGenome dec prob problem popSize startGeneration maxGenerations ⟨none, []⟩ m =
      ((x, s'), m')) :
    ∃ (batches : List (Int × List Nat)) (bs : List Nat), bs.length = batches.length ∧
      s'.rows = ((List.zip batches bs).filter (fun b => decide (c.modulo ∣ b.1.1))).map
        (fun b => statsRow (c.inMemory m') (fitnessAt m') b.1.1 b.2 b.1.2) ∧
      (∀ (k : Nat) b, bs[k]? = some b → NearChampion (gtIn better m') (seenIn (batches.take (k + 1))) b) ∧
      (∀ (i : Nat) call, batches[i]? = some call → call.1 = startGeneration + i ∧ call.2.length = cfg.size) ∧
      (seenIn batches).Nodup ∧
      (∀ r ∈ seenIn batches, m.inds.length + popSize ≤ r ∧ Member n allowed (ScoredBy dec prob) m' r) ∧
      batches.length ≤ (maxGenerations - startGeneration).toNat ∧
      ∀ out, x = .ok out →
        (batches.length = (maxGenerations - startGeneration).toNat ∨ cfg.stop (startGeneration + batches.length) out m' = true) ∧
        (cfg.kElites = 0 → ∀ call, batches.getLast? = some call → out.Perm call.2) ∧
        (StrictWeak cfg.worse → 1 ≤ cfg.kElites → ∀ r ∈ seenIn batches, ∃ b ∈ out, cfg.lt m' b r = false) := by
  have hret : ∀ g pop (m : Mem γ ψ ℚ ρ) s x s', statsInMemory c better g pop m s = (.ok x, s') → x = pop := by
    intro g pop m s x s' h
    simp only [statsInMemory, statsProbe, probeGeneration] at h
    split at h
    · split at h
      · simp at h
      · split at h
        · simp at h
        · split at h
          · simp only [Prod.mk.injEq, Except.ok.injEq] at h; exact h.1.symm
          · simp only [Prod.mk.injEq, Except.ok.injEq] at h; exact h.1.symm
    · simp at h
  obtain ⟨-, -, hor⟩ := logged_run_any_outcome cfg _ hret initGenome dec prob problem popSize startGeneration maxGenerations _ s' m m' hm x h
  rcases hor with ⟨e, rfl, rfl, -⟩ | ⟨parents, m1, m2, hs, p1, m3, e1, e2, k1, k2, k3, k4, k5, k6, k7⟩
  · exact ⟨[], [], rfl, rfl, by simp, by simp, by simp [seenIn], by simp [seenIn], by simp, by simp⟩
  have hf1 := createPopulation_fresh initGenome problem (m0 := m) popSize 0 m ⟨.refl m hm, Nat.zero_le _⟩
  rw [e1] at hf1
  have hf2 := evaluatePopulation_fresh dec prob (m0 := m) (j := m1.inds.length) parents (fun r hr => (hf1.2 r hr).1) m1 ⟨hf1.1.1, le_refl _⟩
  rw [e2] at hf2
  simp only at hf1 hf2
  have hp : ∀ r ∈ parents, r < m2.inds.length := fun r hr => Nat.lt_of_lt_of_le (hf1.2 r hr).2 hf2.2
  obtain ⟨hm1, hgood⟩ : m1.inds.length = m.inds.length + popSize ∧ ∀ r ∈ parents, GoodInd (GenesIn n allowed) (ScoredBy dec prob) m1 r := by
    rcases drawn_or_raises initGenome popSize m.rng with ⟨gs, sd, hd⟩ | ⟨j, gs, sa, e, sb, h1, h2, h3⟩
    swap
    · have := create_population_raises initGenome problem popSize j m gs sa sb e h1 h2 h3
      rw [e1] at this
      cases this
    have heff := create_population_effect initGenome problem popSize m gs sd hd
    rw [e1] at heff
    simp only [Prod.mk.injEq] at heff
    have hm1 : m1.inds.length = m.inds.length + popSize := by rw [heff.2]; simp
    obtain ⟨out', m1', e1', hlen, -, -, -, q1⟩ := create_population_spec initGenome problem popSize m hm gs sd hd
    rw [e1] at e1'
    simp only [Prod.mk.injEq, Except.ok.injEq] at e1'
    obtain ⟨rfl, rfl⟩ := e1'
    refine ⟨hm1, fun r hr => ?_⟩
    obtain ⟨i, hi⟩ := List.mem_iff_getElem?.1 hr
    obtain ⟨-, a2, -, o, a3, a4, -⟩ := q1 i r hi
    have hil : i < gs.length := by
      have := (List.getElem?_eq_some_iff.1 hi).1
      rw [hd.length]; omega
    rw [List.getElem?_eq_getElem hil] at a2
    exact ⟨gs[i], none, a2, by simp [fitness, a3, a4], drawn_all hinit hd _ (List.getElem_mem hil), by simp⟩
  obtain ⟨-, -, -, -, -, kk2, -, p2⟩ := evaluatePopulation_members dec prob (fun g c s f _ hc hf => ⟨c, s, hc, hf⟩) parents m1 m2 hf1.1.1.sound hgood e2
  obtain ⟨mem1, -⟩ := history_members hst hev k1 hf2.1.sound (fun r hr => (member_iff m2 r).2 ⟨kk2 r (hgood r hr), p2 r hr⟩)
  obtain ⟨s3, u3, r3, -, -⟩ := history_frame k1 hf2.1.sound hp
  obtain ⟨s4, u4⟩ := ends_frame k3 s3
  have hentry : ∀ e ∈ hs, ∀ r ∈ e.2.1, m.inds.length + popSize ≤ r ∧ Intact e.2.2 m' r := by
    intro e he r hr
    obtain ⟨i, hi⟩ := List.mem_iff_getElem?.1 he
    obtain ⟨a, -, b⟩ := (k7 i e hi).2.2 r hr
    have := hf2.2
    exact ⟨by omega, b⟩
  have hseen : seenIn (hs.map fun e => (e.1, e.2.1)) = hs.flatMap fun e => e.2.1 := by simp [seenIn, List.flatMap_map]
  have hsp : StrictPartial (gtIn better m') := ⟨fun a => hbetter.irrefl _, fun a b c => hbetter.trans _ _ _⟩
  have hne : ∀ call ∈ hs.map (fun e => (e.1, e.2.1)), call.2 ≠ [] := by
    intro call hc
    obtain ⟨e, he, rfl⟩ := List.mem_map.1 hc
    obtain ⟨i, hi⟩ := List.mem_iff_getElem?.1 he
    have := (k7 i e hi).2.1
    intro h0
    simp only at h0
    rw [h0] at this
    simp at this
    omega
  obtain ⟨bs, b1, -, -, b4, b5⟩ := stats_history hsp (c.inMemory m') hmod (fitnessAt m') (hs.map fun e => (e.1, e.2.1)) hne
  have hrows : s' = told (statsInMemory c better) hs ⟨none, []⟩ := by
    cases k3 with
    | returns => rfl
    | raises => rfl
    | @probeRaises e off _ _ hlt hstop hpipe hpr =>
      exfalso
      obtain ⟨-, -, ho⟩ := pipeline_grows m3 s3 p1 (cfg.choose (startGeneration + hs.length) p1) cfg.stages cfg.size
      rw [hpipe] at ho
      have hl := (ho off rfl).1
      simp only [statsInMemory, statsProbe, probeGeneration] at hpr
      rw [if_pos (by omega)] at hpr
      cases off with
      | nil => simp at hl; omega
      | cons y ys =>
        simp only [pyMax] at hpr
        rw [if_neg (show (c.inMemory m').modulo ≠ 0 from hmod)] at hpr
        split at hpr <;> simp at hpr
  have htold := history_stats c better k1 hf2.1.sound hp u4 ⟨none, []⟩ (by simp)
  refine ⟨hs.map fun e => (e.1, e.2.1), bs, by simpa using b1, ?_, b5, ?_, by rw [hseen]; exact k6, ?_, by simpa using k2, ?_⟩
  · rw [hrows, htold, b4]
    rfl
  · intro i call hc
    rw [List.getElem?_map] at hc
    cases he : hs[i]? with
    | none => rw [he] at hc; cases hc
    | some e =>
      rw [he] at hc
      cases hc
      exact ⟨(k7 i e he).1, (k7 i e he).2.1⟩
  · intro r hr
    rw [hseen] at hr
    obtain ⟨e, he, hre⟩ := List.mem_flatMap.1 hr
    exact ⟨(hentry e he r hre).1, member_same (intact_same (hentry e he r hre).2) (mem1 e he r hre)⟩
  · rintro out rfl
    cases k3 with
    | returns hor =>
      refine ⟨by simpa using hor, fun hk call hc => ?_, fun hw hk r hr => ?_⟩
      · rw [List.getLast?_map] at hc
        cases he : hs.getLast? with
        | none => rw [he] at hc; cases hc
        | some e =>
          rw [he] at hc
          cases hc
          exact history_last hk k1 e he
      · rw [hseen] at hr
        obtain ⟨e, he, hre⟩ := List.mem_flatMap.1 hr
        exact (history_best hw hk hsize k1 hf2.1.sound hp).2 e he r hre

/-! ## Two runs -/

/-- The sum of the genes; the random state counts the calls, and from call number `crash` on scoring raises. -/
def exLogSum (crash : Nat) : Prob Int Int ℚ Nat where
  evaluate c s := if crash ≤ s then (.error .valueError, s) else match c with
    | .raw g => (.ok g.sum, s + 1)
    | .value v => (.ok v, s + 1)
  evaluateMultiple cs s := (.ok (cs.map fun c => match c with | .raw g => (g.sum : ℚ) | .value v => (v : ℚ)), s)
  takesIndividuals := true

/-- Two genes; selection takes turns; one of the genes is flipped. -/
def exLog (crash : Nat) : EvoConfig Int Int ℚ Nat where
  worse a b := decide (a.getD 0 < b.getD 0)
  choose _ pop m := (.ok (m.rng % pop.length), m.rng + 1)
  stages := [.mutate (.ok ()) false (bitflipFn (some 1) none fun s => (if s % 5 < 3 then [1 / 4, 3 / 4] else [3 / 4, 1 / 4], s + 1)),
    .evaluate .identity (exLogSum crash)]
  size := 2
  kElites := 1
  stop _ _ _ := false

def exLogInit (s : Nat) : PyM (List Int) × Nat := (.ok [((s % 2 : Nat) : Int), 1], s + 1)

/-- A file with a row for every generation, one note, and the number of genes of the population as an extra metric. -/
def exLogStats : StatsConfig (Option (List Int × Option ℚ)) Nat :=
  ⟨false, [("genes", fun pop => (pop.map fun o => (o.map fun x => x.1.length).getD 0).sum)], none, [("note", "a")], 1⟩

def exLogStart : Mem Int Int ℚ Nat := ⟨[], [], [], 0, 0⟩

def exLogRun (crash : Nat) (generations : Int) : (PyM (List Nat) × StatsState Nat Nat) × Mem Int Int ℚ Nat :=
  loggedRun (exLog crash) (statsInMemory exLogStats fun a b => decide (b.getD 0 < a.getD 0)) exLogInit .identity (exLogSum crash) 0 2 0 generations
    ⟨none, []⟩ exLogStart

theorem exLogStats_hypotheses (crash : Nat) : exLogStats.modulo ≠ 0 ∧ StrictPartial (fun a b : Option ℚ => decide (b.getD 0 < a.getD 0)) ∧
    (∀ s g s', exLogInit s = (.ok g, s') → GenesIn 2 (fun _ x => x = 0 ∨ x = 1) g) ∧
    (∀ st ∈ (exLog crash).stages, StageOk 2 (fun _ x => x = 0 ∨ x = 1) (ScoredBy .identity (exLogSum crash)) st) ∧
    endsEvaluated (exLog crash).stages = true ∧ 1 ≤ (exLog crash).size ∧ Sound exLogStart ∧ StrictWeak (exLog crash).worse := by
  refine ⟨by decide, ⟨fun a => by simp, fun a b c => ?_⟩, ?_, ?_, rfl, by simp [exLog], ⟨by simp [exLogStart], by simp [exLogStart], by simp [exLogStart]⟩,
    ⟨?_, ?_⟩⟩
  · simp only [decide_eq_true_eq]
    intro h1 h2
    linarith
  · intro s g s' h
    simp only [exLogInit, Prod.mk.injEq, Except.ok.injEq] at h
    obtain ⟨rfl, rfl⟩ := h
    refine ⟨rfl, fun i x hx => ?_⟩
    have := List.mem_of_getElem? hx
    simp only [List.mem_cons, List.not_mem_nil, or_false] at this
    rcases this with rfl | rfl
    · omega
    · exact Or.inr rfl
  · intro st hst
    simp only [exLog, List.mem_cons, List.not_mem_nil, or_false] at hst
    rcases hst with rfl | rfl
    · exact bitflip_stage_ok _ _ _ _ _ _ _
    · exact evaluate_stage_ok _ _
  · intro a b
    simp only [exLog, decide_eq_true_eq, decide_eq_false_iff_not, not_lt]
    intro h; linarith
  · intro a b c
    simp only [exLog, decide_eq_false_iff_not, not_lt]
    intro h1 h2; linarith

/-- The run meets the hypotheses of `stats_log_any_outcome`. It returns after three generations, with a row for each. -/
example : (exLogRun 100 3).1.1.toOption = some [7, 2] ∧ (exLogRun 100 3).1.2.rows =
    [[.text "a", .step 0, .fit 2, .mean (3 / 2), .variance (1 / 4), .fit 1, .fit 2, .metric 4],
     [.text "a", .step 1, .fit 2, .mean 1, .variance 0, .fit 1, .fit 1, .metric 4],
     [.text "a", .step 2, .fit 2, .mean (3 / 2), .variance (1 / 4), .fit 1, .fit 2, .metric 4]] := by decide +kernel

/-- The same run with scoring that fails in the last generation: the rows of the two generations before it are there, and the best of
the first is the one they name; the interrupted generation has left an individual without a fitness. -/
example : (exLogRun 16 3).1.1 = .error .valueError ∧ (exLogRun 16 3).1.2.rows =
    [[.text "a", .step 0, .fit 2, .mean (3 / 2), .variance (1 / 4), .fit 1, .fit 2, .metric 4],
     [.text "a", .step 1, .fit 2, .mean 1, .variance 0, .fit 1, .fit 1, .metric 4]] ∧
    (exLogRun 16 3).1.2.bsf = some 2 ∧ fitness (exLogRun 16 3).2 2 = some (some 2) ∧ fitness (exLogRun 16 3).2 6 = some none := by
  decide +kernel

/-- C112, a gap in the log: the initial population and the elites kept from it do not pass the pipeline's probe. In this run, which meets all
hypotheses of `stats_log_any_outcome`, the best individual of the returned population has fitness 2, and the best so far in the last row
is 1. -/
theorem log_misses_elites :
    let run := loggedRun (exLog 100) (statsInMemory exLogStats fun a b => decide (b.getD 0 < a.getD 0)) (fun s => (.ok [1, 1], s + 1)) .identity
      (exLogSum 100) 0 2 0 1 ⟨none, []⟩ exLogStart
    (∃ out, run.1.1 = .ok out ∧ ∃ b ∈ out, fitness run.2 b = some (some 2)) ∧
    run.1.2.rows = [[.text "a", .step 0, .fit 1, .mean 1, .variance 0, .fit 1, .fit 1, .metric 4]] := by
  refine ⟨⟨[0, 2], ?_, 0, by simp, ?_⟩, ?_⟩ <;> decide +kernel

end Leap
