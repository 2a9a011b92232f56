import Verif.Model.NsgaRun
import Verif.Props.Nsga2
import Verif.Props.IslandRun

/-! # NSGA-II runs over the object memory (C90) -/

namespace Leap
open Spec

variable {γ ψ ρ : Type} {n : Nat} {allowed : Nat → γ → Prop} {truth : List γ → List ℚ → Prop}

open Classical in
/-- One generation from population `st` in memory `m` to `st'` in memory `m'`: the pipeline made `off`, all new; everybody gets their
non-domination rank and crowding distance; and of those whose rank has different vectors the best by rank and distance are kept, best first, as
many as there were parents. -/
def Spec.NsgaStepMem (cfg : NsgaConfig γ ψ ρ) (g : Int) (st : NsgaState) (m : Mem γ ψ (List ℚ) ρ) (st' : NsgaState)
    (m' : Mem γ ψ (List ℚ) ρ) : Prop :=
  ∃ off, runPipeline st.pop (cfg.choose g st.rank st.distance st.pop) cfg.stages cfg.size m = (.ok off, m') ∧
    off.length = cfg.size ∧ (off ++ st.pop).Nodup ∧ (∀ r ∈ off, m.inds.length ≤ r) ∧
    (∀ x ∈ off ++ st.pop, HasRank (moDominates cfg.maximize (vectorOf m')) (off ++ st.pop) x (st'.rank x)) ∧
    (∀ x ∈ off ++ st.pop, Crowding (vectorOf m') cfg.maximize (rankClass st'.rank (off ++ st.pop) (st'.rank x)) st'.distance) ∧
    KBest (crowdedWorse st'.rank st'.distance) st.pop.length
      (List.filter (fun x => decide (Spreads (vectorOf m') cfg.maximize.length (rankClass st'.rank (off ++ st.pop) (st'.rank x))))
        (off ++ st.pop)) st'.pop ∧
    BestFirst (crowdedWorse st'.rank st'.distance) st'.pop

theorem vectorOf_member {m : Mem γ ψ (List ℚ) ρ} {r : Nat} (h : Member n allowed truth m r) :
    ∃ g, genes m r = some g ∧ GenesIn n allowed g ∧ truth g (vectorOf m r) := by
  obtain ⟨g, f, h1, h2, h3, h4⟩ := h
  refine ⟨g, h1, h2, ?_⟩
  cases ho : m.inds[r]? with
  | none => simp [fitness, ho] at h3
  | some o =>
    have : o.fitness = some f := by simpa [fitness, ho] using h3
    simpa [vectorOf, ho, this] using h4

theorem nsga_survive_nil (maximize : Nat → List Bool) (multi : Nat → Bool) (fit : Nat → List ℚ) (rank : Nat → Nat) (distance : Nat → WithTop ℚ) :
    nsga2Survive maximize multi fit [] [] rank distance = .error .indexError := rfl

/-- C90: a generation that returns is as specified, and its survivors are members. -/
theorem nsga_generation_spec (cfg : NsgaConfig γ ψ ρ) (hms : cfg.maximize ≠ []) (hst : ∀ st ∈ cfg.stages, StageOk n allowed truth st)
    (hev : endsEvaluated cfg.stages = true) (hlen : ∀ g f, truth g f → f.length = cfg.maximize.length) (g : Int) (st st' : NsgaState)
    (m m' : Mem γ ψ (List ℚ) ρ) (hm : Sound m) (hnd : st.pop.Nodup) (hp : ∀ r ∈ st.pop, Member n allowed truth m r)
    (h : nsgaGeneration cfg g st m = (.ok st', m')) :
    NsgaStepMem cfg g st m st' m' ∧ Sound m' ∧ Unchanged m m' ∧ st'.pop.Nodup ∧ st'.pop.length ≤ st.pop.length ∧
    ∀ r ∈ st'.pop, Member n allowed truth m' r ∧ (r ∈ st.pop ∨ m.inds.length ≤ r) := by
  unfold nsgaGeneration at h
  rcases e : runPipeline st.pop (cfg.choose g st.rank st.distance st.pop) cfg.stages cfg.size m with ⟨x, m1⟩
  rw [e] at h
  cases x with
  | error err => simp at h
  | ok off =>
    simp only at h
    obtain ⟨s1, u1, l1, nd1, q1⟩ := pipeline_keeps_feasible m m1 hm st.pop (fun r hr => ((member_iff m r).1 (hp r hr)).1) _
      cfg.stages hst cfg.size off e
    have hmem : ∀ r ∈ off ++ st.pop, Member n allowed truth m1 r := by
      intro r hr
      rcases List.mem_append.1 hr with hr | hr
      · obtain ⟨-, -, a1, a2⟩ := q1 r hr
        exact (member_iff m1 r).2 ⟨a1, a2 hev⟩
      · exact member_unchanged hm u1 (hp r hr)
    have hall : (off ++ st.pop).Nodup := by
      refine List.nodup_append.2 ⟨nd1, hnd, fun a ha b hb hab => ?_⟩
      have h1 := (q1 a ha).1
      have h2 := member_lt (hp b hb)
      omega
    by_cases hne : off ++ st.pop = []
    · obtain ⟨h1, h2⟩ := List.append_eq_nil_iff.1 hne
      rw [h1, h2, nsga_survive_nil] at h
      simp at h
    · obtain ⟨kept, rank', distance', e2, r2, c2, k2, b2⟩ := nsga2_survivors cfg.maximize hms (fun _ => cfg.maximize) (fun _ => true) (vectorOf m1)
        off st.pop st.rank st.distance hne hall (fun _ _ => rfl) (fun _ _ => rfl) (fun x hx => by
          obtain ⟨g', -, -, ht⟩ := vectorOf_member (hmem x hx)
          exact hlen _ _ ht)
      rw [e2] at h
      simp only [Prod.mk.injEq, Except.ok.injEq] at h
      obtain ⟨rfl, rfl⟩ := h
      have hsub : kept.Subperm (off ++ st.pop) := by
        obtain ⟨rest, p1, -⟩ := k2
        exact ((List.sublist_append_left kept rest).subperm.trans p1.subperm).trans (List.filter_sublist).subperm
      refine ⟨⟨off, e, l1, hall, fun r hr => (q1 r hr).1, r2, c2, k2, b2⟩, s1, u1, nodup_of_subperm hsub hall, ?_, fun r hr => ⟨hmem r (hsub.subset hr), ?_⟩⟩
      · obtain ⟨rest, -, p2, -⟩ := k2
        simp only
        rw [p2]
        exact Nat.min_le_left _ _
      · rcases List.mem_append.1 (hsub.subset hr) with h | h
        · exact Or.inr (q1 r h).1
        · exact Or.inl h

/-- A number of generations. -/
inductive Spec.NsgaGens (cfg : NsgaConfig γ ψ ρ) : Nat → Int → NsgaState → Mem γ ψ (List ℚ) ρ → NsgaState → Mem γ ψ (List ℚ) ρ → Prop
  | zero (g st m) : NsgaGens cfg 0 g st m st m
  | succ {k g st m st1 m1 st' m'} (hs : cfg.stop g st.pop m = false) (h1 : NsgaStepMem cfg g st m st1 m1)
      (h2 : NsgaGens cfg k (g + 1) st1 m1 st' m') : NsgaGens cfg (k + 1) g st m st' m'

theorem nsga_loop_members (cfg : NsgaConfig γ ψ ρ) (hms : cfg.maximize ≠ []) (hst : ∀ st ∈ cfg.stages, StageOk n allowed truth st)
    (hev : endsEvaluated cfg.stages = true) (hlen : ∀ g f, truth g f → f.length = cfg.maximize.length) (fuel : Nat) :
    ∀ (g : Int) (st st' : NsgaState) (m m' : Mem γ ψ (List ℚ) ρ), Sound m → st.pop.Nodup → (∀ r ∈ st.pop, Member n allowed truth m r) →
      nsgaLoop cfg fuel g st m = (.ok st', m') →
      (∃ k, NsgaGens cfg k g st m st' m' ∧ (k = fuel ∨ k < fuel ∧ cfg.stop (g + k) st'.pop m' = true)) ∧
      Sound m' ∧ Unchanged m m' ∧ st'.pop.Nodup ∧ st'.pop.length ≤ st.pop.length ∧
      ∀ r ∈ st'.pop, Member n allowed truth m' r ∧ (r ∈ st.pop ∨ m.inds.length ≤ r) := by
  induction fuel with
  | zero =>
    intro g st st' m m' hm hnd hp h
    simp only [nsgaLoop, HM.pure_apply, Prod.mk.injEq, Except.ok.injEq] at h
    obtain ⟨rfl, rfl⟩ := h
    exact ⟨⟨0, .zero _ _ _, Or.inl rfl⟩, hm, unchanged_rng m m.rng, hnd, Nat.le_refl _, fun r hr => ⟨hp r hr, Or.inl hr⟩⟩
  | succ fuel ih =>
    intro g st st' m m' hm hnd hp h
    unfold nsgaLoop at h
    split at h
    · rename_i hs
      simp only [Prod.mk.injEq, Except.ok.injEq] at h
      obtain ⟨rfl, rfl⟩ := h
      exact ⟨⟨0, .zero _ _ _, Or.inr ⟨by omega, by simpa using hs⟩⟩, hm, unchanged_rng m m.rng, hnd, Nat.le_refl _, fun r hr => ⟨hp r hr, Or.inl hr⟩⟩
    · rename_i hs
      obtain ⟨st1, m1, e1, h⟩ := bind_ok h
      obtain ⟨g1, s1, u1, nd1, l1, q1⟩ := nsga_generation_spec cfg hms hst hev hlen g st st1 m m1 hm hnd hp e1
      obtain ⟨⟨k, gk, hk⟩, s2, u2, nd2, l2, q2⟩ := ih (g + 1) st1 st' m1 m' s1 nd1 (fun r hr => (q1 r hr).1) h
      have := (unchanged_length u1).1
      refine ⟨⟨k + 1, .succ (by simpa using hs) g1 gk, ?_⟩, s2, unchanged_then u1 u2, nd2, by omega, fun r hr => ⟨(q2 r hr).1, ?_⟩⟩
      · rcases hk with rfl | ⟨hk, hstop⟩
        · exact Or.inl rfl
        · refine Or.inr ⟨by omega, ?_⟩
          rw [← hstop]
          congr 1
          push_cast
          omega
      · rcases (q2 r hr).2 with h | h
        · exact (q1 r h).2
        · exact Or.inr (by omega)

/-- C90: run NSGA-II with any selection, any chain of operators that ends with an evaluation, any stop condition, any number of
generations and any random numbers, in a program that may hold other individuals. Whenever it returns: the population consists of different individuals,
never more than the initial ones, each made by this run, with acceptable genes and the problem's objective vector of exactly these genes; nothing that
existed before has changed; and the run was a number of generations as in `NsgaStepMem`, all that were asked for unless the stop condition ended
it. -/
theorem nsga_run_members (cfg : NsgaConfig γ ψ ρ) (hms : cfg.maximize ≠ []) (initGenome : ρ → PyM (List γ) × ρ) (dec : Dec γ ψ)
    (prob : Prob γ ψ (List ℚ) ρ) (hinit : ∀ s g s', initGenome s = (.ok g, s') → GenesIn n allowed g)
    (hst : ∀ st ∈ cfg.stages, StageOk n allowed (ScoredBy dec prob) st) (hev : endsEvaluated cfg.stages = true)
    (hlen : ∀ g f, ScoredBy dec prob g f → f.length = cfg.maximize.length) (isMulti : Bool)
    (problem popSize : Nat) (startGeneration maxGenerations : Int) (rank : Nat → Nat) (distance : Nat → WithTop ℚ) (m m' : Mem γ ψ (List ℚ) ρ)
    (hm : Sound m) (st : NsgaState)
    (h : nsgaRun cfg isMulti initGenome dec prob problem popSize startGeneration maxGenerations rank distance m = (.ok st, m')) :
    isMulti = true ∧ Unchanged m m' ∧ st.pop.Nodup ∧ st.pop.length ≤ popSize ∧
    (∀ r ∈ st.pop, m.inds.length ≤ r ∧ Member n allowed (ScoredBy dec prob) m' r) ∧
    ∃ parents m0, parents.length = popSize ∧ (∀ r ∈ parents, m.inds.length ≤ r ∧ Member n allowed (ScoredBy dec prob) m0 r) ∧
      ∃ k : Nat, NsgaGens cfg k startGeneration ⟨parents, rank, distance⟩ m0 st m' ∧
        (k = (maxGenerations - startGeneration).toNat ∨
          k < (maxGenerations - startGeneration).toNat ∧ cfg.stop (startGeneration + k) st.pop m' = true) := by
  unfold nsgaRun at h
  split at h
  swap
  · simp [HM.lift_apply] at h
  rename_i hmulti
  obtain ⟨parents, m1, e1, h⟩ := bind_ok h
  obtain ⟨_, m2, e2, h⟩ := bind_ok h
  obtain ⟨s1, u1, l1, nd1, r1, g1⟩ := createPopulation_good (truth := ScoredBy dec prob) initGenome hinit problem popSize m m1 hm parents e1
  obtain ⟨s2, sm2, a2, b2, n2, k2, -, p2⟩ := evaluatePopulation_members dec prob (fun g c s f _ hc hf => ⟨c, s, hc, hf⟩) parents m1 m2 s1 g1 e2
  have hmem : ∀ r ∈ parents, Member n allowed (ScoredBy dec prob) m2 r := fun r hr => (member_iff m2 r).2 ⟨k2 r (g1 r hr), p2 r hr⟩
  obtain ⟨l1', l2, l3⟩ := unchanged_length u1
  have u2 : Unchanged m m2 := by
    refine ⟨fun r hr => ?_, fun a ha => by rw [a2]; exact u1.arrays a ha, fun a ha => by rw [b2]; exact u1.sets a ha⟩
    rw [(sm2 r (fun hin => by have := (r1 r hin).1; omega)).1]
    exact u1.inds r hr
  obtain ⟨⟨k, hk1, hk2⟩, s3, u3, nd3, len3, q3⟩ := nsga_loop_members cfg hms hst hev hlen _ _ _ _ m2 m' s2 nd1 hmem h
  refine ⟨hmulti, unchanged_then u2 u3, nd3, by simpa [l1] using len3, fun r hr => ⟨?_, (q3 r hr).1⟩, parents, m2, l1,
    fun r hr => ⟨(r1 r hr).1, hmem r hr⟩, k, hk1, hk2⟩
  rcases (q3 r hr).2 with h | h
  · exact (r1 r h).1
  · omega

/-- C90: a problem that is not multi-objective is refused, and nothing has happened. -/
theorem nsga_run_refuses (cfg : NsgaConfig γ ψ ρ) (initGenome : ρ → PyM (List γ) × ρ) (dec : Dec γ ψ) (prob : Prob γ ψ (List ℚ) ρ)
    (problem popSize : Nat) (startGeneration maxGenerations : Int) (rank : Nat → Nat) (distance : Nat → WithTop ℚ) (m : Mem γ ψ (List ℚ) ρ) :
    nsgaRun cfg false initGenome dec prob problem popSize startGeneration maxGenerations rank distance m = (.error .assertionError, m) := rfl

/-! ## When runs return -/

/-- C90: a generation from a population that is not empty returns. -/
theorem nsga_generation_returns (cfg : NsgaConfig γ ψ ρ) (hms : cfg.maximize ≠ []) (hst : ∀ st ∈ cfg.stages, StageOk n allowed truth st)
    (hsl : ∀ st ∈ cfg.stages, StageLive n allowed st) (hev : endsEvaluated cfg.stages = true)
    (hlen : ∀ g f, truth g f → f.length = cfg.maximize.length) (hc : ∀ g rank distance, Picks n allowed truth (cfg.choose g rank distance))
    (g : Int) (st : NsgaState) (m : Mem γ ψ (List ℚ) ρ) (hm : Sound m) (hnd : st.pop.Nodup)
    (hp : ∀ r ∈ st.pop, Member n allowed truth m r) (hne : st.pop ≠ []) : ∃ st' m', nsgaGeneration cfg g st m = (.ok st', m') := by
  obtain ⟨off, m1, e⟩ := pipeline_returns m hm st.pop (fun r hr => ((member_iff m r).1 (hp r hr)).1) (cfg.choose g st.rank st.distance st.pop)
    (fun m1 u => hc g st.rank st.distance st.pop m1 hne fun r hr => member_unchanged hm u (hp r hr)) cfg.stages hst hsl cfg.size
  obtain ⟨s1, u1, l1, nd1, q1⟩ := pipeline_keeps_feasible m m1 hm st.pop (fun r hr => ((member_iff m r).1 (hp r hr)).1) _
    cfg.stages hst cfg.size off e
  have hmem : ∀ r ∈ off ++ st.pop, Member n allowed truth m1 r := by
    intro r hr
    rcases List.mem_append.1 hr with hr | hr
    · obtain ⟨-, -, a1, a2⟩ := q1 r hr
      exact (member_iff m1 r).2 ⟨a1, a2 hev⟩
    · exact member_unchanged hm u1 (hp r hr)
  have hall : (off ++ st.pop).Nodup := by
    refine List.nodup_append.2 ⟨nd1, hnd, fun a ha b hb hab => ?_⟩
    have h1 := (q1 a ha).1
    have h2 := member_lt (hp b hb)
    omega
  obtain ⟨kept, rank', distance', e2, -⟩ := nsga2_survivors cfg.maximize hms (fun _ => cfg.maximize) (fun _ => true) (vectorOf m1)
    off st.pop st.rank st.distance (by simp [hne]) hall (fun _ _ => rfl) (fun _ _ => rfl) (fun x hx => by
      obtain ⟨g', -, -, ht⟩ := vectorOf_member (hmem x hx)
      exact hlen _ _ ht)
  refine ⟨⟨kept, rank', distance'⟩, m1, ?_⟩
  unfold nsgaGeneration
  rw [e]
  simp only [e2]

theorem nsga_loop_returns (cfg : NsgaConfig γ ψ ρ) (hms : cfg.maximize ≠ []) (hst : ∀ st ∈ cfg.stages, StageOk n allowed truth st)
    (hsl : ∀ st ∈ cfg.stages, StageLive n allowed st) (hev : endsEvaluated cfg.stages = true)
    (hlen : ∀ g f, truth g f → f.length = cfg.maximize.length) (hc : ∀ g rank distance, Picks n allowed truth (cfg.choose g rank distance))
    (fuel : Nat) : ∀ (g : Int) (st : NsgaState) (m : Mem γ ψ (List ℚ) ρ), Sound m → st.pop.Nodup →
      (∀ r ∈ st.pop, Member n allowed truth m r) →
      (∃ st' m', nsgaLoop cfg fuel g st m = (.ok st', m')) ∨
      ∃ k st' m', k < fuel ∧ NsgaGens cfg k g st m st' m' ∧ st'.pop = [] := by
  induction fuel with
  | zero => intro g st m _ _ _; exact Or.inl ⟨st, m, rfl⟩
  | succ fuel ih =>
    intro g st m hm hnd hp
    by_cases hne : st.pop = []
    · exact Or.inr ⟨0, st, m, by omega, .zero _ _ _, hne⟩
    · unfold nsgaLoop
      split
      · exact Or.inl ⟨st, m, rfl⟩
      · rename_i hs
        obtain ⟨st1, m1, e1⟩ := nsga_generation_returns cfg hms hst hsl hev hlen hc g st m hm hnd hp hne
        obtain ⟨g1, s1, u1, nd1, l1, q1⟩ := nsga_generation_spec cfg hms hst hev hlen g st st1 m m1 hm hnd hp e1
        rw [bind_live e1]
        rcases ih (g + 1) st1 m1 s1 nd1 (fun r hr => (q1 r hr).1) with h | ⟨k, st', m', hk, gk, he⟩
        · exact Or.inl h
        · exact Or.inr ⟨k + 1, st', m', by omega, .succ (by simpa using hs) g1 gk, he⟩

/-- C90: when the initialiser returns acceptable genomes, the operators accept acceptable genomes, the problem scores them, and selection picks
somebody from every non-empty population of evaluated individuals, the run returns, or else some generation before the last left nobody. -/
theorem nsga_run_returns (cfg : NsgaConfig γ ψ ρ) (hms : cfg.maximize ≠ []) (initGenome : ρ → PyM (List γ) × ρ) (dec : Dec γ ψ)
    (prob : Prob γ ψ (List ℚ) ρ) (hinit : ∀ s, ∃ g, (initGenome s).1 = .ok g ∧ GenesIn n allowed g)
    (hst : ∀ st ∈ cfg.stages, StageOk n allowed (ScoredBy dec prob) st) (hsl : ∀ st ∈ cfg.stages, StageLive n allowed st)
    (hev : endsEvaluated cfg.stages = true) (hlen : ∀ g f, ScoredBy dec prob g f → f.length = cfg.maximize.length)
    (hd : ∀ g, GenesIn n allowed g → ∃ c, decodeOf dec g = .ok c ∧ ∀ s, ∃ f, (prob.evaluate c s).1 = .ok f)
    (hc : ∀ g rank distance, Picks n allowed (ScoredBy dec prob) (cfg.choose g rank distance))
    (problem popSize : Nat) (startGeneration maxGenerations : Int) (rank : Nat → Nat) (distance : Nat → WithTop ℚ) (m : Mem γ ψ (List ℚ) ρ)
    (hm : Sound m) :
    (∃ st m', nsgaRun cfg true initGenome dec prob problem popSize startGeneration maxGenerations rank distance m = (.ok st, m')) ∨
    ∃ parents m0 k st m', parents.length = popSize ∧ k < (maxGenerations - startGeneration).toNat ∧
      NsgaGens cfg k startGeneration ⟨parents, rank, distance⟩ m0 st m' ∧ st.pop = [] := by
  have hinit' : ∀ s g s', initGenome s = (.ok g, s') → GenesIn n allowed g := by
    intro s g s' h
    obtain ⟨g', h1, h2⟩ := hinit s
    rw [h] at h1
    cases h1
    exact h2
  obtain ⟨parents, m1, e1⟩ : ∃ parents m1, createPopulation initGenome problem popSize m = (.ok parents, m1) := by
    rcases drawn_or_raises initGenome popSize m.rng with ⟨gs, s', hd⟩ | ⟨j, gs, s1, e, s2, h1, h2, h3⟩
    · obtain ⟨out, m1, e1, -⟩ := create_population_spec initGenome problem popSize m hm gs s' hd
      exact ⟨out, m1, e1⟩
    · obtain ⟨g, hg, -⟩ := hinit s1
      rw [h3] at hg
      cases hg
  obtain ⟨s1, u1, l1, nd1, r1, g1⟩ := createPopulation_good (truth := ScoredBy dec prob) initGenome hinit' problem popSize m m1 hm parents e1
  obtain ⟨m2, e2⟩ := evaluatePopulation_returns dec prob hd parents m1 s1 g1
  obtain ⟨s2, sm2, a2, b2, n2, k2, -, p2⟩ := evaluatePopulation_members dec prob (fun g c s f _ hc hf => ⟨c, s, hc, hf⟩) parents m1 m2 s1 g1 e2
  rcases nsga_loop_returns cfg hms hst hsl hev hlen hc (maxGenerations - startGeneration).toNat startGeneration ⟨parents, rank, distance⟩ m2 s2 nd1
    (fun r hr => (member_iff m2 r).2 ⟨k2 r (g1 r hr), p2 r hr⟩) with ⟨st, m', e3⟩ | ⟨k, st, m', hk, gk, he⟩
  · refine Or.inl ⟨st, m', ?_⟩
    unfold nsgaRun
    rw [if_pos rfl, bind_live e1]
    exact (bind_live (f := fun _ => nsgaLoop cfg (maxGenerations - startGeneration).toNat startGeneration ⟨parents, rank, distance⟩) e2).trans e3
  · exact Or.inr ⟨parents, m2, k, st, m', l1, hk, gk, he⟩

/-- C90: NSGA-II cannot be run on a problem that gives everybody the same objective vector: the first generation leaves nobody. -/
theorem nsga_constant_extinct (cfg : NsgaConfig γ ψ ρ) (hms : cfg.maximize ≠ []) (hst : ∀ st ∈ cfg.stages, StageOk n allowed truth st)
    (hev : endsEvaluated cfg.stages = true) (c : List ℚ) (hlen : c.length = cfg.maximize.length) (hconst : ∀ g f, truth g f → f = c)
    (g : Int) (st st' : NsgaState) (m m' : Mem γ ψ (List ℚ) ρ) (hm : Sound m) (hnd : st.pop.Nodup)
    (hp : ∀ r ∈ st.pop, Member n allowed truth m r) (h : nsgaGeneration cfg g st m = (.ok st', m')) : st'.pop = [] := by
  classical
  obtain ⟨⟨off, e, -, -, hnew, -, -, ⟨rest, hperm, -⟩, -⟩, -⟩ := nsga_generation_spec cfg hms hst hev
    (fun g f ht => by rw [hconst g f ht, hlen]) g st st' m m' hm hnd hp h
  obtain ⟨s1, u1, -, -, q1⟩ := pipeline_keeps_feasible m m' hm st.pop (fun r hr => ((member_iff m r).1 (hp r hr)).1) _
    cfg.stages hst cfg.size off e
  have hmem : ∀ x ∈ off ++ st.pop, vectorOf m' x = c := by
    intro x hx
    have : Member n allowed truth m' x := by
      rcases List.mem_append.1 hx with hx | hx
      · obtain ⟨-, -, a1, a2⟩ := q1 x hx
        exact (member_iff m' x).2 ⟨a1, a2 hev⟩
      · exact member_unchanged hm u1 (hp x hx)
    obtain ⟨g', -, -, ht⟩ := vectorOf_member this
    exact hconst _ _ ht
  have : (List.filter (fun x => decide (Spreads (vectorOf m') cfg.maximize.length (rankClass st'.rank (off ++ st.pop) (st'.rank x))))
        (off ++ st.pop)) = [] := by
    rw [List.filter_eq_nil_iff]
    intro x hx hsp
    rw [decide_eq_true_eq] at hsp
    obtain ⟨j, -, a, ha, b, hb, hab⟩ := hsp
    apply hab
    rw [rankClass, List.mem_filter] at ha hb
    simp only [objective, hmem a ha.1, hmem b hb.1]
  rw [this] at hperm
  have := hperm.length_eq
  simp only [List.length_append, List.length_nil] at this
  exact List.length_eq_zero_iff.1 (by omega)

/-! ## Runs -/

/-- Two objectives in conflict: the sum of the genes, and the first gene counted against. -/
def exTwo : Prob Int Int (List ℚ) Nat where
  evaluate c s := match c with
    | .raw g => (.ok [(g.sum : ℚ), -((g.headD 0 : Int) : ℚ)], s + 1)
    | .value v => (.ok [(v : ℚ), 0], s + 1)
  evaluateMultiple cs s := (.ok (cs.map fun _ => [0, 0]), s)
  takesIndividuals := true

/-- Everybody is equally good. -/
def exFlat : Prob Int Int (List ℚ) Nat := { exTwo with evaluate := fun _ s => (.ok [1, 1], s + 1) }

def exNsgaRun (prob : Prob Int Int (List ℚ) Nat) : NsgaConfig Int Int Nat where
  maximize := [true, true]
  choose _ _ _ pop m := if pop = [] then (.error .indexError, m.rng) else (.ok (m.rng % pop.length), m.rng + 1)
  stages := [.mutate (.ok ()) false (bitflipFn (some 1) none fun s => (if s % 5 < 3 then [1 / 4, 3 / 4] else [3 / 4, 1 / 4], s + 1)),
    .evaluate .identity prob]
  size := 3
  stop _ _ _ := false

def exEmpty : Mem Int Int (List ℚ) Nat := ⟨[], [], [], 0, 0⟩

set_option synthInstance.maxSize 1000 in
set_option synthInstance.maxHeartbeats 100000 in
/-- A run that meets the hypotheses of `nsga_run_members` and `nsga_run_returns`. -/
example :
    (∀ s, ∃ g, (exInit s).1 = .ok g ∧ GenesIn 2 (fun _ x => x = 0 ∨ x = 1) g) ∧
    (∀ st ∈ (exNsgaRun exTwo).stages, StageOk 2 (fun _ x => x = 0 ∨ x = 1) (ScoredBy .identity exTwo) st) ∧
    (∀ st ∈ (exNsgaRun exTwo).stages, StageLive 2 (fun _ x => x = 0 ∨ x = 1) st) ∧
    endsEvaluated (exNsgaRun exTwo).stages = true ∧ (exNsgaRun exTwo).maximize ≠ [] ∧ Sound exEmpty ∧
    (∀ g f, ScoredBy .identity exTwo g f → f.length = (exNsgaRun exTwo).maximize.length) ∧
    (∀ g rank distance, Picks 2 (fun _ x => x = 0 ∨ x = 1) (ScoredBy .identity exTwo) ((exNsgaRun exTwo).choose g rank distance)) ∧
    ((nsgaRun (exNsgaRun exTwo) true exInit .identity exTwo 0 3 0 2 (fun _ => 0) (fun _ => 0) exEmpty).1.toOption.map fun st =>
      st.pop.map fun r => (genes (nsgaRun (exNsgaRun exTwo) true exInit .identity exTwo 0 3 0 2 (fun _ => 0) (fun _ => 0) exEmpty).2 r, st.rank r)) =
      some [(some [1, 1], 1), (some [0, 0], 1), (some [0, 0], 1)] := by
  refine ⟨?_, ?_, ?_, rfl, by simp [exNsgaRun], ⟨by simp [exEmpty], by simp [exEmpty], by simp [exEmpty]⟩, ?_, ?_, ?_⟩
  · intro s
    refine ⟨_, rfl, rfl, fun i x hx => ?_⟩
    have := List.mem_of_getElem? hx
    simp only [List.mem_cons, List.not_mem_nil, or_false] at this
    rcases this with rfl | rfl
    · omega
    · exact Or.inl rfl
  · intro st hst
    simp only [exNsgaRun, List.mem_cons, List.not_mem_nil, or_false] at hst
    rcases hst with rfl | rfl
    · exact bitflip_stage_ok _ _ _ _ _ _ _
    · exact evaluate_stage_ok _ _
  · intro st hst
    simp only [exNsgaRun, List.mem_cons, List.not_mem_nil, or_false] at hst
    rcases hst with rfl | rfl
    · exact bitflip_stage_live _ _ _ _ (1 / 2) (Or.inr ⟨rfl, by decide, 1, rfl, by norm_num⟩) (by norm_num) (by norm_num)
        (fun s => by split <;> rfl) _
    · exact fun g _ => ⟨_, rfl, fun s => ⟨_, rfl⟩⟩
  · rintro g f ⟨c, s, -, hf⟩
    cases c <;> (simp only [exTwo, Except.ok.injEq] at hf; subst hf; rfl)
  · exact fun g rank distance pop m hne _ => ⟨m.rng % pop.length, by simp only [exNsgaRun, if_neg hne], Nat.mod_lt _ (List.length_pos_iff.2 hne)⟩
  · decide +kernel

/-- C90: the run that cannot be run. One generation leaves nobody, two raise. -/
theorem nsga_flat_run :
    ((nsgaRun (exNsgaRun exFlat) true exInit .identity exFlat 0 3 0 1 (fun _ => 0) (fun _ => 0) exEmpty).1.map fun st => st.pop) = .ok [] ∧
    ((nsgaRun (exNsgaRun exFlat) true exInit .identity exFlat 0 3 0 2 (fun _ => 0) (fun _ => 0) exEmpty).1.map fun st => st.pop) =
      .error .indexError := by decide +kernel

end Leap
