import Verif.Props.Genealogy
import Verif.Props.History
import Verif.Props.PlusValues
import Verif.Props.NsgaRun
import Verif.Props.Budget
import Verif.Model.WalkRun

/-!
# C109 and C111 for further algorithms

The records of parents in random search, in loops written by hand and in NSGA-II form family trees, as in `Props/Genealogy.lean`; and a loop written by hand does not depend on what
is in memory, as in `Props/History.lean`.
-/

namespace Leap

open Spec

section
variable {γ ψ φ ρ : Type}

/-! ### Random search -/

theorem walk_loop_tree (choose : Int → List Nat → Mem γ ψ φ ρ → PyM Nat × ρ) (stages : List (Stage γ ψ φ ρ)) (hst : ∀ st ∈ stages, notClone st = true) (size : Nat)
    {m0 : Mem γ ψ φ ρ} (h0 : Tied m0) {N : Nat} (fuel : Nat) :
    ∀ (g : Int) (ind : Nat) (traj out : List Nat) (j : Nat) (m m' : Mem γ ψ φ ρ), Pedigree m0 m (runTree m0 N) j → N ≤ j →
      (m0.inds.length ≤ ind ∧ ind < m.inds.length) → (∀ p ∈ traj, m0.inds.length ≤ p ∧ p < m.inds.length) →
      walkLoop choose stages size fuel g ind traj m = (.ok out, m') →
      ∃ j', Pedigree m0 m' (runTree m0 N) j' ∧ N ≤ j' ∧ ∀ p ∈ out, m0.inds.length ≤ p ∧ p < m'.inds.length := by
  induction fuel with
  | zero =>
    intro g ind traj out j m m' h hN _ ht e
    simp only [walkLoop, HM.pure_apply, Prod.mk.injEq, Except.ok.injEq] at e
    obtain ⟨rfl, rfl⟩ := e
    exact ⟨j, h, hN, ht⟩
  | succ fuel ih =>
    intro g ind traj out j m m' h hN hi ht e
    unfold walkLoop at e
    rcases e1 : runPipeline [ind] (choose g [ind]) stages size m with ⟨x, m1⟩
    rw [e1] at e
    cases x with
    | error err => simp at e
    | ok off =>
      cases off with
      | nil => simp at e
      | cons next more =>
        simp only at e
        obtain ⟨k, h1, q1⟩ := pedigree_generation h0 h hN [ind] (by simpa using hi) _ stages hst size (next :: more) e1
        have l := pedigree_inds h
        have l1 := pedigree_inds h1
        refine ih (g + 1) next _ out (j + k) m1 m' h1 (by omega) (q1 next (by simp)) (fun r hr => ?_) e
        rcases List.mem_append.1 hr with h | h
        · have := ht r h
          omega
        · exact q1 r h

/-- **C111**, `random_search`: the trajectory it returns is a family tree over the first individual. -/
theorem walk_run_lineage (choose : Int → List Nat → Mem γ ψ φ ρ → PyM Nat × ρ) (stages : List (Stage γ ψ φ ρ)) (hst : ∀ st ∈ stages, notClone st = true) (size : Nat)
    (initGenome : ρ → PyM (List γ) × ρ) (dec : Dec γ ψ) (prob : Prob γ ψ φ ρ) (problem : Nat) (evaluations : Int) (m m' : Mem γ ψ φ ρ) (hm : Sound m) (out : List Nat)
    (h : walkRun choose stages size initGenome dec prob problem evaluations m = (.ok out, m')) :
    FamilyTree m m' 1 ∧ m.inds.length + 1 ≤ m'.inds.length ∧ (∀ r ∈ out, m.inds.length ≤ r ∧ r < m'.inds.length) ∧
    ∀ r, m.inds.length ≤ r → r < m'.inds.length → Rooted m' (fun f => m.inds.length ≤ f ∧ f < m.inds.length + 1) r := by
  obtain ⟨first, m1, e1, h⟩ := bind_ok h
  obtain ⟨_, m2, e2, h⟩ := bind_ok h
  obtain ⟨h1, q1⟩ := pedigree_create initGenome problem 1 0 m m1 first (pedigree_refl m (runTree m 1)) (fun i _ hi => ⟨fun _ => rfl, fun h => absurd h (by omega)⟩) e1
  have h2 := pedigree_same h1 ((keeps_evaluatePopulation dec prob first).ok e2)
  have l1 := pedigree_inds h1
  have l2 := pedigree_inds h2
  have hq : ∀ p ∈ first, m.inds.length ≤ p ∧ p < m2.inds.length := fun p hp => by have := q1 p hp; omega
  have hfirst : first ≠ [] := by
    rintro rfl
    have := (free_createPopulation (calls := fun _ : ρ => 0) (γ := γ) (ψ := ψ) (φ := φ) (fun _ => rfl) problem 1 m).2.2 [] (by rw [e1])
    simp at this
  obtain ⟨j, h3, hN, q3⟩ := walk_loop_tree choose stages hst size hm.parents _ _ _ first out _ m2 m' h2 (by omega) (by
    cases first with
    | nil => exact absurd rfl hfirst
    | cons a l => exact hq a (by simp)) hq h
  have t := pedigree_tree hm h3 hN
  exact ⟨t, by rw [pedigree_inds h3]; omega, q3, family_tree_rooted t⟩

/-! ### Loops written by hand -/

theorem survive_mem (cfg : PlusConfig γ ψ φ ρ) {off p p1 : List Nat} {m m' : Mem γ ψ φ ρ} (h : survive cfg off p m = (.ok p1, m')) :
    (∀ r ∈ p1, r ∈ off ∨ r ∈ p) ∧ SameTree m m' := by
  unfold survive at h
  split at h
  · simp only [Prod.mk.injEq, Except.ok.injEq] at h
    obtain ⟨rfl, rfl⟩ := h
    exact ⟨fun r hr => List.mem_append.1 (topk_mem hr), ⟨rfl, rfl, rfl⟩⟩
  · simp only [Prod.mk.injEq] at h
    obtain ⟨h, rfl⟩ := h
    obtain ⟨child, rest, parent, rfl, e, rfl⟩ := insertion_cases h
    refine ⟨fun r hr => ?_, ⟨rfl, rfl, rfl⟩⟩
    rcases List.mem_or_eq_of_mem_set hr with hr | rfl
    · exact .inr hr
    · split
      · exact .inr (List.mem_of_getElem? e)
      · exact .inl (by simp)

theorem plus_loop_tree (cfg : PlusConfig γ ψ φ ρ) (hst : ∀ g, ∀ st ∈ cfg.stages g, notClone st = true) {m0 : Mem γ ψ φ ρ} (h0 : Tied m0) {N : Nat} (fuel : Nat) :
    ∀ (g : Int) (parents out : List Nat) (j : Nat) (m m' : Mem γ ψ φ ρ), Pedigree m0 m (runTree m0 N) j → N ≤ j →
      (∀ p ∈ parents, m0.inds.length ≤ p ∧ p < m.inds.length) → plusLoop cfg fuel g parents m = (.ok out, m') →
      ∃ j', Pedigree m0 m' (runTree m0 N) j' ∧ N ≤ j' ∧ ∀ p ∈ out, m0.inds.length ≤ p ∧ p < m'.inds.length := by
  induction fuel with
  | zero =>
    intro g parents out j m m' h hN hp e
    simp only [plusLoop, HM.pure_apply, Prod.mk.injEq, Except.ok.injEq] at e
    obtain ⟨rfl, rfl⟩ := e
    exact ⟨j, h, hN, hp⟩
  | succ fuel ih =>
    intro g parents out j m m' h hN hp e
    obtain ⟨p1, m2, es, e⟩ := bind_ok e
    obtain ⟨off, m1, e1, es⟩ := bind_ok es
    obtain ⟨k, h1, q1⟩ := pedigree_generation h0 h hN parents hp _ (cfg.stages g) (hst g) _ off e1
    obtain ⟨hs, ht⟩ := survive_mem cfg es
    have h2 := pedigree_same h1 ht
    have l := pedigree_inds h
    have l1 := pedigree_inds h1
    have l2 := pedigree_inds h2
    refine ih (g + 1) p1 out (j + k) m2 m' h2 (by omega) (fun r hr => ?_) e
    rcases hs r hr with h | h
    · have := q1 r h; omega
    · have := hp r h; omega

/-- **C111**, evolution loops written by hand: with either survival operator, and operators that may change from generation to generation. -/
theorem plus_run_lineage (cfg : PlusConfig γ ψ φ ρ) (hst : ∀ g, ∀ st ∈ cfg.stages g, notClone st = true) (initGenome : ρ → PyM (List γ) × ρ) (dec : Dec γ ψ) (prob : Prob γ ψ φ ρ)
    (problem popSize : Nat) (maxGenerations : Int) (m m' : Mem γ ψ φ ρ) (hm : Sound m) (out : List Nat)
    (h : plusRun cfg initGenome dec prob problem popSize maxGenerations m = (.ok out, m')) :
    FamilyTree m m' popSize ∧ m.inds.length + popSize ≤ m'.inds.length ∧ (∀ r ∈ out, m.inds.length ≤ r ∧ r < m'.inds.length) ∧
    ∀ r, m.inds.length ≤ r → r < m'.inds.length → Rooted m' (fun f => m.inds.length ≤ f ∧ f < m.inds.length + popSize) r := by
  obtain ⟨parents, m1, e1, h⟩ := bind_ok h
  obtain ⟨_, m2, e2, h⟩ := bind_ok h
  obtain ⟨h1, q1⟩ := pedigree_create initGenome problem popSize 0 m m1 parents (pedigree_refl m (runTree m popSize))
    (fun i _ hi => ⟨fun _ => rfl, fun h => absurd h (by omega)⟩) e1
  have h2 := pedigree_same h1 ((keeps_evaluatePopulation dec prob parents).ok e2)
  have l1 := pedigree_inds h1
  have l2 := pedigree_inds h2
  obtain ⟨j, h3, hN, q3⟩ := plus_loop_tree cfg hst hm.parents _ _ parents out _ m2 m' h2 (by omega) (fun p hp => by have := q1 p hp; omega) h
  have t := pedigree_tree hm h3 hN
  exact ⟨t, by rw [pedigree_inds h3]; omega, q3, family_tree_rooted t⟩

variable {o : Mem γ ψ φ ρ}

theorem same_survive (cfg : PlusConfig γ ψ φ ρ) (off par : List Nat) :
    Same o (·.map (· + o.inds.length)) (survive cfg off par) (survive cfg (off.map (· + o.inds.length)) (par.map (· + o.inds.length))) := by
  intro m
  rw [survive_outlive, survive_outlive, outlive_map (ρ := ρ) (· + o.inds.length) (lt := cfg.lt m) (gt := cfg.gt m) (fun a b => by simp only [PlusConfig.lt, fitness_after])
    (fun a b => by simp only [PlusConfig.gt, PlusConfig.lt, fitness_after])]
  change (Except.map _ (outlive (cfg.lt m) (cfg.gt m) off par cfg.survival m.rng).1, _) = _
  simp only [show (after o m).rng = m.rng from rfl]
  rcases outlive (cfg.lt m) (cfg.gt m) off par cfg.survival m.rng with ⟨(e | S), s⟩ <;> rfl

theorem same_plusLoop (cfg : PlusConfig γ ψ φ ρ) (hc : ∀ g, ByAppearance (cfg.choose g)) (fuel : Nat) :
    ∀ g parents, Same o (·.map (· + o.inds.length)) (plusLoop cfg fuel g parents) (plusLoop cfg fuel g (parents.map (· + o.inds.length))) := by
  induction fuel with
  | zero => intro g parents; exact same_pure rfl
  | succ fuel ih =>
    intro g parents
    unfold plusLoop plusStep
    refine same_bind (same_bind ?_ fun off => same_survive cfg off parents) fun p1 => ih (g + 1) p1
    rw [List.length_map]
    exact same_runPipeline parents (fun m => byAppearance_after (hc g) o m parents) (cfg.stages g) _

/-- **C109** (evolution loops written by hand). -/
theorem plus_run_history_free (cfg : PlusConfig γ ψ φ ρ) (hc : ∀ g, ByAppearance (cfg.choose g)) (initGenome : ρ → PyM (List γ) × ρ) (dec : Dec γ ψ) (prob : Prob γ ψ φ ρ)
    (problem popSize : Nat) (max : Int) :
    RunsAlike (plusRun cfg initGenome dec prob problem popSize max) (fun m out => out.map (looks m)) ∧ LeavesOlder (plusRun cfg initGenome dec prob problem popSize max) := by
  have h : ∀ o, Same o (·.map (· + o.inds.length)) (plusRun cfg initGenome dec prob problem popSize max) (plusRun cfg initGenome dec prob problem popSize max) := fun o =>
    same_bind (same_createPopulation initGenome problem popSize) fun ps => same_bind (same_evaluatePopulation dec prob ps) fun _ => same_plusLoop cfg hc _ _ ps
  exact ⟨runsAlike_of_same (fun _ => _) (fun k => List.map (· + k)) _ h (fun o m a => looks_map_after o m a), leavesOlder_of_same (fun _ => _) (fun k => List.map (· + k)) h⟩

end

/-! ### NSGA-II -/

section
variable {γ ψ ρ : Type}

theorem crowdObjective_members (f : Nat → ℚ) (mx : Bool) (first : Nat) (rest : List Nat) (st : List Nat × (Nat → WithTop ℚ)) (h : ∀ r ∈ st.1, r ∈ first :: rest) :
    ∀ r ∈ (crowdObjective f mx first rest st).1, r ∈ first :: rest := by
  intro r hr
  unfold crowdObjective at hr
  simp only at hr
  split at hr
  · exact h r hr
  · exact (sortedAsc_perm _ _).subset hr

theorem perRank_members {fitness : Nat → List ℚ} {ms : List Bool} {pop : List Nat} {d d' : Nat → WithTop ℚ} {out : List Nat}
    (h : perRankCrowding fitness ms pop d = .ok (out, d')) : ∀ r ∈ out, r ∈ pop := by
  unfold perRankCrowding at h
  cases pop with
  | nil =>
    simp only at h
    split at h
    · simp only [Except.ok.injEq, Prod.mk.injEq] at h
      simp [← h.1]
    · simp at h
  | cons first rest =>
    simp only [Except.ok.injEq] at h
    have key : ∀ (l : List (Bool × Nat)) (st : List Nat × (Nat → WithTop ℚ)), (∀ r ∈ st.1, r ∈ first :: rest) →
        ∀ r ∈ (l.foldl (fun st mj => crowdObjective (objective fitness mj.2) mj.1 first rest st) st).1, r ∈ first :: rest := by
      intro l
      induction l with
      | nil => intro st hst; exact hst
      | cons a l ih => intro st hst; exact ih _ (crowdObjective_members _ _ _ _ _ hst)
    have hk := key ms.zipIdx ([], (first :: rest).foldl (fun d x => setAttr d x 0) d) (by simp)
    rw [h] at hk
    exact hk

theorem crowdRanks_members {fitness : Nat → List ℚ} {ms : List Bool} {rank : Nat → Nat} {pop : List Nat} : ∀ (keys : List Nat) (acc : List Nat × (Nat → WithTop ℚ))
    {out : List Nat} {d' : Nat → WithTop ℚ}, (∀ r ∈ acc.1, r ∈ pop) → crowdRanks fitness ms rank pop keys acc = .ok (out, d') → ∀ r ∈ out, r ∈ pop := by
  intro keys
  induction keys with
  | nil =>
    intro acc out d' ha h
    simp only [crowdRanks, Except.ok.injEq] at h
    rw [h] at ha
    exact ha
  | cons k keys ih =>
    intro acc out d' ha h
    unfold crowdRanks at h
    cases hp : perRankCrowding fitness ms (pop.filter fun x => rank x = k) acc.2 with
    | error e => rw [hp] at h; exact absurd h (by simp [bind, Except.bind])
    | ok res =>
      rw [hp] at h
      refine ih _ (fun r hr => ?_) h
      rcases List.mem_append.1 hr with hr | hr
      · exact ha r hr
      · exact (List.mem_filter.1 (perRank_members (out := res.1) (d' := res.2) hp r hr)).1

theorem nsga_survive_members {maximize : Nat → List Bool} {multi : Nat → Bool} {fitness : Nat → List ℚ} {off par kept : List Nat} {rank rank' : Nat → Nat}
    {distance distance' : Nat → WithTop ℚ} (h : nsga2Survive maximize multi fitness off par rank distance = .ok (kept, rank', distance')) : ∀ r ∈ kept, r ∈ off ++ par := by
  unfold nsga2Survive at h
  cases hr : rankOrdinalSort maximize fitness off (some par) rank with
  | error e => rw [hr] at h; exact absurd h (by simp [bind, Except.bind])
  | ok ranked =>
    rw [hr] at h
    change (crowdingDistanceCalc maximize multi fitness ranked.2 ranked.1 distance >>= _) = _ at h
    cases hc : crowdingDistanceCalc maximize multi fitness ranked.2 ranked.1 distance with
    | error e => rw [hc] at h; exact absurd h (by simp [bind, Except.bind])
    | ok crowded =>
      rw [hc] at h
      simp only [bind, Except.bind, Except.ok.injEq, Prod.mk.injEq] at h
      obtain ⟨rfl, -, -⟩ := h
      intro r hk
      have h1 : r ∈ crowded.1 := topk_mem hk
      have h2 : r ∈ ranked.1 := by
        unfold crowdingDistanceCalc at hc
        cases hl : ranked.1 with
        | nil => rw [hl] at hc; simp at hc
        | cons first more =>
          rw [hl] at hc
          simp only at hc
          split at hc
          · exact crowdRanks_members _ _ (by simp) (out := crowded.1) (d' := crowded.2) hc r h1
          · simp at hc
      have h3 : ranked.1 = off ++ par := by
        unfold rankOrdinalSort at hr
        simp only [withParents] at hr
        cases hm : pyMapM (fun x => orientedRow (maximize x) (fitness x)) (off ++ par) with
        | error e => rw [hm] at hr; exact absurd hr (by simp [bind, Except.bind])
        | ok rows =>
          rw [hm] at hr
          simp only [bind, Except.bind] at hr
          split at hr
          · simp at hr
          · split at hr
            · split at hr
              · simp at hr
              · simp only [Except.ok.injEq] at hr
                rw [← hr]
            · simp at hr
      rwa [h3] at h2

theorem nsga_loop_tree (cfg : NsgaConfig γ ψ ρ) (hst : ∀ st ∈ cfg.stages, notClone st = true) {m0 : Mem γ ψ (List ℚ) ρ} (h0 : Tied m0) {N : Nat} (fuel : Nat) :
    ∀ (g : Int) (st out : NsgaState) (j : Nat) (m m' : Mem γ ψ (List ℚ) ρ), Pedigree m0 m (runTree m0 N) j → N ≤ j →
      (∀ p ∈ st.pop, m0.inds.length ≤ p ∧ p < m.inds.length) → nsgaLoop cfg fuel g st m = (.ok out, m') →
      ∃ j', Pedigree m0 m' (runTree m0 N) j' ∧ N ≤ j' ∧ ∀ p ∈ out.pop, m0.inds.length ≤ p ∧ p < m'.inds.length := by
  induction fuel with
  | zero =>
    intro g st out j m m' h hN hp e
    simp only [nsgaLoop, HM.pure_apply, Prod.mk.injEq, Except.ok.injEq] at e
    obtain ⟨rfl, rfl⟩ := e
    exact ⟨j, h, hN, hp⟩
  | succ fuel ih =>
    intro g st out j m m' h hN hp e
    unfold nsgaLoop at e
    split at e
    · simp only [Prod.mk.injEq, Except.ok.injEq] at e
      obtain ⟨rfl, rfl⟩ := e
      exact ⟨j, h, hN, hp⟩
    · obtain ⟨st1, m1, e1, e⟩ := bind_ok e
      unfold nsgaGeneration at e1
      rcases e2 : runPipeline st.pop (cfg.choose g st.rank st.distance st.pop) cfg.stages cfg.size m with ⟨x, m2⟩
      rw [e2] at e1
      cases x with
      | error err => simp at e1
      | ok off =>
        obtain ⟨k, h1, q1⟩ := pedigree_generation h0 h hN st.pop hp _ cfg.stages hst cfg.size off e2
        have l := pedigree_inds h
        have l1 := pedigree_inds h1
        simp only at e1
        cases hs : nsga2Survive (fun _ => cfg.maximize) (fun _ => true) (vectorOf m2) off st.pop st.rank st.distance with
        | error err => rw [hs] at e1; simp at e1
        | ok r =>
          obtain ⟨kept, rank, distance⟩ := r
          rw [hs] at e1
          simp only [Prod.mk.injEq, Except.ok.injEq] at e1
          obtain ⟨rfl, rfl⟩ := e1
          refine ih (g + 1) _ out (j + k) m2 m' h1 (by omega) (fun r hr => ?_) e
          have hmem := nsga_survive_members hs r hr
          rcases List.mem_append.1 hmem with h | h
          · exact q1 r h
          · have := hp r h; omega

/-- **C111**, `generalized_nsga_2`. -/
theorem nsga_run_lineage (cfg : NsgaConfig γ ψ ρ) (hst : ∀ st ∈ cfg.stages, notClone st = true) (isMulti : Bool) (initGenome : ρ → PyM (List γ) × ρ) (dec : Dec γ ψ)
    (prob : Prob γ ψ (List ℚ) ρ) (problem popSize : Nat) (start max : Int) (rank : Nat → Nat) (distance : Nat → WithTop ℚ) (m m' : Mem γ ψ (List ℚ) ρ) (hm : Sound m)
    (out : NsgaState) (h : nsgaRun cfg isMulti initGenome dec prob problem popSize start max rank distance m = (.ok out, m')) :
    FamilyTree m m' popSize ∧ m.inds.length + popSize ≤ m'.inds.length ∧ (∀ r ∈ out.pop, m.inds.length ≤ r ∧ r < m'.inds.length) ∧
    ∀ r, m.inds.length ≤ r → r < m'.inds.length → Rooted m' (fun f => m.inds.length ≤ f ∧ f < m.inds.length + popSize) r := by
  unfold nsgaRun at h
  split at h
  · obtain ⟨parents, m1, e1, h⟩ := bind_ok h
    obtain ⟨_, m2, e2, h⟩ := bind_ok h
    obtain ⟨h1, q1⟩ := pedigree_create initGenome problem popSize 0 m m1 parents (pedigree_refl m (runTree m popSize))
      (fun i _ hi => ⟨fun _ => rfl, fun h => absurd h (by omega)⟩) e1
    have h2 := pedigree_same h1 ((keeps_evaluatePopulation dec prob parents).ok e2)
    have l1 := pedigree_inds h1
    have l2 := pedigree_inds h2
    obtain ⟨j, h3, hN, q3⟩ := nsga_loop_tree cfg hst hm.parents _ _ _ out _ m2 m' h2 (by omega) (fun p hp => by have := q1 p hp; omega) h
    have t := pedigree_tree hm h3 hN
    exact ⟨t, by rw [pedigree_inds h3]; omega, q3, family_tree_rooted t⟩
  · simp at h

end

/-! ### Examples -/

/-- Like `exTree`, for a loop written by hand: two parents, one offspring each. -/
def exTreePlus : PlusConfig Int Int Int Nat :=
  ⟨exTree.worse, fun a b => decide (a = b), exTree.choose, fun _ => exTree.stages, 1, .truncation⟩

/-- The hypotheses of `plus_run_lineage` hold of this run of two generations; the records it leaves. -/
example : (∀ g, ∀ st ∈ exTreePlus.stages g, notClone st = true) ∧ Sound exStart ∧
    ((plusRun exTreePlus exInit .identity exSum 0 2 2 exStart).1.toOption.map fun _ =>
      (List.range 6).map fun r => lineage (plusRun exTreePlus exInit .identity exSum 0 2 2 exStart).2 r) =
      some [some [], some [], some [0, 1], some [1, 0], some [2, 1], some [1, 2]] := by
  refine ⟨fun _ => ?_, ⟨by simp [exStart], by simp [exStart], by simp [exStart]⟩, ?_⟩
  · intro st hst
    simp only [exTreePlus, exTree, List.mem_cons, List.not_mem_nil, or_false] at hst
    rcases hst with rfl | rfl <;> rfl
  · decide +kernel

/-- Random search: each individual is the child of the one before. -/
example : (∀ st ∈ ([.evaluate .identity exSum] : List (Stage Int Int Int Nat)), notClone st = true) ∧
    ((walkRun (fun _ _ m => (.ok 0, m.rng)) [.evaluate .identity exSum] 1 exInit .identity exSum 0 4 exStart).1.toOption.map fun _ =>
      (List.range 4).map fun r => lineage (walkRun (fun _ _ m => (.ok 0, m.rng)) [.evaluate .identity exSum] 1 exInit .identity exSum 0 4 exStart).2 r) =
      some [some [], some [0], some [1], some [2]] := by
  refine ⟨?_, ?_⟩
  · intro st hst
    simp only [List.mem_cons, List.not_mem_nil, or_false] at hst
    subst hst; rfl
  · decide +kernel

/-- NSGA-II: the first generation has the initial individuals 0 to 2 for parents. -/
example : (∀ st ∈ (exNsgaRun exTwo).stages, notClone st = true) ∧ Sound exEmpty ∧
    ((nsgaRun (exNsgaRun exTwo) true exInit .identity exTwo 0 3 0 2 (fun _ => 0) (fun _ => 0) exEmpty).1.toOption.map fun _ =>
      (List.range 6).map fun r => ((lineage (nsgaRun (exNsgaRun exTwo) true exInit .identity exTwo 0 3 0 2 (fun _ => 0) (fun _ => 0) exEmpty).2 r).map List.length)) =
      some [some 0, some 0, some 0, some 1, some 1, some 1] := by
  refine ⟨?_, ⟨by simp [exEmpty], by simp [exEmpty], by simp [exEmpty]⟩, ?_⟩
  · intro st hst
    simp only [exNsgaRun, List.mem_cons, List.not_mem_nil, or_false] at hst
    rcases hst with rfl | rfl <;> rfl
  · decide +kernel

end Leap
