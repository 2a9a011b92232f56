import Verif.Model.WalkRun
import Verif.Props.Search

/-!
# C108: random search
-/

namespace Leap
open Spec

variable {γ ψ φ ρ S X : Type} {n : Nat} {allowed : Nat → γ → Prop} {truth : List γ → φ → Prop}

/-- The loop adds `size` new individuals per step and touches none of the old ones. -/
theorem walk_loop_members (choose : Int → List Nat → Mem γ ψ φ ρ → PyM Nat × ρ) (stages : List (Stage γ ψ φ ρ)) (size : Nat)
    (hst : ∀ st ∈ stages, StageOk n allowed truth st) (hev : endsEvaluated stages = true) (fuel : Nat) :
    ∀ (g : Int) (r : Nat) (traj : List Nat) (m m' : Mem γ ψ φ ρ) (out : List Nat), Sound m → Member n allowed truth m r →
      walkLoop choose stages size fuel g r traj m = (.ok out, m') →
      Sound m' ∧ Unchanged m m' ∧ ∃ new, out = traj ++ new ∧ new.length = fuel * size ∧ new.Nodup ∧
        ∀ x ∈ new, m.inds.length ≤ x ∧ Member n allowed truth m' x := by
  induction fuel with
  | zero =>
    intro g r traj m m' out hm hr h
    simp only [walkLoop, HM.pure_apply, Prod.mk.injEq, Except.ok.injEq] at h
    obtain ⟨rfl, rfl⟩ := h
    exact ⟨hm, ⟨fun _ _ => rfl, fun _ _ => rfl, fun _ _ => rfl⟩, [], by simp, by simp, List.nodup_nil, by simp⟩
  | succ fuel ih =>
    intro g r traj m m' out hm hr h
    unfold walkLoop at h
    rcases e : runPipeline [r] (choose g [r]) stages size m with ⟨o, m1⟩
    rw [e] at h
    rcases o with err | off
    · cases h
    cases off with
    | nil => cases h
    | cons c more =>
      simp only at h
      obtain ⟨s1, u1, l1, nd1, q1⟩ := pipeline_keeps_feasible m m1 hm [r]
        (by intro x hx; rw [List.mem_singleton.1 hx]; exact ((member_iff m r).1 hr).1) _ stages hst size (c :: more) e
      have hmem : ∀ x ∈ c :: more, Member n allowed truth m1 x := fun x hx => by
        obtain ⟨-, -, a1, a2⟩ := q1 x hx
        exact (member_iff m1 x).2 ⟨a1, a2 hev⟩
      obtain ⟨s2, u2, new, e2, l2, nd2, q2⟩ := ih (g + 1) c _ m1 m' out s1 (hmem c (by simp)) h
      have hlen := unchanged_length u1
      refine ⟨s2, unchanged_trans u1 u2 hlen.1 hlen.2.1 hlen.2.2, (c :: more) ++ new, by rw [e2]; simp, ?_, ?_, ?_⟩
      · rw [List.length_append, l1, l2, Nat.succ_mul]; omega
      · rw [List.nodup_append]
        refine ⟨nd1, nd2, ?_⟩
        rintro a ha b hb rfl
        have h1 := (q1 a ha).2.1
        have h2 := (q2 a hb).1
        omega
      · intro x hx
        rcases List.mem_append.1 hx with hx | hx
        · exact ⟨(q1 x hx).1, member_same (unchanged_same s1 u2 (q1 x hx).2.1) (hmem x hx)⟩
        · exact ⟨hlen.1.trans (q2 x hx).1, (q2 x hx).2⟩

/-- A first population, created and evaluated. -/
theorem created_members (initGenome : ρ → PyM (List γ) × ρ) (dec : Dec γ ψ) (prob : Prob γ ψ φ ρ)
    (hinit : ∀ s g s', initGenome s = (.ok g, s') → GenesIn n allowed g) (problem popSize : Nat) (m m1 m2 : Mem γ ψ φ ρ) (hm : Sound m)
    (parents : List Nat) (u : Unit) (e1 : createPopulation initGenome problem popSize m = (.ok parents, m1))
    (e2 : evaluatePopulation dec prob parents m1 = (.ok u, m2)) :
    Sound m2 ∧ Unchanged m m2 ∧ parents = List.range' m.inds.length popSize ∧ ∀ r ∈ parents, Member n allowed (ScoredBy dec prob) m2 r := by
  rcases drawn_or_raises initGenome popSize m.rng with ⟨gs, s', hd⟩ | ⟨j, gs, s1, e, s2, h1, h2, h3⟩
  swap
  · have := create_population_raises initGenome problem popSize j m gs s1 s2 e h1 h2 h3
    rw [e1] at this
    cases this
  have heff := create_population_effect initGenome problem popSize m gs s' hd
  obtain ⟨out', m1', e1', -, -, u1, s1, q1⟩ := create_population_spec initGenome problem popSize m hm gs s' hd
  have hp : parents = List.range' m.inds.length popSize := by rw [e1] at heff; cases heff; rfl
  rw [e1] at e1'
  simp only [Prod.mk.injEq, Except.ok.injEq] at e1'
  obtain ⟨rfl, rfl⟩ := e1'
  have hgood : ∀ r ∈ parents, GoodInd (GenesIn n allowed) (ScoredBy dec prob) m1 r := by
    intro r hr
    obtain ⟨i, hi⟩ := List.mem_iff_getElem?.1 hr
    obtain ⟨-, a2, -, o, a3, a4, -⟩ := q1 i r hi
    have hil : i < gs.length := by
      have := (List.getElem?_eq_some_iff.1 hi).1
      rw [hd.length]; rw [hp] at this; simpa using this
    rw [List.getElem?_eq_getElem hil] at a2
    exact ⟨gs[i], none, a2, by simp [fitness, a3, a4], drawn_all hinit hd _ (List.getElem_mem hil), by simp⟩
  obtain ⟨s2, sm2, a2, b2, n2, k2, -, p2⟩ := evaluatePopulation_members dec prob (fun g c s f _ hc hf => ⟨c, s, hc, hf⟩) parents m1 m2 s1 hgood e2
  have hmem : ∀ r ∈ parents, Member n allowed (ScoredBy dec prob) m2 r := fun r hr => (member_iff m2 r).2 ⟨k2 r (hgood r hr), p2 r hr⟩
  have hnd : parents.Nodup := by rw [hp]; exact List.nodup_range'
  obtain ⟨l1, l2, l3⟩ := unchanged_length u1
  have u2 : Unchanged m m2 := by
    refine ⟨fun r hr => ?_, fun a ha => by rw [a2]; exact u1.arrays a ha, fun a ha => by rw [b2]; exact u1.sets a ha⟩
    rw [(sm2 r (by rw [hp]; simp; omega)).1]
    exact u1.inds r hr
  exact ⟨s2, u2, hp, hmem⟩

/-- **C108** (trajectory). Whatever `random_search` returns is a list of `1 + (evaluations - 1) * size` different new individuals (one, for `evaluations` of 1 or less), each
of which still has, at the end, feasible genes of its own and the fitness its own genes were given; nothing that existed before has changed. -/
theorem walk_trajectory (choose : Int → List Nat → Mem γ ψ φ ρ → PyM Nat × ρ) (stages : List (Stage γ ψ φ ρ)) (size : Nat)
    (initGenome : ρ → PyM (List γ) × ρ) (dec : Dec γ ψ) (prob : Prob γ ψ φ ρ)
    (hinit : ∀ s g s', initGenome s = (.ok g, s') → GenesIn n allowed g)
    (hst : ∀ st ∈ stages, StageOk n allowed (ScoredBy dec prob) st) (hev : endsEvaluated stages = true)
    (problem : Nat) (evaluations : Int) (m m' : Mem γ ψ φ ρ) (hm : Sound m) (out : List Nat)
    (h : walkRun choose stages size initGenome dec prob problem evaluations m = (.ok out, m')) :
    Unchanged m m' ∧ out.Nodup ∧ out.length = 1 + (evaluations - 1).toNat * size ∧
    ∀ r ∈ out, m.inds.length ≤ r ∧ Member n allowed (ScoredBy dec prob) m' r := by
  obtain ⟨first, m1, e1, h⟩ := bind_ok h
  obtain ⟨u, m2, e2, h⟩ := bind_ok h
  obtain ⟨s2, u2, hp, hmem⟩ := created_members initGenome dec prob hinit problem 1 m m1 m2 hm first u e1 e2
  have hf : first = [m.inds.length] := by rw [hp]; rfl
  subst hf
  have hl := unchanged_length u2
  obtain ⟨s3, u3, new, e3, l3, nd3, q3⟩ := walk_loop_members choose stages size hst hev _ 1 m.inds.length [m.inds.length] m2 m' out s2
    (hmem _ (by simp)) h
  obtain ⟨g, f, hg, -⟩ := hmem m.inds.length (by simp)
  obtain ⟨-, -, -, hlt⟩ := genes_lt hg
  refine ⟨unchanged_trans u2 u3 hl.1 hl.2.1 hl.2.2, ?_, ?_, ?_⟩
  · rw [e3, List.singleton_append, List.nodup_cons]
    refine ⟨fun hx => ?_, nd3⟩
    have := (q3 _ hx).1
    omega
  · rw [e3, List.length_append, l3]; rfl
  · intro r hr
    rw [e3, List.singleton_append, List.mem_cons] at hr
    rcases hr with rfl | hr
    · exact ⟨Nat.le_refl _, member_same (unchanged_same s2 u3 hlt) (hmem _ (by simp))⟩
    · exact ⟨hl.1.trans (q3 r hr).1, (q3 r hr).2⟩

/-- Somebody in the list has the genes `target`. -/
def Spec.Found (target : List γ) (m : Mem γ ψ φ ρ) (out : List Nat) : Prop := ∃ r ∈ out, genes m r = some target

theorem walk_loop_chance [Finite X] [Nonempty X] (choose : Int → List Nat → Mem γ ψ φ (S × (Nat → X)) → PyM Nat × (S × (Nat → X)))
    (stages pre : List (Stage γ ψ φ (S × (Nat → X)))) (size : Nat)
    (check : PyM Unit) (stopOk : Bool) (h : List γ → X → List γ × PyM (Option (List γ))) (dec : Dec γ ψ) (prob : Prob γ ψ φ (S × (Nat → X)))
    (hstages : stages = pre ++ [.mutate check stopOk (drawing h), .evaluate dec prob])
    (hst : ∀ st ∈ stages, StageOk n allowed (ScoredBy dec prob) st)
    (hpre : ∀ st ∈ pre, StageBlind st) (hprob : ∀ c, BlindDraw (prob.evaluate c))
    (hchoose : ∀ g pop m t, choose g pop (retape t m) = ((choose g pop m).1, ((choose g pop m).2.1, t)))
    (target : List γ) (q : ℚ) (hq1 : q ≤ 1) (hq : ∀ g, GenesIn n allowed g → q ≤ chance fun x => mutated h g x = some target) (z : Nat → X) (G : Nat) :
    ∀ (g : Int) (parent : Nat) (traj : List Nat) (m : Mem γ ψ φ (S × (Nat → X))) (T : Nat), T = G * size → Sound m →
      Member n allowed (ScoredBy dec prob) m parent →
      chance (fun w : Fin T → X => ∃ out m', walkLoop choose stages size G g parent traj (retape (draws w z) m) = (.ok out, m') ∧ ¬ Found target m' out) ≤
        (1 - q) ^ T := by
  have hev : endsEvaluated stages = true := by rw [hstages]; simp [endsEvaluated, evaluates]
  induction G with
  | zero =>
    intro g parent traj m T hT _ _
    have : T = 0 := by omega
    subst this
    rw [pow_zero]
    exact chance_le_one _
  | succ G ih =>
    intro g parent traj m T hT hm hp
    have hT : T = size + G * size := by rw [hT]; ring
    have hgood : ∀ r ∈ [parent], GoodGenes n allowed m r := fun r hr => by
      obtain rfl := List.mem_singleton.1 hr
      obtain ⟨gg, f, h1, h2, -⟩ := hp
      exact ⟨gg, h1, h2⟩
    obtain ⟨up, hupdef⟩ : ∃ up, up = stagesIter (selectionIter [parent] (choose g [parent])) (Stage.clone :: pre) := ⟨_, rfl⟩
    have hiter : stagesIter (selectionIter [parent] (choose g [parent])) (Stage.clone :: stages) = bornFrom up check stopOk h dec prob := by
      rw [hstages, hupdef, ← List.cons_append, stagesIter_append]
      rfl
    have hupb : ∀ s, Blind (up.next s) := by
      rw [hupdef]
      refine stages_blind _ ?_ _ (selection_blind [parent] _ fun m t => hchoose g [parent] m t)
      intro st hs
      rcases List.mem_cons.1 hs with rfl | hs
      · trivial
      · exact hpre st hs
    have hupc : ∃ pend, Carries n allowed m up pend := by
      rw [hupdef]
      exact stages_carries hm pre (fun st hs => stageOk_weaken (hst st (by rw [hstages]; simp [hs]))) _ _ (clone_first_carries hm [parent] hgood _)
    obtain ⟨pend, hc⟩ := hupc
    have hcb : Carries n allowed m (bornFrom up check stopOk h dec prob) (fun s : Bool × up.σ => pend s.2) :=
      stage_carries hm _ _ (stage_carries hm up pend hc (.mutate check stopOk (drawing h))
        (stageOk_weaken (hst _ (by rw [hstages]; simp)))) (.evaluate dec prob) (fun _ _ _ _ _ _ _ => trivial)
    have hi : pend up.init = [] := hc.init
    have hnone : ∀ m1 : Mem γ ψ φ (S × (Nat → X)), ∀ p ∈ pend up.init, m.inds.length ≤ p ∧ GoodGenes n allowed m1 p := by
      intro m1 p hp
      rw [hi] at hp
      cases hp
    have hnil : (pend up.init).Nodup := by rw [hi]; exact List.nodup_nil
    have hrun : ∀ (t : Nat → X) off m1, runPipeline [parent] (choose g [parent]) stages size (retape t m) = (.ok off, m1) ↔
        ∃ s', hpull (bornFrom up check stopOk h dec prob).next size (bornFrom up check stopOk h dec prob).init (retape t m) =
          (.ok (off, s'), m1) := by
      intro t off m1
      show (hpull (stagesIter (selectionIter [parent] (choose g [parent])) (Stage.clone :: stages)).next size
        (stagesIter (selectionIter [parent] (choose g [parent])) (Stage.clone :: stages)).init >>= fun os => pure os.1) (retape t m) = _ ↔ _
      rw [hiter]
      constructor
      · intro hx
        obtain ⟨⟨os, s'⟩, m2, e1, hx⟩ := bind_ok hx
        simp only [HM.pure_apply, Prod.mk.injEq, Except.ok.injEq] at hx
        obtain ⟨rfl, rfl⟩ := hx
        exact ⟨s', e1⟩
      · rintro ⟨s', e⟩
        exact (bind_live e).trans rfl
    have hsame : ∀ t, Sound (retape t m) := fun t => ⟨hm.1, hm.2, hm.3⟩
    have hafter : ∀ (t : Nat → X) off m1, runPipeline [parent] (choose g [parent]) stages size (retape t m) = (.ok off, m1) →
        Sound m1 ∧ ∀ r ∈ off, Member n allowed (ScoredBy dec prob) m1 r := by
      intro t off m1 e
      have hp' : Member n allowed (ScoredBy dec prob) (retape t m) parent := member_same ⟨rfl, rfl⟩ hp
      obtain ⟨s1, -, -, -, q1⟩ := pipeline_keeps_feasible (retape t m) m1 (hsame t) [parent]
        (fun r hr => by rw [List.mem_singleton.1 hr]; exact ((member_iff _ parent).1 hp').1) _ stages hst size off e
      refine ⟨s1, fun r hr => ?_⟩
      obtain ⟨-, -, a1, a2⟩ := q1 r hr
      exact (member_iff m1 r).2 ⟨a1, a2 hev⟩
    refine le_trans (chance_mono fun w hx => ?_) (pull_chance (bornFrom up check stopOk h dec prob) target q hq1
      (fun (s : Bool × up.σ) m1 => Fresh m m1 ∧ (∀ p ∈ pend s.2, m.inds.length ≤ p ∧ GoodGenes n allowed m1 p) ∧ (pend s.2).Nodup)
      (fun s m1 t hI => ⟨fresh_rng hI.1 _, fun p hp => ⟨(hI.2.1 p hp).1, goodGenes_same ⟨rfl, rfl⟩ (hI.2.1 p hp).2⟩, hI.2.2⟩)
      ?_ ?_ ?_ z size (bornFrom up check stopOk h dec prob).init m
      (fun off m1 => ∃ c more out m', off = c :: more ∧ walkLoop choose stages size G (g + 1) c (traj ++ off) m1 = (.ok out, m') ∧
        ¬ Found target m' out) (G * size) T hT ⟨.refl m hm, hnone m, hnil⟩ ?_ ?_)
    · obtain ⟨out, m', e, hnr⟩ := hx
      unfold walkLoop at e
      rcases e1 : runPipeline [parent] (choose g [parent]) stages size (retape (draws w z) m) with ⟨o, m1⟩
      rw [e1] at e
      rcases o with err | off
      · cases e
      cases off with
      | nil => cases e
      | cons c more =>
        obtain ⟨s', e2⟩ := (hrun _ _ _).1 e1
        exact ⟨c :: more, s', m1, e2, c, more, out, m', rfl, e, hnr⟩
    · intro s m1 r s1 m2 hI e
      have o := hcb.step s m1 r s1 m2 hI.1 hI.2.1 hI.2.2 e
      exact ⟨o.fresh, fun p hp => (o.held p hp).2, o.nodup⟩
    · intro s m1 x t t' r s1 m2 e
      exact (birth_draws up hupb check stopOk h dec prob hprob s.1 s.2 m1 m2 x t r s1 e t').1
    · intro s m1 hI
      rcases e : up.next s.2 m1 with ⟨o, ma⟩
      cases o with
      | error err =>
        refine hq1.trans (le_of_eq ?_)
        rw [← chance_true (Ω := X)]
        refine chance_congr fun x => ⟨fun _ => ?_, fun _ => trivial⟩
        intro t r s1 m2 e1
        obtain ⟨-, ma', e2, -⟩ := birth_draws up hupb check stopOk h dec prob hprob s.1 s.2 m1 m2 x t r s1 e1 t
        rw [e] at e2
        cases e2
      | ok rs =>
        obtain ⟨r, s2⟩ := rs
        have o := hc.step s.2 m1 r s2 ma hI.1 hI.2.1 hI.2.2 e
        obtain ⟨gg, hg1, hg2⟩ := o.good
        refine (hq gg hg2).trans (chance_mono fun x hx => ?_)
        intro t r' s1 m2 e1
        obtain ⟨-, ma', e2, hgen⟩ := birth_draws up hupb check stopOk h dec prob hprob s.1 s.2 m1 m2 x t r' s1 e1 t
        rw [e] at e2
        simp only [Prod.mk.injEq, Except.ok.injEq] at e2
        obtain ⟨⟨rfl, -⟩, rfl⟩ := e2
        rw [hgen gg hg1, hx]
    · intro t off s' m1 e
      obtain ⟨s1, hmem⟩ := hafter t off m1 ((hrun _ _ _).2 ⟨s', e⟩)
      cases off with
      | nil =>
        rw [chance_false (by rintro w ⟨c, more, out, m', h1, -⟩; cases h1)]
        exact pow_nonneg (by linarith) _
      | cons c more =>
        refine le_trans (chance_mono fun w hx => ?_) (ih (g + 1) c (traj ++ c :: more) m1 (G * size) rfl s1 (hmem c (by simp)))
        obtain ⟨c', more', out, m', h1, h2, h3⟩ := hx
        cases h1
        exact ⟨out, m', h2, h3⟩
    · rintro t off s' m1 e hhit ⟨c, more, out, m', rfl, e2, hnr⟩
      apply hnr
      obtain ⟨s1, hmem⟩ := hafter t _ m1 ((hrun _ _ _).2 ⟨s', e⟩)
      obtain ⟨r, hr, hgr⟩ := hit_stays (bornFrom up check stopOk h dec prob) (fun s : Bool × up.σ => pend s.2) hcb target size
        (false, up.init) (retape t m) (c :: more) s' m1 (fresh_rng (.refl m hm) _) (hnone _) hnil e hhit
      obtain ⟨-, u2, new, e3, -⟩ := walk_loop_members choose stages size hst hev G (g + 1) c _ m1 m' out s1 (hmem c (by simp)) e2
      obtain ⟨-, -, -, hlt⟩ := genes_lt hgr
      refine ⟨r, by rw [e3]; simp only [List.mem_append]; exact .inl (.inr hr), ?_⟩
      rw [(unchanged_same s1 u2 hlt).2, hgr]

/-- The loop returns if every operator does. -/
theorem walk_loop_returns (choose : Int → List Nat → Mem γ ψ φ ρ → PyM Nat × ρ) (stages : List (Stage γ ψ φ ρ)) (size : Nat)
    (hst : ∀ st ∈ stages, StageOk n allowed truth st) (hsl : ∀ st ∈ stages, StageLive n allowed st) (hev : endsEvaluated stages = true) (hsize : 1 ≤ size)
    (hc : ∀ g r m, Member n allowed truth m r → (choose g [r] m).1 = .ok 0) (fuel : Nat) :
    ∀ (g : Int) (r : Nat) (traj : List Nat) (m : Mem γ ψ φ ρ), Sound m → Member n allowed truth m r →
      ∃ out m', walkLoop choose stages size fuel g r traj m = (.ok out, m') := by
  induction fuel with
  | zero => intro g r traj m _ _; exact ⟨traj, m, rfl⟩
  | succ fuel ih =>
    intro g r traj m hm hr
    have hr' := hr
    obtain ⟨gg, f, hg, -⟩ := hr'
    obtain ⟨-, -, -, hlt⟩ := genes_lt hg
    have hgood : ∀ x ∈ [r], GoodInd (GenesIn n allowed) truth m x := fun x hx => by rw [List.mem_singleton.1 hx]; exact ((member_iff m r).1 hr).1
    obtain ⟨off, m1, e⟩ := pipeline_returns m hm [r] hgood (choose g [r])
      (fun m1 hu => ⟨0, hc g r m1 (member_same (unchanged_same hm hu hlt) hr), by simp⟩) stages hst hsl size
    obtain ⟨s1, u1, l1, -, q1⟩ := pipeline_keeps_feasible m m1 hm [r] hgood _ stages hst size off e
    unfold walkLoop
    rw [e]
    cases off with
    | nil => simp at l1; omega
    | cons c more =>
      obtain ⟨-, -, a1, a2⟩ := q1 c (by simp)
      exact ih (g + 1) c _ m1 s1 ((member_iff m1 c).2 ⟨a1, a2 hev⟩)

/-- **C108** (chance). If the mutation makes the target out of any genome with chance at least `q`, the trajectory of `random_search` holds the target with chance at least
`1 - (1 - q) ^ ((evaluations - 1) * size)`. -/
theorem walk_chance [Finite X] [Nonempty X] (choose : Int → List Nat → Mem γ ψ φ (S × (Nat → X)) → PyM Nat × (S × (Nat → X)))
    (stages pre : List (Stage γ ψ φ (S × (Nat → X)))) (size : Nat)
    (check : PyM Unit) (stopOk : Bool) (h : List γ → X → List γ × PyM (Option (List γ))) (dec : Dec γ ψ) (prob : Prob γ ψ φ (S × (Nat → X)))
    (initGenome : S × (Nat → X) → PyM (List γ) × (S × (Nat → X)))
    (hstages : stages = pre ++ [.mutate check stopOk (drawing h), .evaluate dec prob])
    (hst : ∀ st ∈ stages, StageOk n allowed (ScoredBy dec prob) st) (hsl : ∀ st ∈ stages, StageLive n allowed st)
    (hpre : ∀ st ∈ pre, StageBlind st) (hprob : ∀ c, BlindDraw (prob.evaluate c)) (hib : BlindDraw initGenome)
    (hinit : ∀ s, ∃ g, (initGenome s).1 = .ok g ∧ GenesIn n allowed g)
    (hchoose : ∀ g pop m t, choose g pop (retape t m) = ((choose g pop m).1, ((choose g pop m).2.1, t)))
    (hpick : ∀ g r m, (choose g [r] m).1 = .ok 0) (hsize : 1 ≤ size)
    (target : List γ) (q : ℚ) (hq1 : q ≤ 1) (hq : ∀ g, GenesIn n allowed g → q ≤ chance fun x => mutated h g x = some target)
    (problem : Nat) (steps : Nat) (m : Mem γ ψ φ (S × (Nat → X))) (hm : Sound m) (z : Nat → X) :
    1 - (1 - q) ^ (steps * size) ≤ chance fun w : Fin (steps * size) → X =>
      ∃ out m', walkRun choose stages size initGenome dec prob problem (steps + 1) (retape (draws w z) m) = (.ok out, m') ∧ Found target m' out := by
  have hev : endsEvaluated stages = true := by rw [hstages]; simp [endsEvaluated, evaluates]
  have hd : ∀ g, GenesIn n allowed g → ∃ c, decodeOf dec g = .ok c ∧ ∀ s, ∃ f, (prob.evaluate c s).1 = .ok f :=
    hsl (.evaluate dec prob) (by rw [hstages]; simp)
  obtain ⟨first, m1, m2, e1, e2, s2, -, hne, hmem⟩ := first_population initGenome dec prob hinit hd problem 1 (by decide) m hm
  obtain ⟨r, rest, rfl⟩ : ∃ r rest, first = r :: rest := by
    cases first with
    | nil => exact absurd rfl hne
    | cons r rest => exact ⟨r, rest, rfl⟩
  have hrun : ∀ t, walkRun choose stages size initGenome dec prob problem (steps + 1) (retape t m) =
      walkLoop choose stages size steps 1 r (r :: rest) (retape t m2) := by
    intro t
    have b1 := createPopulation_blind (γ := γ) (ψ := ψ) (φ := φ) initGenome hib problem 1 m t
    have b2 := evaluatePopulation_blind dec prob hprob (r :: rest) m1 t
    rw [e1] at b1
    rw [e2] at b2
    rw [walkRun, bind_live b1, bind_live b2]
    have : ((steps : Int) + 1 - 1).toNat = steps := by omega
    rw [this]
    rfl
  have hr := hmem r (by simp)
  have hb := walk_loop_chance choose stages pre size check stopOk h dec prob hstages hst hpre hprob hchoose target q hq1 hq z steps
    1 r (r :: rest) m2 (steps * size) rfl s2 hr
  have hne' : Nonempty (Fin (steps * size) → X) := inferInstance
  have : chance (fun w : Fin (steps * size) → X => ¬ ∃ out m', walkRun choose stages size initGenome dec prob problem (steps + 1)
      (retape (draws w z) m) = (.ok out, m') ∧ Found target m' out) ≤ (1 - q) ^ (steps * size) := by
    refine le_trans (chance_mono fun w hx => ?_) hb
    obtain ⟨out, m', e⟩ := walk_loop_returns choose stages size hst hsl hev hsize (fun g r m _ => hpick g r m) steps 1 r (r :: rest)
      (retape (draws w z) m2) ⟨s2.1, s2.2, s2.3⟩ (member_same ⟨rfl, rfl⟩ hr)
    exact ⟨out, m', e, fun hf => hx ⟨out, m', by rw [hrun, e], hf⟩⟩
  rw [chance_not] at this
  linarith

/-- One step of a walk whose only operators are a mutation and an evaluation: the new individual has the mutated genes of the previous one. -/
theorem walk_step (choose : Mem γ ψ φ (S × (Nat → X)) → PyM Nat × (S × (Nat → X)))
    (check : PyM Unit) (stopOk : Bool) (h : List γ → X → List γ × PyM (Option (List γ))) (dec : Dec γ ψ) (prob : Prob γ ψ φ (S × (Nat → X)))
    (hst : StageOk n allowed (ScoredBy dec prob) (.mutate check stopOk (drawing h) : Stage γ ψ φ (S × (Nat → X))))
    (hprob : ∀ c, BlindDraw (prob.evaluate c)) (hchoose : ∀ m t, choose (retape t m) = ((choose m).1, ((choose m).2.1, t)))
    (m m1 : Mem γ ψ φ (S × (Nat → X))) (hm : Sound m) (r : Nat) (hr : Member n allowed (ScoredBy dec prob) m r) (g : List γ) (hg : genes m r = some g)
    (out : List Nat) (e : runPipeline [r] choose [.mutate check stopOk (drawing h), .evaluate dec prob] 1 m = (.ok out, m1)) :
    Sound m1 ∧ Unchanged m m1 ∧ ∃ c g', out = [c] ∧ Member n allowed (ScoredBy dec prob) m1 c ∧ genes m1 c = some g' ∧ ∃ x, mutated h g x = some g' := by
  obtain ⟨s1, u1, l1, -, q1⟩ := pipeline_keeps_feasible m m1 hm [r]
    (by intro x hx; rw [List.mem_singleton.1 hx]; exact ((member_iff m r).1 hr).1) _ _
    (by intro st hs
        simp only [List.mem_cons, List.not_mem_nil, or_false] at hs
        rcases hs with rfl | rfl
        · exact hst
        · exact evaluate_stage_ok dec prob) 1 out e
  obtain ⟨c, rfl⟩ := List.length_eq_one_iff.1 l1
  obtain ⟨-, -, a1, a2⟩ := q1 c (by simp)
  have hc := (member_iff m1 c).2 ⟨a1, a2 (by simp [endsEvaluated, evaluates])⟩
  have hc' := hc
  obtain ⟨g', f, hg', -⟩ := hc'
  refine ⟨s1, u1, c, g', rfl, hc, hg', m.rng.2 0, ?_⟩
  -- the only birth
  set up : HIter (Mem γ ψ φ (S × (Nat → X))) := Stage.clone.apply (selectionIter [r] choose) with hup
  have hupb : ∀ s, Blind (up.next s) :=
    stages_blind [Stage.clone] (by intro st hs; rw [List.mem_singleton.1 hs]; trivial) _ (selection_blind [r] choose hchoose)
  obtain ⟨⟨os, s'⟩, m2, e1, e⟩ := bind_ok e
  simp only [HM.pure_apply, Prod.mk.injEq, Except.ok.injEq] at e
  obtain ⟨rfl, rfl⟩ := e
  obtain ⟨⟨c1, s2⟩, m3, e2, e1⟩ := bind_ok e1
  obtain ⟨⟨os, s3⟩, m4, e3, e1⟩ := bind_ok e1
  simp only [hpull, HM.pure_apply, Prod.mk.injEq, Except.ok.injEq] at e3
  obtain ⟨⟨rfl, rfl⟩, rfl⟩ := e3
  simp only [HM.pure_apply, Prod.mk.injEq, Except.ok.injEq, List.cons.injEq, and_true] at e1
  obtain ⟨⟨rfl, rfl⟩, rfl⟩ := e1
  have htape : retape (before (m.rng.2 0) fun i => m.rng.2 (i + 1)) m = m := by
    have : before (m.rng.2 0) (fun i => m.rng.2 (i + 1)) = m.rng.2 := by
      funext i; cases i <;> rfl
    rw [this, retape_self]
  have e2' : (bornFrom up check stopOk h dec prob).next (false, up.init) (retape (before (m.rng.2 0) fun i => m.rng.2 (i + 1)) m) = (.ok (c1, s2), m3) := by
    rw [htape]; exact e2
  obtain ⟨-, ma, e4, hgen⟩ := birth_draws up hupb check stopOk h dec prob hprob false up.init m m3 _ _ c1 s2 e2' (fun i => m.rng.2 (i + 1))
  -- the clone has the genes of the parent
  have hcl : genes ma c1 = some g := by
    obtain ⟨⟨r1, t1⟩, mb, e5, e4⟩ := bind_ok (pep_ok e4)
    obtain ⟨c2, mc, e6, e4⟩ := bind_ok e4
    simp only [HM.pure_apply, Prod.mk.injEq, Except.ok.injEq] at e4
    obtain ⟨⟨rfl, -⟩, rfl⟩ := e4
    have hsel : r1 = r ∧ ∃ q, mb = { m with rng := q } := by
      simp only [selectionIter] at e5
      rcases hch : choose m with ⟨x, q⟩
      rw [hch] at e5
      cases x with
      | error err => simp at e5
      | ok i =>
        cases hpi : [r][i]? with
        | none => simp [hpi] at e5
        | some y =>
          simp only [hpi, Prod.mk.injEq, Except.ok.injEq] at e5
          have hy := List.mem_singleton.1 (List.mem_of_getElem? hpi)
          exact ⟨(congrArg Prod.fst e5.1).symm.trans hy, q, e5.2.symm⟩
    obtain ⟨rfl, q, rfl⟩ := hsel
    have hgood : GoodInd (· = g) (fun _ _ => True) ({ m with rng := q } : Mem γ ψ φ (S × (Nat → X))) r1 := by
      obtain ⟨o, ho, -, -⟩ := genes_lt hg
      exact ⟨g, o.fitness, hg, by simp [fitness, ho], rfl, fun _ _ => trivial⟩
    have hs : Sound ({ m with rng := q } : Mem γ ψ φ (S × (Nat → X))) := ⟨hm.1, hm.2, hm.3⟩
    obtain ⟨rfl, h2, h3, -⟩ := cloneInd_good (m0 := { m with rng := q }) ⟨.refl _ hs, fun r h1 h2 => by omega⟩ hgood e6
    obtain ⟨g1, fo, hg1, -, rfl, -⟩ := h3.2 _ (Nat.le_refl _) (by omega)
    exact hg1
  rw [← hgen g hcl, hg']

/-- `b` has the genes that the mutation `h` makes, with some draw, of the genes of `a`. -/
def Spec.MutantOf (h : List γ → X → List γ × PyM (Option (List γ))) (m : Mem γ ψ φ ρ) (a b : Nat) : Prop :=
  ∃ g g' x, genes m a = some g ∧ genes m b = some g' ∧ mutated h g x = some g'

theorem mutantOf_later {h : List γ → X → List γ × PyM (Option (List γ))} {m m1 : Mem γ ψ φ ρ} (hm : Sound m) (u : Unchanged m m1) {a b : Nat}
    (hab : MutantOf h m a b) : MutantOf h m1 a b := by
  obtain ⟨g, g', x, h1, h2, h3⟩ := hab
  obtain ⟨-, -, -, l1⟩ := genes_lt h1
  obtain ⟨-, -, -, l2⟩ := genes_lt h2
  exact ⟨g, g', x, by rw [(unchanged_same hm u l1).2, h1], by rw [(unchanged_same hm u l2).2, h2], h3⟩

theorem walk_loop_chain (choose : Int → List Nat → Mem γ ψ φ (S × (Nat → X)) → PyM Nat × (S × (Nat → X)))
    (check : PyM Unit) (stopOk : Bool) (h : List γ → X → List γ × PyM (Option (List γ))) (dec : Dec γ ψ) (prob : Prob γ ψ φ (S × (Nat → X)))
    (hst : StageOk n allowed (ScoredBy dec prob) (.mutate check stopOk (drawing h) : Stage γ ψ φ (S × (Nat → X))))
    (hprob : ∀ c, BlindDraw (prob.evaluate c)) (hchoose : ∀ g pop m t, choose g pop (retape t m) = ((choose g pop m).1, ((choose g pop m).2.1, t))) (fuel : Nat) :
    ∀ (i : Int) (r : Nat) (traj : List Nat) (m m' : Mem γ ψ φ (S × (Nat → X))) (out : List Nat), Sound m → Member n allowed (ScoredBy dec prob) m r →
      traj.getLast? = some r → traj.IsChain (MutantOf h m) →
      walkLoop choose [.mutate check stopOk (drawing h), .evaluate dec prob] 1 fuel i r traj m = (.ok out, m') →
      Unchanged m m' ∧ out.head? = traj.head? ∧ out.IsChain (MutantOf h m') := by
  induction fuel with
  | zero =>
    intro i r traj m m' out _ _ _ htr h
    simp only [walkLoop, HM.pure_apply, Prod.mk.injEq, Except.ok.injEq] at h
    obtain ⟨rfl, rfl⟩ := h
    exact ⟨⟨fun _ _ => rfl, fun _ _ => rfl, fun _ _ => rfl⟩, rfl, htr⟩
  | succ fuel ih =>
    intro i r traj m m' out hm hr hlast htr hw
    have hr' := hr
    obtain ⟨g, f, hg, -⟩ := hr'
    unfold walkLoop at hw
    rcases e : runPipeline [r] (choose i [r]) [.mutate check stopOk (drawing h), .evaluate dec prob] 1 m with ⟨o, m1⟩
    rw [e] at hw
    rcases o with err | off
    · cases hw
    obtain ⟨s1, u1, c, g', rfl, hc, hg', x, hx⟩ := walk_step (choose i [r]) check stopOk h dec prob hst hprob (hchoose i [r]) m m1 hm r hr g hg off e
    obtain ⟨-, -, -, hlt⟩ := genes_lt hg
    obtain ⟨u2, h2, h3⟩ := ih (i + 1) c (traj ++ [c]) m1 m' out s1 hc (by simp)
      (by
        refine List.IsChain.append (htr.imp fun _ _ => mutantOf_later hm u1) (by simp) ?_
        intro a ha b hb
        rw [hlast] at ha
        cases ha; cases hb
        exact ⟨g, g', x, by rw [(unchanged_same hm u1 hlt).2, hg], hg', hx⟩) hw
    have hl := unchanged_length u1
    refine ⟨unchanged_trans u1 u2 hl.1 hl.2.1 hl.2.2, ?_, h3⟩
    rw [h2]
    cases traj with
    | nil => simp at hlast
    | cons a t => rfl

/-- **C108** (each from the one before). In a walk whose operators are a mutation and an evaluation, every individual but the first has the genes that the mutation made of the genes of
the individual just before it in the trajectory. -/
theorem walk_each_from_previous (choose : Int → List Nat → Mem γ ψ φ (S × (Nat → X)) → PyM Nat × (S × (Nat → X)))
    (check : PyM Unit) (stopOk : Bool) (h : List γ → X → List γ × PyM (Option (List γ))) (dec : Dec γ ψ) (prob : Prob γ ψ φ (S × (Nat → X)))
    (initGenome : S × (Nat → X) → PyM (List γ) × (S × (Nat → X))) (hinit : ∀ s g s', initGenome s = (.ok g, s') → GenesIn n allowed g)
    (hst : StageOk n allowed (ScoredBy dec prob) (.mutate check stopOk (drawing h) : Stage γ ψ φ (S × (Nat → X))))
    (hprob : ∀ c, BlindDraw (prob.evaluate c)) (hchoose : ∀ g pop m t, choose g pop (retape t m) = ((choose g pop m).1, ((choose g pop m).2.1, t)))
    (problem : Nat) (evaluations : Int) (m m' : Mem γ ψ φ (S × (Nat → X))) (hm : Sound m) (out : List Nat)
    (hrun : walkRun choose [.mutate check stopOk (drawing h), .evaluate dec prob] 1 initGenome dec prob problem evaluations m = (.ok out, m')) :
    (∃ r g, out.head? = some r ∧ genes m' r = some g ∧ GenesIn n allowed g) ∧
    ∀ i a b, out[i]? = some a → out[i + 1]? = some b → MutantOf h m' a b := by
  obtain ⟨first, m1, e1, hrun⟩ := bind_ok hrun
  obtain ⟨u, m2, e2, hrun⟩ := bind_ok hrun
  obtain ⟨s2, -, hp, hmem⟩ := created_members initGenome dec prob hinit problem 1 m m1 m2 hm first u e1 e2
  have hf : first = [m.inds.length] := by rw [hp]; rfl
  subst hf
  have hr := hmem m.inds.length (by simp)
  obtain ⟨u3, hh, hc⟩ := walk_loop_chain choose check stopOk h dec prob hst hprob hchoose _ 1 m.inds.length [m.inds.length] m2 m' out s2 hr rfl (by simp) hrun
  obtain ⟨g, f, hg, hG, -⟩ := hr
  obtain ⟨-, -, -, hlt⟩ := genes_lt hg
  refine ⟨⟨m.inds.length, g, hh, by rw [(unchanged_same s2 u3 hlt).2, hg], hG⟩, fun i a b ha hb => ?_⟩
  have := List.isChain_iff_getElem.1 hc i (by have := (List.getElem?_eq_some_iff.1 hb).1; omega)
  obtain ⟨_, rfl⟩ := List.getElem?_eq_some_iff.1 ha
  obtain ⟨_, rfl⟩ := List.getElem?_eq_some_iff.1 hb
  exact this

/-- All bits the other way round. -/
def Spec.complement (g : List Int) : List Int := g.map fun x => 1 - x

/-- **C108** (the documented pipeline). The pipeline in the documentation of `random_search` asks for as many mutations as there are bits. Every bit is then flipped at every step, so
the trajectory, however long, only goes to and fro between the first genome and its complement. -/
theorem documented_walk_two_genomes {n N : Nat} (hn : 0 < n) (choose : Int → List Nat → Mem Int ψ φ (S × (Nat → (Fin n → Fin N))) → PyM Nat × (S × (Nat → (Fin n → Fin N))))
    (dec : Dec Int ψ) (prob : Prob Int ψ φ (S × (Nat → (Fin n → Fin N)))) (initGenome : S × (Nat → (Fin n → Fin N)) → PyM (List Int) × (S × (Nat → (Fin n → Fin N))))
    (hinit : ∀ s g s', initGenome s = (.ok g, s') → GenesIn n (fun _ x => x = 0 ∨ x = 1) g) (hprob : ∀ c, BlindDraw (prob.evaluate c))
    (hchoose : ∀ g pop m t, choose g pop (retape t m) = ((choose g pop m).1, ((choose g pop m).2.1, t)))
    (stopOk : Bool) (problem : Nat) (evaluations : Int) (m m' : Mem Int ψ φ (S × (Nat → (Fin n → Fin N)))) (hm : Sound m) (out : List Nat)
    (h : walkRun choose [.mutate (.ok ()) stopOk (bitflipFn (some n) none (flipNumbers S)), .evaluate dec prob] 1 initGenome dec prob problem evaluations m =
      (.ok out, m')) :
    ∃ g, ∀ i r, out[i]? = some r → genes m' r = some (if i % 2 = 0 then g else complement g) := by
  rw [bitflip_drawing] at h
  have hst : StageOk n (fun _ x => x = 0 ∨ x = 1) (ScoredBy dec prob)
      (.mutate (.ok ()) stopOk (drawing (flipDraw (some n) none)) : Stage Int ψ φ (S × (Nat → (Fin n → Fin N)))) := by
    rw [← bitflip_drawing]; exact bitflip_stage_ok _ _ _ _ _ _ _
  obtain ⟨⟨r0, g, hr0, hg, hG⟩, hchain⟩ := walk_each_from_previous choose (.ok ()) stopOk (flipDraw (some n) none) dec prob initGenome hinit hst hprob hchoose
    problem evaluations m m' hm out h
  have hinv : ∀ y : List Int, complement (complement y) = y := by
    intro y
    simp [complement, Function.comp_def]
  have hbin : GenesIn n (fun _ x => x = 0 ∨ x = 1) (complement g) := by
    refine ⟨by simp [complement, hG.1], fun i x hx => ?_⟩
    obtain ⟨y, hy, rfl⟩ : ∃ y, g[i]? = some y ∧ 1 - y = x := by simpa [complement] using hx
    rcases hG.2 i y hy with rfl | rfl <;> simp
  have hflip : ∀ (y : List Int) (x : Fin n → Fin N) (y' : List Int), GenesIn n (fun _ x => x = 0 ∨ x = 1) y →
      mutated (flipDraw (some n) none) y x = some y' → y' = complement y := by
    intro y x y' hy hmut
    obtain ⟨y2, e, hl, hall⟩ := bitflip_flips_drawn (some (n : ℚ)) none (fractions x) y 1
      (.inr ⟨rfl, by rw [hy.1]; omega, n, rfl, by rw [hy.1]; field_simp⟩) (by norm_num) (by norm_num) (by rw [fractions_length, hy.1])
    simp only [mutated, flipDraw, e, Option.some.injEq] at hmut
    subst hmut
    refine List.ext_getElem? fun i => ?_
    by_cases hi : i < n
    · have hyi : y[i]? = some (y[i]'(by rw [hy.1]; exact hi)) := List.getElem?_eq_getElem _
      have hx := fractions_get x ⟨i, hi⟩
      have hlt : ((x ⟨i, hi⟩ : Nat) : ℚ) / N < 1 := by
        have := (x ⟨i, hi⟩).2
        have hN : (0 : ℚ) < N := by exact_mod_cast (by omega : 0 < N)
        rw [div_lt_one hN]
        exact_mod_cast this
      rw [hall i _ _ hx hyi, if_pos hlt]
      simp only [complement, List.getElem?_map, hyi, Option.map_some, Option.some.injEq]
      rcases hy.2 i _ hyi with h | h <;> rw [h] <;> rfl
    · rw [List.getElem?_eq_none (by rw [hl, hy.1]; omega), List.getElem?_eq_none (by simp [complement, hy.1]; omega)]
  refine ⟨g, fun i => ?_⟩
  induction i with
  | zero =>
    intro r hr
    rw [List.head?_eq_getElem?, hr] at hr0
    cases hr0
    exact hg
  | succ i ih =>
    intro b hb
    obtain ⟨a, ha⟩ : ∃ a, out[i]? = some a := ⟨_, List.getElem?_eq_getElem (by have := (List.getElem?_eq_some_iff.1 hb).1; omega)⟩
    obtain ⟨y, y', x, h1, h2, h3⟩ := hchain i a b ha hb
    rw [ih a ha, Option.some.injEq] at h1
    subst h1
    rw [h2, Option.some.injEq]
    by_cases hi : i % 2 = 0
    · rw [if_neg (by omega)]
      rw [if_pos hi] at h3
      exact hflip _ _ _ hG h3
    · rw [if_pos (by omega)]
      rw [if_neg hi] at h3
      rw [hflip _ _ _ hbin h3, hinv]

/-- **C108** (bit flips). With a rate strictly between 0 and 1, by more than the resolution of the random numbers, a walk of bit flips comes as close to
certainty as asked for of having been at the target genome. -/
theorem bitflip_walk_converges {n N : Nat} (hN : 0 < N) (choose : Int → List Nat → Mem Int ψ φ (S × (Nat → (Fin n → Fin N))) → PyM Nat × (S × (Nat → (Fin n → Fin N))))
    (stopOk : Bool) (expected probability : Option ℚ) (p : ℚ) (hr : RateGives expected probability n p) (h0 : 0 < p) (h1 : p + 1 / N ≤ 1)
    (dec : Dec Int ψ) (prob : Prob Int ψ φ (S × (Nat → (Fin n → Fin N)))) (initGenome : S × (Nat → (Fin n → Fin N)) → PyM (List Int) × (S × (Nat → (Fin n → Fin N))))
    (hprob : ∀ c, BlindDraw (prob.evaluate c)) (hib : BlindDraw initGenome) (hinit : ∀ s, ∃ g, (initGenome s).1 = .ok g ∧ GenesIn n (fun _ x => x = 0 ∨ x = 1) g)
    (hd : ∀ g, GenesIn n (fun _ x => x = 0 ∨ x = 1) g → ∃ c, decodeOf dec g = .ok c ∧ ∀ s, ∃ f, (prob.evaluate c s).1 = .ok f)
    (hchoose : ∀ g pop m t, choose g pop (retape t m) = ((choose g pop m).1, ((choose g pop m).2.1, t))) (hpick : ∀ g r m, (choose g [r] m).1 = .ok 0)
    (target : Fin n → Fin 2) (problem : Nat) (ε : ℚ) (hε : 0 < ε) :
    ∃ K0 : Nat, ∀ K ≥ K0, ∀ (m : Mem Int ψ φ (S × (Nat → (Fin n → Fin N)))) (z : Nat → (Fin n → Fin N)), Sound m →
      1 - ε ≤ chance fun w : Fin (K * 1) → (Fin n → Fin N) =>
        ∃ out m', walkRun choose [.mutate (.ok ()) stopOk (bitflipFn expected probability (flipNumbers S)), .evaluate dec prob] 1 initGenome dec prob problem
          (K + 1) (retape (draws w z) m) = (.ok out, m') ∧ Found (bitGenome target) m' out := by
  have hNq : (0 : ℚ) < 1 / N := by positivity
  have hp1 : p ≤ 1 := by linarith
  obtain ⟨b1, b2, b3, -⟩ := below_near N hN p h0.le hp1
  have : Nonempty (Fin N) := ⟨⟨0, hN⟩⟩
  obtain ⟨q, hqdef⟩ : ∃ q, q = min (below N p) (1 - below N p) ^ n := ⟨_, rfl⟩
  have hq0 : 0 < q := by rw [hqdef]; exact pow_pos (lt_min (by linarith) (by linarith)) _
  have hq1 : q ≤ 1 := by
    rw [hqdef]
    exact pow_le_one₀ (le_min (by linarith) (by linarith)) ((min_le_left _ _).trans b3)
  obtain ⟨K0, hK0⟩ := exists_pow_lt_of_lt_one hε (show 1 - q < 1 by linarith)
  refine ⟨K0, fun K hK m z hm => ?_⟩
  refine le_trans ?_ (walk_chance choose _ [] 1 (.ok ()) stopOk (flipDraw expected probability) dec prob initGenome (by rw [bitflip_drawing]; rfl)
    (by
      intro st hs
      simp only [List.mem_cons, List.not_mem_nil, or_false] at hs
      rcases hs with rfl | rfl
      · exact bitflip_stage_ok _ _ _ _ _ _ _
      · exact evaluate_stage_ok dec prob)
    (by
      intro st hs
      simp only [List.mem_cons, List.not_mem_nil, or_false] at hs
      rcases hs with rfl | rfl
      · refine ⟨rfl, fun g s hg => ?_⟩
        obtain ⟨g', e, -⟩ := bitflip_flips_drawn expected probability (fractions (s.2 0)) g p (by rw [hg.1]; exact hr) h0.le hp1
          (by rw [fractions_length, hg.1])
        exact ⟨none, by simp only [bitflipFn, flipNumbers, e]⟩
      · exact hd)
    (by simp) hprob hib hinit hchoose hpick (by decide) (bitGenome target) q hq1
    (fun g hg => by rw [hqdef]; exact bitflip_hits N hN expected probability p hr h0.le hp1 target g hg) problem K m hm z)
  have : (1 - q) ^ (K * 1) ≤ (1 - q) ^ K0 := pow_le_pow_of_le_one (by linarith) (by linarith) (by omega)
  linarith

/-- The default of one expected mutation on two bits or more meets the hypotheses of `bitflip_walk_converges`, with counting ones as the problem. -/
theorem exWalk_converges (n N : Nat) (hn : 2 ≤ n) (hN : 2 ≤ N) (ε : ℚ) (hε : 0 < ε) :
    ∃ K0 : Nat, ∀ K ≥ K0, ∀ (m : Mem Int Int Int (Nat × (Nat → (Fin n → Fin N)))) (z : Nat → (Fin n → Fin N)), Sound m →
      1 - ε ≤ chance fun w : Fin (K * 1) → (Fin n → Fin N) =>
        ∃ out m', walkRun (fun _ _ m => (.ok 0, m.rng)) [.mutate (.ok ()) false (bitflipFn (some 1) none (flipNumbers Nat)), .evaluate .identity (exOnes n N)] 1
          (fun s => (.ok (List.replicate n 0), s)) .identity (exOnes n N) 0 (K + 1) (retape (draws w z) m) = (.ok out, m') ∧
            Found (bitGenome fun _ : Fin n => (1 : Fin 2)) m' out := by
  have hnq : (2 : ℚ) ≤ n := by exact_mod_cast hn
  have hNq : (2 : ℚ) ≤ N := by exact_mod_cast hN
  have i1 : (1 : ℚ) / n ≤ 1 / 2 := one_div_le_one_div_of_le (by norm_num) hnq
  have i2 : (1 : ℚ) / N ≤ 1 / 2 := one_div_le_one_div_of_le (by norm_num) hNq
  refine bitflip_walk_converges (by omega) _ false (some 1) none (1 / n) (.inr ⟨rfl, by omega, 1, rfl, rfl⟩) (by positivity) (by linarith)
    .identity (exOnes n N) _ ?_ ?_ ?_ ?_ ?_ ?_ _ 0 ε hε
  · intro c s t t'; cases c <;> rfl
  · intro s t t'; rfl
  · intro s; exact ⟨_, rfl, by simp, fun i x hx => by simp [List.getElem?_replicate] at hx; omega⟩
  · intro g _; exact ⟨_, rfl, fun s => ⟨_, rfl⟩⟩
  · intro g pop m t; rfl
  · intro g r m; rfl

/-- The documented pipeline on three bits: five evaluations from `000` visit `111`, `000`, `111`, `000`. -/
example :
    let m : Mem Int Int Int (Nat × (Nat → (Fin 3 → Fin 4))) := { arrays := [], sets := [], inds := [], nextUuid := 0, rng := (0, fun i j => ⟨(i + j) % 4, by omega⟩) }
    let run := walkRun (fun _ _ m => (.ok 0, m.rng)) [.mutate (.ok ()) false (bitflipFn (some 3) none (flipNumbers Nat)), .evaluate .identity (exOnes 3 4)] 1
      (fun s => (.ok [0, 0, 0], s)) .identity (exOnes 3 4) 0 5 m
    (match run.1 with | .ok out => out.map fun r => genes run.2 r | .error _ => []) =
      [some [0, 0, 0], some [1, 1, 1], some [0, 0, 0], some [1, 1, 1], some [0, 0, 0]] := by
  decide +kernel

end Leap
