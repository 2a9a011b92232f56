import Verif.Lemmas.Tape
import Verif.Props.Chance
import Verif.Props.EvoRun

/-!
# C101: an elitist run that mutates every offspring finds any genome it can mutate to

The mutation operator takes one draw per birth from a stream of independent, equally likely draws. Everything else (selection, the other
operators, the problem) uses some other random state, whatever it is. If, whatever the genome, the mutation makes the target out of it with
chance at least `q`, then after `G` generations of `size` births the population of an elitist run holds somebody at least as good as the
target with chance at least `1 - (1 - q) ^ (G * size)`.
-/

namespace Leap
open Spec

variable {γ ψ φ S X : Type} {n : Nat} {allowed : Nat → γ → Prop}

/-- A mutation function that takes one draw from the stream: `h` says what it leaves in the array and what it returns. -/
def Spec.drawing (h : List γ → X → List γ × PyM (Option (List γ))) : MutFn γ (S × (Nat → X)) := fun g s =>
  ⟨(h g (s.2 0)).1, (h g (s.2 0)).2, (s.1, fun i => s.2 (i + 1))⟩

/-- The genome an individual has after being mutated. -/
def Spec.mutated (h : List γ → X → List γ × PyM (Option (List γ))) (g : List γ) (x : X) : Option (List γ) :=
  match (h g x).2 with
  | .error _ => none
  | .ok none => some (h g x).1
  | .ok (some g') => some g'

/-- Somebody in the population is at least as good as the fitness `best`. -/
def Spec.Reached {ρ : Type} (cfg : EvoConfig γ ψ φ ρ) (best : φ) (m : Mem γ ψ φ ρ) (pop : List Nat) : Prop :=
  ∃ r ∈ pop, ∃ f, fitness m r = some (some f) ∧ cfg.worse (some f) (some best) = false

theorem blind_ok {α : Type} {x : HM (Mem γ ψ φ (S × (Nat → X))) α} (hx : Blind x) {m m1 : Mem γ ψ φ (S × (Nat → X))} {a : α} {t : Nat → X}
    (h : x (retape t m) = (.ok a, m1)) (t' : Nat → X) : x (retape t' m) = (.ok a, retape t' m1) ∧ m1 = retape t m1 := by
  rw [hx m t] at h
  rw [hx m t']
  simp only [Prod.mk.injEq] at h
  obtain ⟨h1, rfl⟩ := h
  exact ⟨by rw [h1]; rfl, rfl⟩

theorem mutate_draws (h : List γ → X → List γ × PyM (Option (List γ))) (r : Nat) {m m1 : Mem γ ψ φ (S × (Nat → X))} {x : X} {t : Nat → X}
    (e : mutateInd (drawing h) r (retape (before x t) m) = (.ok (), m1)) (t' : Nat → X) :
    mutateInd (drawing h) r (retape (before x t') m) = (.ok (), retape t' m1) ∧
    ∀ g, genes m r = some g → genes m1 r = mutated h g x := by
  cases ho : m.inds[r]? with
  | none =>
    simp only [mutateInd, HM.bind_apply, getObj, retape, ho] at e
    cases e
  | some o =>
    cases hg : m.arrays[o.genome]? with
    | none =>
      simp only [mutateInd, HM.bind_apply, getObj, retape, ho, getArr, hg] at e
      cases e
    | some g =>
      have ho' : ∀ t, (retape t m).inds[r]? = some o := fun _ => ho
      have hg' : ∀ t, (retape t m).arrays[o.genome]? = some g := fun _ => hg
      have hlt := (List.getElem?_eq_some_iff.1 hg).1
      rw [mutateInd_effect _ _ r o g (ho' _) (hg' _)] at e ⊢
      have hb : ∀ t, drawing (S := S) h g (retape (before x t) m).rng = ⟨(h g x).1, (h g x).2, (m.rng.1, t)⟩ := fun _ => rfl
      rw [hb] at e ⊢
      simp only at e ⊢
      have hgen : ∀ g0, genes m r = some g0 → g0 = g := by
        intro g0 h0
        simp only [genes, ho, Option.bind_some, hg, Option.some.injEq] at h0
        exact h0.symm
      rcases hres : (h g x).2 with err | new
      · rw [hres] at e; cases e
      · cases new with
        | none =>
          rw [hres] at e
          simp only [Prod.mk.injEq, true_and] at e
          subst e
          refine ⟨rfl, fun g0 h0 => ?_⟩
          rw [hgen g0 h0]
          simp only [mutated, hres]
          simp [genes, retape, ho, hlt]
        | some g2 =>
          rw [hres] at e
          simp only [Prod.mk.injEq, true_and] at e
          subst e
          refine ⟨rfl, fun g0 h0 => ?_⟩
          rw [hgen g0 h0]
          simp only [mutated, hres]
          simp [genes, retape, ho]

/-- The end of the pipeline: mutation, then evaluation. -/
def bornFrom (up : HIter (Mem γ ψ φ (S × (Nat → X)))) (check : PyM Unit) (stopOk : Bool) (h : List γ → X → List γ × PyM (Option (List γ)))
    (dec : Dec γ ψ) (prob : Prob γ ψ φ (S × (Nat → X))) : HIter (Mem γ ψ φ (S × (Nat → X))) :=
  (Stage.evaluate dec prob).apply ((Stage.mutate check stopOk (drawing h)).apply up)

/-- One birth: upstream does not notice the stream, the mutation takes the next draw, and evaluation keeps the genes. -/
theorem birth_draws (up : HIter (Mem γ ψ φ (S × (Nat → X)))) (hup : ∀ s, Blind (up.next s)) (check : PyM Unit) (stopOk : Bool)
    (h : List γ → X → List γ × PyM (Option (List γ))) (dec : Dec γ ψ) (prob : Prob γ ψ φ (S × (Nat → X)))
    (hprob : ∀ c, BlindDraw (prob.evaluate c)) (b : Bool) (s : up.σ) (m m1 : Mem γ ψ φ (S × (Nat → X))) (x : X) (t : Nat → X) (r : Nat)
    (s1 : Bool × up.σ) (e : (bornFrom up check stopOk h dec prob).next (b, s) (retape (before x t) m) = (.ok (r, s1), m1)) (t' : Nat → X) :
    (bornFrom up check stopOk h dec prob).next (b, s) (retape (before x t') m) = (.ok (r, s1), retape t' m1) ∧
    ∃ ma, up.next s m = (.ok (r, s1.2), ma) ∧ ∀ g, genes ma r = some g → genes m1 r = mutated h g x := by
  obtain ⟨⟨r1, b1, s2⟩, m2, e1, e⟩ := bind_ok (pep_ok e)
  obtain ⟨f, m3, e2, e⟩ := bind_ok e
  simp only [HM.pure_apply, Prod.mk.injEq, Except.ok.injEq] at e
  obtain ⟨⟨rfl, rfl⟩, rfl⟩ := e
  obtain ⟨u, m4, e3, e1⟩ := bind_ok e1
  obtain ⟨⟨r2, s3⟩, m5, e4, e1⟩ := bind_ok e1
  obtain ⟨u', m6, e5, e1⟩ := bind_ok e1
  simp only [HM.pure_apply, Prod.mk.injEq, Except.ok.injEq] at e1
  obtain ⟨⟨rfl, rfl, rfl⟩, rfl⟩ := e1
  simp only [HM.lift_apply, Prod.mk.injEq] at e3
  obtain ⟨e3, rfl⟩ := e3
  have hupn : up.next s (retape (before x t) m) = (.ok (r, s2), m5) := by
    unfold upstream at e4
    split at e4
    · exact e4
    · exact pep_ok e4
  obtain ⟨ha, hm5⟩ := blind_ok (hup s) hupn (before x t')
  obtain ⟨ha0, -⟩ := blind_ok (hup s) hupn m.rng.2
  rw [retape_self] at ha0
  have e5' := pep_ok e5
  rw [hm5] at e5'
  obtain ⟨hmut, hgen⟩ := mutate_draws h r e5' t'
  obtain ⟨hev, -⟩ := blind_ok (evaluateInd_blind dec prob hprob r) (m := m6) (t := m6.rng.2) (by rw [retape_self]; exact e2) t'
  refine ⟨?_, retape m.rng.2 m5, ha0, fun g hg => ?_⟩
  · refine pep_live ?_
    refine (bind_live (a := (r, (true, s2))) (m1 := retape t' m6) ?_).trans ((bind_live hev).trans rfl)
    refine (bind_live (a := u) (m1 := retape (before x t') m) (by simp [HM.lift, e3])).trans ?_
    refine (bind_live (a := (r, s2)) (m1 := retape (before x t') m5) ?_).trans ((bind_live (pep_live hmut)).trans rfl)
    unfold upstream
    split
    · exact ha
    · exact pep_live ha
  · have hg6 : genes m6 r = mutated h g x := hgen g hg
    have : ∃ g2, genes m6 r = some g2 := by
      cases ho : m6.inds[r]? with
      | none =>
        exfalso
        cases dec <;> simp [evaluateInd, evaluateImp, decodeInd, getObj, HM.bind_apply, ho] at e2
      | some o =>
        cases hm : mutated h g x with
        | some g2 => exact ⟨g2, by rw [hg6, hm]⟩
        | none =>
          exfalso
          rw [hm] at hg6
          have hgm : genes m5 r = some g := hg
          obtain ⟨o1, ho1, ha1, -⟩ := genes_lt hgm
          have e6 := pep_ok e5
          rw [hm5] at e6
          rw [mutateInd_effect (drawing h) (retape (before x t) m5) r o1 g ho1 ha1] at e6
          simp only [mutated] at hm
          have : (drawing (S := S) h g (retape (before x t) m5).rng).result = (h g x).2 := rfl
          rw [this] at e6
          rcases hres : (h g x).2 with err | new
          · rw [hres] at e6; cases e6
          · cases new <;> simp [hres] at hm
    obtain ⟨g2, hg2⟩ := this
    obtain ⟨o, ho, -, -⟩ := genes_lt hg2
    obtain ⟨-, ⟨g3, fo, hg3, -, rfl, -⟩, -⟩ := evaluateInd_local (G := (· = g2)) (truth := fun _ _ => True) dec prob (fun _ _ _ _ _ _ _ => trivial)
      ⟨g2, o.fitness, hg2, by simp [fitness, ho], rfl, fun _ _ => trivial⟩ e2
    rw [hg3, ← hg6, hg2]

theorem stageOk_weaken {ρ : Type} {truth : List γ → φ → Prop} {st : Stage γ ψ φ ρ} (h : StageOk n allowed truth st) :
    StageOk n allowed (fun _ _ => True) st := by
  cases st with
  | clone => trivial
  | mutate c s f => exact h
  | crossover skip rec => exact h
  | evaluate dec prob => exact fun _ _ _ _ _ _ _ => trivial
  | robustEvaluate nan dec prob => exact ⟨fun _ _ _ _ _ _ _ => trivial, fun _ _ _ _ => trivial, fun _ _ _ _ _ _ _ => trivial⟩

/-- **C101** (generations). The chance that `G` generations go by without anybody at least as good as `best`, from any population. -/
theorem search_loop_chance [Finite X] [Nonempty X] (cfg : EvoConfig γ ψ φ (S × (Nat → X))) (pre : List (Stage γ ψ φ (S × (Nat → X))))
    (check : PyM Unit) (stopOk : Bool) (h : List γ → X → List γ × PyM (Option (List γ))) (dec : Dec γ ψ) (prob : Prob γ ψ φ (S × (Nat → X)))
    (hstages : cfg.stages = pre ++ [.mutate check stopOk (drawing h), .evaluate dec prob])
    (hst : ∀ st ∈ cfg.stages, StageOk n allowed (ScoredBy dec prob) st)
    (hpre : ∀ st ∈ pre, StageBlind st) (hprob : ∀ c, BlindDraw (prob.evaluate c))
    (hchoose : ∀ g pop m t, cfg.choose g pop (retape t m) = ((cfg.choose g pop m).1, ((cfg.choose g pop m).2.1, t)))
    (hstop : ∀ g pop m, cfg.stop g pop m = false) (hw : StrictWeak cfg.worse) (hk : 1 ≤ cfg.kElites) (hsize : 1 ≤ cfg.size)
    (target : List γ) (best : φ) (hbest : ∀ f, ScoredBy dec prob target f → cfg.worse (some f) (some best) = false)
    (q : ℚ) (hq1 : q ≤ 1) (hq : ∀ g, GenesIn n allowed g → q ≤ chance fun x => mutated h g x = some target) (z : Nat → X) (G : Nat) :
    ∀ (g : Int) (parents : List Nat) (m : Mem γ ψ φ (S × (Nat → X))) (T : Nat), T = G * cfg.size → Sound m → parents.Nodup →
      (∀ r ∈ parents, Member n allowed (ScoredBy dec prob) m r) →
      chance (fun w : Fin T → X => ∃ out m', evoLoop cfg G g parents (retape (draws w z) m) = (.ok out, m') ∧ ¬ Reached cfg best m' out) ≤
        (1 - q) ^ T := by
  have hev : endsEvaluated cfg.stages = true := by rw [hstages]; simp [endsEvaluated, evaluates]
  induction G with
  | zero =>
    intro g parents m T hT _ _ _
    have : T = 0 := by omega
    subst this
    rw [pow_zero]
    exact chance_le_one _
  | succ G ih =>
    intro g parents m T hT hm hnd hp
    have hT : T = cfg.size + G * cfg.size := by rw [hT]; ring
    have hgood : ∀ r ∈ parents, GoodGenes n allowed m r := fun r hr => by
      obtain ⟨gg, f, h1, h2, -⟩ := hp r hr
      exact ⟨gg, h1, h2⟩
    -- the generator of births
    obtain ⟨up, hupdef⟩ : ∃ up, up = stagesIter (selectionIter parents (cfg.choose g parents)) (Stage.clone :: pre) := ⟨_, rfl⟩
    have hiter : stagesIter (selectionIter parents (cfg.choose g parents)) (Stage.clone :: cfg.stages) = bornFrom up check stopOk h dec prob := by
      rw [hstages, hupdef, ← List.cons_append, stagesIter_append]
      rfl
    have hupb : ∀ s, Blind (up.next s) := by
      rw [hupdef]
      refine stages_blind _ ?_ _ (selection_blind parents _ fun m t => hchoose g parents m t)
      intro st hs
      rcases List.mem_cons.1 hs with rfl | hs
      · trivial
      · exact hpre st hs
    have hupc : ∃ pend, Carries n allowed m up pend := by
      rw [hupdef]
      exact stages_carries hm pre (fun st hs => stageOk_weaken (hst st (by rw [hstages]; simp [hs]))) _ _ (clone_first_carries hm parents hgood _)
    obtain ⟨pend, hc⟩ := hupc
    have hcb : Carries n allowed m (bornFrom up check stopOk h dec prob) (fun s : Bool × up.σ => pend s.2) :=
      stage_carries hm _ _ (stage_carries hm up pend hc (.mutate check stopOk (drawing h))
        (stageOk_weaken (hst _ (by rw [hstages]; simp)))) (.evaluate dec prob) (fun _ _ _ _ _ _ _ => trivial)
    have hi : pend up.init = [] := hc.init
    have hnone : ∀ m1 : Mem γ ψ φ (S × (Nat → X)), ∀ p ∈ pend up.init, m.inds.length ≤ p ∧ GoodGenes n allowed m1 p := by
      intro m1 p hp
      rw [hi] at hp
      cases hp
    have hnil : (pend up.init).Nodup := by rw [hi]; exact List.nodup_nil
    have hrun : ∀ (t : Nat → X) off m1, runPipeline parents (cfg.choose g parents) cfg.stages cfg.size (retape t m) = (.ok off, m1) ↔
        ∃ s', hpull (bornFrom up check stopOk h dec prob).next cfg.size (bornFrom up check stopOk h dec prob).init (retape t m) =
          (.ok (off, s'), m1) := by
      intro t off m1
      show (hpull (stagesIter (selectionIter parents (cfg.choose g parents)) (Stage.clone :: cfg.stages)).next cfg.size
        (stagesIter (selectionIter parents (cfg.choose g parents)) (Stage.clone :: cfg.stages)).init >>= fun os => pure os.1) (retape t m) = _ ↔ _
      rw [hiter]
      constructor
      · intro hx
        obtain ⟨⟨os, s'⟩, m2, e1, hx⟩ := bind_ok hx
        simp only [HM.pure_apply, Prod.mk.injEq, Except.ok.injEq] at hx
        obtain ⟨rfl, rfl⟩ := hx
        exact ⟨s', e1⟩
      · rintro ⟨s', e⟩
        exact (bind_live e).trans rfl
    -- what is known after a generation
    have hsame : ∀ t, Sound (retape t m) := fun t => ⟨hm.1, hm.2, hm.3⟩
    have hafter : ∀ (t : Nat → X) off m1, runPipeline parents (cfg.choose g parents) cfg.stages cfg.size (retape t m) = (.ok off, m1) →
        Sound m1 ∧ (elitistSurvival (cfg.lt m1) off parents cfg.kElites).1.Nodup ∧ off.length = cfg.size ∧
        (∀ r ∈ off, Member n allowed (ScoredBy dec prob) m1 r) ∧
        (∀ r ∈ (elitistSurvival (cfg.lt m1) off parents cfg.kElites).1, Member n allowed (ScoredBy dec prob) m1 r) := by
      intro t off m1 e
      have hp' : ∀ r ∈ parents, Member n allowed (ScoredBy dec prob) (retape t m) r := fun r hr => member_same ⟨rfl, rfl⟩ (hp r hr)
      obtain ⟨s1, u1, l1, nd1, q1⟩ := pipeline_keeps_feasible (retape t m) m1 (hsame t) parents
        (fun r hr => ((member_iff _ r).1 (hp' r hr)).1) _ cfg.stages hst cfg.size off e
      have hlt : ∀ r ∈ parents, r < (retape t m).inds.length := fun r hr => by
        obtain ⟨g, f, hg, -⟩ := hp' r hr
        obtain ⟨-, -, -, h⟩ := genes_lt hg
        exact h
      have hoff : ∀ r ∈ off, Member n allowed (ScoredBy dec prob) m1 r := fun r hr => by
        obtain ⟨-, -, a1, a2⟩ := q1 r hr
        exact (member_iff m1 r).2 ⟨a1, a2 hev⟩
      refine ⟨s1, ?_, l1, hoff, fun r hr => ?_⟩
      · refine nodup_of_subperm (topk_subperm _ _ _) ?_
        rw [List.nodup_append]
        refine ⟨nd1, nodup_of_subperm (topk_subperm _ _ _) hnd, ?_⟩
        rintro a ha b hb rfl
        have h1 := (q1 a ha).1
        have h2 := hlt a (topk_mem hb)
        omega
      · rcases List.mem_append.1 (topk_mem hr) with h | h
        · exact hoff r h
        · have h := topk_mem h
          exact member_same (unchanged_same (hsame t) u1 (hlt r h)) (hp' r h)
    -- the event in terms of births
    refine le_trans (chance_mono fun w hx => ?_) (pull_chance (bornFrom up check stopOk h dec prob) target q hq1
      (fun (s : Bool × up.σ) m1 => Fresh m m1 ∧ (∀ p ∈ pend s.2, m.inds.length ≤ p ∧ GoodGenes n allowed m1 p) ∧ (pend s.2).Nodup)
      (fun s m1 t hI => ⟨fresh_rng hI.1 _, fun p hp => ⟨(hI.2.1 p hp).1, goodGenes_same ⟨rfl, rfl⟩ (hI.2.1 p hp).2⟩, hI.2.2⟩)
      ?_ ?_ ?_ z cfg.size (bornFrom up check stopOk h dec prob).init m
      (fun off m1 => ∃ out m', evoLoop cfg G (g + 1) (elitistSurvival (cfg.lt m1) off parents cfg.kElites).1 m1 = (.ok out, m') ∧
        ¬ Reached cfg best m' out) (G * cfg.size) T hT ⟨.refl m hm, hnone m, hnil⟩ ?_ ?_)
    · obtain ⟨out, m', e, hnr⟩ := hx
      unfold evoLoop at e
      rw [hstop, if_neg (by simp)] at e
      rcases e1 : runPipeline parents (cfg.choose g parents) cfg.stages cfg.size (retape (draws w z) m) with ⟨o, m1⟩
      rw [e1] at e
      cases o with
      | error err => cases e
      | ok off =>
        obtain ⟨s', e2⟩ := (hrun _ _ _).1 e1
        exact ⟨off, s', m1, e2, out, m', e, hnr⟩
    · intro s m1 r s1 m2 hI e
      have o := hcb.step s m1 r s1 m2 hI.1 hI.2.1 hI.2.2 e
      exact ⟨o.fresh, fun p hp => (o.held p hp).2, o.nodup⟩
    · intro s m1 x t t' r s1 m2 e
      exact (birth_draws up hupb check stopOk h dec prob hprob s.1 s.2 m1 m2 x t r s1 e t').1
    · intro s m1 hI
      rcases e : up.next s.2 m1 with ⟨o, ma⟩
      cases o with
      | error err =>
        refine hq1.trans (le_of_eq ?_)
        rw [← chance_true (Ω := X)]
        refine chance_congr fun x => ⟨fun _ => ?_, fun _ => trivial⟩
        intro t r s1 m2 e1
        obtain ⟨-, ma', e2, -⟩ := birth_draws up hupb check stopOk h dec prob hprob s.1 s.2 m1 m2 x t r s1 e1 t
        rw [e] at e2
        cases e2
      | ok rs =>
        obtain ⟨r, s2⟩ := rs
        have o := hc.step s.2 m1 r s2 ma hI.1 hI.2.1 hI.2.2 e
        obtain ⟨gg, hg1, hg2⟩ := o.good
        refine (hq gg hg2).trans (chance_mono fun x hx => ?_)
        intro t r' s1 m2 e1
        obtain ⟨-, ma', e2, hgen⟩ := birth_draws up hupb check stopOk h dec prob hprob s.1 s.2 m1 m2 x t r' s1 e1 t
        rw [e] at e2
        simp only [Prod.mk.injEq, Except.ok.injEq] at e2
        obtain ⟨⟨rfl, -⟩, rfl⟩ := e2
        rw [hgen gg hg1, hx]
    · intro t off s' m1 e
      obtain ⟨s1, nd, -, -, hmem⟩ := hafter t off m1 ((hrun _ _ _).2 ⟨s', e⟩)
      have hlt : ∀ t, cfg.lt (retape t m1) = cfg.lt m1 := fun _ => rfl
      simp only [hlt]
      exact ih (g + 1) _ m1 (G * cfg.size) rfl s1 nd hmem
    · rintro t off s' m1 e hhit ⟨out, m', e2, hnr⟩
      apply hnr
      obtain ⟨s1, nd, hl, hoff, hmem⟩ := hafter t off m1 ((hrun _ _ _).2 ⟨s', e⟩)
      obtain ⟨r, hr, hgr⟩ := hit_stays (bornFrom up check stopOk h dec prob) (fun s : Bool × up.σ => pend s.2) hcb target cfg.size
        (false, up.init) (retape t m) off s' m1 (fresh_rng (.refl m hm) _) (hnone _) hnil e hhit
      obtain ⟨gr, f, h1, -, h3, h4⟩ := hoff r hr
      rw [hgr] at h1
      cases h1
      have hne : off ≠ [] := by rintro rfl; simp at hl; omega
      obtain ⟨b, hb, hbb⟩ := elitist_never_loses_best (cfg.lt m1) (evo_lt_strictWeak cfg hw m1) off parents cfg.kElites hk hne
      have hb' := List.mem_of_mem_head? hb
      obtain ⟨-, u2, -, -, q2, b2⟩ := evo_loop_members cfg hst hev G (g + 1) _ m1 m' out s1 nd hmem e2
      obtain ⟨d, hd, hdb⟩ := b2 hw hk hsize b hb'
      obtain ⟨-, fd, -, -, hfd, -⟩ := (q2 d hd).1
      obtain ⟨gb, fb, hgb, -, hfb, -⟩ := hmem b hb'
      obtain ⟨-, -, -, hlb⟩ := genes_lt hgb
      refine ⟨d, hd, fd, hfd, ?_⟩
      have fit_bind : ∀ {m : Mem γ ψ φ (S × (Nat → X))} {r f}, fitness m r = some (some f) → (m.inds[r]?).bind Obj.fitness = some f := by
        intro m r f hf
        unfold fitness at hf
        cases ho : m.inds[r]? with
        | none => simp [ho] at hf
        | some o => simpa [ho] using hf
      have hbr := hbb r (by simp [hr])
      unfold EvoConfig.lt at hbr hdb
      rw [u2.inds b hlb, fit_bind hfd, fit_bind hfb] at hdb
      rw [fit_bind hfb, fit_bind h3] at hbr
      exact hw.negTrans _ _ _ hdb (hw.negTrans _ _ _ hbr (hbest f h4))

theorem createPopulation_blind (initGenome : S × (Nat → X) → PyM (List γ) × (S × (Nat → X))) (hi : BlindDraw initGenome) (problem k : Nat) :
    Blind (createPopulation initGenome problem k : HM (Mem γ ψ φ (S × (Nat → X))) (List Nat)) := by
  induction k with
  | zero => exact .pure _
  | succ k ih =>
    exact .bind (.useRng hi) fun _ => .bind (.newArr _) fun _ => .bind (.bind .freshUuid fun _ => .bind (.newSet _) fun _ => .newObj _) fun _ =>
      .bind ih fun _ => .pure _

theorem evaluatePopulation_blind (dec : Dec γ ψ) (prob : Prob γ ψ φ (S × (Nat → X))) (h : ∀ c, BlindDraw (prob.evaluate c)) (pop : List Nat) :
    Blind (evaluatePopulation dec prob pop) := by
  induction pop with
  | nil => exact .pure _
  | cons r rs ih => exact .bind (evaluateInd_blind dec prob h r) fun _ => ih

/-- The first population of a run. -/
theorem first_population {ρ : Type} (initGenome : ρ → PyM (List γ) × ρ) (dec : Dec γ ψ) (prob : Prob γ ψ φ ρ)
    (hinit : ∀ s, ∃ g, (initGenome s).1 = .ok g ∧ GenesIn n allowed g)
    (hd : ∀ g, GenesIn n allowed g → ∃ c, decodeOf dec g = .ok c ∧ ∀ s, ∃ f, (prob.evaluate c s).1 = .ok f)
    (problem popSize : Nat) (hpop : 1 ≤ popSize) (m : Mem γ ψ φ ρ) (hm : Sound m) :
    ∃ parents m1 m2, createPopulation initGenome problem popSize m = (.ok parents, m1) ∧
      evaluatePopulation dec prob parents m1 = (.ok (), m2) ∧ Sound m2 ∧ parents.Nodup ∧ parents ≠ [] ∧
      ∀ r ∈ parents, Member n allowed (ScoredBy dec prob) m2 r := by
  have hinit' : ∀ s g s', initGenome s = (.ok g, s') → GenesIn n allowed g := by
    intro s g s' h
    obtain ⟨g', h1, h2⟩ := hinit s
    rw [h] at h1
    cases h1
    exact h2
  obtain ⟨gs, s', hd'⟩ : ∃ gs s', Drawn initGenome popSize m.rng gs s' := by
    rcases drawn_or_raises initGenome popSize m.rng with h | ⟨j, gs, s1, e, s2, h1, h2, h3⟩
    · exact h
    · obtain ⟨g, hg, -⟩ := hinit s1
      rw [h3] at hg
      cases hg
  have heff := create_population_effect initGenome problem popSize m gs s' hd'
  obtain ⟨parents, m1, e1, -, -, u1, s1, q1⟩ := create_population_spec initGenome problem popSize m hm gs s' hd'
  have hp : parents = List.range' m.inds.length popSize := by rw [e1] at heff; cases heff; rfl
  have hgood : ∀ r ∈ parents, GoodInd (GenesIn n allowed) (ScoredBy dec prob) m1 r := by
    intro r hr
    obtain ⟨i, hi⟩ := List.mem_iff_getElem?.1 hr
    obtain ⟨-, a2, -, o, a3, a4, -⟩ := q1 i r hi
    have hil : i < gs.length := by
      have := (List.getElem?_eq_some_iff.1 hi).1
      rw [hd'.length]; rw [hp] at this; simpa using this
    rw [List.getElem?_eq_getElem hil] at a2
    exact ⟨gs[i], none, a2, by simp [fitness, a3, a4], drawn_all hinit' hd' _ (List.getElem_mem hil), by simp⟩
  obtain ⟨m2, e2⟩ := evaluatePopulation_returns dec prob hd parents m1 s1 hgood
  obtain ⟨s2, -, -, -, -, k2, -, p2⟩ := evaluatePopulation_members dec prob (fun g c s f _ hc hf => ⟨c, s, hc, hf⟩) parents m1 m2 s1 hgood e2
  refine ⟨parents, m1, m2, e1, e2, s2, by rw [hp]; exact List.nodup_range', ?_, fun r hr => (member_iff m2 r).2 ⟨k2 r (hgood r hr), p2 r hr⟩⟩
  rw [hp]; intro h; have := congrArg List.length h; simp at this; omega

/-- **C101**. A whole run: with chance at least `1 - (1 - q) ^ (G * size)` the final population of `G` generations holds somebody at least as good as
the target. -/
theorem search_run_chance [Finite X] [Nonempty X] (cfg : EvoConfig γ ψ φ (S × (Nat → X))) (pre : List (Stage γ ψ φ (S × (Nat → X))))
    (check : PyM Unit) (stopOk : Bool) (h : List γ → X → List γ × PyM (Option (List γ))) (dec : Dec γ ψ) (prob : Prob γ ψ φ (S × (Nat → X)))
    (initGenome : S × (Nat → X) → PyM (List γ) × (S × (Nat → X)))
    (hstages : cfg.stages = pre ++ [.mutate check stopOk (drawing h), .evaluate dec prob])
    (hst : ∀ st ∈ cfg.stages, StageOk n allowed (ScoredBy dec prob) st) (hsl : ∀ st ∈ cfg.stages, StageLive n allowed st)
    (hpre : ∀ st ∈ pre, StageBlind st) (hprob : ∀ c, BlindDraw (prob.evaluate c)) (hib : BlindDraw initGenome)
    (hinit : ∀ s, ∃ g, (initGenome s).1 = .ok g ∧ GenesIn n allowed g)
    (hchoose : ∀ g pop m t, cfg.choose g pop (retape t m) = ((cfg.choose g pop m).1, ((cfg.choose g pop m).2.1, t)))
    (hpick : ∀ g pop m, pop ≠ [] → (∀ r ∈ pop, Member n allowed (ScoredBy dec prob) m r) → ∃ i, (cfg.choose g pop m).1 = .ok i ∧ i < pop.length)
    (hstop : ∀ g pop m, cfg.stop g pop m = false) (hw : StrictWeak cfg.worse) (hk : 1 ≤ cfg.kElites) (hsize : 1 ≤ cfg.size)
    (target : List γ) (best : φ) (hbest : ∀ f, ScoredBy dec prob target f → cfg.worse (some f) (some best) = false)
    (q : ℚ) (hq1 : q ≤ 1) (hq : ∀ g, GenesIn n allowed g → q ≤ chance fun x => mutated h g x = some target)
    (problem popSize : Nat) (hpop : 1 ≤ popSize) (start : Int) (G : Nat) (m : Mem γ ψ φ (S × (Nat → X))) (hm : Sound m) (z : Nat → X) :
    1 - (1 - q) ^ (G * cfg.size) ≤ chance fun w : Fin (G * cfg.size) → X =>
      ∃ out m', evoRun cfg initGenome dec prob problem popSize start (start + G) (retape (draws w z) m) = (.ok out, m') ∧
        Reached cfg best m' out := by
  have hev : endsEvaluated cfg.stages = true := by rw [hstages]; simp [endsEvaluated, evaluates]
  have hd : ∀ g, GenesIn n allowed g → ∃ c, decodeOf dec g = .ok c ∧ ∀ s, ∃ f, (prob.evaluate c s).1 = .ok f :=
    hsl (.evaluate dec prob) (by rw [hstages]; simp)
  obtain ⟨parents, m1, m2, e1, e2, s2, nd, hne, hmem⟩ := first_population initGenome dec prob hinit hd problem popSize hpop m hm
  have hrun : ∀ t, evoRun cfg initGenome dec prob problem popSize start (start + G) (retape t m) = evoLoop cfg G start parents (retape t m2) := by
    intro t
    have b1 := createPopulation_blind (γ := γ) (ψ := ψ) (φ := φ) initGenome hib problem popSize m t
    have b2 := evaluatePopulation_blind dec prob hprob parents m1 t
    rw [e1] at b1
    rw [e2] at b2
    rw [evoRun, bind_live b1, bind_live b2]
    congr 1
    omega
  have hb := search_loop_chance cfg pre check stopOk h dec prob hstages hst hpre hprob hchoose hstop hw hk hsize target best hbest q hq1 hq z G
    start parents m2 (G * cfg.size) rfl s2 nd hmem
  have hne' : Nonempty (Fin (G * cfg.size) → X) := inferInstance
  have : chance (fun w : Fin (G * cfg.size) → X => ¬ ∃ out m', evoRun cfg initGenome dec prob problem popSize start (start + G)
      (retape (draws w z) m) = (.ok out, m') ∧ Reached cfg best m' out) ≤ (1 - q) ^ (G * cfg.size) := by
    refine le_trans (chance_mono fun w hx => ?_) hb
    obtain ⟨out, m', e⟩ := evo_loop_returns cfg hst hsl hev hsize hpick G start parents (retape (draws w z) m2) ⟨s2.1, s2.2, s2.3⟩ hne
      (fun r hr => member_same ⟨rfl, rfl⟩ (hmem r hr))
    exact ⟨out, m', e, fun hr => hx ⟨out, m', by rw [hrun, e], hr⟩⟩
  rw [chance_not] at this
  linarith

/-! ## Bit flips -/

/-- The bit-flip operator's random numbers: one draw of `n` random numbers per birth. -/
def Spec.flipNumbers (S : Type) {n N : Nat} (s : S × (Nat → (Fin n → Fin N))) : List ℚ × (S × (Nat → (Fin n → Fin N))) :=
  (fractions (s.2 0), (s.1, fun i => s.2 (i + 1)))

/-- What a bit-flip mutation does with one draw. -/
def flipDraw {n N : Nat} (expected probability : Option ℚ) (g : List Int) (x : Fin n → Fin N) : List Int × PyM (Option (List Int)) :=
  match genomeMutateBitflip expected probability (fractions x) g with
  | .error e => (g, .error e)
  | .ok g' => (g', .ok none)

theorem bitflip_drawing (S : Type) {n N : Nat} (expected probability : Option ℚ) :
    bitflipFn expected probability (flipNumbers S (n := n) (N := N)) = drawing (flipDraw expected probability) := by
  funext g s
  simp only [bitflipFn, flipNumbers, drawing, flipDraw]
  cases genomeMutateBitflip expected probability (fractions (s.2 0)) g <;> rfl

theorem bitGenome_of {n : Nat} {g : List Int} (hg : GenesIn n (fun _ x => x = 0 ∨ x = 1) g) : ∃ v : Fin n → Fin 2, g = bitGenome v := by
  refine ⟨fun i => if g[(i : Nat)]? = some 1 then 1 else 0, ?_⟩
  rw [bitGenome, eq_ofFn_iff g hg.1]
  intro i
  have hi : (i : Nat) < g.length := by rw [hg.1]; exact i.2
  have h := hg.2 i g[(i : Nat)] (List.getElem?_eq_getElem hi)
  rw [List.getElem?_eq_getElem hi]
  rcases h with h | h <;> rw [h] <;> simp

/-- **C101** (one birth). Whatever the genome, a bit-flip mutation with chance `b` of flipping a bit makes any target out of it with chance at least
`min b (1 - b) ^ n`. -/
theorem bitflip_hits (N : Nat) (hN : 0 < N) {n : Nat} (expected probability : Option ℚ) (p : ℚ) (hr : RateGives expected probability n p)
    (h0 : 0 ≤ p) (h1 : p ≤ 1) (y : Fin n → Fin 2) (g : List Int) (hg : GenesIn n (fun _ x => x = 0 ∨ x = 1) g) :
    min (below N p) (1 - below N p) ^ n ≤ chance fun x : Fin n → Fin N => mutated (flipDraw expected probability) g x = some (bitGenome y) := by
  obtain ⟨v, rfl⟩ := bitGenome_of hg
  obtain ⟨b1, -, b2, -⟩ := below_near N hN p h0 h1
  have hc := bitflip_chance N hN expected probability p hr h0 h1 v y
  have : chance (fun x : Fin n → Fin N => mutated (flipDraw expected probability) (bitGenome v) x = some (bitGenome y)) =
      chance fun x : Fin n → Fin N => genomeMutateBitflip expected probability (fractions x) (bitGenome v) = .ok (bitGenome y) := by
    refine chance_congr fun x => ?_
    simp only [mutated, flipDraw]
    cases genomeMutateBitflip expected probability (fractions x) (bitGenome v) <;> simp
  rw [this, hc]
  have hle : Nat.card {i // v i ≠ y i} ≤ n := by
    have := Nat.card_le_card_of_injective (fun i : {i // v i ≠ y i} => i.1) Subtype.val_injective
    rwa [Nat.card_eq_fintype_card (α := Fin n), Fintype.card_fin] at this
  have hm0 : 0 ≤ min (below N p) (1 - below N p) := le_min (by linarith) (by linarith)
  calc min (below N p) (1 - below N p) ^ n
      = min (below N p) (1 - below N p) ^ Nat.card {i // v i ≠ y i} * min (below N p) (1 - below N p) ^ (n - Nat.card {i // v i ≠ y i}) := by
        rw [← pow_add]; congr 1; omega
    _ ≤ _ := mul_le_mul (pow_le_pow_left₀ hm0 (min_le_left _ _) _) (pow_le_pow_left₀ hm0 (min_le_right _ _) _) (pow_nonneg hm0 _)
        (pow_nonneg (by linarith) _)

/-- **C101** (bit flips). An elitist run whose last operators are bit-flip mutation, with a rate strictly between 0 and 1 (by more than the
resolution of the random numbers), and evaluation, comes as close to certainty as asked for of holding somebody at least as good as the target
genome: for every `ε` there is a number of generations after which the chance is at least `1 - ε`, whatever the problem, the start, the
selection and the other operators. -/
theorem bitflip_search_converges (N : Nat) (hN : 0 < N) (cfg : EvoConfig Int ψ φ (S × (Nat → (Fin n → Fin N))))
    (pre : List (Stage Int ψ φ (S × (Nat → (Fin n → Fin N))))) (stopOk : Bool) (expected probability : Option ℚ) (p : ℚ)
    (hr : RateGives expected probability n p) (h0 : 0 < p) (h1 : p + 1 / N ≤ 1)
    (dec : Dec Int ψ) (prob : Prob Int ψ φ (S × (Nat → (Fin n → Fin N))))
    (initGenome : S × (Nat → (Fin n → Fin N)) → PyM (List Int) × (S × (Nat → (Fin n → Fin N))))
    (hstages : cfg.stages = pre ++ [.mutate (.ok ()) stopOk (bitflipFn expected probability (flipNumbers S)), .evaluate dec prob])
    (hst : ∀ st ∈ pre, StageOk n (fun _ x => x = 0 ∨ x = 1) (ScoredBy dec prob) st)
    (hsl : ∀ st ∈ pre, StageLive n (fun _ x => x = 0 ∨ x = 1) st)
    (hpre : ∀ st ∈ pre, StageBlind st) (hprob : ∀ c, BlindDraw (prob.evaluate c)) (hib : BlindDraw initGenome)
    (hinit : ∀ s, ∃ g, (initGenome s).1 = .ok g ∧ GenesIn n (fun _ x => x = 0 ∨ x = 1) g)
    (hd : ∀ g, GenesIn n (fun _ x => x = 0 ∨ x = 1) g → ∃ c, decodeOf dec g = .ok c ∧ ∀ s, ∃ f, (prob.evaluate c s).1 = .ok f)
    (hchoose : ∀ g pop m t, cfg.choose g pop (retape t m) = ((cfg.choose g pop m).1, ((cfg.choose g pop m).2.1, t)))
    (hpick : ∀ g pop m, pop ≠ [] → ∃ i, (cfg.choose g pop m).1 = .ok i ∧ i < pop.length)
    (hstop : ∀ g pop m, cfg.stop g pop m = false) (hw : StrictWeak cfg.worse) (hk : 1 ≤ cfg.kElites) (hsize : 1 ≤ cfg.size)
    (target : Fin n → Fin 2) (best : φ) (hbest : ∀ f, ScoredBy dec prob (bitGenome target) f → cfg.worse (some f) (some best) = false)
    (problem popSize : Nat) (hpop : 1 ≤ popSize) (start : Int) (ε : ℚ) (hε : 0 < ε) :
    ∃ G0 : Nat, ∀ G ≥ G0, ∀ (m : Mem Int ψ φ (S × (Nat → (Fin n → Fin N)))) (z : Nat → (Fin n → Fin N)), Sound m →
      1 - ε ≤ chance fun w : Fin (G * cfg.size) → (Fin n → Fin N) =>
        ∃ out m', evoRun cfg initGenome dec prob problem popSize start (start + G) (retape (draws w z) m) = (.ok out, m') ∧
          Reached cfg best m' out := by
  have hNq : (0 : ℚ) < 1 / N := by positivity
  have hp1 : p ≤ 1 := by linarith
  obtain ⟨b1, b2, b3, -⟩ := below_near N hN p h0.le hp1
  have : Nonempty (Fin N) := ⟨⟨0, hN⟩⟩
  obtain ⟨q, hqdef⟩ : ∃ q, q = min (below N p) (1 - below N p) ^ n := ⟨_, rfl⟩
  have hq0 : 0 < q := by rw [hqdef]; exact pow_pos (lt_min (by linarith) (by linarith)) _
  have hq1 : q ≤ 1 := by
    rw [hqdef]
    exact pow_le_one₀ (le_min (by linarith) (by linarith)) ((min_le_left _ _).trans b3)
  obtain ⟨G0, hG0⟩ := exists_pow_lt_of_lt_one hε (show 1 - q < 1 by linarith)
  have hst' : ∀ st ∈ cfg.stages, StageOk n (fun _ x => x = 0 ∨ x = 1) (ScoredBy dec prob) st := by
    intro st hs
    rw [hstages] at hs
    simp only [List.mem_append, List.mem_cons, List.not_mem_nil, or_false] at hs
    rcases hs with hs | rfl | rfl
    · exact hst st hs
    · exact bitflip_stage_ok _ _ _ _ _ _ _
    · exact evaluate_stage_ok dec prob
  have hsl' : ∀ st ∈ cfg.stages, StageLive n (fun _ x => x = 0 ∨ x = 1) st := by
    intro st hs
    rw [hstages] at hs
    simp only [List.mem_append, List.mem_cons, List.not_mem_nil, or_false] at hs
    rcases hs with hs | rfl | rfl
    · exact hsl st hs
    · refine ⟨rfl, fun g s hg => ?_⟩
      obtain ⟨g', e, -⟩ := bitflip_flips_drawn expected probability (fractions (s.2 0)) g p (by rw [hg.1]; exact hr) h0.le hp1
        (by rw [fractions_length, hg.1])
      exact ⟨none, by simp only [bitflipFn, flipNumbers, e]⟩
    · exact hd
  refine ⟨G0, fun G hG m z hm => ?_⟩
  refine le_trans ?_ (search_run_chance cfg pre (.ok ()) stopOk (flipDraw expected probability) dec prob initGenome
    (by rw [hstages, bitflip_drawing]) hst' hsl' hpre hprob hib hinit hchoose (fun g pop m hne _ => hpick g pop m hne) hstop hw hk hsize
    (bitGenome target) best hbest q hq1 (fun g hg => by rw [hqdef]; exact bitflip_hits N hN expected probability p hr h0.le hp1 target g hg)
    problem popSize hpop start G m hm z)
  have hle : G0 ≤ G * cfg.size := hG.trans (Nat.le_mul_of_pos_right _ hsize)
  have := pow_le_pow_of_le_one (by linarith : 0 ≤ 1 - q) (by linarith) hle
  linarith

/-! ## Random integers -/

/-- What an integer mutation does with one draw: for each gene a random number, and a value within its bounds. -/
def Spec.redraw {n N : Nat} (lo hi : Fin n → Int) (expected probability : Option ℚ) (p : ℚ) (g : List Int)
    (v : (i : Fin n) → Fin N × Set.Icc (lo i) (hi i)) : List Int × PyM (Option (List Int)) :=
  match individualMutateRandint (List.ofFn fun i => (lo i, hi i)) expected probability (fractions fun i => (v i).1)
      ((((List.ofFn fun i => ((v i).2 : Int)).zip (fractions fun i => (v i).1)).filter fun q => decide (q.2 < p)).map Prod.fst) g with
  | .error e => (g, .error e)
  | .ok g' => (g', .ok none)

/-- **C101** (one birth, integers). Whatever the genome, integer mutation with chance `b` of redrawing a gene makes any target within the bounds out of it
with chance at least the product of `b / width` over the genes. -/
theorem randint_hits (N : Nat) (hN : 0 < N) {n : Nat} (hn : 0 < n) (expected probability : Option ℚ) (p : ℚ)
    (hr : RateGives expected probability n p) (h0 : 0 ≤ p) (h1 : p ≤ 1) (lo hi y : Fin n → Int) (hy : ∀ i, lo i ≤ y i ∧ y i ≤ hi i)
    (g : List Int) (hg : g.length = n) :
    ∏ i, (below N p / ((hi i - lo i + 1 : Int) : ℚ)) ≤ chance fun v : (i : Fin n) → Fin N × Set.Icc (lo i) (hi i) =>
      mutated (redraw lo hi expected probability p) g v = some (List.ofFn y) := by
  subst hg
  obtain ⟨b1, -, b2, -⟩ := below_near N hN p h0 h1
  have hgen := randint_chance N hN hn expected probability p hr h0 h1 lo hi (fun i => g[(i : Nat)]) y
    (fun i => (hy i).1.trans (hy i).2)
  rw [List.ofFn_getElem] at hgen
  have : chance (fun v : (i : Fin g.length) → Fin N × Set.Icc (lo i) (hi i) =>
      mutated (redraw lo hi expected probability p) g v = some (List.ofFn y)) =
      chance fun v : (i : Fin g.length) → Fin N × Set.Icc (lo i) (hi i) =>
        individualMutateRandint (List.ofFn fun i => (lo i, hi i)) expected probability (fractions fun i => (v i).1)
          ((((List.ofFn fun i => ((v i).2 : Int)).zip (fractions fun i => (v i).1)).filter fun q => decide (q.2 < p)).map Prod.fst)
          g = .ok (List.ofFn y) := by
    refine chance_congr fun v => ?_
    simp only [mutated, redraw]
    cases individualMutateRandint (List.ofFn fun i => (lo i, hi i)) expected probability (fractions fun i => (v i).1)
      ((((List.ofFn fun i => ((v i).2 : Int)).zip (fractions fun i => (v i).1)).filter fun q => decide (q.2 < p)).map Prod.fst) g <;> simp
  rw [this, hgen]
  refine Finset.prod_le_prod (fun i _ => ?_) fun i _ => ?_
  · have hw : (0 : ℚ) ≤ ((hi i - lo i + 1 : Int) : ℚ) := by
      have := hy i
      exact_mod_cast (by omega : 0 ≤ hi i - lo i + 1)
    exact div_nonneg (by linarith) hw
  · rw [if_pos (hy i), mul_one_div]
    have : 0 ≤ (1 - below N p) * (if y i = g[(i : Nat)] then (1 : ℚ) else 0) := by
      split
      · linarith
      · simp
    linarith

/-! ## Without mutation -/

/-- No operator of the pipeline mutates. -/
def Spec.noMutation {ρ : Type} : Stage γ ψ φ ρ → Prop
  | .mutate _ _ _ => False
  | _ => True

/-- **C101** (why mutation is needed). A run without mutation never makes a gene: whatever it draws, every gene of everybody in the final population is a gene
that somebody in the starting population had in the same position. -/
theorem no_mutation_no_new_genes {ρ : Type} (cfg : EvoConfig γ ψ φ ρ) (hno : ∀ st ∈ cfg.stages, noMutation st)
    (hcuts : ∀ skip rec, Stage.crossover skip rec ∈ cfg.stages → GoodCuts n rec) (hev : endsEvaluated cfg.stages = true) (fuel : Nat) (g : Int)
    (parents : List Nat) (m m' : Mem γ ψ φ ρ) (out : List Nat) (hm : Sound m) (hnd : parents.Nodup)
    (hp : ∀ r ∈ parents, ∃ gs f, genes m r = some gs ∧ gs.length = n ∧ fitness m r = some (some f))
    (h : evoLoop cfg fuel g parents m = (.ok out, m')) :
    ∀ r ∈ out, ∃ gs, genes m' r = some gs ∧ gs.length = n ∧
      ∀ (i : Nat) (x : γ), gs[i]? = some x → ∃ p ∈ parents, ∃ gp, genes m p = some gp ∧ gp[i]? = some x := by
  obtain ⟨-, -, -, -, hmem, -⟩ := evo_loop_members (n := n)
    (allowed := fun i x => ∃ p ∈ parents, ∃ gp, genes m p = some gp ∧ gp[i]? = some x) (truth := fun _ _ => True) cfg (by
      intro st hs
      have := hno st hs
      cases st with
      | clone => trivial
      | mutate c s f => exact absurd this id
      | crossover skip rec => exact hcuts skip rec hs
      | evaluate dec prob => exact fun _ _ _ _ _ _ _ => trivial
      | robustEvaluate nan dec prob => exact ⟨fun _ _ _ _ _ _ _ => trivial, fun _ _ _ _ => trivial, fun _ _ _ _ _ _ _ => trivial⟩)
    hev fuel g parents m m' out hm hnd (by
      intro r hr
      obtain ⟨gs, f, h1, h2, h3⟩ := hp r hr
      exact ⟨gs, f, h1, ⟨h2, fun i x hx => ⟨r, hr, gs, h1, hx⟩⟩, h3, trivial⟩) h
  intro r hr
  obtain ⟨⟨gs, f, h1, h2, -⟩, -⟩ := hmem r hr
  exact ⟨gs, h1, h2.1, h2.2⟩

/-- `exEvo` without its mutation, but with a crossover that swaps the second gene. -/
def exMix : EvoConfig Int Int Int Nat :=
  { exEvo with
    stages := [.crossover (fun s => (false, s)) (.uniform fun s k => (.ok ((List.range k).map fun i => i == 1), s)), .evaluate .identity exSum] }

/-- Two individuals, with genes 1 0 and 0 0, crossed over for two generations: nobody gets a second gene of 1. -/
example :
    (∀ st ∈ exMix.stages, noMutation st) ∧ endsEvaluated exMix.stages = true ∧
    ((evoRun exMix exInit .identity exSum 0 2 0 2 exStart).1.toOption.map fun out =>
      out.map fun r => genes (evoRun exMix exInit .identity exSum 0 2 0 2 exStart).2 r) = some [some [1, 0], some [1, 0]] := by
  refine ⟨?_, rfl, by decide +kernel⟩
  intro st hs
  simp only [exMix, List.mem_cons, List.not_mem_nil, or_false] at hs
  rcases hs with rfl | rfl <;> trivial

/-! ## An example -/

/-- The number of ones. -/
def exOnes (n N : Nat) : Prob Int Int Int (Nat × (Nat → (Fin n → Fin N))) where
  evaluate c s := match c with
    | .raw g => (.ok g.sum, s)
    | .value v => (.ok v, s)
  evaluateMultiple _ s := (.ok [], s)
  takesIndividuals := true

/-- A uniform crossover whose random state counts. -/
def exSwap (n N : Nat) : Stage Int Int Int (Nat × (Nat → (Fin n → Fin N))) :=
  .crossover (fun s => (s.1 % 3 == 0, (s.1 + 1, s.2))) (.uniform fun s k => (.ok (List.replicate k (s.1 % 2 == 0)), (s.1 + 1, s.2)))

/-- Bits to maximise: selection takes turns, uniform crossover, then bit flips with one expected mutation. The other random
state counts. -/
def exSearch (n N : Nat) : EvoConfig Int Int Int (Nat × (Nat → (Fin n → Fin N))) where
  worse a b := decide (a.getD 0 < b.getD 0)
  choose _ pop m := (.ok (m.rng.1 % pop.length), (m.rng.1 + 1, m.rng.2))
  stages := [exSwap n N,
    .mutate (.ok ()) false (bitflipFn (some 1) none (flipNumbers Nat)),
    .evaluate .identity (exOnes n N)]
  size := 5
  kElites := 1
  stop _ _ _ := false

/-- With the default of one expected mutation, on two bits or more, the run finds a genome of ones with chance as near 1 as asked for. -/
theorem exSearch_converges (n N : Nat) (hn : 2 ≤ n) (hN : 2 ≤ N) (ε : ℚ) (hε : 0 < ε) :
    ∃ G0 : Nat, ∀ G ≥ G0, ∀ (m : Mem Int Int Int (Nat × (Nat → (Fin n → Fin N)))) (z : Nat → (Fin n → Fin N)), Sound m →
      1 - ε ≤ chance fun w : Fin (G * 5) → (Fin n → Fin N) =>
        ∃ out m', evoRun (exSearch n N) (fun s => (.ok (List.replicate n 0), s)) .identity
          (exOnes n N) 0 5 0 (0 + G)
          (retape (draws w z) m) = (.ok out, m') ∧ ∃ r ∈ out, ∃ f, fitness m' r = some (some f) ∧ (n : Int) ≤ f := by
  have hnq : (2 : ℚ) ≤ n := by exact_mod_cast hn
  have hNq : (2 : ℚ) ≤ N := by exact_mod_cast hN
  have i1 : (1 : ℚ) / n ≤ 1 / 2 := one_div_le_one_div_of_le (by norm_num) hnq
  have i2 : (1 : ℚ) / N ≤ 1 / 2 := one_div_le_one_div_of_le (by norm_num) hNq
  obtain ⟨G0, h⟩ := bitflip_search_converges (n := n) N (by omega) (exSearch n N) [exSwap n N] false (some 1) none (1 / n)
    (.inr ⟨rfl, by omega, 1, rfl, rfl⟩) (by positivity) (by linarith) .identity (exOnes n N) (fun s => (.ok (List.replicate n 0), s)) rfl
    (fun st hs => by
      simp only [List.mem_cons, List.not_mem_nil, or_false] at hs
      subst hs; trivial)
    (fun st hs => by
      simp only [List.mem_cons, List.not_mem_nil, or_false] at hs
      subst hs; exact fun s => ⟨_, rfl, by simp⟩)
    (fun st hs => by
      simp only [List.mem_cons, List.not_mem_nil, or_false] at hs
      subst hs; exact ⟨fun _ _ _ => rfl, fun _ _ _ _ => rfl⟩)
    (fun c => by cases c <;> exact fun _ _ _ => rfl) (fun _ _ _ => rfl)
    (fun s => ⟨_, rfl, by simp, fun i x hx => Or.inl (List.eq_of_mem_replicate (List.mem_of_getElem? hx))⟩)
    (fun g _ => ⟨.raw g, rfl, fun s => ⟨_, rfl⟩⟩)
    (fun _ _ _ _ => rfl) (fun g pop m hne => ⟨_, rfl, Nat.mod_lt _ (List.length_pos_iff.2 hne)⟩) (fun _ _ _ => rfl)
    ⟨fun a b hab => by simp [exSearch] at *; omega, fun a b c hab hbc => by simp [exSearch] at *; omega⟩ (by simp [exSearch]) (by simp [exSearch])
    (fun _ => 1) (n : Int)
    (fun f hf => by
      obtain ⟨c, s, hc, hf⟩ := hf
      simp only [decodeOf, Except.ok.injEq] at hc
      subst hc
      cases hf
      simp [exSearch, bitGenome])
    0 5 (by omega) 0 ε hε
  refine ⟨G0, fun G hG m z hm => (h G hG m z hm).trans (chance_mono fun w hx => ?_)⟩
  obtain ⟨out, m', e, r, hr, f, hf, hw⟩ := hx
  refine ⟨out, m', e, r, hr, f, hf, ?_⟩
  simp [exSearch] at hw
  exact hw

end Leap
