import Verif.Props.PlusRun
import Verif.Props.Search

/-!
# C117: evolution strategies written by hand find any genome they can mutate to

As in C101, the mutation operator takes one draw per birth from a stream of independent, equally likely draws, and everything else uses some
other random state. The mutation may change from generation to generation, as in examples/simple/simple_es.py, where the step size is annealed.
-/

namespace Leap
open Spec

variable {γ ψ φ S X : Type} {n : Nat} {allowed : Nat → γ → Prop}

/-- One brood: the chance that nobody with the genes `target` is born and something bad happens afterwards. -/
theorem brood_chance [Finite X] [Nonempty X] (parents : List Nat) (choose : Mem γ ψ φ (S × (Nat → X)) → PyM Nat × (S × (Nat → X)))
    (stages pre : List (Stage γ ψ φ (S × (Nat → X)))) (check : PyM Unit) (stopOk : Bool) (h : List γ → X → List γ × PyM (Option (List γ)))
    (dec : Dec γ ψ) (prob : Prob γ ψ φ (S × (Nat → X)))
    (hstages : stages = pre ++ [.mutate check stopOk (drawing h), .evaluate dec prob])
    (hst : ∀ st ∈ stages, StageOk n allowed (ScoredBy dec prob) st) (hpre : ∀ st ∈ pre, StageBlind st)
    (hprob : ∀ c, BlindDraw (prob.evaluate c)) (hchoose : ∀ m t, choose (retape t m) = ((choose m).1, ((choose m).2.1, t)))
    (target : List γ) (q : ℚ) (hq1 : q ≤ 1) (hq : ∀ g, GenesIn n allowed g → q ≤ chance fun x => mutated h g x = some target)
    (z : Nat → X) (B : ℚ) (hB : 0 ≤ B) (k : Nat) (m : Mem γ ψ φ (S × (Nat → X))) (hm : Sound m) (hp : ∀ r ∈ parents, GoodGenes n allowed m r)
    (Q : List Nat → Mem γ ψ φ (S × (Nat → X)) → Prop) (T' T : Nat) (hT : T = k + T')
    (hQ : ∀ t off m1, runPipeline parents choose stages k (retape t m) = (.ok off, m1) →
      chance (fun w : Fin T' → X => Q off (retape (draws w z) m1)) ≤ B)
    (hhit : ∀ t off m1, runPipeline parents choose stages k (retape t m) = (.ok off, m1) → (∃ r ∈ off, genes m1 r = some target) → ¬ Q off m1) :
    chance (fun w : Fin T → X => ∃ off m1, runPipeline parents choose stages k (retape (draws w z) m) = (.ok off, m1) ∧ Q off m1) ≤
      (1 - q) ^ k * B := by
  obtain ⟨up, hupdef⟩ : ∃ up, up = stagesIter (selectionIter parents choose) (Stage.clone :: pre) := ⟨_, rfl⟩
  have hiter : stagesIter (selectionIter parents choose) (Stage.clone :: stages) = bornFrom up check stopOk h dec prob := by
    rw [hstages, hupdef, ← List.cons_append, stagesIter_append]
    rfl
  have hupb : ∀ s, Blind (up.next s) := by
    rw [hupdef]
    refine stages_blind _ ?_ _ (selection_blind parents _ hchoose)
    intro st hs
    rcases List.mem_cons.1 hs with rfl | hs
    · trivial
    · exact hpre st hs
  have hupc : ∃ pend, Carries n allowed m up pend := by
    rw [hupdef]
    exact stages_carries hm pre (fun st hs => stageOk_weaken (hst st (by rw [hstages]; simp [hs]))) _ _ (clone_first_carries hm parents hp _)
  obtain ⟨pend, hc⟩ := hupc
  have hcb : Carries n allowed m (bornFrom up check stopOk h dec prob) (fun s : Bool × up.σ => pend s.2) :=
    stage_carries hm _ _ (stage_carries hm up pend hc (.mutate check stopOk (drawing h))
      (stageOk_weaken (hst _ (by rw [hstages]; simp)))) (.evaluate dec prob) (fun _ _ _ _ _ _ _ => trivial)
  have hi : pend up.init = [] := hc.init
  have hnone : ∀ m1 : Mem γ ψ φ (S × (Nat → X)), ∀ p ∈ pend up.init, m.inds.length ≤ p ∧ GoodGenes n allowed m1 p := by
    intro m1 p hp
    rw [hi] at hp
    cases hp
  have hnil : (pend up.init).Nodup := by rw [hi]; exact List.nodup_nil
  have hrun : ∀ (t : Nat → X) off m1, runPipeline parents choose stages k (retape t m) = (.ok off, m1) ↔
      ∃ s', hpull (bornFrom up check stopOk h dec prob).next k (bornFrom up check stopOk h dec prob).init (retape t m) =
        (.ok (off, s'), m1) := by
    intro t off m1
    show (hpull (stagesIter (selectionIter parents choose) (Stage.clone :: stages)).next k
      (stagesIter (selectionIter parents choose) (Stage.clone :: stages)).init >>= fun os => pure os.1) (retape t m) = _ ↔ _
    rw [hiter]
    constructor
    · intro hx
      obtain ⟨⟨os, s'⟩, m2, e1, hx⟩ := bind_ok hx
      simp only [HM.pure_apply, Prod.mk.injEq, Except.ok.injEq] at hx
      obtain ⟨rfl, rfl⟩ := hx
      exact ⟨s', e1⟩
    · rintro ⟨s', e⟩
      exact (bind_live e).trans rfl
  refine le_trans (chance_mono fun w hx => ?_) (pull_chance_rest (bornFrom up check stopOk h dec prob) target q hq1
    (fun (s : Bool × up.σ) m1 => Fresh m m1 ∧ (∀ p ∈ pend s.2, m.inds.length ≤ p ∧ GoodGenes n allowed m1 p) ∧ (pend s.2).Nodup)
    (fun s m1 t hI => ⟨fresh_rng hI.1 _, fun p hp => ⟨(hI.2.1 p hp).1, goodGenes_same ⟨rfl, rfl⟩ (hI.2.1 p hp).2⟩, hI.2.2⟩)
    ?_ ?_ ?_ z B hB k (bornFrom up check stopOk h dec prob).init m Q T' T hT ⟨.refl m hm, hnone m, hnil⟩ ?_ ?_)
  · obtain ⟨off, m1, e1, e2⟩ := hx
    obtain ⟨s', e3⟩ := (hrun _ _ _).1 e1
    exact ⟨off, s', m1, e3, e2⟩
  · intro s m1 r s1 m2 hI e
    have o := hcb.step s m1 r s1 m2 hI.1 hI.2.1 hI.2.2 e
    exact ⟨o.fresh, fun p hp => (o.held p hp).2, o.nodup⟩
  · intro s m1 x t t' r s1 m2 e
    exact (birth_draws up hupb check stopOk h dec prob hprob s.1 s.2 m1 m2 x t r s1 e t').1
  · intro s m1 hI
    rcases e : up.next s.2 m1 with ⟨o, ma⟩
    cases o with
    | error err =>
      refine hq1.trans (le_of_eq ?_)
      rw [← chance_true (Ω := X)]
      refine chance_congr fun x => ⟨fun _ => ?_, fun _ => trivial⟩
      intro t r s1 m2 e1
      obtain ⟨-, ma', e2, -⟩ := birth_draws up hupb check stopOk h dec prob hprob s.1 s.2 m1 m2 x t r s1 e1 t
      rw [e] at e2
      cases e2
    | ok rs =>
      obtain ⟨r, s2⟩ := rs
      have o := hc.step s.2 m1 r s2 ma hI.1 hI.2.1 hI.2.2 e
      obtain ⟨gg, hg1, hg2⟩ := o.good
      refine (hq gg hg2).trans (chance_mono fun x hx => ?_)
      intro t r' s1 m2 e1
      obtain ⟨-, ma', e2, hgen⟩ := birth_draws up hupb check stopOk h dec prob hprob s.1 s.2 m1 m2 x t r' s1 e1 t
      rw [e] at e2
      simp only [Prod.mk.injEq, Except.ok.injEq] at e2
      obtain ⟨⟨rfl, -⟩, rfl⟩ := e2
      rw [hgen gg hg1, hx]
  · intro t off s' m1 e
    exact hQ t off m1 ((hrun _ _ _).2 ⟨s', e⟩)
  · intro t off s' m1 e hh
    exact hhit t off m1 ((hrun _ _ _).2 ⟨s', e⟩) (hit_stays (bornFrom up check stopOk h dec prob) (fun s : Bool × up.σ => pend s.2) hcb target k
      (false, up.init) (retape t m) off s' m1 (fresh_rng (.refl m hm) _) (hnone _) hnil e hh)

/-- Somebody in the population is at least as good as the fitness `best`. -/
def Spec.PlusReached {ρ : Type} (cfg : PlusConfig γ ψ φ ρ) (best : φ) (m : Mem γ ψ φ ρ) (pop : List Nat) : Prop :=
  ∃ r ∈ pop, ∃ f, fitness m r = some (some f) ∧ cfg.worse (some f) (some best) = false

/-- The chance that all the births of `G` generations from generation `g` on miss. -/
def Spec.allMiss (q : Int → ℚ) (size : Nat) : Nat → Int → ℚ
  | 0, _ => 1
  | G + 1, g => (1 - q g) ^ size * allMiss q size G (g + 1)

theorem allMiss_nonneg {q : Int → ℚ} (hq : ∀ g, q g ≤ 1) (size G : Nat) : ∀ g, 0 ≤ allMiss q size G g := by
  induction G with
  | zero => intro g; exact zero_le_one
  | succ G ih => exact fun g => mul_nonneg (pow_nonneg (by linarith [hq g]) _) (ih _)

theorem allMiss_const (q : ℚ) (size G : Nat) : ∀ g, allMiss (fun _ => q) size G g = (1 - q) ^ (G * size) := by
  induction G with
  | zero => intro g; simp [allMiss]
  | succ G ih => intro g; rw [allMiss, ih, ← pow_add]; congr 1; ring

theorem plus_fit_bind {ρ : Type} {m : Mem γ ψ φ ρ} {r : Nat} {f : φ} (hf : fitness m r = some (some f)) :
    (m.inds[r]?).bind Obj.fitness = some f := by
  unfold fitness at hf
  cases ho : m.inds[r]? with
  | none => simp [ho] at hf
  | some o => simpa [ho] using hf

/-- C117 (generations): the chance that `G` generations of a loop with truncation go by without anybody at least as good as `best`, from any
population. -/
theorem plus_loop_chance [Finite X] [Nonempty X] (cfg : PlusConfig γ ψ φ (S × (Nat → X))) (pre : Int → List (Stage γ ψ φ (S × (Nat → X))))
    (check : PyM Unit) (stopOk : Bool) (h : Int → List γ → X → List γ × PyM (Option (List γ))) (dec : Dec γ ψ) (prob : Prob γ ψ φ (S × (Nat → X)))
    (ht : cfg.survival = .truncation)
    (hstages : ∀ g, cfg.stages g = pre g ++ [.mutate check stopOk (drawing (h g)), .evaluate dec prob])
    (hst : ∀ g, ∀ st ∈ cfg.stages g, StageOk n allowed (ScoredBy dec prob) st)
    (hpre : ∀ g, ∀ st ∈ pre g, StageBlind st) (hprob : ∀ c, BlindDraw (prob.evaluate c))
    (hchoose : ∀ g pop m t, cfg.choose g pop (retape t m) = ((cfg.choose g pop m).1, ((cfg.choose g pop m).2.1, t)))
    (hw : StrictWeak cfg.worse)
    (target : List γ) (best : φ) (hbest : ∀ f, ScoredBy dec prob target f → cfg.worse (some f) (some best) = false)
    (q : Int → ℚ) (hq1 : ∀ g, q g ≤ 1) (hq : ∀ i g, GenesIn n allowed g → q i ≤ chance fun x => mutated (h i) g x = some target)
    (z : Nat → X) (G : Nat) :
    ∀ (g : Int) (p : List Nat) (m : Mem γ ψ φ (S × (Nat → X))) (T : Nat), T = G * (p.length * cfg.brood) → p ≠ [] →
      PlusOk n allowed (ScoredBy dec prob) m p →
      chance (fun w : Fin T → X => ∃ out m', plusLoop cfg G g p (retape (draws w z) m) = (.ok out, m') ∧ ¬ PlusReached cfg best m' out) ≤
        allMiss q (p.length * cfg.brood) G g := by
  have hev : ∀ g, endsEvaluated (cfg.stages g) = true := by intro g; rw [hstages]; simp [endsEvaluated, evaluates]
  induction G with
  | zero =>
    intro g p m T hT _ _
    have : T = 0 := by omega
    subst this
    exact chance_le_one _
  | succ G ih =>
    intro g p m T hT hne hok
    have hT : T = p.length * cfg.brood + G * (p.length * cfg.brood) := by rw [hT]; ring
    have hokt : ∀ t, PlusOk n allowed (ScoredBy dec prob) (retape t m) p := fun t =>
      ⟨⟨hok.sound.1, hok.sound.2, hok.sound.3⟩, hok.nodup, fun r hr => member_same ⟨rfl, rfl⟩ (hok.members r hr)⟩
    have hsurv : ∀ off m1, survive cfg off p m1 = (.ok (truncationSelection (cfg.lt m1) off p.length (some p)), m1) := by
      intro off m1; simp only [survive, ht]
    refine le_trans (chance_mono fun w hx => ?_) (brood_chance p (cfg.choose g p) (cfg.stages g) (pre g) check stopOk (h g) dec prob (hstages g)
      (hst g) (hpre g) hprob (hchoose g p) target (q g) (hq1 g) (hq g) z (allMiss q (p.length * cfg.brood) G (g + 1))
      (allMiss_nonneg hq1 _ _ _) (p.length * cfg.brood) m hok.sound (fun r hr => by
        obtain ⟨gg, f, h1, h2, -⟩ := hok.members r hr
        exact ⟨gg, h1, h2⟩)
      (fun off m1 => ∃ out m', plusLoop cfg G (g + 1) (truncationSelection (cfg.lt m1) off p.length (some p)) m1 = (.ok out, m') ∧
        ¬ PlusReached cfg best m' out) (G * (p.length * cfg.brood)) T hT ?_ ?_)
    · obtain ⟨out, m', e, hnr⟩ := hx
      obtain ⟨p1, m2, e0, e⟩ := bind_ok e
      obtain ⟨off, m1, e1, e2⟩ := bind_ok e0
      clear e0
      rw [hsurv] at e2
      simp only [Prod.mk.injEq, Except.ok.injEq] at e2
      obtain ⟨rfl, rfl⟩ := e2
      exact ⟨off, m1, e1, out, m', e, hnr⟩
    · intro t off m1 e
      obtain ⟨-, -, -, -, -, -, l1, -, ok1⟩ := plus_turn_ok cfg hst hev (hokt t) e (hsurv off m1)
      have hlt : ∀ t, cfg.lt (retape t m1) = cfg.lt m1 := fun _ => rfl
      simp only [hlt]
      have := ih (g + 1) _ m1 (G * (p.length * cfg.brood)) (by rw [l1]) (List.length_pos_iff.1 (by rw [l1]; exact List.length_pos_iff.2 hne)) ok1
      rwa [l1] at this
    · rintro t off m1 e ⟨r, hr, hgr⟩ ⟨out, m', e2, hnr⟩
      apply hnr
      obtain ⟨u1, -, l1, nd1, q1, nd2, l2, sub2, ok2⟩ := plus_turn_ok cfg hst hev (hokt t) e (hsurv off m1)
      obtain ⟨offs, hb⟩ := (plus_loop_broods cfg _ _ _ _ _ _).1 e2
      have hall : Broods cfg g p (retape t m) (G + 1) (off :: offs) out m' := .next e (hsurv off m1) hb
      obtain ⟨kb, kf⟩ := plus_keeps_best_ever cfg ht hw hst hev hall (hokt t)
      obtain ⟨-, ok3, l3, -, -, -, sub3, -, mem3⟩ := plus_broods_members cfg hst hev hall (hokt t)
      obtain ⟨d, hd⟩ : ∃ d, out[0]? = some d := by
        have : 0 < out.length := by rw [l3]; exact List.length_pos_iff.2 hne
        exact ⟨_, List.getElem?_eq_getElem this⟩
      have hdr := kbest_dominates (plus_lt_strictWeak cfg hw m') kb (kf (Nat.succ_pos _)) [r] (by simp)
        (by intro x hx; simp only [List.mem_cons, List.not_mem_nil, or_false] at hx; subst hx; simp [hr]) (by simp [BestFirst]) 0 d r hd rfl
      have hdm := List.mem_of_getElem? hd
      obtain ⟨-, fd, -, -, hfd, -⟩ := ok3.members d hdm
      -- the one that hit keeps its genes
      have hu : Unchanged m1 m' := (plus_broods_members cfg hst hev hb ok2).1
      obtain ⟨gr, fr, hg1, -, hf1, hs1⟩ := (q1 r hr).2
      rw [hgr] at hg1
      cases hg1
      have hlr := member_lt (q1 r hr).2
      have hfr : (m'.inds[r]?).bind Obj.fitness = some fr := by rw [hu.inds r hlr]; exact plus_fit_bind hf1
      refine ⟨d, hdm, fd, hfd, ?_⟩
      unfold PlusConfig.lt at hdr
      rw [plus_fit_bind hfd, hfr] at hdr
      exact hw.negTrans _ _ _ hdr (hbest fr hs1)

/-- C117: a whole script with truncation: with chance at least one minus the chance that all births miss, its final population
holds somebody at least as good as the target. -/
theorem plus_run_chance [Finite X] [Nonempty X] (cfg : PlusConfig γ ψ φ (S × (Nat → X))) (pre : Int → List (Stage γ ψ φ (S × (Nat → X))))
    (check : PyM Unit) (stopOk : Bool) (h : Int → List γ → X → List γ × PyM (Option (List γ))) (dec : Dec γ ψ) (prob : Prob γ ψ φ (S × (Nat → X)))
    (initGenome : S × (Nat → X) → PyM (List γ) × (S × (Nat → X)))
    (ht : cfg.survival = .truncation)
    (hstages : ∀ g, cfg.stages g = pre g ++ [.mutate check stopOk (drawing (h g)), .evaluate dec prob])
    (hst : ∀ g, ∀ st ∈ cfg.stages g, StageOk n allowed (ScoredBy dec prob) st) (hsl : ∀ g, ∀ st ∈ cfg.stages g, StageLive n allowed st)
    (hpre : ∀ g, ∀ st ∈ pre g, StageBlind st) (hprob : ∀ c, BlindDraw (prob.evaluate c)) (hib : BlindDraw initGenome)
    (hinit : ∀ s, ∃ g, (initGenome s).1 = .ok g ∧ GenesIn n allowed g)
    (hchoose : ∀ g pop m t, cfg.choose g pop (retape t m) = ((cfg.choose g pop m).1, ((cfg.choose g pop m).2.1, t)))
    (hpick : ∀ (g : Int) (pop : List Nat) (m : Mem γ ψ φ (S × (Nat → X))), pop ≠ [] → (∀ r ∈ pop, Member n allowed (ScoredBy dec prob) m r) →
      ∃ i, (cfg.choose g pop m).1 = .ok i ∧ i < pop.length)
    (hw : StrictWeak cfg.worse)
    (target : List γ) (best : φ) (hbest : ∀ f, ScoredBy dec prob target f → cfg.worse (some f) (some best) = false)
    (q : Int → ℚ) (hq1 : ∀ g, q g ≤ 1) (hq : ∀ i g, GenesIn n allowed g → q i ≤ chance fun x => mutated (h i) g x = some target)
    (problem popSize : Nat) (hpop : 1 ≤ popSize) (G : Nat) (m : Mem γ ψ φ (S × (Nat → X))) (hm : Sound m) (z : Nat → X) :
    1 - allMiss q (popSize * cfg.brood) G 0 ≤ chance fun w : Fin (G * (popSize * cfg.brood)) → X =>
      ∃ out m', plusRun cfg initGenome dec prob problem popSize G (retape (draws w z) m) = (.ok out, m') ∧ PlusReached cfg best m' out := by
  have hev : ∀ g, endsEvaluated (cfg.stages g) = true := by intro g; rw [hstages]; simp [endsEvaluated, evaluates]
  have hd : ∀ g, GenesIn n allowed g → ∃ c, decodeOf dec g = .ok c ∧ ∀ s, ∃ f, (prob.evaluate c s).1 = .ok f :=
    hsl 0 (.evaluate dec prob) (by rw [hstages]; simp)
  have hinit' : ∀ s g s', initGenome s = (.ok g, s') → GenesIn n allowed g := by
    intro s g s' h
    obtain ⟨g', h1, h2⟩ := hinit s
    rw [h] at h1
    cases h1
    exact h2
  obtain ⟨parents, m1, m2, e1, e2, -⟩ := first_population initGenome dec prob hinit hd problem popSize hpop m hm
  obtain ⟨-, l2, -, ok2⟩ := plus_first initGenome dec prob hinit' problem popSize m m1 m2 hm parents e1 e2
  have hne : parents ≠ [] := List.length_pos_iff.1 (by omega)
  have hrun : ∀ t, plusRun cfg initGenome dec prob problem popSize G (retape t m) = plusLoop cfg G 0 parents (retape t m2) := by
    intro t
    have b1 := createPopulation_blind (γ := γ) (ψ := ψ) (φ := φ) initGenome hib problem popSize m t
    have b2 := evaluatePopulation_blind dec prob hprob parents m1 t
    rw [e1] at b1
    rw [e2] at b2
    rw [plusRun, bind_live b1, bind_live b2]
    rfl
  have hb := plus_loop_chance cfg pre check stopOk h dec prob ht hstages hst hpre hprob hchoose hw target best hbest q hq1 hq z G
    0 parents m2 (G * (popSize * cfg.brood)) (by rw [l2]) hne ok2
  rw [l2] at hb
  have : chance (fun w : Fin (G * (popSize * cfg.brood)) → X => ¬ ∃ out m', plusRun cfg initGenome dec prob problem popSize G
      (retape (draws w z) m) = (.ok out, m') ∧ PlusReached cfg best m' out) ≤ allMiss q (popSize * cfg.brood) G 0 := by
    refine le_trans (chance_mono fun w hx => ?_) hb
    obtain ⟨out, m', e⟩ := plus_loop_returns cfg hst hsl hev hpick (fun draw hd => by rw [ht] at hd; cases hd) G 0 parents
      (retape (draws w z) m2) hne
      ⟨⟨ok2.sound.1, ok2.sound.2, ok2.sound.3⟩, ok2.nodup, fun r hr => member_same ⟨rfl, rfl⟩ (ok2.members r hr)⟩
    exact ⟨out, m', e, fun hr => hx ⟨out, m', by rw [hrun, e], hr⟩⟩
  rw [chance_not] at this
  linarith

/-- C117 (bit flips): a script with truncation whose last operators are bit-flip mutation and evaluation, with rates that may change with the
generation but stay away from 0 and 1 by some `δ`, comes as close to certainty as asked for of holding somebody at least as good as any target
genome, whatever the problem, the start, the selection and the other operators. -/
theorem plus_bitflip_converges (N : Nat) (hN : 0 < N) (cfg : PlusConfig Int ψ φ (S × (Nat → (Fin n → Fin N))))
    (pre : Int → List (Stage Int ψ φ (S × (Nat → (Fin n → Fin N))))) (stopOk : Bool) (expected probability : Int → Option ℚ) (p : Int → ℚ) (δ : ℚ)
    (hr : ∀ g, RateGives (expected g) (probability g) n (p g)) (hδ : 0 < δ) (h0 : ∀ g, δ ≤ p g) (h1 : ∀ g, p g + 1 / N ≤ 1 - δ)
    (dec : Dec Int ψ) (prob : Prob Int ψ φ (S × (Nat → (Fin n → Fin N))))
    (initGenome : S × (Nat → (Fin n → Fin N)) → PyM (List Int) × (S × (Nat → (Fin n → Fin N))))
    (ht : cfg.survival = .truncation) (hbrood : 1 ≤ cfg.brood)
    (hstages : ∀ g, cfg.stages g = pre g ++ [.mutate (.ok ()) stopOk (bitflipFn (expected g) (probability g) (flipNumbers S)), .evaluate dec prob])
    (hst : ∀ g, ∀ st ∈ pre g, StageOk n (fun _ x => x = 0 ∨ x = 1) (ScoredBy dec prob) st)
    (hsl : ∀ g, ∀ st ∈ pre g, StageLive n (fun _ x => x = 0 ∨ x = 1) st)
    (hpre : ∀ g, ∀ st ∈ pre g, StageBlind st) (hprob : ∀ c, BlindDraw (prob.evaluate c)) (hib : BlindDraw initGenome)
    (hinit : ∀ s, ∃ g, (initGenome s).1 = .ok g ∧ GenesIn n (fun _ x => x = 0 ∨ x = 1) g)
    (hd : ∀ g, GenesIn n (fun _ x => x = 0 ∨ x = 1) g → ∃ c, decodeOf dec g = .ok c ∧ ∀ s, ∃ f, (prob.evaluate c s).1 = .ok f)
    (hchoose : ∀ g pop m t, cfg.choose g pop (retape t m) = ((cfg.choose g pop m).1, ((cfg.choose g pop m).2.1, t)))
    (hpick : ∀ g pop m, pop ≠ [] → ∃ i, (cfg.choose g pop m).1 = .ok i ∧ i < pop.length) (hw : StrictWeak cfg.worse)
    (target : Fin n → Fin 2) (best : φ) (hbest : ∀ f, ScoredBy dec prob (bitGenome target) f → cfg.worse (some f) (some best) = false)
    (problem popSize : Nat) (hpop : 1 ≤ popSize) (ε : ℚ) (hε : 0 < ε) :
    ∃ G0 : Nat, ∀ G ≥ G0, ∀ (m : Mem Int ψ φ (S × (Nat → (Fin n → Fin N)))) (z : Nat → (Fin n → Fin N)), Sound m →
      1 - ε ≤ chance fun w : Fin (G * (popSize * cfg.brood)) → (Fin n → Fin N) =>
        ∃ out m', plusRun cfg initGenome dec prob problem popSize G (retape (draws w z) m) = (.ok out, m') ∧ PlusReached cfg best m' out := by
  have hNq : (0 : ℚ) < 1 / N := by positivity
  have hp0 : ∀ g, 0 ≤ p g := fun g => by linarith [h0 g]
  have hp1 : ∀ g, p g ≤ 1 := fun g => by linarith [h1 g]
  have : Nonempty (Fin N) := ⟨⟨0, hN⟩⟩
  have hδ1 : δ ≤ 1 := by linarith [h1 0, hp0 0]
  have hq0 : 0 < δ ^ n := pow_pos hδ _
  have hq1 : δ ^ n ≤ 1 := pow_le_one₀ hδ.le hδ1
  have hhit : ∀ (i : Int) (g : List Int), GenesIn n (fun _ x => x = 0 ∨ x = 1) g →
      δ ^ n ≤ chance fun x : Fin n → Fin N => mutated (flipDraw (expected i) (probability i)) g x = some (bitGenome target) := by
    intro i g hg
    refine le_trans ?_ (bitflip_hits N hN (expected i) (probability i) (p i) (hr i) (hp0 i) (hp1 i) target g hg)
    obtain ⟨b1, b2, b3, -⟩ := below_near N hN (p i) (hp0 i) (hp1 i)
    exact pow_le_pow_left₀ hδ.le (le_min (by linarith [h0 i]) (by linarith [h1 i])) _
  obtain ⟨G0, hG0⟩ := exists_pow_lt_of_lt_one hε (show 1 - δ ^ n < 1 by linarith)
  have hst' : ∀ g, ∀ st ∈ cfg.stages g, StageOk n (fun _ x => x = 0 ∨ x = 1) (ScoredBy dec prob) st := by
    intro g st hs
    rw [hstages] at hs
    simp only [List.mem_append, List.mem_cons, List.not_mem_nil, or_false] at hs
    rcases hs with hs | rfl | rfl
    · exact hst g st hs
    · exact bitflip_stage_ok _ _ _ _ _ _ _
    · exact evaluate_stage_ok dec prob
  have hsl' : ∀ g, ∀ st ∈ cfg.stages g, StageLive n (fun _ x => x = 0 ∨ x = 1) st := by
    intro i st hs
    rw [hstages] at hs
    simp only [List.mem_append, List.mem_cons, List.not_mem_nil, or_false] at hs
    rcases hs with hs | rfl | rfl
    · exact hsl i st hs
    · refine ⟨rfl, fun g s hg => ?_⟩
      obtain ⟨g', e, -⟩ := bitflip_flips_drawn (expected i) (probability i) (fractions (s.2 0)) g (p i) (by rw [hg.1]; exact hr i) (hp0 i) (hp1 i)
        (by rw [fractions_length, hg.1])
      exact ⟨none, by simp only [bitflipFn, flipNumbers, e]⟩
    · exact hd
  refine ⟨G0, fun G hG m z hm => ?_⟩
  refine le_trans ?_ (plus_run_chance cfg pre (.ok ()) stopOk (fun i => flipDraw (expected i) (probability i)) dec prob initGenome ht
    (fun g => by rw [hstages, bitflip_drawing]) hst' hsl' hpre hprob hib hinit hchoose (fun g pop m hne _ => hpick g pop m hne) hw
    (bitGenome target) best hbest (fun _ => δ ^ n) (fun _ => hq1) hhit problem popSize hpop G m hm z)
  rw [allMiss_const]
  have hle : G0 ≤ G * (popSize * cfg.brood) := hG.trans (Nat.le_mul_of_pos_right _ (Nat.mul_pos hpop hbrood))
  have := pow_le_pow_of_le_one (by linarith : 0 ≤ 1 - δ ^ n) (by linarith) hle
  linarith

/-! ## An example -/

/-- Bits to maximise, three offspring per parent; the rate alternates between one expected mutation and a chance of a third. -/
def exPlusSearch (n N : Nat) : PlusConfig Int Int Int (Nat × (Nat → (Fin n → Fin N))) where
  worse a b := decide (a.getD 0 < b.getD 0)
  equal a b := decide (a.getD 0 = b.getD 0)
  choose _ pop m := (.ok (m.rng.1 % pop.length), (m.rng.1 + 1, m.rng.2))
  stages g := [exSwap n N,
    .mutate (.ok ()) false (bitflipFn (if g % 2 = 0 then some 1 else none) (if g % 2 = 0 then none else some (1 / 3)) (flipNumbers Nat)),
    .evaluate .identity (exOnes n N)]
  brood := 3
  survival := .truncation

/-- On two bits or more, the script finds a genome of ones with chance as near 1 as asked for. -/
theorem exPlusSearch_converges (n N : Nat) (hn : 2 ≤ n) (hN : 4 ≤ N) (ε : ℚ) (hε : 0 < ε) :
    ∃ G0 : Nat, ∀ G ≥ G0, ∀ (m : Mem Int Int Int (Nat × (Nat → (Fin n → Fin N)))) (z : Nat → (Fin n → Fin N)), Sound m →
      1 - ε ≤ chance fun w : Fin (G * (5 * 3)) → (Fin n → Fin N) =>
        ∃ out m', plusRun (exPlusSearch n N) (fun s => (.ok (List.replicate n 0), s)) .identity (exOnes n N) 0 5 G
          (retape (draws w z) m) = (.ok out, m') ∧ ∃ r ∈ out, ∃ f, fitness m' r = some (some f) ∧ (n : Int) ≤ f := by
  have hnq : (2 : ℚ) ≤ n := by exact_mod_cast hn
  have hNq : (4 : ℚ) ≤ N := by exact_mod_cast hN
  have i1 : (1 : ℚ) / n ≤ 1 / 2 := one_div_le_one_div_of_le (by norm_num) hnq
  have i2 : (1 : ℚ) / N ≤ 1 / 4 := one_div_le_one_div_of_le (by norm_num) hNq
  have i0 : (0 : ℚ) < 1 / n := by positivity
  obtain ⟨G0, h⟩ := plus_bitflip_converges (n := n) N (by omega) (exPlusSearch n N) (fun _ => [exSwap n N]) false
    (fun g => if g % 2 = 0 then some 1 else none) (fun g => if g % 2 = 0 then none else some (1 / 3)) (fun g => if g % 2 = 0 then 1 / n else 1 / 3)
    (min (1 / n) (1 / 4))
    (fun g => by
      by_cases hg : g % 2 = 0
      · simp only [hg, if_true]; exact .inr ⟨rfl, by omega, 1, rfl, rfl⟩
      · simp only [hg, if_false]; exact .inl ⟨rfl, rfl⟩)
    (lt_min i0 (by norm_num))
    (fun g => by
      by_cases hg : g % 2 = 0
      · simp only [hg, if_true]; exact min_le_left _ _
      · simp only [hg, if_false]; exact (min_le_right _ _).trans (by norm_num))
    (fun g => by
      have := min_le_right ((1 : ℚ) / n) (1 / 4)
      by_cases hg : g % 2 = 0
      · simp only [hg, if_true]; linarith
      · simp only [hg, if_false]; linarith)
    .identity (exOnes n N) (fun s => (.ok (List.replicate n 0), s)) rfl (by simp [exPlusSearch]) (fun _ => rfl)
    (fun g st hs => by
      simp only [List.mem_cons, List.not_mem_nil, or_false] at hs
      subst hs; trivial)
    (fun g st hs => by
      simp only [List.mem_cons, List.not_mem_nil, or_false] at hs
      subst hs; exact fun s => ⟨_, rfl, by simp⟩)
    (fun g st hs => by
      simp only [List.mem_cons, List.not_mem_nil, or_false] at hs
      subst hs; exact ⟨fun _ _ _ => rfl, fun _ _ _ _ => rfl⟩)
    (fun c => by cases c <;> exact fun _ _ _ => rfl) (fun _ _ _ => rfl)
    (fun s => ⟨_, rfl, by simp, fun i x hx => Or.inl (List.eq_of_mem_replicate (List.mem_of_getElem? hx))⟩)
    (fun g _ => ⟨.raw g, rfl, fun s => ⟨_, rfl⟩⟩)
    (fun _ _ _ _ => rfl) (fun g pop m hne => ⟨_, rfl, Nat.mod_lt _ (List.length_pos_iff.2 hne)⟩)
    ⟨fun a b hab => by simp [exPlusSearch] at *; omega, fun a b c hab hbc => by simp [exPlusSearch] at *; omega⟩
    (fun _ => 1) (n : Int)
    (fun f hf => by
      obtain ⟨c, s, hc, hf⟩ := hf
      simp only [decodeOf, Except.ok.injEq] at hc
      subst hc
      cases hf
      simp [exPlusSearch, bitGenome])
    0 5 (by omega) ε hε
  refine ⟨G0, fun G hG m z hm => (h G hG m z hm).trans (chance_mono fun w hx => ?_)⟩
  obtain ⟨out, m', e, r, hr, f, hf, hw⟩ := hx
  refine ⟨out, m', e, r, hr, f, hf, ?_⟩
  simp [exPlusSearch] at hw
  exact hw

end Leap
