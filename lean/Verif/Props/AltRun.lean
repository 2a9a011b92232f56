import Verif.Model.AltRun
import Verif.Props.PlusRun
import Verif.Props.Towers
import Verif.Lemmas.Carry

/-!
# C118: runs on alternating problems

Which of the problems scored the individuals of a `generational_ea` run on an `AlternatingProblem`, and by which of them they are compared.
-/

namespace Leap
open Spec

variable {γ ψ φ ρ : Type} {n : Nat} {allowed : Nat → γ → Prop}

/-! ## Whose turn it is -/

/-- In generation `g` it is the turn of problem `q`: each problem in turn answers for `modulo` generations. -/
def Spec.TurnOf (problems : List (AltProblem γ ψ φ ρ)) (modulo g : Int) (q : AltProblem γ ψ φ ρ) : Prop :=
  ∃ i : Nat, problems[i]? = some q ∧ (i : Int) = (g / modulo) % problems.length

theorem turnOf_current {problems : List (AltProblem γ ψ φ ρ)} {modulo : Int} (hm : 0 < modulo) (hp : problems ≠ []) (g : Int)
    (q : AltProblem γ ψ φ ρ) : currentProblem problems modulo (some g) = .ok q ↔ TurnOf problems modulo g q := by
  obtain ⟨i, x, h1, h2, h3, h4⟩ := alternating_schedule problems modulo (g / modulo) (g % modulo) hp (Int.emod_nonneg _ (by omega))
    (Int.emod_lt_of_pos _ hm)
  have hg : g / modulo * modulo + g % modulo = g := by rw [Int.mul_comm]; exact Int.mul_ediv_add_emod g modulo
  rw [hg] at h1
  rw [h1]
  constructor
  · intro h
    cases h
    exact ⟨i, h2, h4⟩
  · rintro ⟨j, h5, h6⟩
    have : j = i := by omega
    subst this
    rw [h2] at h5
    cases h5
    rfl

theorem turnOf_exists {problems : List (AltProblem γ ψ φ ρ)} {modulo : Int} (hm : 0 < modulo) (hp : problems ≠ []) (g : Int) :
    ∃ q, TurnOf problems modulo g q := by
  obtain ⟨i, x, h1, h2, h3, h4⟩ := alternating_schedule problems modulo (g / modulo) (g % modulo) hp (Int.emod_nonneg _ (by omega))
    (Int.emod_lt_of_pos _ hm)
  exact ⟨x, i, h2, h4⟩

/-- The genes are acceptable and the fitness is the score some problem whose turn it is in generation `g` gives them. -/
def Spec.ScoredIn (cfg : AltConfig γ ψ φ ρ) (g : Int) (genome : List γ) (f : φ) : Prop :=
  ∃ q, TurnOf cfg.problems cfg.modulo g q ∧ ScoredBy cfg.dec q.prob genome f

theorem alt_scored {cfg : AltConfig γ ψ φ ρ} (hm : 0 < cfg.modulo) (hp : cfg.problems ≠ []) {g : Int} {genome : List γ} {c : Content γ ψ} {s : ρ}
    {f : φ} (hc : decodeOf cfg.dec genome = .ok c) (h : ((altProb cfg.problems cfg.modulo g).evaluate c s).1 = .ok f) :
    ScoredIn cfg g genome f := by
  obtain ⟨q, hq⟩ := turnOf_exists (problems := cfg.problems) hm hp g
  have h' : (altEvaluate cfg.problems cfg.modulo g c s).1 = .ok f := h
  rw [altEvaluate, (turnOf_current hm hp g q).2 hq] at h'
  exact ⟨q, hq, c, s, hc, h'⟩

/-! ## A generation -/

theorem stagesIter_joined (src : HIter (Mem γ ψ φ ρ)) (a b : List (Stage γ ψ φ ρ)) :
    stagesIter src (a ++ b) = stagesIter (stagesIter src a) b := by
  induction a generalizing src with
  | nil => rfl
  | cons st a ih => exact ih _

/-- Evaluating writes the score of exactly the genes, whatever the individual was scored before. -/
theorem evaluateInd_scores {truth : List γ → φ → Prop} (dec : Dec γ ψ) (prob : Prob γ ψ φ ρ)
    (ht : ∀ g c s f, GenesIn n allowed g → decodeOf dec g = .ok c → (prob.evaluate c s).1 = .ok f → truth g f)
    {m m' : Mem γ ψ φ ρ} {r : Nat} {f : φ} (hgood : GoodGenes n allowed m r) (hx : evaluateInd dec prob r m = (.ok f, m')) :
    Member n allowed truth m' r := by
  obtain ⟨g, hg, hG⟩ := hgood
  obtain ⟨o, ho, ha, hlt⟩ := genes_lt hg
  obtain ⟨k, hk, he⟩ := evaluateImp_effect dec prob m r o g ho ha
  rw [evaluateInd, HM.bind_apply, he] at hx
  cases hc : decodeOf dec g with
  | error e => rw [hc] at hx; simp at hx
  | ok c =>
    rw [hc] at hx
    simp only at hx
    cases hp : (prob.evaluate c m.rng).1 with
    | error e => rw [hp] at hx; simp at hx
    | ok f' =>
      rw [hp] at hx
      simp only [HM.bind_apply, modObj, HM.pure_apply, Prod.mk.injEq, Except.ok.injEq] at hx
      obtain ⟨rfl, rfl⟩ := hx
      refine ⟨g, f', ?_, hG, ?_, ht g c m.rng _ hG hc hp⟩
      · simp [genes, List.getElem?_modify, ho, (hk o).1, ha]
      · simp [fitness, List.getElem?_modify, ho]

/-- A pipeline that ends with an evaluation, on parents that anybody may have scored: the offspring are new, have acceptable genes, and their
fitness is what that evaluation gave to exactly these genes. -/
theorem pipeline_scores {truth : List γ → φ → Prop} (dec : Dec γ ψ) (prob : Prob γ ψ φ ρ)
    (ht : ∀ g c s f, GenesIn n allowed g → decodeOf dec g = .ok c → (prob.evaluate c s).1 = .ok f → truth g f)
    (m m' : Mem γ ψ φ ρ) (hm : Sound m) (pop : List Nat) (hpop : ∀ r ∈ pop, GoodGenes n allowed m r) (choose : Mem γ ψ φ ρ → PyM Nat × ρ)
    (stages : List (Stage γ ψ φ ρ)) (hst : ∀ st ∈ stages, StageOk n allowed (fun _ _ => True) st) (size : Nat) (out : List Nat)
    (h : runPipeline pop choose (stages ++ [.evaluate dec prob]) size m = (.ok out, m')) :
    Sound m' ∧ Unchanged m m' ∧ out.length = size ∧ out.Nodup ∧ ∀ r ∈ out, m.inds.length ≤ r ∧ Member n allowed truth m' r := by
  obtain ⟨pend, how⟩ := stages_carries hm stages hst _ _ (clone_first_carries hm pop hpop choose)
  have how2 := stage_carries hm _ _ how (.evaluate dec prob) (fun _ _ _ _ _ _ _ => trivial)
  have hit : stagesIter (selectionIter pop choose) (Stage.clone :: (stages ++ [.evaluate dec prob])) =
      (Stage.evaluate dec prob).apply (stagesIter (Stage.clone.apply (selectionIter pop choose)) stages) := by
    rw [stagesIter, stagesIter_joined]; rfl
  obtain ⟨⟨os, s'⟩, m1, e1, h⟩ := bind_ok (show (hpull (stagesIter (selectionIter pop choose)
    (Stage.clone :: (stages ++ [.evaluate dec prob]))).next size (stagesIter (selectionIter pop choose)
    (Stage.clone :: (stages ++ [.evaluate dec prob]))).init >>= fun os => pure os.1) m = (.ok out, m') from h)
  simp only [HM.pure_apply, Prod.mk.injEq, Except.ok.injEq] at h
  obtain ⟨rfl, rfl⟩ := h
  generalize hg : stagesIter (selectionIter pop choose) (Stage.clone :: (stages ++ [.evaluate dec prob])) = it at s' e1
  rw [hit] at hg
  subst hg
  obtain ⟨q1, -, q3, q4, -, q6⟩ := hpull_carries (m0 := m) _ _ how2 (fun m r => Member n allowed truth m r)
    (fun s m2 r s2 m3 hf hp hn hx => by
      obtain ⟨⟨r1, s1⟩, m4, e1, hx⟩ := bind_ok (pep_ok hx)
      obtain ⟨f, m5, e2, hx⟩ := bind_ok hx
      simp only [HM.pure_apply, Prod.mk.injEq, Except.ok.injEq] at hx
      obtain ⟨⟨rfl, rfl⟩, rfl⟩ := hx
      have o := how.step s m2 _ _ m4 hf hp hn e1
      exact evaluateInd_scores dec prob ht o.good e2)
    (fun _ _ _ _ _ hs h => member_same hs h) size _ m _ _ _ (.refl m hm) (by rw [how2.init]; simp) (by rw [how2.init]; simp) e1
  exact ⟨q1.sound, q1.unchanged, q3, q4, fun r hr => ⟨(q6 r hr).1, (q6 r hr).2.2.2⟩⟩

/-! ## A run -/

/-- From population `p` in memory `m` at generation `g`, generations ran one after the other, with the given broods of evaluated offspring, and
led to `p'`, `m'` and generation `g'`. -/
inductive Spec.Turns (cfg : AltConfig γ ψ φ ρ) : Int → List Nat → Mem γ ψ φ ρ → List (List Nat) → Int → List Nat → Mem γ ψ φ ρ → Prop
  | none (g p m) : Turns cfg g p m [] g p m
  | next {g p m off m1 offs g' p' m'} (hgo : cfg.stop g p m = false)
      (hoff : runPipeline p (cfg.choose g p) (cfg.pipeline g) cfg.size m = (.ok off, m1))
      (hrest : Turns cfg (g + 1) (elitistSurvival (cfg.lt g m1) off p cfg.kElites).1 m1 offs g' p' m') :
      Turns cfg g p m (off :: offs) g' p' m'

theorem alt_loop_turns (cfg : AltConfig γ ψ φ ρ) (fuel : Nat) : ∀ (g g' : Int) (p : List Nat) (m : Mem γ ψ φ ρ) (out : List Nat)
    (m' : Mem γ ψ φ ρ), altLoop cfg fuel g p m = (.ok (out, g'), m') →
      ∃ offs, Turns cfg g p m offs g' out m' ∧ offs.length ≤ fuel ∧ (offs.length < fuel → cfg.stop g' out m' = true) := by
  induction fuel with
  | zero =>
    intro g g' p m out m' h
    simp only [altLoop, HM.pure_apply, Prod.mk.injEq, Except.ok.injEq] at h
    obtain ⟨⟨rfl, rfl⟩, rfl⟩ := h
    exact ⟨[], .none _ _ _, Nat.le_refl _, by simp⟩
  | succ fuel ih =>
    intro g g' p m out m' h
    unfold altLoop at h
    split at h
    · rename_i hs
      simp only [Prod.mk.injEq, Except.ok.injEq] at h
      obtain ⟨⟨rfl, rfl⟩, rfl⟩ := h
      exact ⟨[], .none _ _ _, Nat.zero_le _, fun _ => hs⟩
    · rename_i hs
      rcases e : runPipeline p (cfg.choose g p) (cfg.pipeline g) cfg.size m with ⟨x, m1⟩
      rw [e] at h
      cases x with
      | error err => simp at h
      | ok off =>
        obtain ⟨offs, h1, h2, h3⟩ := ih _ _ _ _ _ _ h
        exact ⟨off :: offs, .next (by simpa using hs) e h1, by simp; omega, fun hl => h3 (by simp at hl; omega)⟩

/-- Whoever is in the population has acceptable genes and some score. -/
structure Spec.AltOk (n : Nat) (allowed : Nat → γ → Prop) (m : Mem γ ψ φ ρ) (p : List Nat) : Prop where
  sound : Sound m
  nodup : p.Nodup
  members : ∀ r ∈ p, GoodGenes n allowed m r

theorem alt_turn (cfg : AltConfig γ ψ φ ρ) (hmod : 0 < cfg.modulo) (hp : cfg.problems ≠ [])
    (hst : ∀ st ∈ cfg.stages, StageOk n allowed (fun _ _ => True) st) {g : Int} {p off : List Nat} {m m1 : Mem γ ψ φ ρ}
    (hok : AltOk n allowed m p) (hoff : runPipeline p (cfg.choose g p) (cfg.pipeline g) cfg.size m = (.ok off, m1)) :
    Unchanged m m1 ∧ off.length = cfg.size ∧ (∀ r ∈ off, m.inds.length ≤ r ∧ Member n allowed (ScoredIn cfg g) m1 r) ∧ (off ++ p).Nodup ∧
      (∀ r ∈ (elitistSurvival (cfg.lt g m1) off p cfg.kElites).1, r ∈ off ++ p) ∧
      (elitistSurvival (cfg.lt g m1) off p cfg.kElites).1.length = cfg.size ∧
      AltOk n allowed m1 (elitistSurvival (cfg.lt g m1) off p cfg.kElites).1 := by
  obtain ⟨s1, u1, l1, nd1, q1⟩ := pipeline_scores (truth := ScoredIn cfg g) cfg.dec (altProb cfg.problems cfg.modulo g)
    (fun _ _ _ _ _ hc hf => alt_scored hmod hp hc hf) m m1 hok.sound p hok.members _ cfg.stages hst cfg.size off hoff
  have hnd : (off ++ p).Nodup := by
    rw [List.nodup_append]
    refine ⟨nd1, hok.nodup, ?_⟩
    rintro a ha b hb rfl
    have := (q1 a ha).1
    have := goodGenes_lt (hok.members a hb)
    omega
  have hsub : ∀ r ∈ (elitistSurvival (cfg.lt g m1) off p cfg.kElites).1, r ∈ off ++ p := by
    intro r hr
    rcases List.mem_append.1 (topk_mem hr) with h | h
    · exact List.mem_append.2 (Or.inl h)
    · exact List.mem_append.2 (Or.inr (topk_mem h))
  refine ⟨u1, l1, q1, hnd, hsub, by simp [elitistSurvival, topk_length, l1], s1, ?_, fun r hr => ?_⟩
  · refine nodup_of_subperm (topk_subperm _ _ _) ?_
    rw [List.nodup_append] at hnd ⊢
    exact ⟨hnd.1, nodup_of_subperm (topk_subperm _ _ _) hnd.2.1, fun a ha b hb => hnd.2.2 a ha b (topk_mem hb)⟩
  · rcases List.mem_append.1 (hsub r hr) with h | h
    · obtain ⟨g, f, h1, h2, -⟩ := (q1 r h).2
      exact ⟨g, h1, h2⟩
    · exact goodGenes_same (unchanged_same hok.sound u1 (goodGenes_lt (hok.members r h))) (hok.members r h)

/-- C118: every individual born in a run keeps, to the end of the run, the score given by the problem whose turn it was in the generation it was
born in; nobody is born twice, and the final population is made of the initial one and of those born since. -/
theorem alternating_scores (cfg : AltConfig γ ψ φ ρ) (hmod : 0 < cfg.modulo) (hp : cfg.problems ≠ [])
    (hst : ∀ st ∈ cfg.stages, StageOk n allowed (fun _ _ => True) st) {g g' : Int} {p p' : List Nat} {m m' : Mem γ ψ φ ρ}
    {offs : List (List Nat)} (h : Turns cfg g p m offs g' p' m') (hok : AltOk n allowed m p) :
    Unchanged m m' ∧ AltOk n allowed m' p' ∧ g' = g + offs.length ∧ (p ++ offs.flatten).Nodup ∧ (∀ r ∈ p', r ∈ p ++ offs.flatten) ∧
      (∀ r ∈ offs.flatten, m.inds.length ≤ r) ∧ (0 < offs.length → p'.length = cfg.size) ∧
      ∀ (i : Nat) (off : List Nat), offs[i]? = some off → off.length = cfg.size ∧
        ∀ r ∈ off, Member n allowed (ScoredIn cfg (g + i)) m' r := by
  induction h with
  | none g p m =>
    exact ⟨unchanged_rng m m.rng, hok, by simp, by simpa using hok.nodup, by simp, by simp, by simp, by simp⟩
  | @next g p m off m1 offs g' p' m' hgo hoff hrest ih =>
    obtain ⟨u1, l1, q1, nd1, sub1, len1, ok1⟩ := alt_turn cfg hmod hp hst hok hoff
    obtain ⟨u2, ok2, hg2, nd2, sub2, new2, len2, sc2⟩ := ih ok1
    have hlen := (unchanged_length u1).1
    have hlt1 : ∀ r ∈ off ++ p, r < m1.inds.length := by
      intro r hr
      rcases List.mem_append.1 hr with hr | hr
      · exact member_lt (q1 r hr).2
      · have := goodGenes_lt (hok.members r hr); omega
    refine ⟨unchanged_then u1 u2, ok2, by rw [hg2]; simp only [List.length_cons]; push_cast; ring, ?_, ?_, ?_, fun _ => ?_, ?_⟩
    · rw [List.flatten_cons, ← List.append_assoc, List.nodup_append]
      refine ⟨List.perm_append_comm.nodup_iff.1 nd1, (List.nodup_append.1 nd2).2.1, ?_⟩
      rintro a ha b hb rfl
      have := hlt1 a (List.perm_append_comm.mem_iff.1 ha)
      have := new2 a hb
      omega
    · intro r hr
      rw [List.flatten_cons]
      rcases List.mem_append.1 (sub2 r hr) with h | h
      · have := sub1 r h
        simp only [List.mem_append] at this ⊢
        tauto
      · simp only [List.mem_append]
        tauto
    · intro r hr
      rw [List.flatten_cons] at hr
      rcases List.mem_append.1 hr with h | h
      · exact (q1 r h).1
      · have := new2 r h; omega
    · cases offs with
      | nil => cases hrest; exact len1
      | cons o os => exact len2 (by simp)
    · intro i o ho
      cases i with
      | zero =>
        simp only [List.getElem?_cons_zero, Option.some.injEq] at ho
        subst ho
        refine ⟨l1, fun r hr => ?_⟩
        have := member_unchanged ok1.sound u2 (q1 r hr).2
        simpa using this
      | succ i =>
        simp only [List.getElem?_cons_succ] at ho
        obtain ⟨z1, z2⟩ := sc2 i o ho
        refine ⟨z1, fun r hr => ?_⟩
        have := z2 r hr
        rw [show g + 1 + (i : Int) = g + ((i + 1 : Nat) : Int) by push_cast; ring] at this
        exact this

theorem alt_last (cfg : AltConfig γ ψ φ ρ) (hk : cfg.kElites = 0) {g g' : Int} {p p' : List Nat} {m m' : Mem γ ψ φ ρ}
    {offs : List (List Nat)} (h : Turns cfg g p m offs g' p' m') (hpos : 0 < offs.length) :
    ∃ off, offs[offs.length - 1]? = some off ∧ ∀ r ∈ p', r ∈ off := by
  induction h with
  | none g p m => simp at hpos
  | @next g p m off m1 offs g' p' m' hgo hoff hrest ih =>
    cases offs with
    | nil =>
      cases hrest
      refine ⟨off, rfl, fun r hr => ?_⟩
      rcases List.mem_append.1 (topk_mem hr) with h | h
      · exact h
      · rw [hk] at h
        simp [topk] at h
    | cons o os =>
      obtain ⟨off', h1, h2⟩ := ih (by simp)
      exact ⟨off', by simpa using h1, h2⟩

/-- C118: a run on an alternating problem. Those of the initial population keep the score of the problem whose turn it was in the first generation,
and everybody else the score of the problem whose turn it was when they were born: nobody is evaluated again when the problem changes. -/
theorem alternating_run_scores (cfg : AltConfig γ ψ φ ρ) (initGenome : ρ → PyM (List γ) × ρ)
    (hinit : ∀ s g s', initGenome s = (.ok g, s') → GenesIn n allowed g)
    (hst : ∀ st ∈ cfg.stages, StageOk n allowed (fun _ _ => True) st) (problem popSize : Nat) (startGeneration maxGenerations : Int)
    (m m' : Mem γ ψ φ ρ) (hm : Sound m) (out : List Nat) (g' : Int)
    (h : altRun cfg initGenome problem popSize startGeneration maxGenerations m = (.ok (out, g'), m')) :
    Unchanged m m' ∧ out.Nodup ∧ startGeneration ≤ g' ∧ (g' ≤ maxGenerations ∨ g' = startGeneration) ∧
    ∃ (first : List Nat) (born : List (List Nat)), first.length = popSize ∧ (born.length : Int) = g' - startGeneration ∧
      (first ++ born.flatten).Nodup ∧ (∀ r ∈ out, r ∈ first ++ born.flatten) ∧ (∀ r ∈ first ++ born.flatten, m.inds.length ≤ r) ∧
      (∀ r ∈ first, Member n allowed (ScoredIn cfg startGeneration) m' r) ∧
      (∀ (i : Nat) (off : List Nat), born[i]? = some off → off.length = cfg.size ∧
        ∀ r ∈ off, Member n allowed (ScoredIn cfg (startGeneration + i)) m' r) ∧
      (cfg.kElites = 0 → 0 < born.length → ∀ r ∈ out, Member n allowed (ScoredIn cfg (g' - 1)) m' r) := by
  obtain ⟨_, m0, e0, h0⟩ := bind_ok h
  clear h
  have hm0 : m0 = m := by simp only [HM.lift_apply, Prod.mk.injEq] at e0; exact e0.2.symm
  have hc : alternatingInit cfg.problems cfg.modulo = .ok () := by simp only [HM.lift_apply, Prod.mk.injEq] at e0; exact e0.1
  subst hm0
  obtain ⟨hp, hmod⟩ : cfg.problems ≠ [] ∧ 0 < cfg.modulo := by
    unfold alternatingInit at hc
    split at hc
    · rename_i h1
      split at hc
      · rename_i h2; exact ⟨List.length_pos_iff.1 h1, h2⟩
      · cases hc
    · cases hc
  obtain ⟨parents, m1, e1, h⟩ := bind_ok h0
  obtain ⟨_, m2, e2, h⟩ := bind_ok h
  obtain ⟨u2, l2, new2, ok2⟩ := plus_first initGenome cfg.dec _ hinit problem popSize m0 m1 m2 hm parents e1 e2
  obtain ⟨offs, ht, hle, -⟩ := alt_loop_turns cfg _ _ _ _ _ _ _ h
  have hok2 : AltOk n allowed m2 parents := ⟨ok2.sound, ok2.nodup, fun r hr => by
    obtain ⟨g, f, h1, h2, -⟩ := ok2.members r hr
    exact ⟨g, h1, h2⟩⟩
  obtain ⟨u3, ok3, hg, nd3, sub3, new3, len3, sc3⟩ := alternating_scores cfg hmod hp hst ht hok2
  refine ⟨unchanged_then u2 u3, ok3.nodup, by omega, by omega, parents, offs, l2, by omega, nd3, sub3, ?_, ?_, sc3, ?_⟩
  · intro r hr
    rcases List.mem_append.1 hr with hr | hr
    · exact new2 r hr
    · have := new3 r hr
      have := (unchanged_length u2).1
      omega
  · intro r hr
    have hr2 : Member n allowed (ScoredIn cfg startGeneration) m2 r := by
      obtain ⟨g, f, h1, h2, h3, c, s, h4, h5⟩ := ok2.members r hr
      exact ⟨g, f, h1, h2, h3, alt_scored hmod hp h4 h5⟩
    exact member_unchanged ok2.sound u3 hr2
  · intro hk hpos r hr
    have hlast := alt_last cfg hk ht hpos
    obtain ⟨off, ho, hsub⟩ := hlast
    have := (sc3 _ off ho).2 r (hsub r hr)
    rw [show startGeneration + ((offs.length - 1 : Nat) : Int) = g' - 1 by omega] at this
    exact this

/-! ## Turns are ordinary runs -/

/-- The ordinary run on problem `q` alone. -/
def AltConfig.during (cfg : AltConfig γ ψ φ ρ) (q : AltProblem γ ψ φ ρ) : EvoConfig γ ψ φ ρ where
  worse := q.worse
  choose := cfg.choose
  stages := cfg.stages ++ [.evaluate cfg.dec q.prob]
  size := cfg.size
  kElites := cfg.kElites
  stop := cfg.stop

theorem evaluate_stage_congr (dec : Dec γ ψ) (a b : Prob γ ψ φ ρ) (h : a.evaluate = b.evaluate) (up : HIter (Mem γ ψ φ ρ)) :
    (Stage.evaluate dec a).apply up = (Stage.evaluate dec b).apply up := by
  simp only [Stage.apply, evaluateInd, evaluateImp, h]

theorem runPipeline_congr (pop : List Nat) (choose : Mem γ ψ φ ρ → PyM Nat × ρ) (stages : List (Stage γ ψ φ ρ)) (dec : Dec γ ψ)
    (a b : Prob γ ψ φ ρ) (h : a.evaluate = b.evaluate) (size : Nat) :
    runPipeline pop choose (stages ++ [.evaluate dec a]) size = runPipeline pop choose (stages ++ [.evaluate dec b]) size := by
  have : stagesIter (selectionIter pop choose) (Stage.clone :: (stages ++ [.evaluate dec a])) =
      stagesIter (selectionIter pop choose) (Stage.clone :: (stages ++ [.evaluate dec b])) := by
    rw [← List.cons_append, ← List.cons_append, stagesIter_joined, stagesIter_joined]
    exact evaluate_stage_congr dec a b h _
  change (hpull (stagesIter (selectionIter pop choose) (Stage.clone :: (stages ++ [.evaluate dec a]))).next size
    (stagesIter (selectionIter pop choose) (Stage.clone :: (stages ++ [.evaluate dec a]))).init >>= fun os => pure os.1) = _
  rw [this]
  rfl

/-- C118: while it is the turn of one problem, a run on an alternating problem is a run on that problem. -/
theorem alternating_turn_is_run (cfg : AltConfig γ ψ φ ρ) (hmod : 0 < cfg.modulo) (hp : cfg.problems ≠ []) (q : AltProblem γ ψ φ ρ) (fuel : Nat) :
    ∀ (g : Int) (p : List Nat) (m : Mem γ ψ φ ρ), (∀ i : Nat, i < fuel → TurnOf cfg.problems cfg.modulo (g + i) q) →
      (altLoop cfg fuel g p m).1.map Prod.fst = (evoLoop (cfg.during q) fuel g p m).1 ∧
      (altLoop cfg fuel g p m).2 = (evoLoop (cfg.during q) fuel g p m).2 := by
  induction fuel with
  | zero => exact fun g p m _ => ⟨rfl, rfl⟩
  | succ fuel ih =>
    intro g p m hq
    have hcur := (turnOf_current hmod hp g q).2 (by simpa using hq 0 (Nat.succ_pos _))
    have hev : (altProb cfg.problems cfg.modulo g).evaluate = q.prob.evaluate := by
      funext c s
      simp [altProb, altEvaluate, hcur]
    have hlt : ∀ m1, cfg.lt g m1 = (cfg.during q).lt m1 := by
      intro m1
      funext a b
      simp [AltConfig.lt, EvoConfig.lt, altWorse, hcur, AltConfig.during]
    have hpipe : runPipeline p (cfg.choose g p) (cfg.pipeline g) cfg.size = runPipeline p ((cfg.during q).choose g p) (cfg.during q).stages
        (cfg.during q).size := runPipeline_congr _ _ _ _ _ _ hev _
    unfold altLoop evoLoop
    rw [hpipe]
    by_cases hs : cfg.stop g p m = true
    · rw [if_pos hs, if_pos (show (cfg.during q).stop g p m = true from hs)]
      exact ⟨rfl, rfl⟩
    · rw [if_neg hs, if_neg (show ¬ (cfg.during q).stop g p m = true from hs)]
      rcases e : runPipeline p ((cfg.during q).choose g p) (cfg.during q).stages (cfg.during q).size m with ⟨x, m1⟩
      cases x with
      | error err => exact ⟨rfl, rfl⟩
      | ok off =>
        simp only [hlt]
        refine ih (g + 1) _ m1 fun i hi => ?_
        have := hq (i + 1) (by omega)
        rw [show g + ((i + 1 : Nat) : Int) = g + 1 + i by push_cast; ring] at this
        exact this

/-- C118: and the turns follow one another: running for `a + b` generations is running for `a` and then, from what that gave, for `b`. -/
theorem alternating_turns_follow (cfg : AltConfig γ ψ φ ρ) (a b : Nat) : ∀ (g : Int) (p : List Nat) (m : Mem γ ψ φ ρ),
    altLoop cfg (a + b) g p m = (altLoop cfg a g p >>= fun pg => altLoop cfg b pg.2 pg.1) m := by
  induction a with
  | zero =>
    intro g p m
    rw [Nat.zero_add]
    rfl
  | succ a ih =>
    intro g p m
    rw [show a + 1 + b = (a + b) + 1 by omega]
    by_cases hs : cfg.stop g p m = true
    · have e1 : altLoop cfg (a + 1) g p m = (.ok (p, g), m) := by unfold altLoop; rw [if_pos hs]
      have e2 : altLoop cfg (a + b + 1) g p m = (.ok (p, g), m) := by unfold altLoop; rw [if_pos hs]
      rw [bind_live e1, e2]
      cases b with
      | zero => rfl
      | succ b => unfold altLoop; rw [if_pos hs]
    · rcases e : runPipeline p (cfg.choose g p) (cfg.pipeline g) cfg.size m with ⟨x, m1⟩
      cases x with
      | error err =>
        have e1 : ∀ f, altLoop cfg (f + 1) g p m = (.error err, m1) := by intro f; unfold altLoop; rw [if_neg hs, e]
        rw [e1, HM.bind_apply, e1]
      | ok off =>
        have e1 : ∀ f, altLoop cfg (f + 1) g p m = altLoop cfg f (g + 1) (elitistSurvival (cfg.lt g m1) off p cfg.kElites).1 m1 := by
          intro f; simp only [altLoop, hs, e]; simp
        rw [e1, ih, HM.bind_apply, HM.bind_apply, e1]

/-- C118: with at least one elite nobody is lost who is better than everybody kept, as the problem whose turn it is sees the scores, however
old they are, as long as it is its turn. -/
theorem alternating_turn_keeps_best (cfg : AltConfig γ ψ φ ρ) (hmod : 0 < cfg.modulo) (hp : cfg.problems ≠ [])
    (hst : ∀ st ∈ cfg.stages, StageOk n allowed (fun _ _ => True) st) (q : AltProblem γ ψ φ ρ) (hw : StrictWeak q.worse)
    (hk : 1 ≤ cfg.kElites) (hs : 1 ≤ cfg.size) (fuel : Nat) (g g' : Int) (p out : List Nat) (m m' : Mem γ ψ φ ρ) (hm : Sound m) (hnd : p.Nodup)
    (hmem : ∀ r ∈ p, Member n allowed (fun _ _ => True) m r) (hq : ∀ i : Nat, i < fuel → TurnOf cfg.problems cfg.modulo (g + i) q)
    (h : altLoop cfg fuel g p m = (.ok (out, g'), m')) :
    ∀ x ∈ p, ∃ b ∈ out, q.worse ((m'.inds[b]?).bind Obj.fitness) ((m'.inds[x]?).bind Obj.fitness) = false := by
  obtain ⟨h1, h2⟩ := alternating_turn_is_run cfg hmod hp q fuel g p m hq
  rw [h] at h1 h2
  have e : evoLoop (cfg.during q) fuel g p m = (.ok out, m') := Prod.ext h1.symm h2.symm
  have hst' : ∀ st ∈ (cfg.during q).stages, StageOk n allowed (fun _ _ => True) st := by
    intro st hst2
    rcases List.mem_append.1 hst2 with h | h
    · exact hst st h
    · simp only [List.mem_cons, List.not_mem_nil, or_false] at h
      subst h
      exact fun _ _ _ _ _ _ _ => trivial
  exact (evo_loop_members (truth := fun _ _ => True) (cfg.during q) hst' (by simp [AltConfig.during, endsEvaluated, evaluates]) fuel g p m m' out hm hnd hmem e).2.2.2.2.2
    hw hk hs

/-! ## Runs -/

theorem alt_live {cfg : AltConfig γ ψ φ ρ} (hmod : 0 < cfg.modulo) (hp : cfg.problems ≠ [])
    (hd : ∀ q ∈ cfg.problems, ∀ g, GenesIn n allowed g → ∃ c, decodeOf cfg.dec g = .ok c ∧ ∀ s, ∃ f, (q.prob.evaluate c s).1 = .ok f) (g : Int) :
    ∀ genome, GenesIn n allowed genome → ∃ c, decodeOf cfg.dec genome = .ok c ∧
      ∀ s, ∃ f, ((altProb cfg.problems cfg.modulo g).evaluate c s).1 = .ok f := by
  intro genome hg
  obtain ⟨q, hq⟩ := turnOf_exists (problems := cfg.problems) hmod hp g
  have hcur := (turnOf_current hmod hp g q).2 hq
  obtain ⟨i, hi, -⟩ := hq
  obtain ⟨c, hc, hf⟩ := hd q (List.mem_of_getElem? hi) genome hg
  refine ⟨c, hc, fun s => ?_⟩
  obtain ⟨f, hf⟩ := hf s
  exact ⟨f, by simp [altProb, altEvaluate, hcur, hf]⟩

theorem alt_loop_returns (cfg : AltConfig γ ψ φ ρ) (hmod : 0 < cfg.modulo) (hp : cfg.problems ≠ []) (hs : 1 ≤ cfg.size)
    (hst : ∀ st ∈ cfg.stages, StageOk n allowed (fun _ _ => True) st) (hsl : ∀ st ∈ cfg.stages, StageLive n allowed st)
    (hd : ∀ q ∈ cfg.problems, ∀ g, GenesIn n allowed g → ∃ c, decodeOf cfg.dec g = .ok c ∧ ∀ s, ∃ f, (q.prob.evaluate c s).1 = .ok f)
    (hc : ∀ (g : Int) (pop : List Nat) (m : Mem γ ψ φ ρ), pop ≠ [] → (∀ r ∈ pop, GoodGenes n allowed m r) →
      ∃ i, (cfg.choose g pop m).1 = .ok i ∧ i < pop.length)
    (fuel : Nat) : ∀ (g : Int) (p : List Nat) (m : Mem γ ψ φ ρ), p ≠ [] → AltOk n allowed m p →
      ∃ out g' m', altLoop cfg fuel g p m = (.ok (out, g'), m') := by
  induction fuel with
  | zero => exact fun g p m _ _ => ⟨p, g, m, rfl⟩
  | succ fuel ih =>
    intro g p m hne hok
    unfold altLoop
    by_cases hstop : cfg.stop g p m = true
    · exact ⟨p, g, m, by rw [if_pos hstop]⟩
    · rw [if_neg hstop]
      have hst' : ∀ st ∈ cfg.pipeline g, StageOk n allowed (fun _ _ => True) st := by
        intro st h
        rcases List.mem_append.1 h with h | h
        · exact hst st h
        · simp only [List.mem_cons, List.not_mem_nil, or_false] at h
          subst h
          exact fun _ _ _ _ _ _ _ => trivial
      have hsl' : ∀ st ∈ cfg.pipeline g, StageLive n allowed st := by
        intro st h
        rcases List.mem_append.1 h with h | h
        · exact hsl st h
        · simp only [List.mem_cons, List.not_mem_nil, or_false] at h
          subst h
          exact alt_live hmod hp hd g
      obtain ⟨off, m1, e1⟩ := pipeline_returns m hok.sound p (fun r hr => (goodGenes_iff m r).1 (hok.members r hr)) (cfg.choose g p)
        (fun m1 hu => hc g p m1 hne fun r hr => goodGenes_same (unchanged_same hok.sound hu (goodGenes_lt (hok.members r hr))) (hok.members r hr))
        (cfg.pipeline g) hst' hsl' cfg.size
      rw [e1]
      obtain ⟨-, -, -, -, -, len1, ok1⟩ := alt_turn cfg hmod hp hst hok e1
      exact ih _ _ _ (List.length_pos_iff.1 (by omega)) ok1

/-- C118: the run returns. -/
theorem alternating_run_returns (cfg : AltConfig γ ψ φ ρ) (hmod : 0 < cfg.modulo) (hp : cfg.problems ≠ []) (hs : 1 ≤ cfg.size)
    (initGenome : ρ → PyM (List γ) × ρ) (hinit : ∀ s, ∃ g, (initGenome s).1 = .ok g ∧ GenesIn n allowed g)
    (hst : ∀ st ∈ cfg.stages, StageOk n allowed (fun _ _ => True) st) (hsl : ∀ st ∈ cfg.stages, StageLive n allowed st)
    (hd : ∀ q ∈ cfg.problems, ∀ g, GenesIn n allowed g → ∃ c, decodeOf cfg.dec g = .ok c ∧ ∀ s, ∃ f, (q.prob.evaluate c s).1 = .ok f)
    (hc : ∀ (g : Int) (pop : List Nat) (m : Mem γ ψ φ ρ), pop ≠ [] → (∀ r ∈ pop, GoodGenes n allowed m r) →
      ∃ i, (cfg.choose g pop m).1 = .ok i ∧ i < pop.length)
    (problem popSize : Nat) (hpop : 1 ≤ popSize) (startGeneration maxGenerations : Int) (m : Mem γ ψ φ ρ) (hm : Sound m) :
    ∃ out g' m', altRun cfg initGenome problem popSize startGeneration maxGenerations m = (.ok (out, g'), m') := by
  have hinit' : ∀ s g s', initGenome s = (.ok g, s') → GenesIn n allowed g := by
    intro s g s' h
    obtain ⟨g', h1, h2⟩ := hinit s
    rw [h] at h1
    cases h1
    exact h2
  obtain ⟨gs, s', hd'⟩ : ∃ gs s', Drawn initGenome popSize m.rng gs s' := by
    rcases drawn_or_raises initGenome popSize m.rng with h | ⟨j, gs, s1, e, s2, h1, h2, h3⟩
    · exact h
    · obtain ⟨g, hg, -⟩ := hinit s1
      rw [h3] at hg
      cases hg
  obtain ⟨parents, m1, e1, -⟩ := create_population_spec initGenome problem popSize m hm gs s' hd'
  obtain ⟨s1, -, -, -, -, hgood⟩ := createPopulation_good (truth := ScoredBy cfg.dec (altProb cfg.problems cfg.modulo startGeneration)) initGenome
    hinit' problem popSize m m1 hm parents e1
  obtain ⟨m2, e2⟩ := evaluatePopulation_returns cfg.dec (altProb cfg.problems cfg.modulo startGeneration) (alt_live hmod hp hd startGeneration)
    parents m1 s1 hgood
  obtain ⟨-, l2, -, ok2⟩ := plus_first initGenome cfg.dec _ hinit' problem popSize m m1 m2 hm parents e1 e2
  obtain ⟨out, g', m', e3⟩ := alt_loop_returns cfg hmod hp hs hst hsl hd hc (maxGenerations - startGeneration).toNat startGeneration parents m2
    (List.length_pos_iff.1 (by omega)) ⟨ok2.sound, ok2.nodup, fun r hr => by
      obtain ⟨g, f, h1, h2, -⟩ := ok2.members r hr
      exact ⟨g, h1, h2⟩⟩
  have e0 : HM.lift (alternatingInit cfg.problems cfg.modulo) m = (.ok (), m) := by
    rw [HM.lift_apply, alternatingInit, if_pos (List.length_pos_iff.2 hp), if_pos hmod]
  refine ⟨out, g', m', ?_⟩
  rw [altRun, bind_live e0, bind_live e1, bind_live e2]
  exact e3

/-- Ones are good. -/
def exMany : AltProblem Int Int Int Nat := ⟨exSum, fun a b => decide (a.getD 0 < b.getD 0)⟩

/-- Ones are bad: the score is minus their number. -/
def exZeros : AltProblem Int Int Int Nat where
  prob := { evaluate := fun c s => match c with
              | .raw g => (.ok (-g.sum), s + 1)
              | .value v => (.ok (-v), s + 1)
            evaluateMultiple := fun _ s => (.error .typeError, s)
            takesIndividuals := false }
  worse a b := decide (a.getD 0 < b.getD 0)

/-- The number of ones is to be minimised. -/
def exFew : AltProblem Int Int Int Nat := ⟨exSum, fun a b => decide (b.getD 0 < a.getD 0)⟩

/-- Two problems that take turns every two generations. -/
def exAlt (kElites : Nat) (problems : List (AltProblem Int Int Int Nat)) : AltConfig Int Int Int Nat where
  problems := problems
  modulo := 2
  dec := .identity
  choose _ pop m := (.ok (m.rng % pop.length), m.rng + 1)
  stages := [.mutate (.ok ()) false (bitflipFn (some 1) none fun s =>
      (if s % 5 < 3 then [1 / 4, 3 / 4] else [3 / 4, 1 / 4], s + 1))]
  size := 2
  kElites := kElites
  stop _ _ _ := false

/-- The runs meet the hypotheses of the theorems above: the first problem has generations 0, 1, 4, 5, ..., the second has 2, 3, 6, 7, .... -/
example (k : Nat) (other : AltProblem Int Int Int Nat) (ho : other = exZeros ∨ other = exFew) :
    0 < (exAlt k [exMany, other]).modulo ∧ (exAlt k [exMany, other]).problems ≠ [] ∧
    (∀ s, ∃ g, (exInit s).1 = .ok g ∧ GenesIn 2 (fun _ x => x = 0 ∨ x = 1) g) ∧
    (∀ st ∈ (exAlt k [exMany, other]).stages, StageOk 2 (fun _ x => x = 0 ∨ x = 1) (fun _ _ => True) st) ∧
    (∀ st ∈ (exAlt k [exMany, other]).stages, StageLive 2 (fun _ x => x = 0 ∨ x = 1) st) ∧
    (∀ q ∈ (exAlt k [exMany, other]).problems, ∀ g, GenesIn 2 (fun _ x => x = 0 ∨ x = 1) g →
      ∃ c, decodeOf (exAlt k [exMany, other]).dec g = .ok c ∧ ∀ s, ∃ f, (q.prob.evaluate c s).1 = .ok f) ∧
    (∀ (g : Int) (pop : List Nat) (m : Mem Int Int Int Nat), pop ≠ [] → (∀ r ∈ pop, GoodGenes 2 (fun _ x => x = 0 ∨ x = 1) m r) →
      ∃ i, ((exAlt k [exMany, other]).choose g pop m).1 = .ok i ∧ i < pop.length) ∧
    (∀ q ∈ (exAlt k [exMany, other]).problems, StrictWeak q.worse) ∧ Sound exStart ∧
    (∀ i : Nat, i < 2 → TurnOf [exMany, other] 2 (0 + i) exMany) ∧ (∀ i : Nat, i < 2 → TurnOf [exMany, other] 2 (2 + i) other) := by
  refine ⟨by simp [exAlt], by simp [exAlt], ?_, ?_, ?_, ?_, ?_, ?_, ⟨by simp [exStart], by simp [exStart], by simp [exStart]⟩, ?_, ?_⟩
  · intro s
    refine ⟨_, rfl, rfl, fun i x hx => ?_⟩
    have := List.mem_of_getElem? hx
    simp only [List.mem_cons, List.not_mem_nil, or_false] at this
    rcases this with rfl | rfl
    · omega
    · exact Or.inl rfl
  · intro st hst
    simp only [exAlt, List.mem_cons, List.not_mem_nil, or_false] at hst
    subst hst
    exact bitflip_stage_ok _ _ _ _ _ _ _
  · intro st hst
    simp only [exAlt, List.mem_cons, List.not_mem_nil, or_false] at hst
    subst hst
    exact bitflip_stage_live _ _ _ _ (1 / 2) (Or.inr ⟨rfl, by decide, 1, rfl, by norm_num⟩) (by norm_num) (by norm_num)
      (fun s => by split <;> rfl) _
  · intro q hq g _
    refine ⟨_, rfl, fun s => ?_⟩
    simp only [exAlt, List.mem_cons, List.not_mem_nil, or_false] at hq
    rcases hq with rfl | rfl
    · exact ⟨_, rfl⟩
    · rcases ho with rfl | rfl <;> exact ⟨_, rfl⟩
  · exact fun g pop m hne _ => ⟨_, rfl, Nat.mod_lt _ (List.length_pos_iff.2 hne)⟩
  · intro q hq
    simp only [exAlt, List.mem_cons, List.not_mem_nil, or_false] at hq
    rcases hq with rfl | rfl
    · refine ⟨?_, ?_⟩
      · intro a b; simp [exMany]; omega
      · intro a b c; simp [exMany]; omega
    · rcases ho with rfl | rfl
      · refine ⟨?_, ?_⟩
        · intro a b; simp [exZeros]; omega
        · intro a b c; simp [exZeros]; omega
      · refine ⟨?_, ?_⟩
        · intro a b; simp [exFew]; omega
        · intro a b c; simp [exFew]; omega
  · exact fun i hi => ⟨0, rfl, by simp; omega⟩
  · exact fun i hi => ⟨1, rfl, by simp; omega⟩

set_option synthInstance.maxSize 1000 in
set_option synthInstance.maxHeartbeats 100000 in
/-- Without elites the run ends with individuals scored by the second problem, in its turn. -/
example :
    (altRun (exAlt 0 [exMany, exZeros]) exInit 0 2 0 4 exStart).1.toOption = some ([8, 9], 4) ∧
    genes (altRun (exAlt 0 [exMany, exZeros]) exInit 0 2 0 4 exStart).2 9 = some [0, 1] ∧
    fitness (altRun (exAlt 0 [exMany, exZeros]) exInit 0 2 0 4 exStart).2 9 = some (some (-1)) := by
  decide +kernel

set_option synthInstance.maxSize 1000 in
set_option synthInstance.maxHeartbeats 100000 in
/-- C118: with an elite, an individual that was scored by the problem of another turn stays ahead of those the problem whose turn it is likes
better. In the last generation of this run it is the turn of the second problem, which gives `[1, 1]` the worst score there is, -2, and `[1, 0]`
a better one, -1. But individual 5 with genes `[1, 1]` is still in front, with the score 2 the first problem gave it, and is not worse than
individual 8 with genes `[1, 0]` and score -1. -/
theorem alternating_elite_stale :
    (altRun (exAlt 1 [exMany, exZeros]) exInit 0 2 0 4 exStart).1.toOption = some ([5, 8], 4) ∧
    TurnOf [exMany, exZeros] 2 3 exZeros ∧
    genes (altRun (exAlt 1 [exMany, exZeros]) exInit 0 2 0 4 exStart).2 5 = some [1, 1] ∧
    fitness (altRun (exAlt 1 [exMany, exZeros]) exInit 0 2 0 4 exStart).2 5 = some (some 2) ∧
    genes (altRun (exAlt 1 [exMany, exZeros]) exInit 0 2 0 4 exStart).2 8 = some [1, 0] ∧
    fitness (altRun (exAlt 1 [exMany, exZeros]) exInit 0 2 0 4 exStart).2 8 = some (some (-1)) ∧
    (∀ s, (exZeros.prob.evaluate (.raw [1, 1]) s).1 = .ok (-2) ∧ (exZeros.prob.evaluate (.raw [1, 0]) s).1 = .ok (-1)) ∧
    exZeros.worse (some (-2)) (some (-1)) = true ∧
    (exAlt 1 [exMany, exZeros]).lt 3 (altRun (exAlt 1 [exMany, exZeros]) exInit 0 2 0 4 exStart).2 8 5 = true := by
  refine ⟨by decide +kernel, ⟨1, rfl, by simp⟩, by decide +kernel, by decide +kernel, by decide +kernel, by decide +kernel, fun s => ⟨rfl, rfl⟩,
    by decide +kernel, by decide +kernel⟩

set_option synthInstance.maxSize 1000 in
set_option synthInstance.maxHeartbeats 100000 in
/-- C118: at the end of a turn the counter has moved on, and with it the comparison: in this run of two generations both were the turn of the first
problem, which maximises; individual 5 has score 2 and individual 4 has score 1, and 5 was ahead as long as the run ran. When the run has
returned it is the turn of the second problem, which minimises, and `max(final_pop)` is individual 4. -/
theorem alternating_best_flips :
    (altRun (exAlt 0 [exMany, exFew]) exInit 0 2 0 2 exStart).1.toOption = some ([5, 4], 2) ∧
    TurnOf [exMany, exFew] 2 0 exMany ∧ TurnOf [exMany, exFew] 2 1 exMany ∧ TurnOf [exMany, exFew] 2 2 exFew ∧
    fitness (altRun (exAlt 0 [exMany, exFew]) exInit 0 2 0 2 exStart).2 5 = some (some 2) ∧
    fitness (altRun (exAlt 0 [exMany, exFew]) exInit 0 2 0 2 exStart).2 4 = some (some 1) ∧
    (exAlt 0 [exMany, exFew]).lt 1 (altRun (exAlt 0 [exMany, exFew]) exInit 0 2 0 2 exStart).2 4 5 = true ∧
    (exAlt 0 [exMany, exFew]).lt 2 (altRun (exAlt 0 [exMany, exFew]) exInit 0 2 0 2 exStart).2 5 4 = true := by
  refine ⟨by decide +kernel, ⟨0, rfl, by simp⟩, ⟨0, rfl, by simp⟩, ⟨1, rfl, by simp⟩, by decide +kernel, by decide +kernel, by decide +kernel,
    by decide +kernel⟩

end Leap
