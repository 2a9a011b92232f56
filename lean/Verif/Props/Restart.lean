import Verif.Lemmas.Restart
import Verif.Props.Recode

/-!
# C134: a run can be stopped and restarted

`start_generation` is there for "experiments that involve stopping and restarting an algorithm". A run is stopped after some generations, the genomes of its population and
the state of the random numbers are kept, and a second run, perhaps in another process, starts with these genomes, this random state, and the number of the generation
reached. Here it is shown that the two runs together do what one run would have done.
-/

namespace Leap

open Spec

section
variable {γ ψ φ ρ : Type}

/-! ### Specification -/

/-- Evaluation is a function of what is evaluated: it draws no random numbers. -/
def Spec.Deterministic (prob : Prob γ ψ φ ρ) : Prop := ∃ score : Content γ ψ → PyM φ, ∀ c s, prob.evaluate c s = (score c, s)

/-- Called once for each of the genomes, the initializer returns them one after the other. In the end the random state is `s'`. -/
def Spec.Delivers (init : ρ → PyM (List γ) × ρ) : ρ → List (List γ) → ρ → Prop
  | s, [], s' => s = s'
  | s, g :: gs, s' => (init s).1 = .ok g ∧ Delivers init (init s).2 gs s'

/-- Two runs end in the same way: populations with the same genes, fitness and viability in the same order, or the same exception, and the same random state. -/
def Spec.EndsAlike (r r' : PyM (List Nat) × Mem γ ψ φ ρ) : Prop :=
  match r, r' with
  | (.ok pop, m), (.ok pop', m') => pop.map (looks m) = pop'.map (looks m') ∧ m.rng = m'.rng
  | (.error e, m), (.error e', m') => e = e' ∧ m.rng = m'.rng
  | _, _ => False

/-! ### Longer runs -/

theorem evoLoop_step (cfg : EvoConfig γ ψ φ ρ) (n : Nat) (g : Int) (pop : List Nat) (m : Mem γ ψ φ ρ) : evoLoop cfg (n + 1) g pop m =
    if cfg.stop g pop m then (.ok pop, m)
    else match runPipeline pop (cfg.choose g pop) cfg.stages cfg.size m with
      | (.error e, m1) => (.error e, m1)
      | (.ok offspring, m1) => evoLoop cfg n (g + 1) (elitistSurvival (cfg.lt m1) offspring pop cfg.kElites).1 m1 := rfl

theorem evoLoop_more (cfg : EvoConfig γ ψ φ ρ) (hstop : ∀ g g', cfg.stop g = cfg.stop g') (k : Nat) : ∀ (j : Nat) (g : Int) (pop : List Nat) (m : Mem γ ψ φ ρ),
    evoLoop cfg (j + k) g pop m = (evoLoop cfg j g pop >>= evoLoop cfg k (g + j)) m := by
  intro j
  induction j with
  | zero => intro g pop m; simp [evoLoop, HM.bind_apply]
  | succ j ih =>
    intro g pop m
    obtain ⟨g2, hg2⟩ : ∃ g2 : Int, g2 = g + ((j + 1 : Nat) : Int) := ⟨_, rfl⟩
    have hg3 : g + 1 + (j : Int) = g2 := by omega
    rw [HM.bind_apply, Nat.add_right_comm, ← hg2]
    clear hg2
    rw [evoLoop_step, evoLoop_step]
    by_cases hb : cfg.stop g pop m = true
    · rw [if_pos hb, if_pos hb]
      cases k with
      | zero => rfl
      | succ k =>
        rw [hstop g g2] at hb
        exact (if_pos hb).symm
    · rw [if_neg hb, if_neg hb]
      rcases runPipeline pop (cfg.choose g pop) cfg.stages cfg.size m with ⟨(e | off), m1⟩
      · rfl
      · have := ih (g + 1) (elitistSurvival (cfg.lt m1) off pop cfg.kElites).1 m1
        rw [hg3] at this
        exact this

theorem evoRun_more (cfg : EvoConfig γ ψ φ ρ) (hstop : ∀ g g', cfg.stop g = cfg.stop g') (init : ρ → PyM (List γ) × ρ) (dec : Dec γ ψ) (prob : Prob γ ψ φ ρ)
    (problem popSize : Nat) (start mid max : Int) (h1 : start ≤ mid) (h2 : mid ≤ max) (m : Mem γ ψ φ ρ) :
    evoRun cfg init dec prob problem popSize start max m =
      (evoRun cfg init dec prob problem popSize start mid >>= evoLoop cfg (max - mid).toNat mid) m := by
  have e1 : (max - start).toNat = (mid - start).toNat + (max - mid).toNat := by omega
  have e2 : start + ((mid - start).toNat : Int) = mid := by omega
  unfold evoRun
  simp only [HM.bind_apply, e1]
  rcases createPopulation init problem popSize m with ⟨(e | pop), m1⟩
  · rfl
  · simp only []
    rcases evaluatePopulation dec prob pop m1 with ⟨(e | u), m2⟩
    · rfl
    · have := evoLoop_more cfg hstop (max - mid).toNat (mid - start).toNat start pop m2
      rw [e2, HM.bind_apply] at this
      exact this

/-- **C134**: a run with a larger limit first does all the shorter run does: if the shorter run raises, the longer raises the same, and a population at which the shorter run
was told to stop is what the longer run returns. -/
theorem longer_run_begins_alike (cfg : EvoConfig γ ψ φ ρ) (hstop : ∀ g g', cfg.stop g = cfg.stop g') (init : ρ → PyM (List γ) × ρ) (dec : Dec γ ψ) (prob : Prob γ ψ φ ρ)
    (problem popSize : Nat) (start mid max : Int) (h1 : start ≤ mid) (h2 : mid ≤ max) (m : Mem γ ψ φ ρ) :
    match evoRun cfg init dec prob problem popSize start mid m with
    | (.error e, m1) => evoRun cfg init dec prob problem popSize start max m = (.error e, m1)
    | (.ok pop, m1) => cfg.stop mid pop m1 = true → evoRun cfg init dec prob problem popSize start max m = (.ok pop, m1) := by
  rw [evoRun_more cfg hstop init dec prob problem popSize start mid max h1 h2 m, HM.bind_apply]
  rcases evoRun cfg init dec prob problem popSize start mid m with ⟨(e | pop), m1⟩
  · rfl
  · intro hb
    simp only []
    cases (max - mid).toNat with
    | zero => rfl
    | succ k => simp [evoLoop, hb]

/-! ### The first population of each run -/

/-- The fitness of these genes. -/
def trueScore (dec : Dec γ ψ) (score : Content γ ψ → PyM φ) (g : List γ) : PyM φ :=
  match dec with
  | .identity => score (.raw g)
  | .fn f => match f g with
    | .ok p => score (.value p)
    | .error e => .error e

theorem exact_of (dec : Dec γ ψ) {prob : Prob γ ψ φ ρ} {score : Content γ ψ → PyM φ} (h : ∀ c s, prob.evaluate c s = (score c, s)) : Exact (trueScore dec score) dec prob := by
  intro g w
  unfold scoreOf trueScore
  cases dec with
  | identity => simp only [draw, h]
  | fn f =>
    simp only [HM.bind_apply, HM.lift_apply]
    cases f g with
    | error e => rfl
    | ok p => simp only [draw, h]

theorem twin_newborns {t : List γ → PyM φ} (init : ρ → PyM (List γ) × ρ) (problem n : Nat) : Like (newborns (φ := φ) init problem n) (newborns init problem n) (List.Forall₂ (TwinVal t)) := by
  induction n with
  | zero => exact like_pure .nil
  | succ n ih =>
    unfold newborns
    refine like_bind (like_draw _) ?_
    rintro g _ rfl
    refine like_bind like_uuid fun _ _ _ => like_bind ih fun vs vs' h => like_pure (.cons ⟨rfl, rfl, rfl, rfl, by rintro f ⟨⟩⟩ h)

theorem peer_allScored {t : List γ → PyM φ} {dec : Dec γ ψ} {prob : Prob γ ψ φ ρ} (ht : Exact t dec prob) {l l' : List (Val γ φ)} (h : List.Forall₂ (TwinVal t) l l') :
    Like (allScored dec prob l) (allScored dec prob l') (List.Forall₂ (Peer t)) := by
  induction h with
  | nil => exact like_pure .nil
  | cons hx _ ih =>
    unfold allScored
    exact like_bind (peer_scored ht hx) fun v v' hv => like_bind ih fun vs vs' h => like_pure (.cons hv h)

theorem like_valueRun {t : List γ → PyM φ} {dec : Dec γ ψ} {prob : Prob γ ψ φ ρ} (ht : Exact t dec prob) {pre : List (Stage γ ψ φ ρ)} (hp : ∀ st ∈ pre, Breeds st)
    (cfg : EvoConfig γ ψ φ ρ) (hst : cfg.stages = pre ++ [.evaluate dec prob]) (hc : ∀ g, ByAppearance (cfg.choose g)) (hs : ∀ g, ByAppearance (cfg.stop g))
    (init : ρ → PyM (List γ) × ρ) (problem popSize : Nat) (start max : Int) :
    Like (valueRun cfg init dec prob problem popSize start max) (valueRun cfg init dec prob problem popSize start max) (List.Forall₂ (Peer t)) :=
  like_bind (twin_newborns init problem popSize) fun _ _ h => like_bind (peer_allScored ht h) fun _ _ h => like_valueLoop ht hp cfg hst hc hs _ _ _ _ h

/-- Those born with the genes of the population, and evaluated, are its peers. -/
theorem reborn {t : List γ → PyM φ} {dec : Dec γ ψ} {prob : Prob γ ψ φ ρ} (ht : Exact t dec prob) (init : ρ → PyM (List γ) × ρ) (problem : Nat) (vs : List (Val γ φ)) :
    ∀ (s' : ρ) (w : Luck ρ), (∀ v ∈ vs, Peer t v v) → Delivers init w.rng (vs.map (·.genes)) s' →
      ∃ bs w1, newborns init problem vs.length w = (.ok bs, w1) ∧ w1.rng = s' ∧ ∀ w2, ∃ ps, allScored dec prob bs w2 = (.ok ps, w2) ∧ List.Forall₂ (Peer t) vs ps := by
  induction vs with
  | nil => exact fun s' w _ hd => ⟨[], w, rfl, hd, fun w2 => ⟨[], rfl, .nil⟩⟩
  | cons v vs ih =>
    intro s' w hv hd
    obtain ⟨hd1, hd2⟩ := hd
    obtain ⟨bs, w1, e1, e2, e3⟩ := ih s' ⟨w.nextUuid + 1, (init w.rng).2⟩ (fun x hx => hv x (by simp [hx])) hd2
    refine ⟨⟨v.genes, none, w.nextUuid, [], problem, none, none⟩ :: bs, w1, ?_, e2, fun w2 => ?_⟩
    · simp only [List.length_cons, newborns, HM.bind_apply, draw, hd1, newUuid, e1, HM.pure_apply]
    · obtain ⟨ps, e4, h4⟩ := e3 w2
      obtain ⟨⟨_, _, hvi, _, htrue⟩, hsome⟩ := hv v (by simp)
      obtain ⟨f, hf⟩ := Option.isSome_iff_exists.1 hsome
      refine ⟨⟨v.genes, some f, w.nextUuid, [], problem, none, none⟩ :: ps, ?_, .cons ⟨⟨rfl, hf, hvi, rfl, htrue⟩, hsome⟩ h4⟩
      have e5 : scoreOf dec prob v.genes w2 = (.ok f, w2) := by rw [ht, htrue f hf]
      simp only [allScored, scored, HM.bind_apply, e5, HM.pure_apply, e4]

theorem looks_of_seen {m : Mem γ ψ φ ρ} {pop : List Nat} {vs : List (Val γ φ)} (h : seenAs m pop vs) :
    pop.map (looks m) = vs.map fun v => (some v.genes, some v.fitness, v.viable) := by
  have key : ∀ (r : Nat) (v : Val γ φ), valueAt m r = some v → looks m r = (some v.genes, some v.fitness, v.viable) := by
    intro r v hv
    unfold valueAt at hv
    simp only [Option.bind_eq_bind, Option.bind_eq_some_iff] at hv
    obtain ⟨o, h1, g, h2, q, h3, h4⟩ := hv
    cases h4
    simp [looks, genes, fitness, h1, h2]
  unfold seenAs at h
  have hlen : pop.length = vs.length := by simpa using congrArg List.length h
  apply List.ext_getElem (by simpa using hlen)
  intro i h1 h2
  simp only [List.length_map] at h1 h2
  have := congrArg (·[i]?) h
  simp [h1, h2] at this
  simp [key _ _ this]

theorem entries_of_seen {m : Mem γ ψ φ ρ} : ∀ {pop : List Nat} {vs : List (Val γ φ)}, seenAs m pop vs →
    ∃ P : List (Entry γ ψ φ), P.map Entry.addr = pop ∧ P.map Entry.val = vs ∧ ∀ e ∈ P, e.In m := by
  intro pop
  induction pop with
  | nil => intro vs h; cases vs <;> simp [seenAs] at h; exact ⟨[], rfl, rfl, by simp⟩
  | cons r pop ih =>
    intro vs h
    cases vs with
    | nil => simp [seenAs] at h
    | cons v vs =>
      simp only [seenAs, List.map_cons, List.cons.injEq] at h
      obtain ⟨P, h1, h2, h3⟩ := ih h.2
      have hv := h.1
      unfold valueAt at hv
      simp only [Option.bind_eq_bind, Option.bind_eq_some_iff] at hv
      obtain ⟨o, k1, g, k2, q, k3, k4⟩ := hv
      cases k4
      refine ⟨⟨r, o, g, q⟩ :: P, by simp [h1], by simp [h2, Entry.val], ?_⟩
      intro e he
      rcases List.mem_cons.1 he with rfl | he
      · exact ⟨k1, k2, k3⟩
      · exact h3 e he

/-- **C134**: `generational_ea` with any selection and stopping rule that go by genes, fitness and viability, any cloning, mutation and crossover, evaluated by a
deterministic problem. If a run up to generation `mid` returned, and a run in any other memory starts from its genomes, its random state and generation `mid`, then it ends
as the first run would have ended had it gone on. -/
theorem restart_continues (cfg : EvoConfig γ ψ φ ρ) (pre : List (Stage γ ψ φ ρ)) (dec : Dec γ ψ) (prob : Prob γ ψ φ ρ) (hst : cfg.stages = pre ++ [.evaluate dec prob])
    (hpre : ∀ st ∈ pre, Breeds st) (hd : Deterministic prob) (hc : ∀ g, ByAppearance (cfg.choose g)) (hs : ∀ g, ByAppearance (cfg.stop g))
    (hstop : ∀ g g', cfg.stop g = cfg.stop g') (init : ρ → PyM (List γ) × ρ) (problem popSize : Nat) (start mid max : Int) (h1 : start ≤ mid) (h2 : mid ≤ max)
    (m m1 m' : Mem γ ψ φ ρ) (pop : List Nat) (hrun : evoRun cfg init dec prob problem popSize start mid m = (.ok pop, m1))
    (reload : ρ → PyM (List γ) × ρ) (problem' : Nat) (saved : List (List γ)) (hsaved : pop.map (genes m1) = saved.map some) (hload : Delivers reload m'.rng saved m1.rng) :
    EndsAlike (evoRun cfg init dec prob problem popSize start max m) (evoRun cfg reload dec prob problem' saved.length mid max m') := by
  obtain ⟨score, hscore⟩ := hd
  have ht := exact_of dec hscore
  generalize trueScore dec score = t at ht
  -- the run up to `mid`, over values
  have r1 := evo_run_as_values cfg hc hs init dec prob problem popSize start mid m
  rw [hrun] at r1
  rcases ev : valueRun cfg init dec prob problem popSize start mid ⟨m.nextUuid, m.rng⟩ with ⟨(e | vs), w1⟩
  · rw [ev] at r1; exact r1.elim
  rw [ev] at r1
  obtain ⟨hseen, hw1⟩ := r1
  have self := like_valueRun ht hpre cfg hst hc hs init problem popSize start mid ⟨m.nextUuid, m.rng⟩ ⟨m.nextUuid, m.rng⟩ rfl
  rw [ev] at self
  have hpeer : ∀ v ∈ vs, Peer t v v := List.forall₂_same.1 self.1
  have hgenes : vs.map (·.genes) = saved := by
    have hl := congrArg (List.map Prod.fst) (looks_of_seen hseen)
    rw [List.map_map, List.map_map] at hl
    have : pop.map (genes m1) = vs.map (fun v => some v.genes) := hl
    rw [hsaved] at this
    have h3 : (vs.map (·.genes)).map some = saved.map some := by rw [List.map_map]; exact this.symm
    exact List.map_injective_iff.2 (Option.some_injective _) h3
  subst hgenes
  obtain ⟨bs, w2, e1, e2, e3⟩ := reborn ht reload problem' vs m1.rng ⟨m'.nextUuid, m'.rng⟩ hpeer hload
  obtain ⟨ps, e4, hps⟩ := e3 w2
  have r2 := evo_run_as_values cfg hc hs reload dec prob problem' vs.length mid max m'
  have ev2 : valueRun cfg reload dec prob problem' vs.length mid max ⟨m'.nextUuid, m'.rng⟩ = valueLoop cfg (max - mid).toNat mid ps w2 := by
    simp only [valueRun, HM.bind_apply, e1, e4]
  rw [ev2] at r2
  -- the whole run
  rw [evoRun_more cfg hstop init dec prob problem popSize start mid max h1 h2 m, HM.bind_apply, hrun]
  simp only []
  obtain ⟨P, hPa, hPv, hPin⟩ : ∃ P : List (Entry γ ψ φ), P.map Entry.addr = pop ∧ P.map Entry.val = vs ∧ ∀ e ∈ P, e.In m1 := by
    exact entries_of_seen hseen
  have r3 := ref_evoLoop cfg hc hs (max - mid).toNat mid P m1 hPin
  rw [hPa, hPv] at r3
  have r4 := like_valueLoop ht hpre cfg hst hc hs (max - mid).toNat mid vs ps hps (luck m1) w2 e2.symm
  unfold Ref at r3
  unfold EndsAlike
  rw [List.length_map]
  rcases x1 : evoLoop cfg (max - mid).toNat mid pop m1 with ⟨(ea | a), na⟩ <;>
    rcases x2 : evoRun cfg reload dec prob problem' vs.length mid max m' with ⟨(eb | b), nb⟩ <;>
    rcases x3 : valueLoop cfg (max - mid).toNat mid vs (luck m1) with ⟨(ec | c), nc⟩ <;>
    rcases x4 : valueLoop cfg (max - mid).toNat mid ps w2 with ⟨(ed | d), nd⟩ <;>
    rw [x1, x3] at r3 <;> rw [x2, x4] at r2 <;> rw [x3, x4] at r4 <;> simp only at r2 r3 r4 ⊢
  · obtain ⟨rfl, rfl⟩ := r3
    obtain ⟨rfl, rfl⟩ := r2
    exact r4
  · obtain ⟨⟨Q, hQa, hQv, hQin⟩, rfl⟩ := r3
    obtain ⟨hb, rfl⟩ := r2
    obtain ⟨hcd, hr⟩ := r4
    refine ⟨?_, hr⟩
    have ha := seen_of_in Q hQin
    rw [hQa, hQv] at ha
    rw [looks_of_seen ha, looks_of_seen hb]
    clear x3 x4 hQv ha hb hr
    induction hcd with
    | nil => rfl
    | cons hx _ ih => simp only [List.map_cons, ih, hx.1.1, hx.1.2.1, hx.1.2.2.1, hx.1.2.2.2.1]

end

/-- **C134**: in particular with tournaments of any size, any elitism and no stopping rule. -/
theorem tournament_restart_continues {γ ψ φ ρ : Type} (worse better : Option φ → Option φ → Bool) (k : Nat) (draw : ρ → Nat → List Nat × ρ) (pre : List (Stage γ ψ φ ρ))
    (hpre : ∀ st ∈ pre, Breeds st) (dec : Dec γ ψ) (prob : Prob γ ψ φ ρ) (hd : Deterministic prob) (size kElites : Nat) (init : ρ → PyM (List γ) × ρ) (problem popSize : Nat)
    (start mid max : Int) (h1 : start ≤ mid) (h2 : mid ≤ max) (m m1 m' : Mem γ ψ φ ρ) (pop : List Nat)
    (hrun : evoRun (plainEa worse better k draw (pre ++ [.evaluate dec prob]) size kElites) init dec prob problem popSize start mid m = (.ok pop, m1))
    (reload : ρ → PyM (List γ) × ρ) (problem' : Nat) (saved : List (List γ)) (hsaved : pop.map (genes m1) = saved.map some) (hload : Delivers reload m'.rng saved m1.rng) :
    EndsAlike (evoRun (plainEa worse better k draw (pre ++ [.evaluate dec prob]) size kElites) init dec prob problem popSize start max m)
      (evoRun (plainEa worse better k draw (pre ++ [.evaluate dec prob]) size kElites) reload dec prob problem' saved.length mid max m') :=
  restart_continues _ pre dec prob rfl hpre hd (fun _ => tournament_by_appearance better k draw) (fun _ _ _ _ _ _ _ => rfl) (fun _ _ => rfl) init problem popSize start mid max
    h1 h2 m m1 m' pop hrun reload problem' saved hsaved hload

/-! ### Some runs -/

/-- The sum of the genes, without random numbers. -/
def exCalm : Prob Int Int Int Nat where
  evaluate c s := match c with
    | .raw g => (.ok g.sum, s)
    | .value v => (.ok v, s)
  evaluateMultiple _ s := (.error .attributeError, s)
  takesIndividuals := false

def exStages : List (Stage Int Int Int Nat) :=
  [.mutate (checkRateOp (some 1) none) false (bitflipFn (some 1) none fun s => (if s % 5 < 3 then [1 / 4, 3 / 4] else [3 / 4, 1 / 4], s + 1)),
    .crossover (fun s => (s % 2 == 0, s + 1)) (.uniform fun s n => (.ok ((List.range n).map fun i => (s + i) % 3 == 0), s + 1))]

def exLong (prob : Prob Int Int Int Nat) : EvoConfig Int Int Int Nat :=
  plainEa (fun a b => decide (a.getD 0 < b.getD 0)) (fun a b => decide (b.getD 0 < a.getD 0)) 2 (fun s k => ((List.range k).map fun i => (s + i) % 2, s + 1))
    (exStages ++ [.evaluate .identity prob]) 2 1

/-- Three generations, and the same after a stop after the first. The second process has nothing in memory and takes the two genomes from a file. -/
example :
    let reload : Nat → PyM (List Int) × Nat := fun s => (.ok (if s = 5 then [1, 1] else [1, 0]), s + 1)
    let first := evoRun (exLong exCalm) exInit .identity exCalm 0 2 0 1 exStart
    (∀ st ∈ exStages, Breeds st) ∧ Deterministic exCalm ∧
    first.1.toOption.map (·.map (genes first.2)) = some ([[1, 1], [1, 0]].map some) ∧ first.2.rng = 7 ∧ Delivers reload 5 [[1, 1], [1, 0]] 7 ∧
    exTell (evoRun (exLong exCalm) exInit .identity exCalm 0 2 0 3 exStart) = some [(some [1, 1], some (some 2)), (some [1, 1], some (some 2))] ∧
    exTell (evoRun (exLong exCalm) reload .identity exCalm 0 2 1 3 ⟨[], [], [], 0, 5⟩) = some [(some [1, 1], some (some 2)), (some [1, 1], some (some 2))] := by
  refine ⟨?_, ⟨fun c => match c with | .raw g => .ok g.sum | .value v => .ok v, by rintro (g | v) s <;> rfl⟩, by decide +kernel, by decide +kernel, ⟨rfl, rfl, rfl⟩,
    by decide +kernel, by decide +kernel⟩
  intro st hst
  simp only [exStages, List.mem_cons, List.not_mem_nil, or_false] at hst
  rcases hst with rfl | rfl
  · exact .mutate
  · exact .crossover

theorem endsAlike_tell {γ ψ φ : Type} {r r' : PyM (List Nat) × Mem γ ψ φ Nat} (h : EndsAlike r r') : exTell r = exTell r' := by
  rcases r with ⟨(e | pop), m⟩ <;> rcases r' with ⟨(e' | pop'), m'⟩ <;> simp only [EndsAlike] at h
  · rfl
  · have := congrArg (List.map fun x : Option (List γ) × Option (Option φ) × Option Bool => (x.1, x.2.1)) h.1
    rw [List.map_map, List.map_map] at this
    exact congrArg some this

/-- The two genomes of the first generation, from a file. -/
def exReload (s : Nat) : PyM (List Int) × Nat := (.ok (if s = 9 then [1, 0] else [0, 0]), s + 1)

/-- Up to generation `n`, evaluating with random numbers. -/
def exNoisyRun (n : Int) : PyM (List Nat) × Mem Int Int Int Nat := evoRun (exLong exSum) exInit .identity exSum 0 2 0 n exStart

/-- The restarted run. -/
def exAgain : PyM (List Nat) × Mem Int Int Int Nat := evoRun (exLong exSum) exReload .identity exSum 0 2 1 3 ⟨[], [], [], 0, 9⟩

theorem noisy_rng : (exNoisyRun 1).2.rng = 11 := by decide +kernel

theorem noisy_tell : exTell (exNoisyRun 3) ≠ exTell exAgain := by decide +kernel

/-- **C134** needs a deterministic problem: if evaluation draws a random number, the restarted run, which evaluates everybody once more, ends with other individuals. -/
theorem noisy_restart_differs :
    (exNoisyRun 1).1.toOption.map (·.map (genes (exNoisyRun 1).2)) = some ([[1, 0], [0, 0]].map some) ∧ Delivers exReload 9 [[1, 0], [0, 0]] (exNoisyRun 1).2.rng ∧
    ¬ EndsAlike (exNoisyRun 3) exAgain :=
  ⟨by decide +kernel, by rw [noisy_rng]; exact ⟨rfl, rfl, rfl⟩, mt endsAlike_tell noisy_tell⟩

end Leap
