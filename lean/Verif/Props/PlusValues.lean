import Verif.Props.Restart
import Verif.Props.SelectChance
import Verif.Props.PlusRun

/-!
# C132 and C134 for evolution loops written by hand

The loops of examples/simple, which end their pipelines with `truncation_selection` or `insertion_selection`: over objects in memory they do what they do over plain values,
and after a stop they can be restarted where they left off.
-/

namespace Leap

open Spec

section
variable {γ ψ φ ρ : Type}

/-! ### Specification -/

/-- Those who survive: the best of offspring and parents together, or the parents of whom one, drawn at random, gives way to the first of the offspring unless it is
better. -/
def Spec.valueSurvive (cfg : PlusConfig γ ψ φ ρ) (offspring parents : List (Val γ φ)) : HM (Luck ρ) (List (Val γ φ)) :=
  match cfg.survival with
  | .truncation => pure (truncationSelection (fun a b : Val γ φ => cfg.worse a.fitness b.fitness) offspring parents.length (some parents))
  | .insertion randrange => draw fun s =>
    (insertionSelection (fun a b : Val γ φ => !cfg.worse a.fitness b.fitness && !cfg.equal a.fitness b.fitness) offspring parents (randrange s parents.length).1,
      (randrange s parents.length).2)

/-- The loop. -/
def Spec.valuePlusLoop (cfg : PlusConfig γ ψ φ ρ) : Nat → Int → List (Val γ φ) → HM (Luck ρ) (List (Val γ φ))
  | 0, _, parents => pure parents
  | fuel + 1, g, parents => do
    let offspring ← offspringOf parents (fun s => cfg.choose g (List.range parents.length) (laidOut parents s)) (cfg.stages g) (parents.length * cfg.brood)
    let parents ← valueSurvive cfg offspring parents
    valuePlusLoop cfg fuel (g + 1) parents

/-- The script. -/
def Spec.valuePlusRun (cfg : PlusConfig γ ψ φ ρ) (initGenome : ρ → PyM (List γ) × ρ) (dec : Dec γ ψ) (prob : Prob γ ψ φ ρ) (problem popSize : Nat) (max : Int) :
    HM (Luck ρ) (List (Val γ φ)) := do
  let created ← newborns initGenome problem popSize
  let parents ← allScored dec prob created
  valuePlusLoop cfg max.toNat 0 parents

/-- The script to restart with: what it does in generation `g` is what the first did in generation `g + mid`. -/
def Spec.resumed (cfg : PlusConfig γ ψ φ ρ) (mid : Int) : PlusConfig γ ψ φ ρ :=
  { cfg with choose := fun g => cfg.choose (g + mid), stages := fun g => cfg.stages (g + mid) }

/-! ### Survival -/

theorem insertionSelection_map {α β : Type} (f : α → β) (gt : α → α → Bool) (gt' : β → β → Bool) (h : ∀ a b, gt' (f a) (f b) = gt a b) (off par : List α) (i : Nat) :
    insertionSelection gt' (off.map f) (par.map f) i = (insertionSelection gt off par i).map (List.map f) := by
  unfold insertionSelection insertionBody
  cases off with
  | nil => rfl
  | cons c off =>
    simp only [List.map_cons, List.length_map, List.getElem?_map]
    by_cases h0 : par.length = 0
    · simp [h0, Except.map]
    · simp only [h0, if_false]
      cases hp : par[i]? with
      | none => rfl
      | some p =>
        have := pyMaxFrom_map f gt gt' h c [p]
        simp only [List.map_cons, List.map_nil] at this
        simp [Except.map, this, List.map_set]

/-- Survival, whatever stands for the individuals. -/
def outlive {α : Type} (lt gt : α → α → Bool) (off par : List α) : Survival ρ → ρ → PyM (List α) × ρ
  | .truncation, s => (.ok (truncationSelection lt off par.length (some par)), s)
  | .insertion randrange, s => (insertionSelection gt off par (randrange s par.length).1, (randrange s par.length).2)

theorem outlive_map {α β : Type} (f : α → β) {lt gt : α → α → Bool} {lt' gt' : β → β → Bool} (hl : ∀ a b, lt' (f a) (f b) = lt a b) (hg : ∀ a b, gt' (f a) (f b) = gt a b)
    (off par : List α) (sv : Survival ρ) (s : ρ) :
    outlive lt' gt' (off.map f) (par.map f) sv s = ((outlive lt gt off par sv s).1.map (List.map f), (outlive lt gt off par sv s).2) := by
  cases sv with
  | truncation =>
    unfold outlive truncationSelection
    simp only [List.length_map, ← List.map_append, topk_map f lt lt' hl, Except.map]
  | insertion r =>
    unfold outlive
    simp only [List.length_map, insertionSelection_map f gt gt' hg]

theorem survive_outlive (cfg : PlusConfig γ ψ φ ρ) (off par : List Nat) (m : Mem γ ψ φ ρ) :
    survive cfg off par m = ((outlive (cfg.lt m) (cfg.gt m) off par cfg.survival m.rng).1, { m with rng := (outlive (cfg.lt m) (cfg.gt m) off par cfg.survival m.rng).2 }) := by
  unfold survive outlive
  cases cfg.survival <;> rfl

theorem valueSurvive_outlive (cfg : PlusConfig γ ψ φ ρ) (off par : List (Val γ φ)) :
    valueSurvive cfg off par = draw (outlive (fun a b : Val γ φ => cfg.worse a.fitness b.fitness)
      (fun a b : Val γ φ => !cfg.worse a.fitness b.fitness && !cfg.equal a.fitness b.fitness) off par cfg.survival) := by
  unfold valueSurvive
  cases cfg.survival <;> rfl

theorem entry_in_rng {m : Mem γ ψ φ ρ} {e : Entry γ ψ φ} (h : e.In m) (s : ρ) : e.In { m with rng := s } := h

theorem ref_survive (cfg : PlusConfig γ ψ φ ρ) {m : Mem γ ψ φ ρ} (off par : List (Entry γ ψ φ)) (ho : ∀ e ∈ off, e.In m) (hp : ∀ e ∈ par, e.In m) :
    Ref (survive cfg (off.map Entry.addr) (par.map Entry.addr)) (valueSurvive cfg (off.map Entry.val) (par.map Entry.val)) m Outcome' := by
  obtain ⟨off', rfl⟩ : ∃ l : List { e : Entry γ ψ φ // e.In m }, l.map Subtype.val = off := ⟨off.attach.map fun x => ⟨x.1, ho x.1 x.2⟩, by simp [Function.comp_def]⟩
  obtain ⟨par', rfl⟩ : ∃ l : List { e : Entry γ ψ φ // e.In m }, l.map Subtype.val = par := ⟨par.attach.map fun x => ⟨x.1, hp x.1 x.2⟩, by simp [Function.comp_def]⟩
  have a := outlive_map (ρ := ρ) (fun e : { e : Entry γ ψ φ // e.In m } => e.1.addr) (lt := fun a b => cfg.lt m a.1.addr b.1.addr) (gt := fun a b => cfg.gt m a.1.addr b.1.addr)
    (lt' := cfg.lt m) (gt' := cfg.gt m) (fun _ _ => rfl) (fun _ _ => rfl) off' par' cfg.survival m.rng
  have v := outlive_map (ρ := ρ) (fun e : { e : Entry γ ψ φ // e.In m } => e.1.val) (lt := fun a b => cfg.lt m a.1.addr b.1.addr) (gt := fun a b => cfg.gt m a.1.addr b.1.addr)
    (lt' := fun a b : Val γ φ => cfg.worse a.fitness b.fitness) (gt' := fun a b : Val γ φ => !cfg.worse a.fitness b.fitness && !cfg.equal a.fitness b.fitness)
    (fun x y => by simp [PlusConfig.lt, x.2.1, y.2.1, Entry.val]) (fun x y => by simp [PlusConfig.gt, PlusConfig.lt, x.2.1, y.2.1, Entry.val]) off' par' cfg.survival m.rng
  unfold Ref
  rw [valueSurvive_outlive, survive_outlive]
  unfold draw luck
  simp only [List.map_map, Function.comp_def]
  rw [a, v]
  rcases outlive (fun a b : { e : Entry γ ψ φ // e.In m } => cfg.lt m a.1.addr b.1.addr) (fun a b => cfg.gt m a.1.addr b.1.addr) off' par' cfg.survival m.rng with ⟨(e | S), s⟩
  · exact ⟨rfl, rfl⟩
  · refine ⟨⟨S.map Subtype.val, by simp, by simp, ?_⟩, rfl⟩
    intro e he
    obtain ⟨x, _, rfl⟩ := List.mem_map.mp he
    exact x.2

/-! ### Plain values -/

theorem ref_plusLoop (cfg : PlusConfig γ ψ φ ρ) (hc : ∀ g, ByAppearance (cfg.choose g)) (fuel : Nat) :
    ∀ (g : Int) (P : List (Entry γ ψ φ)) (m : Mem γ ψ φ ρ), (∀ e ∈ P, e.In m) →
      Ref (plusLoop cfg fuel g (P.map Entry.addr)) (valuePlusLoop cfg fuel g (P.map Entry.val)) m Outcome' := by
  induction fuel with
  | zero => exact fun g P m h => ref_pure ⟨P, rfl, rfl, h⟩
  | succ fuel ih =>
    intro g P m h
    refine ref_congr (x' := runPipeline (P.map Entry.addr) (cfg.choose g (P.map Entry.addr)) (cfg.stages g) ((P.map Entry.addr).length * cfg.brood) >>= fun off =>
      survive cfg off (P.map Entry.addr) >>= plusLoop cfg fuel (g + 1)) ?_ rfl ?_
    · unfold plusLoop plusStep
      simp only [HM.bind_apply]
      rcases runPipeline (P.map Entry.addr) (cfg.choose g (P.map Entry.addr)) (cfg.stages g) ((P.map Entry.addr).length * cfg.brood) m with ⟨(x | x), m1⟩ <;> rfl
    · unfold valuePlusLoop
      rw [List.length_map, List.length_map]
      refine ref_bind (ref_runPipeline (own := []) (rest := P) P (fun e he => he) _ _ (fun m1 h1 => by
        have := decide_laidOut (hc g) h1
        rw [List.length_map] at this
        exact this) (cfg.stages g) (P.length * cfg.brood) (tidy_all h)) ?_
      rintro _ _ m1 ⟨E, rfl, rfl, ht⟩
      refine ref_bind (ref_survive cfg E P (fun e he => ht.1 e (by simp [he])) ht.2.1) ?_
      rintro _ _ m2 ⟨S, rfl, rfl, hS⟩
      exact ih (g + 1) S m2 hS

/-- **C132** (evolution loops written by hand). The run does what the run over plain values does. -/
theorem plus_run_as_values (cfg : PlusConfig γ ψ φ ρ) (hc : ∀ g, ByAppearance (cfg.choose g)) (initGenome : ρ → PyM (List γ) × ρ) (dec : Dec γ ψ) (prob : Prob γ ψ φ ρ)
    (problem popSize : Nat) (max : Int) :
    DoesAs (plusRun cfg initGenome dec prob problem popSize max) (valuePlusRun cfg initGenome dec prob problem popSize max) seenAs := by
  refine doesAs_of_ref fun m => ref_mono (Q := Outcome') ?_ (by rintro _ _ m1 ⟨P, rfl, rfl, h⟩; exact seen_of_in P h)
  refine ref_bind (ref_create initGenome problem popSize (own := []) (rest := []) (tidy_all (by simp))) ?_
  rintro _ _ m1 ⟨E, rfl, rfl, ht⟩
  refine ref_bind (ref_evaluateAll dec prob E ht) ?_
  rintro _ _ m2 ⟨E1, ha, rfl, ht1⟩
  rw [← ha]
  exact ref_plusLoop cfg hc _ _ E1 m2 fun e he => ht1.1 e (by simp [he])

/-! ### Restart -/

theorem plusLoop_next (cfg : PlusConfig γ ψ φ ρ) (n : Nat) (g : Int) (pop : List Nat) (m : Mem γ ψ φ ρ) :
    plusLoop cfg (n + 1) g pop m = (plusStep cfg g pop >>= plusLoop cfg n (g + 1)) m := rfl

theorem plusLoop_more (cfg : PlusConfig γ ψ φ ρ) (k : Nat) : ∀ (j : Nat) (g : Int) (pop : List Nat) (m : Mem γ ψ φ ρ),
    plusLoop cfg (j + k) g pop m = (plusLoop cfg j g pop >>= plusLoop cfg k (g + j)) m := by
  intro j
  induction j with
  | zero => intro g pop m; simp [plusLoop, HM.bind_apply]
  | succ j ih =>
    intro g pop m
    have hg : g + ((j + 1 : Nat) : Int) = g + 1 + (j : Int) := by omega
    rw [hg, HM.bind_apply, Nat.add_right_comm]
    rw [plusLoop_next, plusLoop_next, HM.bind_apply, HM.bind_apply]
    rcases plusStep cfg g pop m with ⟨(e | off), m1⟩
    · rfl
    · exact ih (g + 1) off m1

theorem plusRun_more (cfg : PlusConfig γ ψ φ ρ) (init : ρ → PyM (List γ) × ρ) (dec : Dec γ ψ) (prob : Prob γ ψ φ ρ) (problem popSize : Nat) (mid max : Int) (h1 : 0 ≤ mid)
    (h2 : mid ≤ max) (m : Mem γ ψ φ ρ) :
    plusRun cfg init dec prob problem popSize max m = (plusRun cfg init dec prob problem popSize mid >>= plusLoop cfg (max - mid).toNat mid) m := by
  have e1 : max.toNat = mid.toNat + (max - mid).toNat := by omega
  have e2 : 0 + (mid.toNat : Int) = mid := by omega
  unfold plusRun
  simp only [HM.bind_apply, e1]
  rcases createPopulation init problem popSize m with ⟨(e | pop), m1⟩
  · rfl
  · simp only []
    rcases evaluatePopulation dec prob pop m1 with ⟨(e | u), m2⟩
    · rfl
    · have := plusLoop_more cfg (max - mid).toNat mid.toNat 0 pop m2
      rw [e2, HM.bind_apply] at this
      exact this

theorem valuePlusLoop_resumed (cfg : PlusConfig γ ψ φ ρ) (mid : Int) (fuel : Nat) : ∀ (g : Int) (vs : List (Val γ φ)),
    valuePlusLoop (resumed cfg mid) fuel g vs = valuePlusLoop cfg fuel (g + mid) vs := by
  induction fuel with
  | zero => exact fun _ _ => rfl
  | succ fuel ih =>
    intro g vs
    have e : g + mid + 1 = g + 1 + mid := by omega
    unfold valuePlusLoop
    rw [e]
    have : valuePlusLoop (resumed cfg mid) fuel (g + 1) = valuePlusLoop cfg fuel (g + 1 + mid) := funext (ih (g + 1))
    rw [this]
    rfl

theorem like_valueSurvive {P : Val γ φ → Val γ φ → Prop} (hP : ∀ v v', P v v' → v.fitness = v'.fitness) (cfg : PlusConfig γ ψ φ ρ) {off off' par par' : List (Val γ φ)}
    (ho : List.Forall₂ P off off') (hp : List.Forall₂ P par par') : Like (valueSurvive cfg off par) (valueSurvive cfg off' par') (List.Forall₂ P) := by
  obtain ⟨O, rfl, rfl⟩ := forall₂_pairs ho
  obtain ⟨S, rfl, rfl⟩ := forall₂_pairs hp
  intro w w' e
  rw [valueSurvive_outlive, valueSurvive_outlive]
  unfold draw
  rw [← e]
  have a := outlive_map (ρ := ρ) (fun x : { x : Val γ φ × Val γ φ // P x.1 x.2 } => x.1.1) (lt := fun a b => cfg.worse a.1.1.fitness b.1.1.fitness)
    (gt := fun a b => !cfg.worse a.1.1.fitness b.1.1.fitness && !cfg.equal a.1.1.fitness b.1.1.fitness) (lt' := fun a b : Val γ φ => cfg.worse a.fitness b.fitness)
    (gt' := fun a b : Val γ φ => !cfg.worse a.fitness b.fitness && !cfg.equal a.fitness b.fitness) (fun _ _ => rfl) (fun _ _ => rfl) O S cfg.survival w.rng
  have b := outlive_map (ρ := ρ) (fun x : { x : Val γ φ × Val γ φ // P x.1 x.2 } => x.1.2) (lt := fun a b => cfg.worse a.1.1.fitness b.1.1.fitness)
    (gt := fun a b => !cfg.worse a.1.1.fitness b.1.1.fitness && !cfg.equal a.1.1.fitness b.1.1.fitness) (lt' := fun a b : Val γ φ => cfg.worse a.fitness b.fitness)
    (gt' := fun a b : Val γ φ => !cfg.worse a.fitness b.fitness && !cfg.equal a.fitness b.fitness) (fun a b => by rw [hP _ _ a.2, hP _ _ b.2])
    (fun a b => by rw [hP _ _ a.2, hP _ _ b.2]) O S cfg.survival w.rng
  rw [a, b]
  rcases outlive (fun a b : { x : Val γ φ × Val γ φ // P x.1 x.2 } => cfg.worse a.1.1.fitness b.1.1.fitness)
    (fun a b => !cfg.worse a.1.1.fitness b.1.1.fitness && !cfg.equal a.1.1.fitness b.1.1.fitness) O S cfg.survival w.rng with ⟨(x | R), s⟩
  · exact ⟨rfl, rfl⟩
  · refine ⟨?_, rfl⟩
    rw [List.forall₂_map_left_iff, List.forall₂_map_right_iff, List.forall₂_same]
    exact fun x _ => x.2

theorem like_valuePlusLoop {t : List γ → PyM φ} {dec : Dec γ ψ} {prob : Prob γ ψ φ ρ} (ht : Exact t dec prob) (pre : Int → List (Stage γ ψ φ ρ))
    (hp : ∀ g, ∀ st ∈ pre g, Breeds st) (cfg : PlusConfig γ ψ φ ρ) (hst : ∀ g, cfg.stages g = pre g ++ [.evaluate dec prob]) (hc : ∀ g, ByAppearance (cfg.choose g)) (fuel : Nat) :
    ∀ (g : Int) (pop pop' : List (Val γ φ)), List.Forall₂ (Peer t) pop pop' → Like (valuePlusLoop cfg fuel g pop) (valuePlusLoop cfg fuel g pop') (List.Forall₂ (Peer t)) := by
  induction fuel with
  | zero => exact fun _ _ _ h => like_pure h
  | succ fuel ih =>
    intro g pop pop' h
    unfold valuePlusLoop
    have hpick : (fun s => cfg.choose g (List.range pop'.length) (laidOut pop' s)) = fun s => cfg.choose g (List.range pop.length) (laidOut pop s) :=
      funext fun s => (decide_twins (hc g) (peers_twins h) s).symm
    rw [hpick, hst, ← h.length_eq]
    refine like_bind (like_offspring ht (hp g) (peers_twins h) _ _) ?_
    exact fun off off' ho => like_bind (like_valueSurvive (fun v v' hv => hv.1.2.1) cfg ho h) fun _ _ hs => ih (g + 1) _ _ hs

/-- **C134** (evolution loops written by hand), with either survival operator, any selection that goes by genes, fitness and viability, and operators that may differ from
generation to generation. If a run of `mid` generations returned, and a run in any other memory starts from its genomes and its random state, and does in its generation `g`
what the first would have done in generation `g + mid`, then it ends as the first run would have ended had it gone on. -/
theorem plus_restart_continues (cfg : PlusConfig γ ψ φ ρ) (pre : Int → List (Stage γ ψ φ ρ)) (dec : Dec γ ψ) (prob : Prob γ ψ φ ρ)
    (hst : ∀ g, cfg.stages g = pre g ++ [.evaluate dec prob]) (hpre : ∀ g, ∀ st ∈ pre g, Breeds st) (hd : Deterministic prob) (hc : ∀ g, ByAppearance (cfg.choose g))
    (init : ρ → PyM (List γ) × ρ) (problem popSize : Nat) (mid max : Int) (h1 : 0 ≤ mid) (h2 : mid ≤ max)
    (m m1 m' : Mem γ ψ φ ρ) (pop : List Nat) (hrun : plusRun cfg init dec prob problem popSize mid m = (.ok pop, m1))
    (reload : ρ → PyM (List γ) × ρ) (problem' : Nat) (saved : List (List γ)) (hsaved : pop.map (genes m1) = saved.map some) (hload : Delivers reload m'.rng saved m1.rng) :
    EndsAlike (plusRun cfg init dec prob problem popSize max m) (plusRun (resumed cfg mid) reload dec prob problem' saved.length (max - mid) m') := by
  obtain ⟨score, hscore⟩ := hd
  have ht := exact_of dec hscore
  generalize trueScore dec score = t at ht
  have r1 := plus_run_as_values cfg hc init dec prob problem popSize mid m
  rw [hrun] at r1
  rcases ev : valuePlusRun cfg init dec prob problem popSize mid ⟨m.nextUuid, m.rng⟩ with ⟨(e | vs), w1⟩
  · rw [ev] at r1; exact r1.elim
  rw [ev] at r1
  obtain ⟨hseen, hw1⟩ := r1
  have self : Like (valuePlusRun cfg init dec prob problem popSize mid) (valuePlusRun cfg init dec prob problem popSize mid) (List.Forall₂ (Peer t)) :=
    like_bind (twin_newborns init problem popSize) fun _ _ h => like_bind (peer_allScored ht h) fun _ _ h => like_valuePlusLoop ht pre hpre cfg hst hc _ _ _ _ h
  have self := self ⟨m.nextUuid, m.rng⟩ ⟨m.nextUuid, m.rng⟩ rfl
  rw [ev] at self
  have hpeer : ∀ v ∈ vs, Peer t v v := List.forall₂_same.1 self.1
  have hgenes : vs.map (·.genes) = saved := by
    have hl := congrArg (List.map Prod.fst) (looks_of_seen hseen)
    rw [List.map_map, List.map_map] at hl
    have : pop.map (genes m1) = vs.map (fun v => some v.genes) := hl
    rw [hsaved] at this
    have h3 : (vs.map (·.genes)).map some = saved.map some := by rw [List.map_map]; exact this.symm
    exact List.map_injective_iff.2 (Option.some_injective _) h3
  subst hgenes
  obtain ⟨bs, w2, e1, e2, e3⟩ := reborn ht reload problem' vs m1.rng ⟨m'.nextUuid, m'.rng⟩ hpeer hload
  obtain ⟨ps, e4, hps⟩ := e3 w2
  have r2 := plus_run_as_values (resumed cfg mid) (fun g => hc (g + mid)) reload dec prob problem' vs.length (max - mid) m'
  have ev2 : valuePlusRun (resumed cfg mid) reload dec prob problem' vs.length (max - mid) ⟨m'.nextUuid, m'.rng⟩ = valuePlusLoop cfg (max - mid).toNat mid ps w2 := by
    simp only [valuePlusRun, HM.bind_apply, e1, e4, valuePlusLoop_resumed, zero_add]
  rw [ev2] at r2
  rw [plusRun_more cfg init dec prob problem popSize mid max h1 h2 m, HM.bind_apply, hrun]
  simp only []
  obtain ⟨P, hPa, hPv, hPin⟩ := entries_of_seen hseen
  have r3 := ref_plusLoop cfg hc (max - mid).toNat mid P m1 hPin
  rw [hPa, hPv] at r3
  have r4 := like_valuePlusLoop ht pre hpre cfg hst hc (max - mid).toNat mid vs ps hps (luck m1) w2 e2.symm
  unfold Ref at r3
  unfold EndsAlike
  rw [List.length_map]
  rcases x1 : plusLoop cfg (max - mid).toNat mid pop m1 with ⟨(ea | a), na⟩ <;>
    rcases x2 : plusRun (resumed cfg mid) reload dec prob problem' vs.length (max - mid) m' with ⟨(eb | b), nb⟩ <;>
    rcases x3 : valuePlusLoop cfg (max - mid).toNat mid vs (luck m1) with ⟨(ec | c), nc⟩ <;>
    rcases x4 : valuePlusLoop cfg (max - mid).toNat mid ps w2 with ⟨(ed | d), nd⟩ <;>
    rw [x1, x3] at r3 <;> rw [x2, x4] at r2 <;> rw [x3, x4] at r4 <;> simp only at r2 r3 r4 ⊢
  · obtain ⟨rfl, rfl⟩ := r3
    obtain ⟨rfl, rfl⟩ := r2
    exact r4
  · obtain ⟨⟨Q, hQa, hQv, hQin⟩, rfl⟩ := r3
    obtain ⟨hb, rfl⟩ := r2
    obtain ⟨hcd, hr⟩ := r4
    refine ⟨?_, hr⟩
    have ha := seen_of_in Q hQin
    rw [hQa, hQv] at ha
    rw [looks_of_seen ha, looks_of_seen hb]
    clear x3 x4 hQv ha hb hr
    induction hcd with
    | nil => rfl
    | cons hx _ ih => simp only [List.map_cons, ih, hx.1.1, hx.1.2.1, hx.1.2.2.1, hx.1.2.2.2.1]

end

/-! ### Some runs -/

/-- Two parents, broods of four, a mutation rate that depends on the generation, and a problem that draws no random numbers. -/
def exCalmPlus (survival : Survival Nat) : PlusConfig Int Int Int Nat :=
  { exPlus survival with
    stages := fun g => [.mutate (.ok ()) false (bitflipFn (some (if g = 0 then 1 else 2)) none fun s => (if s % 5 < 3 then [1 / 4, 3 / 4] else [3 / 4, 1 / 4], s + 1)),
      .evaluate .identity exCalm] }

/-- The genomes of a run and its random state. -/
def exGenomes (r : PyM (List Nat) × Mem Int Int Int Nat) : Option (List (Option (List Int))) × Nat := (r.1.toOption.map (·.map (genes r.2)), r.2.rng)

/-- Three generations, and the same after a stop after the first: the second process has nothing in memory, takes the two genomes from a file, and goes on with the
mutation rate of the later generations. -/
example (survival : Survival Nat) :
    let pre : Int → List (Stage Int Int Int Nat) := fun g =>
      [.mutate (.ok ()) false (bitflipFn (some (if g = 0 then 1 else 2)) none fun s => (if s % 5 < 3 then [1 / 4, 3 / 4] else [3 / 4, 1 / 4], s + 1))]
    let reload : Nat → PyM (List Int) × Nat := fun s => (.ok (if s = 8 then [0, 1] else [1, 0]), s + 1)
    (∀ g, (exCalmPlus survival).stages g = pre g ++ [.evaluate .identity exCalm]) ∧ (∀ g, ∀ st ∈ pre g, Breeds st) ∧ Deterministic exCalm ∧
    (∀ g, ByAppearance ((exCalmPlus survival).choose g)) ∧
    exGenomes (plusRun (exCalmPlus .truncation) exInit .identity exCalm 0 2 1 exStart) = (some ([[0, 1], [1, 0]].map some), 10) ∧ Delivers reload 8 [[0, 1], [1, 0]] 10 ∧
    exGenomes (plusRun (exCalmPlus .truncation) exInit .identity exCalm 0 2 3 exStart) = (some [some [0, 1], some [0, 1]], 26) ∧
    exGenomes (plusRun (resumed (exCalmPlus .truncation) 1) reload .identity exCalm 0 2 2 ⟨[], [], [], 0, 8⟩) = (some [some [0, 1], some [0, 1]], 26) := by
  refine ⟨fun _ => rfl, fun g st hst => ?_, ⟨fun c => match c with | .raw g => .ok g.sum | .value v => .ok v, by rintro (g | v) s <;> rfl⟩, ?_, by decide +kernel,
    ⟨rfl, rfl, rfl⟩, by decide +kernel, by decide +kernel⟩
  · simp only [List.mem_cons, List.not_mem_nil, or_false] at hst
    subst hst
    exact .mutate
  · intro g pop m pop' m' hr hl
    have := congrArg List.length hl
    simp only [List.length_map] at this
    change ((Except.ok (m.rng % pop.length) : PyM Nat), m.rng + 1) = (Except.ok (m'.rng % pop'.length), m'.rng + 1)
    rw [this, hr]

/-- Restarted without the number of the generation, the run mutates at the rate of the first generation again, and ends elsewhere. -/
example :
    let reload : Nat → PyM (List Int) × Nat := fun s => (.ok (if s = 8 then [0, 1] else [1, 0]), s + 1)
    (exGenomes (plusRun (exCalmPlus .truncation) reload .identity exCalm 0 2 2 ⟨[], [], [], 0, 8⟩)).1 ≠ some [some [0, 1], some [0, 1]] := by
  decide +kernel

end Leap
