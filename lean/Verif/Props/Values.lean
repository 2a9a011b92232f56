import Verif.Lemmas.NLargestMap
import Verif.Lemmas.Values
import Verif.Props.History
import Verif.Props.NLargest
import Verif.Props.SyncRun

/-!
# C132: individuals behave like plain values

LEAP keeps individuals in memory, changes them in place, and hands the same object from one operator to the next. Here it is shown that in none of the runs modelled
this is ever seen: a run does exactly what the run over plain values of `Props/ValueSpec.lean` does. In particular it makes no difference which individuals travel to a
worker as copies.
-/

namespace Leap

open Spec

section
variable {γ ψ φ ρ : Type}

/-! ### Specification -/

/-- A choice of several individuals, nobody twice, that goes by genes, fitness and viability: with as many other individuals that look the same, in the same places, it is
the same. -/
def Spec.PicksByAppearance (best : List Nat → Mem γ ψ φ ρ → List Nat × ρ) : Prop :=
  (∀ (pop : List Nat) (m : Mem γ ψ φ ρ), pop.Nodup → (best pop m).1.Nodup) ∧
  ∀ (f : Nat → Nat) (pop : List Nat) (m1 m2 : Mem γ ψ φ ρ), pop.Nodup → (∀ x ∈ pop, ∀ y ∈ pop, f x = f y → x = y) → m1.rng = m2.rng →
    (∀ x ∈ pop, looks m2 (f x) = looks m1 x) → best (pop.map f) m2 = ((best pop m1).1.map f, (best pop m1).2)

/-- The population is seen to be these values. -/
def Spec.seenAs (m : Mem γ ψ φ ρ) (pop : List Nat) (vs : List (Val γ φ)) : Prop := pop.map (valueAt m) = vs.map some

/-- So is everybody in the state of an asynchronous run. -/
def Spec.stateSeenAs (m : Mem γ ψ φ ρ) (st : AsyncState) (v : ValState γ φ) : Prop :=
  seenAs m st.pending v.pending ∧ seenAs m st.pop v.pop ∧ st.births = v.births ∧ seenAs m st.completed v.completed

/-- Two runs from the same memory that cannot be told apart. -/
def Spec.Indistinguishable {α V : Type} (run1 run2 : HM (Mem γ ψ φ ρ) α) (view : Mem γ ψ φ ρ → α → V) : Prop :=
  ∀ m, match run1 m, run2 m with
    | (.ok a1, m1), (.ok a2, m2) => view m1 a1 = view m2 a2 ∧ m1.nextUuid = m2.nextUuid ∧ m1.rng = m2.rng
    | (.error e1, m1), (.error e2, m2) => e1 = e2 ∧ m1.nextUuid = m2.nextUuid ∧ m1.rng = m2.rng
    | _, _ => False

/-! ### Decisions -/

theorem looks_in {m : Mem γ ψ φ ρ} {e : Entry γ ψ φ} (h : e.In m) : looks m e.addr = (some e.genes, some e.obj.fitness, e.obj.viable) := by
  simp [looks, genes, fitness, h.1, h.2.1]

theorem looks_laidOut (pop : List (Entry γ ψ φ)) (s : ρ) (i : Nat) (e : Entry γ ψ φ) (hi : pop[i]? = some e) :
    looks (laidOut (pop.map Entry.val) s : Mem γ ψ φ ρ) i = (some e.genes, some e.obj.fitness, e.obj.viable) := by
  simp [looks, genes, fitness, laidOut, hi, Entry.val]

/-- The addresses of a population by position. -/
def placeOf (pop : List (Entry γ ψ φ)) (i : Nat) : Nat := ((pop[i]?).map Entry.addr).getD 0

theorem places_range (pop : List (Entry γ ψ φ)) : (List.range pop.length).map (placeOf pop) = pop.map Entry.addr := by
  apply List.ext_getElem (by simp)
  intro i h1 h2
  simp at h1
  simp [placeOf, h1]

theorem looks_place {m : Mem γ ψ φ ρ} {pop : List (Entry γ ψ φ)} (h : ∀ e ∈ pop, e.In m) (s : ρ) {i : Nat} (hi : i < pop.length) :
    looks m (placeOf pop i) = looks (laidOut (pop.map Entry.val) s : Mem γ ψ φ ρ) i := by
  rw [looks_laidOut pop s i pop[i] (List.getElem?_eq_getElem hi)]
  simp [placeOf, hi, looks_in (h _ (List.getElem_mem hi))]

theorem decide_laidOut {β : Type} {choose : List Nat → Mem γ ψ φ ρ → β} (hc : ByAppearance choose) {m : Mem γ ψ φ ρ} {pop : List (Entry γ ψ φ)} (h : ∀ e ∈ pop, e.In m) :
    choose (pop.map Entry.addr) m = choose (List.range (pop.map Entry.val).length) (laidOut (pop.map Entry.val) m.rng) := by
  refine hc _ _ _ _ rfl ?_
  rw [List.length_map, ← places_range, List.map_map]
  apply List.map_congr_left
  intro i hi
  exact looks_place h m.rng (List.mem_range.mp hi)

theorem placeOf_inj {pop : List (Entry γ ψ φ)} (hd : (pop.map Entry.addr).Nodup) : ∀ x ∈ List.range pop.length, ∀ y ∈ List.range pop.length,
    placeOf pop x = placeOf pop y → x = y := by
  rw [← places_range] at hd
  exact List.inj_on_of_nodup_map hd

/-- The individuals at these positions. -/
def entriesAt (pop : List (Entry γ ψ φ)) (positions : List Nat) : List (Entry γ ψ φ) := positions.filterMap (pop[·]?)

theorem entriesAt_val (pop : List (Entry γ ψ φ)) (positions : List Nat) : (entriesAt pop positions).map Entry.val = atPositions (pop.map Entry.val) positions := by
  simp [entriesAt, atPositions, List.map_filterMap, List.getElem?_map]

theorem entriesAt_addr (pop : List (Entry γ ψ φ)) (positions : List Nat) (h : ∀ i ∈ positions, i < pop.length) :
    (entriesAt pop positions).map Entry.addr = positions.map (placeOf pop) := by
  induction positions with
  | nil => rfl
  | cons i l ih =>
    have hi := h i (by simp)
    have ih := ih fun j hj => h j (by simp [hj])
    simp only [entriesAt] at ih ⊢
    rw [List.filterMap_cons, List.getElem?_eq_getElem hi]
    simp [ih, placeOf, hi]

theorem entriesAt_mem {pop : List (Entry γ ψ φ)} {positions : List Nat} {e : Entry γ ψ φ} (h : e ∈ entriesAt pop positions) : e ∈ pop := by
  obtain ⟨i, _, hi⟩ := List.mem_filterMap.mp h
  exact List.mem_of_getElem? hi

/-- Whoever is in the population after insertion was in it before or is the new one. -/
theorem inserts_members {insert : Nat → List Nat → Mem γ ψ φ ρ → PyM (List Nat) × ρ} (hi : InsertsByAppearance insert) {r : Nat} {pop l : List Nat} {m : Mem γ ψ φ ρ}
    (h : (insert r pop m).1 = .ok l) : ∀ x ∈ l, x = r ∨ x ∈ pop := by
  intro x hx
  by_contra hn
  rw [not_or] at hn
  have key := hi (fun y => if y = x then x + 1 else y) r pop m m rfl (by simp [Ne.symm hn.1]) (by
    intro y hy
    have : y ≠ x := fun e => hn.2 (e ▸ hy)
    simp [this])
  have e1 : (pop.map fun y => if y = x then x + 1 else y) = pop := by
    conv_rhs => rw [← List.map_id pop]
    apply List.map_congr_left
    intro y hy
    have : y ≠ x := fun e => hn.2 (e ▸ hy)
    simp [this]
  rw [e1] at key
  simp only [if_neg (Ne.symm hn.1)] at key
  have k1 := congrArg Prod.fst key
  simp only [h] at k1
  have k2 : l = l.map fun y => if y = x then x + 1 else y := Except.ok.inj k1
  rw [k2] at hx
  obtain ⟨y, _, hy⟩ := List.mem_map.mp hx
  split at hy <;> omega

theorem picks_members {best : List Nat → Mem γ ψ φ ρ → List Nat × ρ} (hb : PicksByAppearance best) {pop : List Nat} {m : Mem γ ψ φ ρ} (hd : pop.Nodup) : ∀ x ∈ (best pop m).1, x ∈ pop := by
  intro x hx
  by_contra hn
  have key := hb.2 (fun y => if y = x then x + 1 else y) pop m m hd (by
    intro y hy z hz
    have h1 : y ≠ x := fun e => hn (e ▸ hy)
    have h2 : z ≠ x := fun e => hn (e ▸ hz)
    simp [h1, h2]) rfl (by
    intro y hy
    have : y ≠ x := fun e => hn (e ▸ hy)
    simp [this])
  have e1 : (pop.map fun y => if y = x then x + 1 else y) = pop := by
    conv_rhs => rw [← List.map_id pop]
    apply List.map_congr_left
    intro y hy
    have : y ≠ x := fun e => hn (e ▸ hy)
    simp [this]
  rw [e1] at key
  rw [congrArg Prod.fst key] at hx
  obtain ⟨y, _, hy⟩ := List.mem_map.mp hx
  split at hy <;> omega

theorem picks_laidOut {best : List Nat → Mem γ ψ φ ρ → List Nat × ρ} (hb : PicksByAppearance best) {m : Mem γ ψ φ ρ} {pop : List (Entry γ ψ φ)} (h : ∀ e ∈ pop, e.In m)
    (hd : (pop.map Entry.addr).Nodup) : best (pop.map Entry.addr) m =
      ((entriesAt pop (best (List.range (pop.map Entry.val).length) (laidOut (pop.map Entry.val) m.rng)).1).map Entry.addr,
        (best (List.range (pop.map Entry.val).length) (laidOut (pop.map Entry.val) m.rng)).2) := by
  have key := hb.2 (placeOf pop) (List.range pop.length) (laidOut (pop.map Entry.val) m.rng) m List.nodup_range (placeOf_inj hd) rfl (fun i hi => looks_place h m.rng (List.mem_range.mp hi))
  rw [places_range] at key
  rw [key, List.length_map, entriesAt_addr]
  intro i hi
  exact List.mem_range.mp (picks_members hb List.nodup_range i hi)

theorem picks_entries {best : List Nat → Mem γ ψ φ ρ → List Nat × ρ} (hb : PicksByAppearance best) {m : Mem γ ψ φ ρ} {pop : List (Entry γ ψ φ)}
    (hd : (pop.map Entry.addr).Nodup) : ((entriesAt pop (best (List.range (pop.map Entry.val).length) m).1).map Entry.addr).Nodup := by
  have hm := fun i hi => List.mem_range.mp (picks_members hb (pop := List.range (pop.map Entry.val).length) (m := m) List.nodup_range i hi)
  simp only [List.length_map] at hm
  rw [List.length_map, entriesAt_addr _ _ hm]
  exact (List.nodup_map_iff_inj_on (hb.1 _ _ List.nodup_range)).2 fun x hx y hy => placeOf_inj hd x (List.mem_range.2 (hm x hx)) y (List.mem_range.2 (hm y hy))

/-! ### The generational algorithm -/

theorem tidy_all {m : Mem γ ψ φ ρ} {rest : List (Entry γ ψ φ)} (h : ∀ e ∈ rest, e.In m) : Tidy m [] rest :=
  ⟨by simp, h, List.Pairwise.nil, by simp⟩

theorem survival_values (cfg : EvoConfig γ ψ φ ρ) {m : Mem γ ψ φ ρ} (off par : List (Entry γ ψ φ)) (ho : ∀ e ∈ off, e.In m) (hp : ∀ e ∈ par, e.In m) (k : Nat) :
    ∃ S : List (Entry γ ψ φ), (∀ e ∈ S, e.In m) ∧ (elitistSurvival (cfg.lt m) (off.map Entry.addr) (par.map Entry.addr) k).1 = S.map Entry.addr ∧
      (elitistSurvival (fun a b : Val γ φ => cfg.worse a.fitness b.fitness) (off.map Entry.val) (par.map Entry.val) k).1 = S.map Entry.val := by
  obtain ⟨off', rfl⟩ : ∃ l : List { e : Entry γ ψ φ // e.In m }, l.map Subtype.val = off := ⟨off.attach.map fun x => ⟨x.1, ho x.1 x.2⟩, by simp [Function.comp_def]⟩
  obtain ⟨par', rfl⟩ : ∃ l : List { e : Entry γ ψ φ // e.In m }, l.map Subtype.val = par := ⟨par.attach.map fun x => ⟨x.1, hp x.1 x.2⟩, by simp [Function.comp_def]⟩
  have a := elitistSurvival_map (fun e : { e : Entry γ ψ φ // e.In m } => e.1.addr) (fun a b => cfg.lt m a.1.addr b.1.addr) (cfg.lt m) (fun _ _ => rfl) off' par' k
  have v := elitistSurvival_map (fun e : { e : Entry γ ψ φ // e.In m } => e.1.val) (fun a b => cfg.lt m a.1.addr b.1.addr) (fun a b : Val γ φ => cfg.worse a.fitness b.fitness)
    (fun x y => by simp [EvoConfig.lt, x.2.1, y.2.1, Entry.val]) off' par' k
  refine ⟨((elitistSurvival (fun a b : { e : Entry γ ψ φ // e.In m } => cfg.lt m a.1.addr b.1.addr) off' par' k).1).map Subtype.val, ?_, ?_, ?_⟩
  · intro e he
    obtain ⟨x, _, rfl⟩ := List.mem_map.mp he
    exact x.2
  · rw [List.map_map, List.map_map, List.map_map]
    exact a
  · rw [List.map_map, List.map_map, List.map_map]
    exact v

theorem ref_congr {α β : Type} {x x' : HM (Mem γ ψ φ ρ) α} {y y' : HM (Luck ρ) β} {m : Mem γ ψ φ ρ} {Q : α → β → Mem γ ψ φ ρ → Prop} (hx : x m = x' m)
    (hy : y (luck m) = y' (luck m)) (h : Ref x' y' m Q) : Ref x y m Q := by
  unfold Ref at h ⊢
  rw [hx, hy]
  exact h

/-- Returning these individuals. -/
abbrev Outcome' (pop : List Nat) (vs : List (Val γ φ)) (m : Mem γ ψ φ ρ) : Prop :=
  ∃ P : List (Entry γ ψ φ), P.map Entry.addr = pop ∧ P.map Entry.val = vs ∧ ∀ e ∈ P, e.In m

theorem ref_evoLoop (cfg : EvoConfig γ ψ φ ρ) (hc : ∀ g, ByAppearance (cfg.choose g)) (hs : ∀ g, ByAppearance (cfg.stop g)) (fuel : Nat) :
    ∀ (g : Int) (P : List (Entry γ ψ φ)) (m : Mem γ ψ φ ρ), (∀ e ∈ P, e.In m) →
      Ref (evoLoop cfg fuel g (P.map Entry.addr)) (valueLoop cfg fuel g (P.map Entry.val)) m Outcome' := by
  induction fuel with
  | zero => exact fun g P m h => ref_pure ⟨P, rfl, rfl, h⟩
  | succ fuel ih =>
    intro g P m h
    have hst := decide_laidOut (hs g) h
    by_cases hb : cfg.stop g (P.map Entry.addr) m = true
    · refine ref_congr (x' := pure (P.map Entry.addr)) (y' := pure (P.map Entry.val)) ?_ ?_ (ref_pure ⟨P, rfl, rfl, h⟩)
      · simp [evoLoop, hb]
      · rw [hst] at hb
        unfold valueLoop
        exact if_pos hb
    · have hbv := hb
      rw [hst] at hbv
      unfold evoLoop valueLoop
      refine ref_congr (x' := runPipeline (P.map Entry.addr) (cfg.choose g (P.map Entry.addr)) cfg.stages cfg.size >>= fun offspring => fun m1 =>
            evoLoop cfg fuel (g + 1) (elitistSurvival (cfg.lt m1) offspring (P.map Entry.addr) cfg.kElites).1 m1) ?_ (if_neg hbv) ?_
      · refine (if_neg hb).trans ?_
        change _ = HM.andThen _ _ m
        unfold HM.andThen
        rcases runPipeline (P.map Entry.addr) (cfg.choose g (P.map Entry.addr)) cfg.stages cfg.size m with ⟨(x | x), m1⟩ <;> rfl
      · refine ref_bind (ref_runPipeline (own := []) (rest := P) P (fun e he => he) _ _ (fun m1 h1 => decide_laidOut (hc g) h1) cfg.stages cfg.size (tidy_all h)) ?_
        rintro _ _ m1 ⟨E, rfl, rfl, ht⟩
        obtain ⟨S, hS, ha, hv⟩ := survival_values cfg E P (fun e he => ht.1 e (by simp [he])) ht.2.1 cfg.kElites
        rw [hv]
        refine ref_congr ?_ rfl (ih (g + 1) S m1 hS)
        rw [← ha]

theorem doesAs_of_ref {α β : Type} {run : HM (Mem γ ψ φ ρ) α} {values : HM (Luck ρ) β} {seen : Mem γ ψ φ ρ → α → β → Prop}
    (h : ∀ m, Ref run values m fun a b m1 => seen m1 a b) : DoesAs run values seen := h

theorem seen_of_in {m : Mem γ ψ φ ρ} (P : List (Entry γ ψ φ)) (h : ∀ e ∈ P, e.In m) : seenAs m (P.map Entry.addr) (P.map Entry.val) := by
  unfold seenAs
  rw [List.map_map, List.map_map]
  exact List.map_congr_left fun e he => (h e he).valueAt

/-- **C132** (`generational_ea`). The run does what the run over plain values does. -/
theorem evo_run_as_values (cfg : EvoConfig γ ψ φ ρ) (hc : ∀ g, ByAppearance (cfg.choose g)) (hs : ∀ g, ByAppearance (cfg.stop g))
    (initGenome : ρ → PyM (List γ) × ρ) (dec : Dec γ ψ) (prob : Prob γ ψ φ ρ) (problem popSize : Nat) (start max : Int) :
    DoesAs (evoRun cfg initGenome dec prob problem popSize start max) (valueRun cfg initGenome dec prob problem popSize start max) seenAs := by
  refine doesAs_of_ref fun m => ref_mono (Q := Outcome') ?_ (by rintro _ _ m1 ⟨P, rfl, rfl, h⟩; exact seen_of_in P h)
  refine ref_bind (ref_create initGenome problem popSize (own := []) (rest := []) (tidy_all (by simp))) ?_
  rintro _ _ m1 ⟨E, rfl, rfl, ht⟩
  refine ref_bind (ref_evaluateAll dec prob E ht) ?_
  rintro _ _ m2 ⟨E1, ha, rfl, ht1⟩
  rw [← ha]
  exact ref_evoLoop cfg hc hs _ _ E1 m2 fun e he => ht1.1 e (by simp [he])

/-! ### The asynchronous algorithm -/

/-- The two states of an asynchronous run. -/
def StateOf (st : AsyncState) (v : ValState γ φ) (m : Mem γ ψ φ ρ) : Prop :=
  ∃ pend pop done : List (Entry γ ψ φ), pend.map Entry.addr = st.pending ∧ pend.map Entry.val = v.pending ∧ pop.map Entry.addr = st.pop ∧ pop.map Entry.val = v.pop ∧
    st.births = v.births ∧ done.map Entry.addr = st.completed ∧ done.map Entry.val = v.completed ∧ (∀ e ∈ pop, e ∈ done) ∧ Tidy m pend done

theorem perm_at {α : Type} {l : List α} {i : Nat} {x : α} (h : l[i]? = some x) : l.Perm (x :: l.eraseIdx i) := by
  obtain ⟨hi, rfl⟩ := List.getElem?_eq_some_iff.mp h
  exact (List.getElem_cons_eraseIdx_perm hi).symm

theorem perm_set {α : Type} {l : List α} {i : Nat} (y : α) (h : i < l.length) : (l.set i y).Perm (y :: l.eraseIdx i) := by
  have := perm_at (l := l.set i y) (i := i) (x := y) (by simp [h])
  simpa [List.eraseIdx_set_eq] using this

theorem map_eraseIdx' {α β : Type} (f : α → β) (l : List α) : ∀ i, (l.eraseIdx i).map f = (l.map f).eraseIdx i := by
  induction l with
  | nil => intro i; rfl
  | cons x l ih => intro i; cases i <;> simp [ih]

theorem ref_asyncStep (cfg : AsyncConfig γ ψ φ ρ) (hi : InsertsByAppearance cfg.insert) (hc : ByAppearance cfg.choose) (c : AsyncRound) (st : AsyncState) (v : ValState γ φ)
    (m : Mem γ ψ φ ρ) (h : StateOf st v m) : Ref (asyncStep cfg c st) (valueStep cfg c.which v) m StateOf := by
  obtain ⟨pend, pop, done, p1, p2, q1, q2, hb, d1, d2, hpd, ht⟩ := h
  unfold asyncStep valueStep
  rw [← p1, ← p2, List.length_map, List.length_map, List.getElem?_map, List.getElem?_map]
  cases hx : pend[c.which % pend.length]? with
  | none => exact ⟨rfl, rfl⟩
  | some e =>
    simp only [Option.map_some]
    refine ref_bind (ref_robust cfg.nan cfg.dec cfg.prob (tidy_perm ht (perm_at hx))) ?_
    rintro _ x m1 ⟨e1, ea, rfl, ht1⟩
    have ht2 : Tidy m1 (pend.eraseIdx (c.which % pend.length)) (done ++ [e1]) := tidy_retire (own' := [e1]) ht1
    have hin : ∀ y ∈ pop ++ [e1], y.In m1 := by
      intro y hy
      refine ht2.2.1 y ?_
      rcases List.mem_append.mp hy with hy | hy
      · simp [hpd y hy]
      · simp [List.mem_singleton.mp hy]
    have hvi : viableInd m1 e.addr = isViable e1.val.viable := by
      simp [viableInd, ← ea, (ht1.1 e1 (by simp)).1, Entry.val]
    have hins := hi (placeOf (pop ++ [e1])) pop.length (List.range pop.length) (laidOut ((pop ++ [e1]).map Entry.val) m1.rng) m1 rfl
      (looks_place hin m1.rng (by simp)) (fun i hi => looks_place hin m1.rng (by have := List.mem_range.mp hi; simp; omega))
    have hpl : placeOf (pop ++ [e1]) pop.length = e.addr := by simp [placeOf, ea]
    have hpr : (List.range pop.length).map (placeOf (pop ++ [e1])) = st.pop := by
      rw [← q1, ← places_range]
      apply List.map_congr_left
      intro i hi
      simp [placeOf, List.getElem?_append_left (List.mem_range.mp hi)]
    rw [hpl, hpr] at hins
    have hlen : v.pop.length = pop.length := by rw [← q2]; simp
    have hvs : v.pop ++ [e1.val] = (pop ++ [e1]).map Entry.val := by simp [q2]
    simp only [hvs, hlen, ← hb]
    refine ref_bind (x := insertInd cfg e.addr st.pop) (Q := fun newpop kept m2 => (∃ s, m2 = { m1 with rng := s }) ∧ (entriesAt (pop ++ [e1]) kept).map Entry.addr = newpop) ?_ ?_
    · unfold Ref insertInd draw luck
      simp only [hins]
      have hmem := fun l => inserts_members hi (l := l) (r := pop.length) (pop := List.range pop.length) (m := laidOut ((pop ++ [e1]).map Entry.val) m1.rng)
      revert hmem
      rcases cfg.insert pop.length (List.range pop.length) (laidOut ((pop ++ [e1]).map Entry.val) m1.rng) with ⟨(x | kept), s⟩
      · exact fun _ => ⟨rfl, rfl⟩
      · intro hmem
        refine ⟨⟨⟨s, rfl⟩, entriesAt_addr _ _ fun i hi => ?_⟩, rfl⟩
        have := hmem kept rfl i hi
        simp at this ⊢
        omega
    · rintro newpop kept m2 ⟨⟨s, rfl⟩, rfl⟩
      rw [← entriesAt_val]
      simp only [hvi]
      generalize (if (!isViable e1.val.viable && !cfg.countNonviable) = true then st.births - 1 else st.births) = births
      have hsub : ∀ y ∈ entriesAt (pop ++ [e1]) kept, y ∈ done ++ [e1] := by
        intro y hy
        have := entriesAt_mem hy
        rcases List.mem_append.mp this with hy | hy
        · simp [hpd y hy]
        · simp [List.mem_singleton.mp hy]
      have ht3 : Tidy { m1 with rng := s } (pend.eraseIdx (c.which % pend.length)) (done ++ [e1]) := ht2
      have hd1 : (done ++ [e1]).map Entry.addr = st.completed ++ [e.addr] := by simp [d1, ea]
      have hd2 : (done ++ [e1]).map Entry.val = v.completed ++ [e1.val] := by simp [d2]
      split
      · refine ref_bind (ref_runPipeline (entriesAt (pop ++ [e1]) kept) hsub _ _ (fun m1 h1 => decide_laidOut hc h1) cfg.stages cfg.size ht3) ?_
        rintro _ _ m3 ⟨E, rfl, rfl, ht4⟩
        obtain ⟨E1, m4, hx1, hl1, hv1, ht5⟩ := submitAll_values c.copied E ht4
        refine ref_step hx1 hl1 (ref_pure ⟨pend.eraseIdx (c.which % pend.length) ++ E1, entriesAt (pop ++ [e1]) kept, done ++ [e1], ?_, ?_, rfl, rfl, ?_, hd1, hd2, hsub,
          tidy_perm ht5 List.perm_append_comm⟩)
        · simp [map_eraseIdx']
        · simp [map_eraseIdx', hv1]
        · simp
      · exact ref_pure ⟨pend.eraseIdx (c.which % pend.length), entriesAt (pop ++ [e1]) kept, done ++ [e1], map_eraseIdx' _ _ _, map_eraseIdx' _ _ _, rfl, rfl, rfl, hd1, hd2,
          hsub, ht3⟩

theorem ref_asyncLoop (cfg : AsyncConfig γ ψ φ ρ) (hi : InsertsByAppearance cfg.insert) (hc : ByAppearance cfg.choose) (cs : List AsyncRound) :
    ∀ (st : AsyncState) (v : ValState γ φ) (m : Mem γ ψ φ ρ), StateOf st v m → Ref (asyncLoop cfg cs st) (valueRounds cfg (cs.map AsyncRound.which) v) m StateOf := by
  induction cs with
  | nil => exact fun st v m h => ref_pure h
  | cons c cs ih =>
    intro st v m h
    have hl : st.pending.isEmpty = v.pending.isEmpty := by
      obtain ⟨pend, _, _, p1, p2, _⟩ := h
      rw [← p1, ← p2]
      cases pend <;> rfl
    unfold asyncLoop
    simp only [List.map_cons, valueRounds, hl]
    split
    · exact ref_pure h
    · exact ref_bind (ref_asyncStep cfg hi hc c st v m h) fun st' v' m' h' => ih st' v' m' h'

/-- **C132** (`steady_state` of `leap_ec.distrib.asynchronous`). The run does what the run over plain values does, whoever is copied on the way to a worker. -/
theorem async_run_as_values (cfg : AsyncConfig γ ψ φ ρ) (hi : InsertsByAppearance cfg.insert) (hc : ByAppearance cfg.choose) (initGenome : ρ → PyM (List γ) × ρ)
    (problem initSize : Nat) (copied : Nat → Bool) (rounds : List AsyncRound) :
    DoesAs (asyncRun cfg initGenome problem initSize copied rounds) (valueSteady cfg initGenome problem initSize (rounds.map AsyncRound.which)) stateSeenAs := by
  refine doesAs_of_ref fun m => ref_mono (Q := StateOf) ?_ ?_
  · refine ref_bind (ref_create initGenome problem initSize (own := []) (rest := []) (tidy_all (by simp))) ?_
    rintro _ _ m1 ⟨E, rfl, rfl, ht⟩
    obtain ⟨E1, m2, hx1, hl1, hv1, ht1⟩ := submitAll_values copied E ht
    refine ref_step hx1 hl1 (ref_asyncLoop cfg hi hc rounds _ _ m2 ⟨E1, [], [], rfl, hv1, rfl, rfl, rfl, rfl, rfl, by simp, by simpa using ht1⟩)
  · rintro st v m1 ⟨pend, pop, done, p1, p2, q1, q2, hb, d1, d2, hpd, ht⟩
    refine ⟨?_, ?_, hb, ?_⟩
    · rw [← p1, ← p2]; exact seen_of_in pend ht.1
    · rw [← q1, ← q2]; exact seen_of_in pop fun e he => ht.2.1 e (hpd e he)
    · rw [← d1, ← d2]; exact seen_of_in done ht.2.1

/-! ### The synchronous distributed algorithm -/

theorem ref_worker (nan : φ) (dec : Dec γ ψ) (prob : Prob γ ψ φ ρ) (own' : Option ρ) {m : Mem γ ψ φ ρ} {e : Entry γ ψ φ} {own rest : List (Entry γ ψ φ)}
    (h : Tidy m (e :: own) rest) : Ref (workerEvaluate nan dec prob own' e.addr) (workerScored nan dec prob own' e.val) m fun _ => OneOf own rest e.addr := by
  cases own' with
  | none => exact ref_robust nan dec prob h
  | some s =>
    have := ref_robust nan dec prob (m := { m with rng := s }) h
    unfold Ref at this ⊢
    unfold workerEvaluate workerScored
    simp only [luck] at this ⊢
    revert this
    rcases robustEvaluate nan dec prob e.addr { m with rng := s } with ⟨(x | x), m1⟩ <;>
      rcases scoredAnyway nan dec prob e.val ⟨m.nextUuid, s⟩ with ⟨(y | y), w⟩ <;> intro this <;> simp only at this ⊢
    · obtain ⟨a, rfl⟩ := this
      exact ⟨a, rfl⟩
    · obtain ⟨a, rfl⟩ := this
      exact ⟨a, rfl⟩

theorem ref_complete (nan : φ) (dec : Dec γ ψ) (prob : Prob γ ψ φ ρ) (own' : Nat → Option ρ) (order : List Nat) : ∀ (E : List (Entry γ ψ φ)) {m : Mem γ ψ φ ρ}
    {own rest : List (Entry γ ψ φ)}, Tidy m (E ++ own) rest →
      Ref (completeAll nan dec prob own' (E.map Entry.addr) order) (valueComplete nan dec prob own' order (E.map Entry.val)) m fun _ => AllOf own rest (E.map Entry.addr) := by
  induction order with
  | nil => exact fun E m own rest h => ref_pure ⟨E, rfl, rfl, h⟩
  | cons i is ih =>
    intro E m own rest h
    unfold completeAll valueComplete
    rw [List.getElem?_map, List.getElem?_map]
    cases hx : E[i]? with
    | none => exact ih E h
    | some e =>
      simp only [Option.map_some]
      have hi := (List.getElem?_eq_some_iff.mp hx).1
      have h1 : Tidy m (e :: (E.eraseIdx i ++ own)) rest := tidy_perm h ((perm_at hx).append_right own)
      refine ref_bind (ref_worker nan dec prob (own' i) h1) ?_
      rintro _ v m1 ⟨e1, ea, rfl, h2⟩
      have h3 : Tidy m1 (E.set i e1 ++ own) rest := tidy_perm h2 ((perm_set e1 hi).append_right own).symm
      have ha : (E.set i e1).map Entry.addr = E.map Entry.addr := by
        rw [List.map_set, ea]
        apply List.ext_getElem? 
        intro j
        by_cases hj : i = j
        · subst hj
          rw [List.getElem?_set_self (by simpa using hi), List.getElem?_map, hx]
          rfl
        · simp [List.getElem?_set_ne hj]
      have := ih (E.set i e1) h3
      rw [ha, List.map_set] at this
      exact this

theorem ref_syncEvaluate (nan : φ) (dec : Dec γ ψ) (prob : Prob γ ψ φ ρ) (c : SyncRound ρ) (E : List (Entry γ ψ φ)) {m : Mem γ ψ φ ρ} {own rest : List (Entry γ ψ φ)}
    (h : Tidy m (E ++ own) rest) :
    Ref (syncEvaluate nan dec prob c (E.map Entry.addr)) (valueComplete nan dec prob c.own c.order (E.map Entry.val)) m (AllOf own rest) := by
  obtain ⟨E1, m1, hx1, hl1, hv1, ht1⟩ := submitAll_values c.copied E h
  refine ref_step hx1 hl1 ?_
  rw [← hv1]
  have := ref_complete nan dec prob c.own c.order E1 ht1
  unfold Ref at this ⊢
  rw [HM.bind_apply]
  revert this
  rcases completeAll nan dec prob c.own (E1.map Entry.addr) c.order m1 with ⟨(x | x), m2⟩ <;>
    rcases valueComplete nan dec prob c.own c.order (E1.map Entry.val) (luck m1) with ⟨(y | y), w⟩ <;> intro this <;> simp only at this ⊢
  · exact this
  · exact this

/-- Returning these individuals, nobody twice. -/
abbrev Distinct' (pop : List Nat) (vs : List (Val γ φ)) (m : Mem γ ψ φ ρ) : Prop :=
  ∃ P : List (Entry γ ψ φ), P.map Entry.addr = pop ∧ P.map Entry.val = vs ∧ (∀ e ∈ P, e.In m) ∧ (P.map Entry.addr).Nodup

theorem tidy_nodup {m : Mem γ ψ φ ρ} {own rest : List (Entry γ ψ φ)} (h : Tidy m own rest) : (own.map Entry.addr).Nodup :=
  List.pairwise_map.2 (h.2.2.1.imp fun a => a.1)

theorem ref_syncSurvival (cfg : SyncConfig γ ψ φ ρ) (hb : ∀ k, PicksByAppearance (cfg.best k)) (off par : List (Entry γ ψ φ)) {m : Mem γ ψ φ ρ}
    (ht : Tidy m off par) (hd : (par.map Entry.addr).Nodup) :
    Ref (syncSurvival cfg (off.map Entry.addr) (par.map Entry.addr)) (valueSurvival cfg (off.map Entry.val) (par.map Entry.val)) m Distinct' := by
  have ho := ht.1
  have hp := ht.2.1
  have p1 := picks_laidOut (hb cfg.kElites) hp hd
  have d1 := picks_entries (hb cfg.kElites) (m := laidOut (par.map Entry.val) m.rng) hd
  rw [List.length_map] at d1
  unfold Ref
  simp only [syncSurvival, valueSurvival, HM.bind_apply, draw, luck, p1, HM.pure_apply, List.length_map]
  revert d1
  generalize cfg.best cfg.kElites (List.range par.length) (laidOut (par.map Entry.val) m.rng) = b1
  obtain ⟨el, s⟩ := b1
  intro d1
  have hall : ∀ e ∈ off ++ entriesAt par el, e.In ({ m with rng := s } : Mem γ ψ φ ρ) := by
    intro e he
    rcases List.mem_append.mp he with he | he
    · exact ho e he
    · exact hp e (entriesAt_mem he)
  have hd2 : ((off ++ entriesAt par el).map Entry.addr).Nodup := by
    rw [List.map_append, List.nodup_append]
    refine ⟨tidy_nodup ht, d1, ?_⟩
    intro a ha b hb
    obtain ⟨x, hx, rfl⟩ := List.mem_map.mp ha
    obtain ⟨y, hy, rfl⟩ := List.mem_map.mp hb
    exact (ht.2.2.2 x hx y (entriesAt_mem hy)).1
  have p2 := picks_laidOut (hb off.length) hall hd2
  have d2 := picks_entries (hb off.length) (m := laidOut ((off ++ entriesAt par el).map Entry.val) s) hd2
  simp only [List.map_append, entriesAt_val] at p2
  simp only
  rw [p2]
  refine ⟨⟨_, rfl, ?_, fun e he => hall e (entriesAt_mem he), ?_⟩, ?_⟩
  · rw [entriesAt_val]; simp [entriesAt_val]
  · simp only [List.map_append, entriesAt_val] at d2
    exact d2
  · rfl

theorem ref_syncLoop (cfg : SyncConfig γ ψ φ ρ) (hc : ∀ g, ByAppearance (cfg.choose g)) (hs : ∀ g, ByAppearance (cfg.stop g)) (hb : ∀ k, PicksByAppearance (cfg.best k))
    (env : Int → SyncRound ρ) (fuel : Nat) : ∀ (g : Int) (P : List (Entry γ ψ φ)) (m : Mem γ ψ φ ρ), (∀ e ∈ P, e.In m) → (P.map Entry.addr).Nodup →
      Ref (syncLoop cfg env fuel g (P.map Entry.addr)) (valueSyncLoop cfg (fun g => (env g).order) (fun g => (env g).own) fuel g (P.map Entry.val)) m Outcome' := by
  induction fuel with
  | zero => exact fun g P m h _ => ref_pure ⟨P, rfl, rfl, h⟩
  | succ fuel ih =>
    intro g P m h hd
    have hst := decide_laidOut (hs g) h
    by_cases hbs : cfg.stop g (P.map Entry.addr) m = true
    · refine ref_congr (x' := pure (P.map Entry.addr)) (y' := pure (P.map Entry.val)) ?_ ?_ (ref_pure ⟨P, rfl, rfl, h⟩)
      · unfold syncLoop
        exact if_pos hbs
      · rw [hst] at hbs
        unfold valueSyncLoop
        exact if_pos hbs
    · have hbv := hbs
      rw [hst] at hbv
      unfold syncLoop valueSyncLoop
      refine ref_congr (if_neg hbs) (if_neg hbv) ?_
      refine ref_bind (ref_runPipeline (own := []) (rest := P) P (fun e he => he) _ _ (fun m1 h1 => decide_laidOut (hc g) h1) cfg.stages cfg.size (tidy_all h)) ?_
      rintro _ _ m1 ⟨E, rfl, rfl, ht⟩
      refine ref_bind (ref_syncEvaluate cfg.nan cfg.dec cfg.prob (env g) E ht) ?_
      rintro _ _ m2 ⟨E1, rfl, rfl, ht1⟩
      refine ref_bind (ref_syncSurvival cfg hb E1 P (by simpa using ht1) hd) ?_
      rintro _ _ m3 ⟨S, rfl, rfl, hS, hd3⟩
      exact ih (g + 1) S m3 hS hd3

/-- **C132** (synchronous distributed runs). The run does what the run over plain values does, whoever is copied on the way to a worker. -/
theorem sync_run_as_values (cfg : SyncConfig γ ψ φ ρ) (hc : ∀ g, ByAppearance (cfg.choose g)) (hs : ∀ g, ByAppearance (cfg.stop g)) (hb : ∀ k, PicksByAppearance (cfg.best k))
    (initGenome : ρ → PyM (List γ) × ρ) (problem popSize generations : Nat) (env : Int → SyncRound ρ) :
    DoesAs (syncRun cfg initGenome problem popSize generations env)
      (valueSync cfg initGenome problem popSize generations (fun g => (env g).order) (fun g => (env g).own)) seenAs := by
  refine doesAs_of_ref fun m => ref_mono (Q := Outcome') ?_ (by rintro _ _ m1 ⟨P, rfl, rfl, h⟩; exact seen_of_in P h)
  refine ref_bind (ref_create initGenome problem popSize (own := []) (rest := []) (tidy_all (by simp))) ?_
  rintro _ _ m1 ⟨E, rfl, rfl, ht⟩
  refine ref_bind (ref_syncEvaluate cfg.nan cfg.dec cfg.prob (env (-1)) E ht) ?_
  rintro _ _ m2 ⟨E1, rfl, rfl, ht1⟩
  exact ref_syncLoop cfg hc hs hb env generations 0 E1 m2 (fun e he => ht1.1 e (by simp [he])) (tidy_nodup (tidy_sub ht1 (List.sublist_append_left E1 _)))

/-! ### Copies are not seen -/

theorem indistinguishable_of_values {α β V : Type} {run1 run2 : HM (Mem γ ψ φ ρ) α} {values : HM (Luck ρ) β} {seen : Mem γ ψ φ ρ → α → β → Prop} {view : Mem γ ψ φ ρ → α → V}
    (h1 : DoesAs run1 values seen) (h2 : DoesAs run2 values seen) (hv : ∀ m a m' a' b, seen m a b → seen m' a' b → view m a = view m' a') :
    Indistinguishable run1 run2 view := by
  intro m
  have a := h1 m
  have b := h2 m
  revert a b
  rcases run1 m with ⟨(x | x), m1⟩ <;> rcases run2 m with ⟨(y | y), m2⟩ <;> rcases values ⟨m.nextUuid, m.rng⟩ with ⟨(z | z), w⟩ <;> intro a b <;> simp only at a b ⊢
  · obtain ⟨rfl, rfl⟩ := a
    obtain ⟨rfl, hw⟩ := b
    exact ⟨rfl, congrArg Luck.nextUuid hw, congrArg Luck.rng hw⟩
  · obtain ⟨ha, rfl⟩ := a
    obtain ⟨hb, hw⟩ := b
    exact ⟨hv _ _ _ _ _ ha hb, congrArg Luck.nextUuid hw, congrArg Luck.rng hw⟩

/-- **C132**: in the asynchronous run it makes no difference who is copied on the way to a worker. The populations in the end are the same, with genes, fitness,
identities, parents and viability, and so are those still with a worker and those that came back, or the same exception is raised. -/
theorem async_run_copy_free (cfg : AsyncConfig γ ψ φ ρ) (hi : InsertsByAppearance cfg.insert) (hc : ByAppearance cfg.choose) (initGenome : ρ → PyM (List γ) × ρ)
    (problem initSize : Nat) (copied1 copied2 : Nat → Bool) (rounds1 rounds2 : List AsyncRound) (hr : rounds1.map AsyncRound.which = rounds2.map AsyncRound.which) :
    Indistinguishable (asyncRun cfg initGenome problem initSize copied1 rounds1) (asyncRun cfg initGenome problem initSize copied2 rounds2)
      (fun m st => (st.pending.map (valueAt m), st.pop.map (valueAt m), st.births, st.completed.map (valueAt m))) := by
  have h1 := async_run_as_values cfg hi hc initGenome problem initSize copied1 rounds1
  have h2 := async_run_as_values cfg hi hc initGenome problem initSize copied2 rounds2
  rw [hr] at h1
  refine indistinguishable_of_values h1 h2 ?_
  rintro m a m' a' b ⟨x1, x2, x3, x4⟩ ⟨y1, y2, y3, y4⟩
  simp only [seenAs] at x1 x2 x4 y1 y2 y4
  rw [x1, x2, x3, x4, y1, y2, y3, y4]

/-- **C132**: in the synchronous distributed run it makes no difference who is copied on the way to a worker. -/
theorem sync_run_copy_free (cfg : SyncConfig γ ψ φ ρ) (hc : ∀ g, ByAppearance (cfg.choose g)) (hs : ∀ g, ByAppearance (cfg.stop g)) (hb : ∀ k, PicksByAppearance (cfg.best k))
    (initGenome : ρ → PyM (List γ) × ρ) (problem popSize generations : Nat) (env1 env2 : Int → SyncRound ρ) (ho : ∀ g, (env1 g).order = (env2 g).order)
    (hw : ∀ g, (env1 g).own = (env2 g).own) :
    Indistinguishable (syncRun cfg initGenome problem popSize generations env1) (syncRun cfg initGenome problem popSize generations env2) (fun m out => out.map (valueAt m)) := by
  have h1 := sync_run_as_values cfg hc hs hb initGenome problem popSize generations env1
  have h2 := sync_run_as_values cfg hc hs hb initGenome problem popSize generations env2
  rw [funext ho, funext hw] at h1
  refine indistinguishable_of_values h1 h2 ?_
  intro m a m' a' b x y
  exact x.trans y.symm

/-! ### The decisions LEAP makes -/

/-- The fitness kept in memory. -/
def Spec.storedFitness (m : Mem γ ψ φ ρ) (r : Nat) : Option φ := (m.inds[r]?).bind Obj.fitness

theorem storedFitness_looks {m1 m2 : Mem γ ψ φ ρ} {r1 r2 : Nat} (h : looks m2 r2 = looks m1 r1) : storedFitness m2 r2 = storedFitness m1 r1 := by
  have h1 : fitness m2 r2 = fitness m1 r1 := congrArg (fun x => x.2.1) h
  simp only [fitness] at h1
  unfold storedFitness
  revert h1
  rcases m1.inds[r1]? with _ | a <;> rcases m2.inds[r2]? with _ | b <;> intro h1 <;> simp_all

/-- **C132**: `heapq.nlargest` on individuals, which is what truncation selection does, goes by appearance, with any comparison of fitnesses that may toss coins. -/
theorem nlargest_picks_by_appearance (ask : Ask (Option φ) ρ) (eq : Option φ → Option φ → Bool) (hasLen : Bool) (k : Nat) :
    PicksByAppearance fun (pop : List Nat) (m : Mem γ ψ φ ρ) =>
      nlargest (fun a b => ask (storedFitness m a) (storedFitness m b)) (fun a b => eq (storedFitness m a) (storedFitness m b)) (· == ·) hasLen k pop m.rng := by
  constructor
  · intro pop m hd
    refine kbest_nodup (lt := fun _ _ => false) (nlargest_kbest (W := fun _ _ => false) ⟨by simp, by simp⟩ ?_ (by simp) (by simp) hasLen k pop m.rng).1 hd
    exact fun a b s => ⟨by simp, by simp⟩
  · intro f pop m1 m2 hd hf hr hl
    have hfit : ∀ x : { x : Nat // x ∈ pop }, storedFitness m2 (f x.1) = storedFitness m1 x.1 := fun x => storedFitness_looks (hl x.1 x.2)
    have e1 := nlargest_map (f := fun x : { x : Nat // x ∈ pop } => x.1)
      (lt := fun a b => ask (storedFitness m1 a.1) (storedFitness m1 b.1)) (lt' := fun a b => ask (storedFitness m1 a) (storedFitness m1 b)) (fun _ _ _ => rfl)
      (eq := fun a b => eq (storedFitness m1 a.1) (storedFitness m1 b.1)) (eq' := fun a b => eq (storedFitness m1 a) (storedFitness m1 b)) (fun _ _ => rfl)
      (same := fun a b => a.1 == b.1) (same' := (· == ·)) (fun _ _ => rfl) hasLen k pop.attach m1.rng
    have e2 := nlargest_map (f := fun x : { x : Nat // x ∈ pop } => f x.1)
      (lt := fun a b => ask (storedFitness m1 a.1) (storedFitness m1 b.1)) (lt' := fun a b => ask (storedFitness m2 a) (storedFitness m2 b))
      (fun a b s => by simp only [hfit])
      (eq := fun a b => eq (storedFitness m1 a.1) (storedFitness m1 b.1)) (eq' := fun a b => eq (storedFitness m2 a) (storedFitness m2 b)) (fun a b => by simp only [hfit])
      (same := fun a b => a.1 == b.1) (same' := (· == ·)) (fun a b => by
        have := hf a.1 a.2 b.1 b.2
        by_cases e : a.1 = b.1
        · simp [e]
        · have e' : ¬ f a.1 = f b.1 := fun h => e (this h)
          simp [e, e']) hasLen k pop.attach m1.rng
    have m1e : pop.attach.map (fun x => x.1) = pop := by simp
    have m2e : pop.attach.map (fun x => f x.1) = pop.map f := by simp
    rw [m1e] at e1
    rw [m2e] at e2
    simp only [← hr]
    rw [e2, e1]
    simp [imaged]

end

/-- As `exSync`, with `heapq.nlargest` and a coin for equal fitnesses. -/
def exLargest : SyncConfig Int Int Int Nat :=
  { exSync with best := fun k l m => nlargest (fun a b => (fun x y s => if x.getD 0 = y.getD 0 then (s % 2 == 0, s + 1) else (decide (x.getD 0 < y.getD 0), s))
      (storedFitness m a) (storedFitness m b)) (fun a b => storedFitness m a == storedFitness m b) (· == ·) true k l m.rng }

/-- As `exSyncEnv`, with nobody copied. -/
def exLocalEnv : Int → SyncRound Nat := fun g => { exSyncEnv g with copied := fun _ => false }

/-- As `exRounds`, with nobody copied. -/
def exLocalRounds : List AsyncRound := (List.range 12).map fun i : Nat => ⟨i, fun _ => false⟩

/-- What is seen of these individuals. -/
def exSeen (m : Mem Int Int Int Nat) (l : List Nat) : List (Option (List Int × Option Int × Nat × List Nat)) :=
  l.map fun r => (valueAt m r).map fun v => (v.genes, v.fitness, v.uuid, v.parents)

/-- The runs meet the hypotheses of `evo_run_as_values`, `sync_run_copy_free` and `async_run_copy_free`. With copies other objects are left in the end than without, and
they are the same values. -/
example :
    (∀ g, ByAppearance (exEvo.choose g)) ∧ (∀ g, ByAppearance (exEvo.stop g)) ∧
    (∀ g, ByAppearance (exLargest.choose g)) ∧ (∀ g, ByAppearance (exLargest.stop g)) ∧ (∀ k, PicksByAppearance (exLargest.best k)) ∧
    (∀ g, (exSyncEnv g).order = (exLocalEnv g).order) ∧ (∀ g, (exSyncEnv g).own = (exLocalEnv g).own) ∧
    InsertsByAppearance exAsync.insert ∧ ByAppearance exAsync.choose ∧ exRounds.map AsyncRound.which = exLocalRounds.map AsyncRound.which ∧
    ((valueRun exEvo exInit .identity exSum 0 2 0 3 ⟨exStart.nextUuid, exStart.rng⟩).1.toOption.map fun l => l.map fun v => (v.genes, v.fitness, v.uuid, v.parents)) =
      some [([1, 1], some 2, 5, [2]), ([0, 1], some 1, 6, [5])] ∧
    (let away := syncRun exLargest exInit 0 2 3 exSyncEnv exStart
     let here := syncRun exLargest exInit 0 2 3 exLocalEnv exStart
     away.1 = .ok [8, 15, 14] ∧ here.1 = .ok [5, 9, 10] ∧ exSeen away.2 [8, 15, 14] = exSeen here.2 [5, 9, 10] ∧
       exSeen here.2 [5, 9, 10] = [some ([1, 1], some 2, 5, [2]), some ([0, 1], some 1, 9, [7]), some ([0, 1], some 1, 10, [5])]) ∧
    (let away := asyncRun exAsync exInit 0 2 (fun r => r % 2 == 0) exRounds exStart
     let here := asyncRun exAsync exInit 0 2 (fun _ => false) exLocalRounds exStart
     away.1 = .ok ⟨[], [2, 4], 3, [2, 4, 1, 7, 5, 8]⟩ ∧ here.1 = .ok ⟨[], [0, 2], 3, [0, 2, 1, 4, 3, 5]⟩ ∧
       exSeen away.2 [2, 4, 1, 7, 5, 8] = exSeen here.2 [0, 2, 1, 4, 3, 5] ∧
       exSeen here.2 [0, 2] = [some ([0, 0], some (-1), 0, []), some ([1, 0], some 1, 2, [0])]) := by
  have byLength : ∀ g, ByAppearance (exLargest.choose g) := by
    intro g pop1 m1 pop2 m2 hr hp
    have hl : pop1.length = pop2.length := by simpa using congrArg List.length hp
    simp only [exLargest, exSync, hr, hl]
  refine ⟨?_, ?_, byLength, ?_, ?_, fun _ => rfl, fun _ => rfl,
    tournament_inserter_by_appearance (fun a b : Option Int => decide (a.getD 0 > b.getD 0)) (fun s : Nat => (s, s + 1)) 2, ?_, by decide, ?_, ?_, ?_⟩
  · intro g pop1 m1 pop2 m2 hr _; simp only [exEvo, hr]
  · intro g pop1 m1 pop2 m2 _ _; rfl
  · intro g pop1 m1 pop2 m2 _ _; rfl
  · exact fun k => nlargest_picks_by_appearance (fun x y s => if x.getD 0 = y.getD 0 then (s % 2 == 0, s + 1) else (decide (x.getD 0 < y.getD 0), s)) (· == ·) true k
  · intro pop1 m1 pop2 m2 hr hp
    have hl : pop1.length = pop2.length := by simpa using congrArg List.length hp
    simp only [exAsync, hr, hl]
  · decide +kernel
  · refine ⟨?_, ?_, ?_, ?_⟩ <;> decide +kernel
  · refine ⟨?_, ?_, ?_, ?_⟩ <;> decide +kernel

end Leap
