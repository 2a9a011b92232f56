import Verif.Props.Restart
import Verif.Props.IslandRun

/-!
# C132 for islands

`multi_population_ea` hands individuals from island to island through shared queues, and an immigrant takes its place in a population as the very object that was put into
the queue. Here it is shown that the islands do what they would do if individuals were plain values.
-/

namespace Leap

open Spec

section
variable {γ ψ φ ρ : Type}

/-! ### Specification -/

/-- A selection operator asked for one individual: the position and the individual there. -/
def Spec.picked (pop : List (Val γ φ)) (pick : ρ → PyM Nat × ρ) : HM (Luck ρ) (Nat × Val γ φ) := do
  let i ← draw pick
  match pop[i]? with
  | none => HM.raise .indexError
  | some v => pure (i, v)

/-- Each immigrant meets one resident and takes its place unless it is worse. -/
def Spec.valueImmigrate (cfg : IslandConfig γ ψ φ ρ) : List (Val γ φ) → List (Val γ φ) → HM (Luck ρ) (List (Val γ φ))
  | [], pop => pure pop
  | imm :: rest, pop => do
    let (i, resident) ← picked pop fun s => cfg.replace (List.range pop.length) (laidOut pop s)
    valueImmigrate cfg rest (if cfg.worse imm.fitness resident.fitness then pop else pop.set i imm)

/-- Every `gap` generations a clone of one individual, with its fitness, joins the queue of a neighbor. -/
def Spec.valueEmigrate (cfg : IslandConfig γ ψ φ ρ) (g : Int) (cur : Nat) (pop : List (Val γ φ)) (queues : List (List (Val γ φ))) : HM (Luck ρ) (List (List (Val γ φ))) :=
  if cfg.gap = 0 then HM.raise .zeroDivisionError
  else if g % cfg.gap = 0 then do
    let (_, sponsor) ← picked pop fun s => cfg.sponsor (List.range pop.length) (laidOut pop s)
    let emigrant ← cloned sponsor
    let k ← draw fun s => (.ok (cfg.dest s (cfg.neighbors cur).length).1, (cfg.dest s (cfg.neighbors cur).length).2)
    match (cfg.neighbors cur)[k]? with
    | none => HM.raise .indexError
    | some d =>
      match queues[d]? with
      | none => HM.raise .indexError
      | some q => pure (queues.set d (q ++ [{ emigrant with fitness := sponsor.fitness }]))
  else pure queues

/-- One island in one generation: offspring, immigrants, an emigrant. -/
def Spec.valueIslandStep (cfg : IslandConfig γ ψ φ ρ) (g : Int) (cur : Nat) (parents : List (Val γ φ)) (queues : List (List (Val γ φ))) :
    HM (Luck ρ) (List (Val γ φ) × List (List (Val γ φ))) := do
  let offspring ← offspringOf parents (fun s => cfg.choose g cur (List.range parents.length) (laidOut parents s)) cfg.stages cfg.size
  match queues[cur]? with
  | none => HM.raise .indexError
  | some queue =>
    let pop ← valueImmigrate cfg queue offspring
    let queues ← valueEmigrate cfg g cur pop (queues.set cur [])
    pure (pop, queues)

/-- All islands in turn. -/
def Spec.valueSweep (cfg : IslandConfig γ ψ φ ρ) (g : Int) : Nat → Nat → List (List (Val γ φ)) → List (List (Val γ φ)) →
    HM (Luck ρ) (List (List (Val γ φ)) × List (List (Val γ φ)))
  | 0, _, pops, queues => pure (pops, queues)
  | k + 1, cur, pops, queues => do
    let (pop, queues) ← valueIslandStep cfg g cur (pops.getD cur []) queues
    valueSweep cfg g k (cur + 1) (pops.set cur pop) queues

/-- The islands numbered through: the positions of the members of each if all are laid out side by side. -/
def Spec.islandsNumbered {α : Type} : Nat → List (List α) → List (List Nat)
  | _, [] => []
  | k, p :: ps => ((List.range p.length).map (k + ·)) :: islandsNumbered (k + p.length) ps

/-- The generations. -/
def Spec.valueIslandLoop (cfg : IslandConfig γ ψ φ ρ) : Nat → Int → List (List (Val γ φ)) → List (List (Val γ φ)) →
    HM (Luck ρ) (List (List (Val γ φ)) × List (List (Val γ φ)))
  | 0, _, pops, queues => pure (pops, queues)
  | fuel + 1, g, pops, queues => fun w =>
    if cfg.stop g (islandsNumbered 0 pops) (laidOut pops.flatten w.rng) then (.ok (pops, queues), w)
    else (valueSweep cfg g pops.length 0 pops queues >>= fun pq => valueIslandLoop cfg fuel (g + 1) pq.1 pq.2) w

/-- The first islands. -/
def Spec.newbornIslands (initGenome : ρ → PyM (List γ) × ρ) (problem popSize : Nat) : Nat → HM (Luck ρ) (List (List (Val γ φ)))
  | 0 => pure []
  | k + 1 => do
    let p ← newborns initGenome problem popSize
    let ps ← newbornIslands initGenome problem popSize k
    pure (p :: ps)

/-- All of them evaluated. -/
def Spec.islandsScored (dec : Dec γ ψ) (prob : Prob γ ψ φ ρ) : List (List (Val γ φ)) → HM (Luck ρ) (List (List (Val γ φ)))
  | [] => pure []
  | p :: ps => do
    let p' ← allScored dec prob p
    let ps' ← islandsScored dec prob ps
    pure (p' :: ps')

/-- `multi_population_ea`: the islands, and who is still travelling. -/
def Spec.valueIslandRun (cfg : IslandConfig γ ψ φ ρ) (initGenome : ρ → PyM (List γ) × ρ) (dec : Dec γ ψ) (prob : Prob γ ψ φ ρ) (problem numPopulations popSize : Nat)
    (max : Int) : HM (Luck ρ) (List (List (Val γ φ)) × List (List (Val γ φ))) := do
  let created ← newbornIslands initGenome problem popSize numPopulations
  let pops ← islandsScored dec prob created
  valueIslandLoop cfg max.toNat 0 pops (List.replicate cfg.numIslands [])

/-- All islands and all queues are seen to be these values. -/
def Spec.islandsSeenAs (m : Mem γ ψ φ ρ) (r : List (List Nat) × List (List Nat)) (v : List (List (Val γ φ)) × List (List (Val γ φ))) : Prop :=
  List.Forall₂ (seenAs m) r.1 v.1 ∧ List.Forall₂ (seenAs m) r.2 v.2

/-! ### Migration -/

theorem ref_pickOne {m : Mem γ ψ φ ρ} (P : List (Entry γ ψ φ)) (choose : Mem γ ψ φ ρ → PyM Nat × ρ) (pick : ρ → PyM Nat × ρ) (hc : choose m = pick m.rng) :
    Ref (pickOne choose (P.map Entry.addr)) (picked (P.map Entry.val) pick) m fun a b m1 =>
      ∃ e ∈ P, a.2 = e.addr ∧ b.2 = e.val ∧ a.1 = b.1 ∧ ∃ s, m1 = { m with rng := s } := by
  unfold Ref pickOne picked
  simp only [HM.bind_apply, draw, luck, hc]
  rcases pick m.rng with ⟨(e | i), s⟩
  · exact ⟨rfl, rfl⟩
  · simp only [List.getElem?_map]
    cases hi : P[i]? with
    | none => exact ⟨rfl, rfl⟩
    | some e => exact ⟨⟨e, List.mem_of_getElem? hi, rfl, rfl, rfl, s, rfl⟩, rfl⟩

theorem ref_immigrate (cfg : IslandConfig γ ψ φ ρ) (hr : ByAppearance cfg.replace) (Q : List (Entry γ ψ φ)) : ∀ {m : Mem γ ψ φ ρ} (P : List (Entry γ ψ φ)),
    (∀ e ∈ Q, e.In m) → (∀ e ∈ P, e.In m) →
      Ref (immigrateInds cfg (Q.map Entry.addr) (P.map Entry.addr)) (valueImmigrate cfg (Q.map Entry.val) (P.map Entry.val)) m fun a b m1 =>
        ∃ P' : List (Entry γ ψ φ), P'.map Entry.addr = a ∧ P'.map Entry.val = b ∧ (∀ e ∈ P', e.In m1) ∧ ∃ s, m1 = { m with rng := s } := by
  induction Q with
  | nil => exact fun {m} P _ hP => ref_pure ⟨P, rfl, rfl, hP, m.rng, rfl⟩
  | cons q Q ih =>
    intro m P hQ hP
    refine ref_bind (ref_pickOne P _ _ (decide_laidOut hr hP)) ?_
    rintro ⟨i, c⟩ ⟨_, v⟩ m1 ⟨e, he, rfl, rfl, rfl, s, rfl⟩
    have hq : q.In m := hQ q (by simp)
    have hlt : cfg.lt { m with rng := s } q.addr e.addr = cfg.worse q.val.fitness e.val.fitness := by
      simp [IslandConfig.lt, hq.1, (hP e he).1, Entry.val]
    have key : ∀ b : Bool, ∃ P1 : List (Entry γ ψ φ), (∀ x ∈ P1, x.In { m with rng := s }) ∧
        (if b then P.map Entry.addr else (P.map Entry.addr).set i q.addr) = P1.map Entry.addr ∧ (if b then P.map Entry.val else (P.map Entry.val).set i q.val) = P1.map Entry.val := by
      intro b
      cases b
      · refine ⟨P.set i q, ?_, by simp [List.map_set], by simp [List.map_set]⟩
        intro x hx
        rcases List.mem_or_eq_of_mem_set hx with hx | rfl
        · exact hP x hx
        · exact hq
      · exact ⟨P, hP, rfl, rfl⟩
    obtain ⟨P1, h1, h2, h3⟩ := key (cfg.worse q.val.fitness e.val.fitness)
    have hx := ih (m := { m with rng := s }) P1 (fun x hx => hQ x (by simp [hx])) h1
    simp only [h3]
    refine ref_congr (x' := immigrateInds cfg (Q.map Entry.addr) (P1.map Entry.addr)) ?_ rfl (ref_mono hx ?_)
    · simp only [hlt, h2]
    · rintro a b m2 ⟨P', g1, g2, g3, s', rfl⟩
      exact ⟨P', g1, g2, g3, s', rfl⟩

theorem ref_cloneWithFitness {m : Mem γ ψ φ ρ} {e : Entry γ ψ φ} {rest : List (Entry γ ψ φ)} (he : e ∈ rest) (h : Tidy m [] rest) :
    Ref (cloneWithFitness e.addr) (cloned e.val >>= fun c => pure { c with fitness := e.val.fitness }) m (OneOf [] rest) := by
  unfold cloneWithFitness
  refine ref_bind (ref_clone (h.2.1 e he) h) ?_
  rintro _ _ m1 ⟨e1, rfl, rfl, ht⟩
  refine ref_step (getObj_in (ht.2.1 e he)) rfl ?_
  have h2 := tidy_mod ht (fun x => { x with fitness := e.obj.fitness }) rfl rfl
  exact ⟨⟨_, by rfl, by rfl, h2⟩, rfl⟩

/-- The islands or the queues, in memory. -/
abbrev Crowd (m : Mem γ ψ φ ρ) (Q : List (List (Entry γ ψ φ))) : Prop := ∀ q ∈ Q, ∀ e ∈ q, e.In m

abbrev addrs (Q : List (List (Entry γ ψ φ))) : List (List Nat) := Q.map (List.map Entry.addr)

abbrev vals (Q : List (List (Entry γ ψ φ))) : List (List (Val γ φ)) := Q.map (List.map Entry.val)

/-- Nobody of these is changed. -/
abbrev Keeps (m m1 : Mem γ ψ φ ρ) : Prop := ∀ e : Entry γ ψ φ, e.In m → e.In m1

theorem crowd_set {m : Mem γ ψ φ ρ} {Q : List (List (Entry γ ψ φ))} (h : Crowd m Q) (d : Nat) {q : List (Entry γ ψ φ)} (hq : ∀ e ∈ q, e.In m) : Crowd m (Q.set d q) := by
  intro x hx
  rcases List.mem_or_eq_of_mem_set hx with hx | rfl
  · exact h x hx
  · exact hq

theorem ref_emigrate (cfg : IslandConfig γ ψ φ ρ) (hsp : ByAppearance cfg.sponsor) (g : Int) (cur : Nat) {m : Mem γ ψ φ ρ} (P : List (Entry γ ψ φ))
    (Q : List (List (Entry γ ψ φ))) (rest : List (Entry γ ψ φ)) (hP : ∀ e ∈ P, e.In m) (hQ : Crowd m Q) (hrest : ∀ e ∈ rest, e.In m) :
    Ref (emigrateInds cfg g cur (P.map Entry.addr) (addrs Q)) (valueEmigrate cfg g cur (P.map Entry.val) (vals Q)) m fun a b m1 =>
      ∃ Q' : List (List (Entry γ ψ φ)), addrs Q' = a ∧ vals Q' = b ∧ Crowd m1 Q' ∧ (∀ e ∈ P, e.In m1) ∧ ∀ e ∈ rest, e.In m1 := by
  unfold emigrateInds valueEmigrate
  by_cases h0 : cfg.gap = 0
  · simp only [h0, if_true]
    exact ⟨rfl, rfl⟩
  · simp only [h0, if_false]
    by_cases hg : g % cfg.gap = 0
    · simp only [hg, if_true]
      refine ref_bind (ref_pickOne P _ _ (decide_laidOut hsp hP)) ?_
      rintro ⟨i, c⟩ ⟨_, v⟩ m1 ⟨e, he, rfl, rfl, rfl, s, rfl⟩
      have ht : Tidy { m with rng := s } [] (P ++ (Q.flatten ++ rest)) := tidy_all (by
        intro x hx
        rcases List.mem_append.1 hx with hx | hx
        · exact hP x hx
        · rcases List.mem_append.1 hx with hx | hx
          · obtain ⟨q, hq, hx⟩ := List.mem_flatten.1 hx
            exact hQ q hq x hx
          · exact hrest x hx)
      have hcl := ref_cloneWithFitness (e := e) (List.mem_append_left _ he) ht
      refine ref_congr (y' := (cloned e.val >>= fun c => pure { c with fitness := e.val.fitness }) >>= fun emigrant => do
          let k ← draw fun s => (.ok (cfg.dest s (cfg.neighbors cur).length).1, (cfg.dest s (cfg.neighbors cur).length).2)
          match (cfg.neighbors cur)[k]? with
          | none => HM.raise .indexError
          | some d =>
            match (vals Q)[d]? with
            | none => HM.raise .indexError
            | some q => pure ((vals Q).set d (q ++ [emigrant]))) rfl ?_ (ref_bind hcl ?_)
      · simp only [HM.bind_apply]
        rcases cloned e.val (luck ({ m with rng := s } : Mem γ ψ φ ρ)) with ⟨(x | x), w⟩ <;> rfl
      · rintro _ _ m2 ⟨e1, rfl, rfl, ht2⟩
        refine ref_bind ref_rng ?_
        rintro k _ m3 ⟨rfl, s3, rfl⟩
        cases (cfg.neighbors cur)[k]? with
        | none => exact ⟨rfl, rfl⟩
        | some d =>
          simp only [List.getElem?_map]
          cases hq : Q[d]? with
          | none => exact ⟨rfl, rfl⟩
          | some q =>
            have hQ2 : ∀ x ∈ Q.flatten, x.In m2 := fun x hx => ht2.2.1 x (by simp [hx])
            refine ref_pure ⟨Q.set d (q ++ [e1]), by simp [List.map_set], by simp [List.map_set], ?_, fun x hx => ht2.2.1 x (by simp [hx]), fun x hx => ht2.2.1 x (by simp [hx])⟩
            refine crowd_set (fun x hx y hy => hQ2 y (List.mem_flatten.2 ⟨x, hx, hy⟩)) d ?_
            intro y hy
            rcases List.mem_append.1 hy with hy | hy
            · exact hQ2 y (List.mem_flatten.2 ⟨q, List.mem_of_getElem? hq, hy⟩)
            · rw [List.mem_singleton.1 hy]
              exact ht2.1 e1 (by simp)
    · simp only [hg, if_false]
      exact ref_pure ⟨Q, rfl, rfl, hQ, hP, hrest⟩

theorem ref_islandStep (cfg : IslandConfig γ ψ φ ρ) (hc : ∀ g i, ByAppearance (cfg.choose g i)) (hr : ByAppearance cfg.replace) (hsp : ByAppearance cfg.sponsor) (g : Int)
    (cur : Nat) {m : Mem γ ψ φ ρ} (P : List (Entry γ ψ φ)) (Q : List (List (Entry γ ψ φ))) (rest : List (Entry γ ψ φ)) (hP : ∀ e ∈ P, e.In m) (hQ : Crowd m Q)
    (hrest : ∀ e ∈ rest, e.In m) :
    Ref (islandStep cfg g cur (P.map Entry.addr) (addrs Q)) (valueIslandStep cfg g cur (P.map Entry.val) (vals Q)) m fun a b m1 =>
      ∃ (P' : List (Entry γ ψ φ)) (Q' : List (List (Entry γ ψ φ))), a = (P'.map Entry.addr, addrs Q') ∧ b = (P'.map Entry.val, vals Q') ∧ (∀ e ∈ P', e.In m1) ∧
        Crowd m1 Q' ∧ ∀ e ∈ rest, e.In m1 := by
  unfold islandStep valueIslandStep
  have ht : Tidy m [] (P ++ (Q.flatten ++ rest)) := tidy_all (by
    intro x hx
    rcases List.mem_append.1 hx with hx | hx
    · exact hP x hx
    · rcases List.mem_append.1 hx with hx | hx
      · obtain ⟨q, hq, hx⟩ := List.mem_flatten.1 hx
        exact hQ q hq x hx
      · exact hrest x hx)
  refine ref_bind (ref_runPipeline P (fun e he => List.mem_append_left _ he) _ _ (fun m1 h1 => decide_laidOut (hc g cur) h1) cfg.stages cfg.size ht) ?_
  rintro _ _ m1 ⟨E, rfl, rfl, ht1⟩
  simp only [List.getElem?_map]
  cases hq : Q[cur]? with
  | none => exact ⟨rfl, rfl⟩
  | some q =>
    have hE : ∀ e ∈ E, e.In m1 := fun e he => ht1.1 e (by simp [he])
    have hQ1 : Crowd m1 Q := fun x hx y hy => ht1.2.1 y (by simp only [List.mem_append, List.mem_flatten]; exact .inr (.inl ⟨x, hx, hy⟩))
    have hrest1 : ∀ e ∈ rest, e.In m1 := fun e he => ht1.2.1 e (by simp [he])
    refine ref_bind (ref_immigrate cfg hr q E (hQ1 q (List.mem_of_getElem? hq)) hE) ?_
    rintro _ _ m2 ⟨P', rfl, rfl, hP', s, rfl⟩
    have e1 : (addrs Q).set cur [] = addrs (Q.set cur []) := by simp [List.map_set]
    have e2 : (vals Q).set cur [] = vals (Q.set cur []) := by simp [List.map_set]
    rw [e1, e2]
    refine ref_bind (ref_emigrate cfg hsp g cur P' (Q.set cur []) rest hP' (crowd_set hQ1 cur (by simp)) hrest1) ?_
    rintro _ _ m3 ⟨Q', rfl, rfl, k1, k2, k3⟩
    exact ref_pure ⟨P', Q', rfl, rfl, k2, k1, k3⟩

theorem ref_sweep (cfg : IslandConfig γ ψ φ ρ) (hc : ∀ g i, ByAppearance (cfg.choose g i)) (hr : ByAppearance cfg.replace) (hsp : ByAppearance cfg.sponsor) (g : Int)
    (k : Nat) : ∀ (cur : Nat) {m : Mem γ ψ φ ρ} (P Q : List (List (Entry γ ψ φ))), Crowd m P → Crowd m Q →
    Ref (islandSweep cfg g k cur (addrs P) (addrs Q)) (valueSweep cfg g k cur (vals P) (vals Q)) m fun a b m1 =>
      ∃ P' Q' : List (List (Entry γ ψ φ)), a = (addrs P', addrs Q') ∧ b = (vals P', vals Q') ∧ Crowd m1 P' ∧ Crowd m1 Q' := by
  induction k with
  | zero => exact fun cur m P Q hP hQ => ref_pure ⟨P, Q, rfl, rfl, hP, hQ⟩
  | succ k ih =>
    intro cur m P Q hP hQ
    unfold islandSweep valueSweep
    have e1 : (addrs P).getD cur [] = (P.getD cur []).map Entry.addr := by
      simp only [List.getD_eq_getElem?_getD, List.getElem?_map]
      cases P[cur]? <;> rfl
    have e2 : (vals P).getD cur [] = (P.getD cur []).map Entry.val := by
      simp only [List.getD_eq_getElem?_getD, List.getElem?_map]
      cases P[cur]? <;> rfl
    have hcur : ∀ e ∈ P.getD cur [], e.In m := by
      intro e he
      rw [List.getD_eq_getElem?_getD] at he
      cases hp : P[cur]? with
      | none => rw [hp] at he; simp at he
      | some p => rw [hp] at he; exact hP p (List.mem_of_getElem? hp) e he
    rw [e1, e2]
    refine ref_bind (ref_islandStep cfg hc hr hsp g cur (P.getD cur []) Q P.flatten hcur hQ fun e he => by
      obtain ⟨p, hp, he⟩ := List.mem_flatten.1 he
      exact hP p hp e he) ?_
    rintro _ _ m1 ⟨P', Q', rfl, rfl, h1, h2, h3⟩
    have f1 : (addrs P).set cur (P'.map Entry.addr) = addrs (P.set cur P') := by simp [List.map_set]
    have f2 : (vals P).set cur (P'.map Entry.val) = vals (P.set cur P') := by simp [List.map_set]
    simp only [f1, f2]
    exact ih (cur + 1) (P.set cur P') Q' (crowd_set (fun p hp e he => h3 e (List.mem_flatten.2 ⟨p, hp, he⟩)) cur h1) h2

/-! ### The stopping rule -/

theorem looks_laid {pop : List (Val γ φ)} {s : ρ} {i : Nat} {v : Val γ φ} (h : pop[i]? = some v) :
    looks (laidOut pop s : Mem γ ψ φ ρ) i = (some v.genes, some v.fitness, v.viable) := by
  simp [looks, genes, fitness, laidOut, h]

theorem looks_islands (ps : List (List (Val γ φ))) (s : ρ) : ∀ (pre : List (Val γ φ)),
    (islandsNumbered pre.length ps).map (·.map (looks (laidOut (pre ++ ps.flatten) s : Mem γ ψ φ ρ))) = ps.map (·.map fun v => (some v.genes, some v.fitness, v.viable)) := by
  induction ps with
  | nil => exact fun _ => rfl
  | cons p ps ih =>
    intro pre
    have := ih (pre ++ p)
    rw [List.length_append, List.append_assoc, ← List.flatten_cons] at this
    unfold islandsNumbered
    rw [List.map_cons, List.map_cons, this]
    congr 1
    rw [List.map_map]
    apply List.ext_getElem (by simp)
    intro i h1 h2
    simp only [List.length_map] at h2
    simp only [List.getElem_map, List.getElem_range, Function.comp_apply]
    apply looks_laid
    rw [List.getElem?_append_right (by omega), List.flatten_cons, List.getElem?_append_left (by omega), Nat.add_sub_cancel_left]
    exact List.getElem?_eq_getElem h2

theorem stop_islands {δ : Type} {stop : List (List Nat) → Mem γ ψ φ ρ → δ} (hs : AllByAppearance stop) {m : Mem γ ψ φ ρ} {P : List (List (Entry γ ψ φ))} (h : Crowd m P) :
    stop (addrs P) m = stop (islandsNumbered 0 (vals P)) (laidOut (vals P).flatten m.rng) := by
  refine hs _ _ _ _ rfl ?_
  have := looks_islands (ψ := ψ) (vals P) m.rng []
  rw [List.nil_append] at this
  rw [List.length_nil] at this
  rw [this, List.map_map, List.map_map]
  apply List.map_congr_left
  intro p hp
  simp only [Function.comp_apply, List.map_map]
  apply List.map_congr_left
  intro e he
  have hin := h p hp e he
  simp [looks, genes, fitness, hin.1, hin.2.1, Entry.val]

/-! ### Runs -/

/-- Returning these islands and queues. -/
abbrev IslandOutcome (a : List (List Nat) × List (List Nat)) (b : List (List (Val γ φ)) × List (List (Val γ φ))) (m : Mem γ ψ φ ρ) : Prop :=
  ∃ P Q : List (List (Entry γ ψ φ)), a = (addrs P, addrs Q) ∧ b = (vals P, vals Q) ∧ Crowd m P ∧ Crowd m Q

theorem ref_islandLoop (cfg : IslandConfig γ ψ φ ρ) (hc : ∀ g i, ByAppearance (cfg.choose g i)) (hr : ByAppearance cfg.replace) (hsp : ByAppearance cfg.sponsor)
    (hs : ∀ g, AllByAppearance (cfg.stop g)) (fuel : Nat) : ∀ (g : Int) (P Q : List (List (Entry γ ψ φ))) (m : Mem γ ψ φ ρ), Crowd m P → Crowd m Q →
    Ref (islandLoop cfg fuel g (addrs P) (addrs Q)) (valueIslandLoop cfg fuel g (vals P) (vals Q)) m IslandOutcome := by
  induction fuel with
  | zero => exact fun g P Q m hP hQ => ref_pure ⟨P, Q, rfl, rfl, hP, hQ⟩
  | succ fuel ih =>
    intro g P Q m hP hQ
    have hst := stop_islands (hs g) hP
    by_cases hb : cfg.stop g (addrs P) m = true
    · refine ref_congr (x' := pure (addrs P, addrs Q)) (y' := pure (vals P, vals Q)) ?_ ?_ (ref_pure ⟨P, Q, rfl, rfl, hP, hQ⟩)
      · unfold islandLoop
        exact if_pos hb
      · rw [hst] at hb
        unfold valueIslandLoop
        exact if_pos hb
    · have hbv := hb
      rw [hst] at hbv
      unfold islandLoop valueIslandLoop
      refine ref_congr (if_neg hb) (if_neg hbv) ?_
      have e1 : (addrs P).length = P.length := by simp
      have e2 : (vals P).length = P.length := by simp
      rw [e1, e2]
      refine ref_bind (ref_sweep cfg hc hr hsp g P.length 0 P Q hP hQ) ?_
      rintro _ _ m1 ⟨P', Q', rfl, rfl, h1, h2⟩
      exact ih (g + 1) P' Q' m1 h1 h2

theorem ref_createIslands (initGenome : ρ → PyM (List γ) × ρ) (problem popSize k : Nat) : ∀ {m : Mem γ ψ φ ρ} {own rest : List (Entry γ ψ φ)}, Tidy m own rest →
    Ref (createIslands initGenome problem popSize k) (newbornIslands initGenome problem popSize k) m fun a b m1 =>
      ∃ P : List (List (Entry γ ψ φ)), addrs P = a ∧ vals P = b ∧ Tidy m1 (P.flatten ++ own) rest := by
  induction k with
  | zero => exact fun h => ref_pure ⟨[], rfl, rfl, h⟩
  | succ k ih =>
    intro m own rest h
    unfold createIslands newbornIslands
    refine ref_bind (ref_create initGenome problem popSize h) ?_
    rintro _ _ m1 ⟨E, rfl, rfl, h1⟩
    refine ref_bind (ih h1) ?_
    rintro _ _ m2 ⟨P, rfl, rfl, h2⟩
    refine ref_pure ⟨E :: P, rfl, rfl, tidy_perm h2 ?_⟩
    rw [List.flatten_cons, ← List.append_assoc]
    exact List.Perm.append_right own List.perm_append_comm

theorem ref_evaluateIslands (dec : Dec γ ψ) (prob : Prob γ ψ φ ρ) (P : List (List (Entry γ ψ φ))) : ∀ {m : Mem γ ψ φ ρ} {own rest : List (Entry γ ψ φ)},
    Tidy m (P.flatten ++ own) rest →
    Ref (evaluateIslands dec prob (addrs P)) (islandsScored dec prob (vals P)) m fun _ b m1 =>
      ∃ P' : List (List (Entry γ ψ φ)), addrs P' = addrs P ∧ vals P' = b ∧ Tidy m1 (P'.flatten ++ own) rest := by
  induction P with
  | nil => exact fun h => ref_pure ⟨[], rfl, rfl, h⟩
  | cons p P ih =>
    intro m own rest h
    rw [List.flatten_cons, List.append_assoc] at h
    refine ref_bind (ref_evaluateAll dec prob p h) ?_
    rintro _ _ m1 ⟨E, ha, rfl, h1⟩
    have h1' : Tidy m1 (P.flatten ++ (E ++ own)) rest := tidy_perm h1 (by
      rw [← List.append_assoc, ← List.append_assoc]
      exact List.Perm.append_right own List.perm_append_comm)
    refine ref_congr (x' := evaluateIslands dec prob (addrs P) >>= fun u => pure u) ?_ rfl (ref_bind (ih h1') ?_)
    · rw [HM.bind_apply]
      rcases evaluateIslands dec prob (addrs P) m1 with ⟨(x | x), w⟩ <;> rfl
    · rintro _ _ m2 ⟨P', ha', rfl, h2⟩
      refine ref_pure ⟨E :: P', by simp only [addrs, List.map_cons] at ha' ⊢; rw [ha, ha'], rfl, tidy_perm h2 ?_⟩
      rw [List.flatten_cons, ← List.append_assoc]
      exact List.Perm.append_right own List.perm_append_comm

theorem seen_crowd {m : Mem γ ψ φ ρ} {P : List (List (Entry γ ψ φ))} (h : Crowd m P) : List.Forall₂ (seenAs m) (addrs P) (vals P) := by
  rw [List.forall₂_map_left_iff, List.forall₂_map_right_iff, List.forall₂_same]
  exact fun p hp => seen_of_in p (h p hp)

/-- **C132** (`multi_population_ea`). Islands that exchange individuals as objects do what islands of plain values do. -/
theorem island_run_as_values (cfg : IslandConfig γ ψ φ ρ) (hc : ∀ g i, ByAppearance (cfg.choose g i)) (hr : ByAppearance cfg.replace) (hsp : ByAppearance cfg.sponsor)
    (hs : ∀ g, AllByAppearance (cfg.stop g)) (initGenome : ρ → PyM (List γ) × ρ) (dec : Dec γ ψ) (prob : Prob γ ψ φ ρ) (problem numPopulations popSize : Nat) (max : Int) :
    DoesAs (islandRun cfg initGenome dec prob problem numPopulations popSize max) (valueIslandRun cfg initGenome dec prob problem numPopulations popSize max)
      islandsSeenAs := by
  refine doesAs_of_ref fun m => ref_mono (Q := IslandOutcome) ?_ (by rintro _ _ m1 ⟨P, Q, rfl, rfl, hP, hQ⟩; exact ⟨seen_crowd hP, seen_crowd hQ⟩)
  refine ref_bind (ref_createIslands initGenome problem popSize numPopulations (own := []) (rest := []) (tidy_all (by simp))) ?_
  rintro _ _ m1 ⟨E, rfl, rfl, ht⟩
  refine ref_bind (ref_evaluateIslands dec prob E ht) ?_
  rintro _ _ m2 ⟨E1, ha, rfl, ht1⟩
  rw [← ha]
  have e1 : List.replicate cfg.numIslands [] = addrs (List.replicate cfg.numIslands ([] : List (Entry γ ψ φ))) := by simp
  have e2 : (List.replicate cfg.numIslands [] : List (List (Val γ φ))) = vals (List.replicate cfg.numIslands ([] : List (Entry γ ψ φ))) := by simp
  rw [e1, e2]
  refine ref_islandLoop cfg hc hr hsp hs _ _ E1 _ m2 (fun p hp e he => ht1.1 e (by simp only [List.append_nil]; exact List.mem_flatten.2 ⟨p, hp, he⟩)) ?_
  intro q hq e he
  rw [(List.mem_replicate.1 hq).2] at he
  simp at he

end

set_option synthInstance.maxSize 1000 in
set_option synthInstance.maxHeartbeats 100000 in
/-- Two islands that send each other an individual in every generation, as objects and as values. -/
example :
    (∀ g i, ByAppearance (exIslands.choose g i)) ∧ ByAppearance exIslands.replace ∧ ByAppearance exIslands.sponsor ∧ (∀ g, AllByAppearance (exIslands.stop g)) ∧
    ((valueIslandRun exIslands exInit .identity exSum 0 2 2 3 ⟨exStart.nextUuid, exStart.rng⟩).1.toOption.map fun v =>
      (v.1.map (·.map fun x => (x.genes, x.fitness)), v.2.map (·.map fun x => (x.genes, x.fitness)))) =
        some ([[([0, 1], some 1), ([0, 0], some 0)], [([0, 1], some 1), ([1, 1], some 2)]], [[([1, 1], some 2)], []]) := by
  have len : ∀ {pop pop' : List Nat} {m m' : Mem Int Int Int Nat}, pop.map (looks m) = pop'.map (looks m') → pop.length = pop'.length := by
    intro pop pop' m m' h
    simpa using congrArg List.length h
  refine ⟨?_, ?_, ?_, fun _ _ _ _ _ _ _ => rfl, by decide +kernel⟩
  · intro g i pop m pop' m' hr hl
    change ((Except.ok (m.rng % pop.length) : PyM Nat), m.rng + 1) = (Except.ok (m'.rng % pop'.length), m'.rng + 1)
    rw [len hl, hr]
  · intro pop m pop' m' hr hl
    change ((Except.ok 0 : PyM Nat), m.rng + 1) = (Except.ok 0, m'.rng + 1)
    rw [hr]
  · intro pop m pop' m' hr hl
    change ((Except.ok (m.rng % pop.length) : PyM Nat), m.rng + 1) = (Except.ok (m'.rng % pop'.length), m'.rng + 1)
    rw [len hl, hr]

end Leap
