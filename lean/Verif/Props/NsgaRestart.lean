import Verif.Lemmas.NsgaNames
import Verif.Props.NsgaRun
import Verif.Props.Restart

/-!
# C132 and C134 for NSGA-II: plain values, and stopping and restarting

Survival in NSGA-II writes attributes on individuals and looks at them through sorted lists. Here it is shown that it depends on nothing but the objective values and the
order of the individuals. So `generalized_nsga_2` over objects in memory does what it would do over plain values, and a run restarted from the genomes of its population
goes on as the first would have.
-/

namespace Leap

open Spec

section
variable {γ ψ ρ : Type}

/-! ### Specification -/

/-- Survival over values. The offspring and then the parents are numbered, and nobody has ranks or distances from before. -/
def Spec.nsgaKept (maximize : List Bool) (offspring parents : List (Val γ (List ℚ))) : PyM (List (Val γ (List ℚ))) :=
  match nsga2Survive (fun _ => maximize) (fun _ => true) (fun i => (((offspring ++ parents)[i]?).bind Val.fitness).getD []) (List.range offspring.length)
    ((List.range parents.length).map (offspring.length + ·)) (fun _ => 0) (fun _ => 0) with
  | .error e => .error e
  | .ok (kept, _) => .ok (atPositions (offspring ++ parents) kept)

/-- The generations of `generalized_nsga_2` over values. -/
def Spec.valueNsgaLoop (cfg : NsgaConfig γ ψ ρ) : Nat → Int → List (Val γ (List ℚ)) → HM (Luck ρ) (List (Val γ (List ℚ)))
  | 0, _, parents => pure parents
  | fuel + 1, g, parents => fun w =>
    if cfg.stop g (List.range parents.length) (laidOut parents w.rng) then (.ok parents, w)
    else
      (do
        let offspring ← offspringOf parents (fun s => cfg.choose g (fun _ => 0) (fun _ => 0) (List.range parents.length) (laidOut parents s)) cfg.stages cfg.size
        let kept ← HM.lift (nsgaKept cfg.maximize offspring parents)
        valueNsgaLoop cfg fuel (g + 1) kept) w

/-- `generalized_nsga_2` over values, for a multi-objective problem. -/
def Spec.valueNsgaRun (cfg : NsgaConfig γ ψ ρ) (initGenome : ρ → PyM (List γ) × ρ) (dec : Dec γ ψ) (prob : Prob γ ψ (List ℚ) ρ) (problem popSize : Nat)
    (start max : Int) : HM (Luck ρ) (List (Val γ (List ℚ))) := do
  let created ← newborns initGenome problem popSize
  let parents ← allScored dec prob created
  valueNsgaLoop cfg (max - start).toNat start parents

/-- Selection goes by genes, objective values and viability, and not by `rank` and `distance`. (`tournament_selection` without a key compares objective values.) -/
def Spec.ByValuesOnly {β : Type} (choose : (Nat → Nat) → (Nat → WithTop ℚ) → List Nat → Mem γ ψ (List ℚ) ρ → β) : Prop :=
  (∀ rank distance rank' distance', choose rank distance = choose rank' distance') ∧ ByAppearance (choose (fun _ => 0) (fun _ => 0))

/-- The population a run returns. -/
def Spec.members (r : PyM NsgaState × Mem γ ψ (List ℚ) ρ) : PyM (List Nat) × Mem γ ψ (List ℚ) ρ := (r.1.map NsgaState.pop, r.2)

/-! ### Survival -/

/-- **C132** (survival of NSGA-II). Whatever the identities of the individuals, and whatever `rank` and `distance` they carried before: those in memory that survive are
those whose values survive. -/
theorem nsga_survivors_as_values (mx : List Bool) {m : Mem γ ψ (List ℚ) ρ} (off par : List (Entry γ ψ (List ℚ))) (ho : ∀ e ∈ off, e.In m) (hp : ∀ e ∈ par, e.In m)
    (hn : (off.map Entry.addr ++ par.map Entry.addr).Nodup) (rank : Nat → Nat) (distance : Nat → WithTop ℚ) :
    match nsga2Survive (fun _ => mx) (fun _ => true) (vectorOf m) (off.map Entry.addr) (par.map Entry.addr) rank distance, nsgaKept mx (off.map Entry.val) (par.map Entry.val) with
    | .ok (kept, _), .ok vs => kept.Nodup ∧ ∃ S : List (Entry γ ψ (List ℚ)), S.map Entry.addr = kept ∧ S.map Entry.val = vs ∧ ∀ e ∈ S, e.In m
    | .error e, .error e' => e = e'
    | _, _ => False := by
  have hrange : List.range off.length ++ (List.range par.length).map (off.length + ·) = List.range (off ++ par).length := by
    rw [List.length_append, List.range_add]
  have hin : ∀ e ∈ off ++ par, e.In m := fun e he => (List.mem_append.1 he).elim (ho e) (hp e)
  have e1 : (List.range off.length).map (placeOf (off ++ par)) = off.map Entry.addr := by
    apply List.ext_getElem (by simp)
    intro i h1 h2
    simp at h1
    simp [placeOf, List.getElem?_append_left h1, h1]
  have e2 : ((List.range par.length).map (off.length + ·)).map (placeOf (off ++ par)) = par.map Entry.addr := by
    apply List.ext_getElem (by simp)
    intro i h1 h2
    simp at h1
    simp [placeOf, h1]
  have hinj : ∀ x y, x ∈ List.range off.length ++ (List.range par.length).map (off.length + ·) → y ∈ List.range off.length ++ (List.range par.length).map (off.length + ·) →
      placeOf (off ++ par) x = placeOf (off ++ par) y → x = y := by
    rw [hrange]
    exact fun x y hx hy => placeOf_inj (by rw [List.map_append]; exact hn) x hx y hy
  have hfit : Agree (placeOf (off ++ par)) (· ∈ List.range off.length ++ (List.range par.length).map (off.length + ·))
      (fun i => (((off.map Entry.val ++ par.map Entry.val)[i]?).bind Val.fitness).getD []) (vectorOf m) := by
    rw [hrange]
    intro i hi
    have hi : i < (off ++ par).length := List.mem_range.1 hi
    have h1 : (off.map Entry.val ++ par.map Entry.val)[i]? = some (off ++ par)[i].val := by
      rw [← List.map_append, List.getElem?_map, List.getElem?_eq_getElem hi]; rfl
    have h2 : placeOf (off ++ par) i = (off ++ par)[i].addr := by
      unfold placeOf; rw [List.getElem?_eq_getElem hi]; rfl
    rw [h2]
    unfold vectorOf
    rw [(hin _ (List.getElem_mem hi)).1]
    simp only [h1]
    rfl
  have key := nsga2Survive_names hinj mx hfit (fun _ => 0) rank (fun _ => 0) distance
  rw [e1, e2] at key
  unfold nsgaKept
  rw [List.length_map, List.length_map]
  rcases x1 : nsga2Survive (fun _ => mx) (fun _ => true) (vectorOf m) (off.map Entry.addr) (par.map Entry.addr) rank distance with e | ⟨kept, r, d⟩ <;>
    rcases x2 : nsga2Survive (fun _ => mx) (fun _ => true) (fun i => (((off.map Entry.val ++ par.map Entry.val)[i]?).bind Val.fitness).getD []) (List.range off.length)
      ((List.range par.length).map (off.length + ·)) (fun _ => 0) (fun _ => 0) with e' | ⟨kept', r', d'⟩ <;> rw [x1, x2] at key <;> simp only at key ⊢
  · exact key.symm
  · obtain ⟨k1, k2⟩ := key
    refine ⟨nsga2Survive_nodup hn x1, entriesAt (off ++ par) kept', ?_, ?_, fun e he => hin e (entriesAt_mem he)⟩
    · rw [entriesAt_addr _ _ (fun i hi => by have := k1 i hi; rw [hrange] at this; exact List.mem_range.1 this), k2]
    · rw [entriesAt_val, List.map_append]

theorem nsgaLoop_step (cfg : NsgaConfig γ ψ ρ) (n : Nat) (g : Int) (st : NsgaState) (m : Mem γ ψ (List ℚ) ρ) : nsgaLoop cfg (n + 1) g st m =
    if cfg.stop g st.pop m then (.ok st, m) else (nsgaGeneration cfg g st >>= nsgaLoop cfg n (g + 1)) m := rfl

/-- What a generation does with the offspring. -/
def nsgaSurvivors (cfg : NsgaConfig γ ψ ρ) (st : NsgaState) (offspring : List Nat) : HM (Mem γ ψ (List ℚ) ρ) NsgaState := fun m1 =>
  match nsga2Survive (fun _ => cfg.maximize) (fun _ => true) (vectorOf m1) offspring st.pop st.rank st.distance with
  | .error e => (.error e, m1)
  | .ok (kept, rank, distance) => (.ok ⟨kept, rank, distance⟩, m1)

theorem nsgaGeneration_eq (cfg : NsgaConfig γ ψ ρ) (g : Int) (st : NsgaState) :
    nsgaGeneration cfg g st = runPipeline st.pop (cfg.choose g st.rank st.distance st.pop) cfg.stages cfg.size >>= nsgaSurvivors cfg st := by
  funext m
  change _ = HM.andThen _ _ m
  unfold HM.andThen nsgaGeneration nsgaSurvivors
  rcases runPipeline st.pop (cfg.choose g st.rank st.distance st.pop) cfg.stages cfg.size m with ⟨(x | x), m1⟩ <;> rfl

/-- Returning these individuals, none of them twice. -/
abbrev NsgaOutcome (st : NsgaState) (vs : List (Val γ (List ℚ))) (m : Mem γ ψ (List ℚ) ρ) : Prop :=
  st.pop.Nodup ∧ ∃ P : List (Entry γ ψ (List ℚ)), P.map Entry.addr = st.pop ∧ P.map Entry.val = vs ∧ ∀ e ∈ P, e.In m

theorem addrs_nodup {m : Mem γ ψ (List ℚ) ρ} {own rest : List (Entry γ ψ (List ℚ))} (h : Tidy m own rest) (hr : (rest.map Entry.addr).Nodup) :
    (own.map Entry.addr ++ rest.map Entry.addr).Nodup := by
  refine List.nodup_append.2 ⟨?_, hr, ?_⟩
  · rw [List.Nodup, List.pairwise_map]
    exact h.2.2.1.imp fun h => h.1
  · intro a ha b hb
    obtain ⟨e, he, rfl⟩ := List.mem_map.1 ha
    obtain ⟨e', he', rfl⟩ := List.mem_map.1 hb
    exact (h.2.2.2 e he e' he').1

theorem ref_nsgaLoop (cfg : NsgaConfig γ ψ ρ) (hc : ∀ g, ByValuesOnly (cfg.choose g)) (hs : ∀ g, ByAppearance (cfg.stop g)) (fuel : Nat) :
    ∀ (g : Int) (rank : Nat → Nat) (distance : Nat → WithTop ℚ) (P : List (Entry γ ψ (List ℚ))) (m : Mem γ ψ (List ℚ) ρ), (∀ e ∈ P, e.In m) → (P.map Entry.addr).Nodup →
      Ref (nsgaLoop cfg fuel g ⟨P.map Entry.addr, rank, distance⟩) (valueNsgaLoop cfg fuel g (P.map Entry.val)) m NsgaOutcome := by
  induction fuel with
  | zero => exact fun g rank distance P m h hn => ref_pure ⟨hn, P, rfl, rfl, h⟩
  | succ fuel ih =>
    intro g rank distance P m h hn
    have hst := decide_laidOut (hs g) h
    by_cases hb : cfg.stop g (P.map Entry.addr) m = true
    · refine ref_congr (x' := pure ⟨P.map Entry.addr, rank, distance⟩) (y' := pure (P.map Entry.val)) ?_ ?_ (ref_pure ⟨hn, P, rfl, rfl, h⟩)
      · rw [nsgaLoop_step]; exact if_pos hb
      · rw [hst] at hb
        unfold valueNsgaLoop
        exact if_pos hb
    · have hbv := hb
      rw [hst] at hbv
      unfold valueNsgaLoop
      refine ref_congr (x' := nsgaGeneration cfg g ⟨P.map Entry.addr, rank, distance⟩ >>= nsgaLoop cfg fuel (g + 1)) ?_ (if_neg hbv) ?_
      · rw [nsgaLoop_step]; exact if_neg hb
      · rw [nsgaGeneration_eq]
        simp only
        rw [(hc g).1 rank distance (fun _ => 0) (fun _ => 0)]
        refine ref_congr (x' := runPipeline (P.map Entry.addr) (cfg.choose g (fun _ => 0) (fun _ => 0) (P.map Entry.addr)) cfg.stages cfg.size >>= fun offspring =>
          nsgaSurvivors cfg ⟨P.map Entry.addr, rank, distance⟩ offspring >>= nsgaLoop cfg fuel (g + 1)) ?_ rfl ?_
        · simp only [HM.bind_apply]
          rcases runPipeline (P.map Entry.addr) (cfg.choose g (fun _ => 0) (fun _ => 0) (P.map Entry.addr)) cfg.stages cfg.size m with ⟨(x | x), m1⟩ <;> rfl
        refine ref_bind (ref_runPipeline (own := []) (rest := P) P (fun e he => he) _ _ (fun m1 h1 => decide_laidOut (hc g).2 h1) cfg.stages cfg.size (tidy_all h)) ?_
        rintro _ _ m1 ⟨E, rfl, rfl, ht⟩
        rw [List.append_nil] at ht
        have key := nsga_survivors_as_values cfg.maximize E P ht.1 ht.2.1 (addrs_nodup ht hn) rank distance
        refine ref_bind (Q := fun st vs m2 => NsgaOutcome st vs m2) ?_ ?_
        · unfold Ref nsgaSurvivors
          simp only [HM.lift]
          rcases x1 : nsga2Survive (fun _ => cfg.maximize) (fun _ => true) (vectorOf m1) (E.map Entry.addr) (P.map Entry.addr) rank distance with e | ⟨kept, r, d⟩ <;>
            rcases x2 : nsgaKept cfg.maximize (E.map Entry.val) (P.map Entry.val) with e' | vs <;> rw [x1, x2] at key <;> simp only at key ⊢
          · exact ⟨key, trivial⟩
          · exact ⟨key, trivial⟩
        · rintro ⟨pop, r, d⟩ vs m2 ⟨hnd, S, ha, rfl, hS⟩
          simp only at ha hnd
          subst ha
          exact ih (g + 1) r d S m2 hS hnd

/-- **C132** (`generalized_nsga_2`). The run does what the run over plain values does. -/
theorem nsga_run_as_values (cfg : NsgaConfig γ ψ ρ) (hc : ∀ g, ByValuesOnly (cfg.choose g)) (hs : ∀ g, ByAppearance (cfg.stop g)) (initGenome : ρ → PyM (List γ) × ρ)
    (dec : Dec γ ψ) (prob : Prob γ ψ (List ℚ) ρ) (problem popSize : Nat) (start max : Int) (rank : Nat → Nat) (distance : Nat → WithTop ℚ) :
    DoesAs (nsgaRun cfg true initGenome dec prob problem popSize start max rank distance) (valueNsgaRun cfg initGenome dec prob problem popSize start max)
      fun m st vs => seenAs m st.pop vs := by
  refine doesAs_of_ref fun m => ref_mono (Q := NsgaOutcome) ?_ (by rintro ⟨pop, r, d⟩ _ m1 ⟨_, P, ha, rfl, h⟩; simp only at ha; subst ha; exact seen_of_in P h)
  unfold nsgaRun
  simp only [if_true]
  refine ref_bind (ref_create initGenome problem popSize (own := []) (rest := []) (tidy_all (by simp))) ?_
  rintro _ _ m1 ⟨E, rfl, rfl, ht⟩
  refine ref_bind (ref_evaluateAll dec prob E ht) ?_
  rintro _ _ m2 ⟨E1, ha, rfl, ht1⟩
  rw [← ha]
  rw [List.append_nil] at ht1
  exact ref_nsgaLoop cfg hc hs _ _ _ _ E1 m2 ht1.1 (by simpa using addrs_nodup ht1 (by simp))

/-! ### Longer runs -/

theorem nsgaLoop_more (cfg : NsgaConfig γ ψ ρ) (hstop : ∀ g g', cfg.stop g = cfg.stop g') (k : Nat) : ∀ (j : Nat) (g : Int) (st : NsgaState) (m : Mem γ ψ (List ℚ) ρ),
    nsgaLoop cfg (j + k) g st m = (nsgaLoop cfg j g st >>= nsgaLoop cfg k (g + j)) m := by
  intro j
  induction j with
  | zero => intro g st m; simp [nsgaLoop, HM.bind_apply]
  | succ j ih =>
    intro g st m
    obtain ⟨g2, hg2⟩ : ∃ g2 : Int, g2 = g + ((j + 1 : Nat) : Int) := ⟨_, rfl⟩
    have hg3 : g + 1 + (j : Int) = g2 := by omega
    rw [HM.bind_apply, Nat.add_right_comm, ← hg2]
    clear hg2
    rw [nsgaLoop_step, nsgaLoop_step]
    by_cases hb : cfg.stop g st.pop m = true
    · rw [if_pos hb, if_pos hb]
      cases k with
      | zero => rfl
      | succ k =>
        rw [hstop g g2] at hb
        exact (if_pos hb).symm
    · rw [if_neg hb, if_neg hb, HM.bind_apply, HM.bind_apply]
      rcases nsgaGeneration cfg g st m with ⟨(e | st1), m1⟩
      · rfl
      · have := ih (g + 1) st1 m1
        rw [hg3, HM.bind_apply] at this
        exact this

theorem nsgaRun_more (cfg : NsgaConfig γ ψ ρ) (hstop : ∀ g g', cfg.stop g = cfg.stop g') (init : ρ → PyM (List γ) × ρ) (dec : Dec γ ψ) (prob : Prob γ ψ (List ℚ) ρ)
    (problem popSize : Nat) (start mid max : Int) (h1 : start ≤ mid) (h2 : mid ≤ max) (rank : Nat → Nat) (distance : Nat → WithTop ℚ) (m : Mem γ ψ (List ℚ) ρ) :
    nsgaRun cfg true init dec prob problem popSize start max rank distance m =
      (nsgaRun cfg true init dec prob problem popSize start mid rank distance >>= nsgaLoop cfg (max - mid).toNat mid) m := by
  have e1 : (max - start).toNat = (mid - start).toNat + (max - mid).toNat := by omega
  have e2 : start + ((mid - start).toNat : Int) = mid := by omega
  unfold nsgaRun
  simp only [if_true, HM.bind_apply, e1]
  rcases createPopulation init problem popSize m with ⟨(e | pop), m1⟩
  · rfl
  · simp only []
    rcases evaluatePopulation dec prob pop m1 with ⟨(e | u), m2⟩
    · rfl
    · have := nsgaLoop_more cfg hstop (max - mid).toNat (mid - start).toNat start ⟨pop, rank, distance⟩ m2
      rw [e2, HM.bind_apply] at this
      exact this

/-- **C134** (`generalized_nsga_2`): a run with a larger limit first does all the shorter run does. -/
theorem nsga_longer_run_begins_alike (cfg : NsgaConfig γ ψ ρ) (hstop : ∀ g g', cfg.stop g = cfg.stop g') (init : ρ → PyM (List γ) × ρ) (dec : Dec γ ψ)
    (prob : Prob γ ψ (List ℚ) ρ) (problem popSize : Nat) (start mid max : Int) (h1 : start ≤ mid) (h2 : mid ≤ max) (rank : Nat → Nat) (distance : Nat → WithTop ℚ)
    (m : Mem γ ψ (List ℚ) ρ) :
    match nsgaRun cfg true init dec prob problem popSize start mid rank distance m with
    | (.error e, m1) => nsgaRun cfg true init dec prob problem popSize start max rank distance m = (.error e, m1)
    | (.ok st, m1) => cfg.stop mid st.pop m1 = true → nsgaRun cfg true init dec prob problem popSize start max rank distance m = (.ok st, m1) := by
  rw [nsgaRun_more cfg hstop init dec prob problem popSize start mid max h1 h2 rank distance m, HM.bind_apply]
  rcases nsgaRun cfg true init dec prob problem popSize start mid rank distance m with ⟨(e | st), m1⟩
  · rfl
  · intro hb
    simp only []
    cases (max - mid).toNat with
    | zero => rfl
    | succ k => rw [nsgaLoop_step]; exact if_pos hb

/-! ### Two runs over values -/

theorem forall₂_at {α : Type} {P : α → α → Prop} {l l' : List α} (h : List.Forall₂ P l l') (positions : List Nat) :
    List.Forall₂ P (positions.filterMap (l[·]?)) (positions.filterMap (l'[·]?)) := by
  induction positions with
  | nil => exact .nil
  | cons i ps ih =>
    rcases lt_or_ge i l.length with hi | hi
    · have hi' : i < l'.length := h.length_eq ▸ hi
      simp only [List.filterMap_cons, List.getElem?_eq_getElem hi, List.getElem?_eq_getElem hi']
      exact .cons (h.get hi hi') ih
    · have hi' : l'.length ≤ i := h.length_eq ▸ hi
      simp only [List.filterMap_cons, List.getElem?_eq_none hi, List.getElem?_eq_none hi']
      exact ih

theorem like_nsgaKept {P : Val γ (List ℚ) → Val γ (List ℚ) → Prop} (hP : ∀ v v', P v v' → v.fitness = v'.fitness) (mx : List Bool) {off off' par par' : List (Val γ (List ℚ))}
    (ho : List.Forall₂ P off off') (hp : List.Forall₂ P par par') : Like (ρ := ρ) (HM.lift (nsgaKept mx off par)) (HM.lift (nsgaKept mx off' par')) (List.Forall₂ P) := by
  intro w w' e
  have hall : List.Forall₂ P (off ++ par) (off' ++ par') := List.rel_append ho hp
  have hfit : (fun i : Nat => (((off' ++ par')[i]?).bind Val.fitness).getD []) = fun i : Nat => (((off ++ par)[i]?).bind Val.fitness).getD [] := by
    funext i
    rcases lt_or_ge i (off ++ par).length with hi | hi
    · have hi' : i < (off' ++ par').length := hall.length_eq ▸ hi
      rw [List.getElem?_eq_getElem hi, List.getElem?_eq_getElem hi']
      simp only [Option.bind_some]
      have := hP _ _ (hall.get hi hi')
      simp only [List.get_eq_getElem] at this
      rw [this]
    · have hi' : (off' ++ par').length ≤ i := hall.length_eq ▸ hi
      rw [List.getElem?_eq_none hi, List.getElem?_eq_none hi']
  unfold nsgaKept
  rw [hfit, ← ho.length_eq, ← hp.length_eq]
  rcases nsga2Survive (fun _ => mx) (fun _ => true) (fun i => (((off ++ par)[i]?).bind Val.fitness).getD []) (List.range off.length)
      ((List.range par.length).map (off.length + ·)) (fun _ => 0) (fun _ => 0) with x | ⟨kept, r, d⟩
  · exact ⟨rfl, e⟩
  · exact ⟨forall₂_at hall kept, e⟩

theorem like_valueNsgaLoop {t : List γ → PyM (List ℚ)} {dec : Dec γ ψ} {prob : Prob γ ψ (List ℚ) ρ} (ht : Exact t dec prob) {pre : List (Stage γ ψ (List ℚ) ρ)}
    (hp : ∀ st ∈ pre, Breeds st) (cfg : NsgaConfig γ ψ ρ) (hst : cfg.stages = pre ++ [.evaluate dec prob]) (hc : ∀ g, ByValuesOnly (cfg.choose g))
    (hs : ∀ g, ByAppearance (cfg.stop g)) (fuel : Nat) : ∀ (g : Int) (pop pop' : List (Val γ (List ℚ))), List.Forall₂ (Peer t) pop pop' →
      Like (valueNsgaLoop cfg fuel g pop) (valueNsgaLoop cfg fuel g pop') (List.Forall₂ (Peer t)) := by
  induction fuel with
  | zero => exact fun _ _ _ h => like_pure h
  | succ fuel ih =>
    intro g pop pop' h w w' e
    unfold valueNsgaLoop
    rw [← e, ← decide_twins (hs g) (peers_twins h) w.rng]
    by_cases hb : cfg.stop g (List.range pop.length) (laidOut pop w.rng) = true
    · rw [if_pos hb, if_pos hb]
      exact ⟨h, e⟩
    · rw [if_neg hb, if_neg hb]
      have hpick : (fun s => cfg.choose g (fun _ => 0) (fun _ => 0) (List.range pop'.length) (laidOut pop' s)) =
          fun s => cfg.choose g (fun _ => 0) (fun _ => 0) (List.range pop.length) (laidOut pop s) :=
        funext fun s => (decide_twins (hc g).2 (peers_twins h) s).symm
      rw [hpick, hst]
      refine like_bind (like_offspring ht hp (peers_twins h) _ cfg.size) ?_ w w' e
      exact fun off off' ho => like_bind (like_nsgaKept (fun v v' hv => hv.1.2.1) cfg.maximize ho h) fun vs vs' hvs => ih (g + 1) _ _ hvs

theorem like_valueNsgaRun {t : List γ → PyM (List ℚ)} {dec : Dec γ ψ} {prob : Prob γ ψ (List ℚ) ρ} (ht : Exact t dec prob) {pre : List (Stage γ ψ (List ℚ) ρ)}
    (hp : ∀ st ∈ pre, Breeds st) (cfg : NsgaConfig γ ψ ρ) (hst : cfg.stages = pre ++ [.evaluate dec prob]) (hc : ∀ g, ByValuesOnly (cfg.choose g))
    (hs : ∀ g, ByAppearance (cfg.stop g)) (init : ρ → PyM (List γ) × ρ) (problem popSize : Nat) (start max : Int) :
    Like (valueNsgaRun cfg init dec prob problem popSize start max) (valueNsgaRun cfg init dec prob problem popSize start max) (List.Forall₂ (Peer t)) :=
  like_bind (twin_newborns init problem popSize) fun _ _ h => like_bind (peer_allScored ht h) fun _ _ h => like_valueNsgaLoop ht hp cfg hst hc hs _ _ _ _ h

/-- **C134** (`generalized_nsga_2`). Selection and stopping go by genes, objective values and viability; the pipeline clones, mutates, crosses over and is evaluated by a
deterministic problem. If a run up to generation `mid` returned, and a run in any other memory starts from its genomes, its random state and generation `mid`, then it ends
as the first run would have ended had it gone on. -/
theorem nsga_restart_continues (cfg : NsgaConfig γ ψ ρ) (pre : List (Stage γ ψ (List ℚ) ρ)) (dec : Dec γ ψ) (prob : Prob γ ψ (List ℚ) ρ)
    (hst : cfg.stages = pre ++ [.evaluate dec prob]) (hpre : ∀ st ∈ pre, Breeds st) (hd : Deterministic prob) (hc : ∀ g, ByValuesOnly (cfg.choose g))
    (hs : ∀ g, ByAppearance (cfg.stop g)) (hstop : ∀ g g', cfg.stop g = cfg.stop g') (init : ρ → PyM (List γ) × ρ) (problem popSize : Nat) (start mid max : Int)
    (h1 : start ≤ mid) (h2 : mid ≤ max) (rank rank' : Nat → Nat) (distance distance' : Nat → WithTop ℚ) (m m1 m' : Mem γ ψ (List ℚ) ρ) (st : NsgaState)
    (hrun : nsgaRun cfg true init dec prob problem popSize start mid rank distance m = (.ok st, m1))
    (reload : ρ → PyM (List γ) × ρ) (problem' : Nat) (saved : List (List γ)) (hsaved : st.pop.map (genes m1) = saved.map some) (hload : Delivers reload m'.rng saved m1.rng) :
    EndsAlike (members (nsgaRun cfg true init dec prob problem popSize start max rank distance m))
      (members (nsgaRun cfg true reload dec prob problem' saved.length mid max rank' distance' m')) := by
  obtain ⟨score, hscore⟩ := hd
  have ht := exact_of dec hscore
  generalize trueScore dec score = t at ht
  have r1 := nsga_run_as_values cfg hc hs init dec prob problem popSize start mid rank distance m
  rw [hrun] at r1
  rcases ev : valueNsgaRun cfg init dec prob problem popSize start mid ⟨m.nextUuid, m.rng⟩ with ⟨(e | vs), w1⟩
  · rw [ev] at r1; exact r1.elim
  rw [ev] at r1
  obtain ⟨hseen, hw1⟩ := r1
  have self := like_valueNsgaRun ht hpre cfg hst hc hs init problem popSize start mid ⟨m.nextUuid, m.rng⟩ ⟨m.nextUuid, m.rng⟩ rfl
  rw [ev] at self
  have hpeer : ∀ v ∈ vs, Peer t v v := List.forall₂_same.1 self.1
  have hgenes : vs.map (·.genes) = saved := by
    have hl := congrArg (List.map Prod.fst) (looks_of_seen hseen)
    rw [List.map_map, List.map_map] at hl
    have : st.pop.map (genes m1) = vs.map (fun v => some v.genes) := hl
    rw [hsaved] at this
    have h3 : (vs.map (·.genes)).map some = saved.map some := by rw [List.map_map]; exact this.symm
    exact List.map_injective_iff.2 (Option.some_injective _) h3
  subst hgenes
  obtain ⟨bs, w2, e1, e2, e3⟩ := reborn ht reload problem' vs m1.rng ⟨m'.nextUuid, m'.rng⟩ hpeer hload
  obtain ⟨ps, e4, hps⟩ := e3 w2
  have r2 := nsga_run_as_values cfg hc hs reload dec prob problem' vs.length mid max rank' distance' m'
  have ev2 : valueNsgaRun cfg reload dec prob problem' vs.length mid max ⟨m'.nextUuid, m'.rng⟩ = valueNsgaLoop cfg (max - mid).toNat mid ps w2 := by
    simp only [valueNsgaRun, HM.bind_apply, e1, e4]
  rw [ev2] at r2
  rw [nsgaRun_more cfg hstop init dec prob problem popSize start mid max h1 h2 rank distance m, HM.bind_apply, hrun]
  simp only []
  -- nobody is twice in the population
  have hnd : st.pop.Nodup := by
    have r0 : Ref (nsgaRun cfg true init dec prob problem popSize start mid rank distance) (valueNsgaRun cfg init dec prob problem popSize start mid) m NsgaOutcome := by
      unfold nsgaRun
      simp only [if_true]
      refine ref_bind (ref_create init problem popSize (own := []) (rest := []) (tidy_all (by simp))) ?_
      rintro _ _ m1 ⟨E, rfl, rfl, ht⟩
      refine ref_bind (ref_evaluateAll dec prob E ht) ?_
      rintro _ _ m2 ⟨E1, ha, rfl, ht1⟩
      rw [← ha]
      rw [List.append_nil] at ht1
      exact ref_nsgaLoop cfg hc hs _ _ _ _ E1 m2 ht1.1 (by simpa using addrs_nodup ht1 (by simp))
    unfold Ref at r0
    have ev' : valueNsgaRun cfg init dec prob problem popSize start mid (luck m) = (.ok vs, w1) := ev
    rw [hrun, ev'] at r0
    exact r0.1.1
  obtain ⟨P, hPa, hPv, hPin⟩ := entries_of_seen hseen
  have r3 := ref_nsgaLoop cfg hc hs (max - mid).toNat mid st.rank st.distance P m1 hPin (by rw [hPa]; exact hnd)
  rw [hPa, hPv] at r3
  have r4 := like_valueNsgaLoop ht hpre cfg hst hc hs (max - mid).toNat mid vs ps hps (luck m1) w2 e2.symm
  unfold Ref at r3
  unfold EndsAlike members
  rw [List.length_map]
  rcases x1 : nsgaLoop cfg (max - mid).toNat mid st m1 with ⟨(ea | a), na⟩ <;>
    rcases x2 : nsgaRun cfg true reload dec prob problem' vs.length mid max rank' distance' m' with ⟨(eb | b), nb⟩ <;>
    rcases x3 : valueNsgaLoop cfg (max - mid).toNat mid vs (luck m1) with ⟨(ec | c), nc⟩ <;>
    rcases x4 : valueNsgaLoop cfg (max - mid).toNat mid ps w2 with ⟨(ed | d), nd⟩ <;>
    rw [x1, x3] at r3 <;> rw [x2, x4] at r2 <;> rw [x3, x4] at r4 <;> simp only [Except.map] at r2 r3 r4 ⊢
  · obtain ⟨rfl, rfl⟩ := r3
    obtain ⟨rfl, rfl⟩ := r2
    exact r4
  · obtain ⟨⟨_, Q, hQa, hQv, hQin⟩, rfl⟩ := r3
    obtain ⟨hb, rfl⟩ := r2
    obtain ⟨hcd, hr⟩ := r4
    refine ⟨?_, hr⟩
    have ha := seen_of_in Q hQin
    rw [hQa, hQv] at ha
    rw [looks_of_seen ha, looks_of_seen hb]
    clear x3 x4 hQv ha hb hr
    induction hcd with
    | nil => rfl
    | cons hx _ ih => simp only [List.map_cons, ih, hx.1.1, hx.1.2.1, hx.1.2.2.1, hx.1.2.2.2.1]

end

/-! ### Some runs -/

/-- Two objectives, without random numbers. -/
def exTwoCalm : Prob Int Int (List ℚ) Nat where
  evaluate c s := match c with
    | .raw g => (.ok [(g.sum : ℚ), -((g.headD 0 : Int) : ℚ)], s)
    | .value v => (.ok [(v : ℚ), 0], s)
  evaluateMultiple _ s := (.error .attributeError, s)
  takesIndividuals := false

/-- The first run, up to generation `n`. -/
def exNsgaFirst (n : Int) : PyM NsgaState × Mem Int Int (List ℚ) Nat :=
  nsgaRun (exNsgaRun exTwoCalm) true exInit .identity exTwoCalm 0 3 0 n (fun _ => 0) (fun _ => 0) exEmpty

/-- Three genomes from a file. -/
def exNsgaReload (s : Nat) : PyM (List Int) × Nat := (.ok (if s = 6 then [1, 1] else if s = 7 then [0, 1] else [1, 0]), s + 1)

/-- The restarted run. -/
def exNsgaAgain : PyM NsgaState × Mem Int Int (List ℚ) Nat :=
  nsgaRun (exNsgaRun exTwoCalm) true exNsgaReload .identity exTwoCalm 0 3 1 3 (fun _ => 5) (fun _ => 7) ⟨[], [], [], 0, 6⟩

theorem exNsga_by_values (g : Int) : ByValuesOnly ((exNsgaRun exTwoCalm).choose g) := by
  refine ⟨fun _ _ _ _ => rfl, fun pop1 m1 pop2 m2 hr h => ?_⟩
  have hlen : pop1.length = pop2.length := by simpa using congrArg List.length h
  have hnil : pop1 = [] ↔ pop2 = [] := by rw [← List.length_eq_zero_iff, ← List.length_eq_zero_iff, hlen]
  simp only [exNsgaRun, hnil, hr, hlen]

set_option synthInstance.maxSize 1000 in
set_option synthInstance.maxHeartbeats 100000 in
/-- Three generations, and the same after a stop after the first. The second process has nothing in memory and takes the three genomes from a file. -/
example :
    (∃ pre : List (Stage Int Int (List ℚ) Nat), (exNsgaRun exTwoCalm).stages = pre ++ [.evaluate .identity exTwoCalm] ∧ ∀ st ∈ pre, Breeds st) ∧ Deterministic exTwoCalm ∧
    (∀ g, ByValuesOnly ((exNsgaRun exTwoCalm).choose g)) ∧ (∀ g, ByAppearance ((exNsgaRun exTwoCalm).stop g)) ∧
    (exNsgaFirst 1).1.toOption.map (fun st => st.pop.map (genes (exNsgaFirst 1).2)) = some ([[1, 1], [0, 1], [1, 0]].map some) ∧ (exNsgaFirst 1).2.rng = 9 ∧
    Delivers exNsgaReload 6 [[1, 1], [0, 1], [1, 0]] 9 ∧
    exTell (members (exNsgaFirst 3)) = some [(some [1, 1], some (some [2, -1])), (some [1, 1], some (some [2, -1])), (some [0, 1], some (some [1, 0]))] ∧
    exTell (members exNsgaAgain) = some [(some [1, 1], some (some [2, -1])), (some [1, 1], some (some [2, -1])), (some [0, 1], some (some [1, 0]))] := by
  refine ⟨⟨(exNsgaRun exTwoCalm).stages.take 1, rfl, ?_⟩, ⟨fun c => match c with
      | .raw g => .ok [(g.sum : ℚ), -((g.headD 0 : Int) : ℚ)]
      | .value v => .ok [(v : ℚ), 0], by rintro (g | v) s <;> rfl⟩, exNsga_by_values, fun _ _ _ _ _ _ _ => rfl, by decide +kernel, by decide +kernel, ⟨rfl, rfl, rfl, rfl⟩,
    by decide +kernel, by decide +kernel⟩
  intro st hst
  simp only [exNsgaRun, List.take_succ_cons, List.take_zero, List.mem_cons, List.not_mem_nil, or_false] at hst
  rcases hst with rfl
  exact .mutate

end Leap
