import Verif.Props.IslandValues

/-!
# C134 for islands

`multi_population_ea` has no `start_generation`: a second call counts from 0 again. And it does not return those who are travelling: they wait in a list that belongs to the
`migrate` operator. So a run of islands can be stopped and continued in the same process, with the same operator, after a multiple of the migration gap; with a new operator,
or after another number of generations, it goes on differently.
-/

namespace Leap

open Spec

section
variable {γ ψ φ ρ : Type}

/-! ### Specification -/

/-- Two runs end in the same way: on every island, and among those who travel to it, there are the same genes, fitness and viability in the same order, or the same exception
was raised, and the random state is the same. -/
def Spec.IslandsEndAlike (r r' : PyM (List (List Nat) × List (List Nat)) × Mem γ ψ φ ρ) : Prop :=
  match r, r' with
  | (.ok (pops, queues), m), (.ok (pops', queues'), m') =>
    pops.map (·.map (looks m)) = pops'.map (·.map (looks m')) ∧ queues.map (·.map (looks m)) = queues'.map (·.map (looks m')) ∧ m.rng = m'.rng
  | (.error e, m), (.error e', m') => e = e' ∧ m.rng = m'.rng
  | _, _ => False

/-- The configuration does not tell generation `g + mid` from generation `g`, and `mid` is a multiple of the migration gap. `stop` is only given the islands. -/
structure Spec.Periodic (cfg : IslandConfig γ ψ φ ρ) (mid : Int) : Prop where
  choose : ∀ g, cfg.choose (g + mid) = cfg.choose g
  stop : ∀ g g', cfg.stop g = cfg.stop g'
  gap : cfg.gap ∣ mid

/-! ### Migration among twins -/

/-- Islands of peers. -/
abbrev PeerIslands (t : List γ → PyM φ) : List (List (Val γ φ)) → List (List (Val γ φ)) → Prop := List.Forall₂ (List.Forall₂ (Peer t))

theorem forall₂_set {α β : Type} {R : α → β → Prop} {l : List α} {l' : List β} (h : List.Forall₂ R l l') (i : Nat) {a : α} {b : β} (hab : R a b) :
    List.Forall₂ R (l.set i a) (l'.set i b) := by
  induction h generalizing i with
  | nil => exact .nil
  | cons hx hl ih =>
    cases i with
    | zero => exact .cons hab hl
    | succ i => exact .cons hx (ih i)

theorem forall₂_get {α β : Type} {R : α → β → Prop} {l : List α} {l' : List β} (h : List.Forall₂ R l l') (i : Nat) :
    (l[i]? = none ∧ l'[i]? = none) ∨ ∃ a b, l[i]? = some a ∧ l'[i]? = some b ∧ R a b := by
  induction h generalizing i with
  | nil => exact .inl ⟨rfl, rfl⟩
  | cons hx hl ih =>
    cases i with
    | zero => exact .inr ⟨_, _, rfl, rfl, hx⟩
    | succ i => exact ih i

theorem like_picked {t : List γ → PyM φ} {pop pop' : List (Val γ φ)} (h : List.Forall₂ (Peer t) pop pop') (pick : ρ → PyM Nat × ρ) :
    Like (picked pop pick) (picked pop' pick) fun a b => a.1 = b.1 ∧ Peer t a.2 b.2 := by
  unfold picked
  refine like_bind (like_draw _) ?_
  rintro i _ rfl
  rcases forall₂_get h i with ⟨h1, h2⟩ | ⟨a, b, h1, h2, hab⟩
  · rw [h1, h2]; exact like_raise _
  · rw [h1, h2]; exact like_pure ⟨rfl, hab⟩

theorem like_valueImmigrate {t : List γ → PyM φ} (cfg : IslandConfig γ ψ φ ρ) (hr : ByAppearance cfg.replace) {queue queue' : List (Val γ φ)}
    (hq : List.Forall₂ (Peer t) queue queue') : ∀ {pop pop' : List (Val γ φ)}, List.Forall₂ (Peer t) pop pop' →
    Like (valueImmigrate cfg queue pop) (valueImmigrate cfg queue' pop') (List.Forall₂ (Peer t)) := by
  induction hq with
  | nil => exact fun h => like_pure h
  | @cons a b _ _ hx _ ih =>
    intro pop pop' h
    unfold valueImmigrate
    have hpick : (fun s => cfg.replace (List.range pop'.length) (laidOut pop' s)) = fun s => cfg.replace (List.range pop.length) (laidOut pop s) :=
      funext fun s => (decide_twins hr (peers_twins h) s).symm
    rw [hpick]
    refine like_bind (like_picked h _) ?_
    rintro ⟨i, v⟩ ⟨_, v'⟩ ⟨rfl, hv⟩
    have e : cfg.worse a.fitness v.fitness = cfg.worse b.fitness v'.fitness := by rw [hx.1.2.1, hv.1.2.1]
    simp only [e]
    by_cases hw : cfg.worse b.fitness v'.fitness = true
    · simp only [if_pos hw]; exact ih h
    · simp only [if_neg hw]; exact ih (forall₂_set h i hx)

theorem twin_cloned_genes {t : List γ → PyM φ} {v v' : Val γ φ} (h : TwinVal t v v') :
    Like (ρ := ρ) (cloned v) (cloned v') fun c c' => TwinVal t c c' ∧ c.genes = v.genes := by
  refine like_bind like_uuid fun _ _ _ => like_pure ?_
  exact ⟨⟨h.1, rfl, h.2.2.1, h.2.2.2.1, by rintro f ⟨⟩⟩, rfl⟩

theorem like_valueEmigrate {t : List γ → PyM φ} (cfg : IslandConfig γ ψ φ ρ) (hsp : ByAppearance cfg.sponsor) (g : Int) (cur : Nat) {pop pop' : List (Val γ φ)}
    (h : List.Forall₂ (Peer t) pop pop') {queues queues' : List (List (Val γ φ))} (hq : PeerIslands t queues queues') :
    Like (valueEmigrate cfg g cur pop queues) (valueEmigrate cfg g cur pop' queues') (PeerIslands t) := by
  unfold valueEmigrate
  by_cases h0 : cfg.gap = 0
  · simp only [if_pos h0]; exact like_raise _
  by_cases h1 : g % cfg.gap = 0
  · simp only [if_neg h0, if_pos h1]
    have hpick : (fun s => cfg.sponsor (List.range pop'.length) (laidOut pop' s)) = fun s => cfg.sponsor (List.range pop.length) (laidOut pop s) :=
      funext fun s => (decide_twins hsp (peers_twins h) s).symm
    rw [hpick]
    refine like_bind (like_picked h _) ?_
    rintro ⟨i, v⟩ ⟨_, v'⟩ ⟨rfl, hv⟩
    refine like_bind (twin_cloned_genes hv.1) fun c c' hc => like_bind (like_draw _) ?_
    rintro k _ rfl
    cases (cfg.neighbors cur)[k]? with
    | none => exact like_raise _
    | some d =>
      simp only
      rcases forall₂_get hq d with ⟨e1, e2⟩ | ⟨q, q', e1, e2, hqq⟩
      · rw [e1, e2]; exact like_raise _
      · rw [e1, e2]
        refine like_pure (forall₂_set hq d (List.rel_append hqq (.cons ⟨⟨hc.1.1, hv.1.2.1, hc.1.2.2.1, hc.1.2.2.2.1, ?_⟩, hv.2⟩ .nil)))
        intro f hf
        rw [← hv.1.2.2.2.2 f hf, ← hc.2]
  · simp only [if_neg h0, if_neg h1]; exact like_pure hq

theorem like_valueIslandStep {t : List γ → PyM φ} {dec : Dec γ ψ} {prob : Prob γ ψ φ ρ} (ht : Exact t dec prob) {pre : List (Stage γ ψ φ ρ)} (hp : ∀ st ∈ pre, Breeds st)
    (cfg : IslandConfig γ ψ φ ρ) (hst : cfg.stages = pre ++ [.evaluate dec prob]) (hc : ∀ g i, ByAppearance (cfg.choose g i)) (hr : ByAppearance cfg.replace)
    (hsp : ByAppearance cfg.sponsor) (g : Int) (cur : Nat) {pop pop' : List (Val γ φ)} (h : List.Forall₂ (Peer t) pop pop') {queues queues' : List (List (Val γ φ))}
    (hq : PeerIslands t queues queues') :
    Like (valueIslandStep cfg g cur pop queues) (valueIslandStep cfg g cur pop' queues') fun a b => List.Forall₂ (Peer t) a.1 b.1 ∧ PeerIslands t a.2 b.2 := by
  unfold valueIslandStep
  have hpick : (fun s => cfg.choose g cur (List.range pop'.length) (laidOut pop' s)) = fun s => cfg.choose g cur (List.range pop.length) (laidOut pop s) :=
    funext fun s => (decide_twins (hc g cur) (peers_twins h) s).symm
  rw [hpick, hst]
  refine like_bind (like_offspring ht hp (peers_twins h) _ cfg.size) fun off off' ho => ?_
  rcases forall₂_get hq cur with ⟨e1, e2⟩ | ⟨q, q', e1, e2, hqq⟩
  · rw [e1, e2]; exact like_raise _
  · rw [e1, e2]
    exact like_bind (like_valueImmigrate cfg hr hqq ho) fun p p' hpp => like_bind (like_valueEmigrate cfg hsp g cur hpp (forall₂_set hq cur .nil)) fun _ _ hqs =>
      like_pure ⟨hpp, hqs⟩

theorem like_valueSweep {t : List γ → PyM φ} {dec : Dec γ ψ} {prob : Prob γ ψ φ ρ} (ht : Exact t dec prob) {pre : List (Stage γ ψ φ ρ)} (hp : ∀ st ∈ pre, Breeds st)
    (cfg : IslandConfig γ ψ φ ρ) (hst : cfg.stages = pre ++ [.evaluate dec prob]) (hc : ∀ g i, ByAppearance (cfg.choose g i)) (hr : ByAppearance cfg.replace)
    (hsp : ByAppearance cfg.sponsor) (g : Int) (k : Nat) : ∀ (cur : Nat) {pops pops' queues queues' : List (List (Val γ φ))}, PeerIslands t pops pops' →
    PeerIslands t queues queues' →
    Like (valueSweep cfg g k cur pops queues) (valueSweep cfg g k cur pops' queues') fun a b => PeerIslands t a.1 b.1 ∧ PeerIslands t a.2 b.2 := by
  induction k with
  | zero => exact fun cur _ _ _ _ h hq => like_pure ⟨h, hq⟩
  | succ k ih =>
    intro cur pops pops' queues queues' h hq
    unfold valueSweep
    have hcur : List.Forall₂ (Peer t) (pops.getD cur []) (pops'.getD cur []) := by
      rw [List.getD_eq_getElem?_getD, List.getD_eq_getElem?_getD]
      rcases forall₂_get h cur with ⟨e1, e2⟩ | ⟨q, q', e1, e2, hqq⟩
      · rw [e1, e2]; exact .nil
      · rw [e1, e2]; exact hqq
    refine like_bind (like_valueIslandStep ht hp cfg hst hc hr hsp g cur hcur hq) ?_
    rintro ⟨p, q⟩ ⟨p', q'⟩ ⟨h1, h2⟩
    exact ih (cur + 1) (forall₂_set h cur h1) h2

theorem stop_peers {δ : Type} {stop : List (List Nat) → Mem γ ψ φ ρ → δ} (hs : AllByAppearance stop) {t : List γ → PyM φ} {pops pops' : List (List (Val γ φ))}
    (h : PeerIslands t pops pops') (s : ρ) : stop (islandsNumbered 0 pops) (laidOut pops.flatten s) = stop (islandsNumbered 0 pops') (laidOut pops'.flatten s) := by
  refine hs _ _ _ _ rfl ?_
  have e1 := looks_islands (ψ := ψ) pops s []
  have e2 := looks_islands (ψ := ψ) pops' s []
  rw [List.nil_append, List.length_nil] at e1 e2
  rw [e1, e2]
  clear e1 e2
  induction h with
  | nil => rfl
  | cons hx _ ih =>
    rw [List.map_cons, List.map_cons, ih]
    congr 1
    clear ih
    induction hx with
    | nil => rfl
    | cons hy _ ih => simp only [List.map_cons, ih, hy.1.1, hy.1.2.1, hy.1.2.2.1, hy.1.2.2.2.1]

theorem like_valueIslandLoop {t : List γ → PyM φ} {dec : Dec γ ψ} {prob : Prob γ ψ φ ρ} (ht : Exact t dec prob) {pre : List (Stage γ ψ φ ρ)} (hp : ∀ st ∈ pre, Breeds st)
    (cfg : IslandConfig γ ψ φ ρ) (hst : cfg.stages = pre ++ [.evaluate dec prob]) (hc : ∀ g i, ByAppearance (cfg.choose g i)) (hr : ByAppearance cfg.replace)
    (hsp : ByAppearance cfg.sponsor) (hs : ∀ g, AllByAppearance (cfg.stop g)) (fuel : Nat) : ∀ (g : Int) {pops pops' queues queues' : List (List (Val γ φ))},
    PeerIslands t pops pops' → PeerIslands t queues queues' →
    Like (valueIslandLoop cfg fuel g pops queues) (valueIslandLoop cfg fuel g pops' queues') fun a b => PeerIslands t a.1 b.1 ∧ PeerIslands t a.2 b.2 := by
  induction fuel with
  | zero => exact fun _ _ _ _ _ h hq => like_pure ⟨h, hq⟩
  | succ fuel ih =>
    intro g pops pops' queues queues' h hq w w' e
    unfold valueIslandLoop
    rw [← e, ← stop_peers (hs g) h w.rng, ← h.length_eq]
    by_cases hb : cfg.stop g (islandsNumbered 0 pops) (laidOut pops.flatten w.rng) = true
    · rw [if_pos hb, if_pos hb]
      exact ⟨⟨h, hq⟩, e⟩
    · rw [if_neg hb, if_neg hb]
      exact like_bind (like_valueSweep ht hp cfg hst hc hr hsp g _ 0 h hq) (fun a b hab => ih (g + 1) hab.1 hab.2) w w' e

/-! ### Longer runs -/

theorem islandLoop_next (cfg : IslandConfig γ ψ φ ρ) (fuel : Nat) (g : Int) (pops queues : List (List Nat)) (m : Mem γ ψ φ ρ) :
    islandLoop cfg (fuel + 1) g pops queues m =
      if cfg.stop g pops m then (.ok (pops, queues), m) else (islandSweep cfg g pops.length 0 pops queues >>= fun pq => islandLoop cfg fuel (g + 1) pq.1 pq.2) m := rfl

theorem islandLoop_stopped (cfg : IslandConfig γ ψ φ ρ) (fuel : Nat) (g : Int) (pops queues : List (List Nat)) (m : Mem γ ψ φ ρ) (h : cfg.stop g pops m = true) :
    islandLoop cfg fuel g pops queues m = (.ok (pops, queues), m) := by
  cases fuel with
  | zero => rfl
  | succ fuel => rw [islandLoop_next, if_pos h]

theorem islandLoop_more (cfg : IslandConfig γ ψ φ ρ) (hs : ∀ g g', cfg.stop g = cfg.stop g') (k : Nat) : ∀ (j : Nat) (g : Int) (pops queues : List (List Nat))
    (m : Mem γ ψ φ ρ), islandLoop cfg (j + k) g pops queues m = (islandLoop cfg j g pops queues >>= fun pq => islandLoop cfg k (g + j) pq.1 pq.2) m := by
  intro j
  induction j with
  | zero => intro g pops queues m; simp [islandLoop, HM.bind_apply]
  | succ j ih =>
    intro g pops queues m
    have hg : g + ((j + 1 : Nat) : Int) = g + 1 + (j : Int) := by omega
    rw [hg, HM.bind_apply, Nat.add_right_comm, islandLoop_next, islandLoop_next]
    by_cases hb : cfg.stop g pops m = true
    · rw [if_pos hb, if_pos hb]
      exact (islandLoop_stopped cfg k _ pops queues m (by rw [hs _ g]; exact hb)).symm
    · rw [if_neg hb, if_neg hb, HM.bind_apply, HM.bind_apply]
      rcases islandSweep cfg g pops.length 0 pops queues m with ⟨(e | pq), m1⟩
      · rfl
      · exact ih (g + 1) pq.1 pq.2 m1

theorem islandRun_more (cfg : IslandConfig γ ψ φ ρ) (hs : ∀ g g', cfg.stop g = cfg.stop g') (init : ρ → PyM (List γ) × ρ) (dec : Dec γ ψ) (prob : Prob γ ψ φ ρ)
    (problem numPopulations popSize : Nat) (mid max : Int) (h1 : 0 ≤ mid) (h2 : mid ≤ max) (m : Mem γ ψ φ ρ) :
    islandRun cfg init dec prob problem numPopulations popSize max m =
      (islandRun cfg init dec prob problem numPopulations popSize mid >>= fun pq => islandLoop cfg (max - mid).toNat mid pq.1 pq.2) m := by
  have e1 : max.toNat = mid.toNat + (max - mid).toNat := by omega
  have e2 : 0 + (mid.toNat : Int) = mid := by omega
  unfold islandRun
  simp only [HM.bind_apply, e1]
  rcases createIslands init problem popSize numPopulations m with ⟨(e | pops), m1⟩
  · rfl
  · simp only []
    rcases evaluateIslands dec prob pops m1 with ⟨(e | u), m2⟩
    · rfl
    · have := islandLoop_more cfg hs (max - mid).toNat mid.toNat 0 pops (List.replicate cfg.numIslands []) m2
      rw [e2, HM.bind_apply] at this
      exact this

/-! ### Counting from 0 again -/

theorem valueSweep_again {cfg : IslandConfig γ ψ φ ρ} {mid : Int} (h : Periodic cfg mid) (g : Int) (k : Nat) : ∀ (cur : Nat) (pops queues : List (List (Val γ φ))),
    valueSweep cfg (g + mid) k cur pops queues = valueSweep cfg g k cur pops queues := by
  have hg : ((g + mid) % cfg.gap = 0) = (g % cfg.gap = 0) := by
    obtain ⟨q, rfl⟩ := h.gap
    rw [Int.add_mul_emod_self_left]
  have step : ∀ cur pop queues, valueIslandStep cfg (g + mid) cur pop queues = valueIslandStep cfg g cur pop queues := by
    intro cur pop queues
    unfold valueIslandStep valueEmigrate
    simp only [h.choose g, hg]
  induction k with
  | zero => exact fun _ _ _ => rfl
  | succ k ih =>
    intro cur pops queues
    unfold valueSweep
    simp only [step, ih]

theorem valueIslandLoop_again {cfg : IslandConfig γ ψ φ ρ} {mid : Int} (h : Periodic cfg mid) (fuel : Nat) : ∀ (g : Int) (pops queues : List (List (Val γ φ))),
    valueIslandLoop cfg fuel (g + mid) pops queues = valueIslandLoop cfg fuel g pops queues := by
  induction fuel with
  | zero => exact fun _ _ _ => rfl
  | succ fuel ih =>
    intro g pops queues
    have e : g + mid + 1 = g + 1 + mid := by omega
    unfold valueIslandLoop
    simp only [h.stop (g + mid) g, valueSweep_again h, e, ih]
    rfl

/-! ### The second call -/

theorem ref_islandRunReusing (cfg : IslandConfig γ ψ φ ρ) (hc : ∀ g i, ByAppearance (cfg.choose g i)) (hr : ByAppearance cfg.replace) (hsp : ByAppearance cfg.sponsor)
    (hs : ∀ g, AllByAppearance (cfg.stop g)) (initGenome : ρ → PyM (List γ) × ρ) (dec : Dec γ ψ) (prob : Prob γ ψ φ ρ) (problem numPopulations popSize : Nat) (max : Int)
    (Q : List (List (Entry γ ψ φ))) (m : Mem γ ψ φ ρ) (hQ : Crowd m Q) :
    Ref (islandRunReusing cfg (addrs Q) initGenome dec prob problem numPopulations popSize max)
      (newbornIslands initGenome problem popSize numPopulations >>= fun created => islandsScored dec prob created >>= fun pops =>
        valueIslandLoop cfg max.toNat 0 pops (vals Q)) m IslandOutcome := by
  refine ref_bind (ref_createIslands initGenome problem popSize numPopulations (own := []) (rest := Q.flatten) (tidy_all (by
    intro e he
    obtain ⟨q, hq, he⟩ := List.mem_flatten.1 he
    exact hQ q hq e he))) ?_
  rintro _ _ m1 ⟨E, rfl, rfl, ht⟩
  refine ref_bind (ref_evaluateIslands dec prob E ht) ?_
  rintro _ _ m2 ⟨E1, ha, rfl, ht1⟩
  rw [← ha]
  exact ref_islandLoop cfg hc hr hsp hs _ _ E1 Q m2 (fun p hp e he => ht1.1 e (by simp only [List.append_nil]; exact List.mem_flatten.2 ⟨p, hp, he⟩))
    fun q hq e he => ht1.2.1 e (List.mem_flatten.2 ⟨q, hq, he⟩)

theorem delivers_append (init : ρ → PyM (List γ) × ρ) (a b : List (List γ)) : ∀ (s s' : ρ), Delivers init s (a ++ b) s' → ∃ s1, Delivers init s a s1 ∧ Delivers init s1 b s' := by
  induction a with
  | nil => exact fun s s' h => ⟨s, rfl, h⟩
  | cons g a ih =>
    rintro s s' ⟨h1, h2⟩
    obtain ⟨s1, h3, h4⟩ := ih _ _ h2
    exact ⟨s1, ⟨h1, h3⟩, h4⟩

theorem reborn_islands {t : List γ → PyM φ} {dec : Dec γ ψ} {prob : Prob γ ψ φ ρ} (ht : Exact t dec prob) (init : ρ → PyM (List γ) × ρ) (problem popSize : Nat)
    (vss : List (List (Val γ φ))) : ∀ (s' : ρ) (w : Luck ρ), (∀ vs ∈ vss, vs.length = popSize ∧ ∀ v ∈ vs, Peer t v v) →
      Delivers init w.rng (vss.map (·.map (·.genes))).flatten s' →
      ∃ bss w1, newbornIslands init problem popSize vss.length w = (.ok bss, w1) ∧ w1.rng = s' ∧
        ∀ w2, ∃ pss, islandsScored dec prob bss w2 = (.ok pss, w2) ∧ PeerIslands t vss pss := by
  induction vss with
  | nil => exact fun s' w _ hd => ⟨[], w, rfl, hd, fun w2 => ⟨[], rfl, .nil⟩⟩
  | cons vs vss ih =>
    intro s' w hv hd
    rw [List.map_cons, List.flatten_cons] at hd
    obtain ⟨s1, hd1, hd2⟩ := delivers_append _ _ _ _ _ hd
    obtain ⟨hlen, hpeer⟩ := hv vs (by simp)
    obtain ⟨bs, w1, e1, e2, e3⟩ := reborn ht init problem vs s1 w hpeer hd1
    obtain ⟨bss, w2, f1, f2, f3⟩ := ih s' w1 (fun x hx => hv x (by simp [hx])) (by rw [e2]; exact hd2)
    rw [hlen] at e1
    refine ⟨bs :: bss, w2, ?_, f2, fun w3 => ?_⟩
    · simp only [List.length_cons, newbornIslands, HM.bind_apply, e1, f1, HM.pure_apply]
    · obtain ⟨ps, e4, h4⟩ := e3 w3
      obtain ⟨pss, f4, g4⟩ := f3 w3
      refine ⟨ps :: pss, ?_, .cons h4 g4⟩
      simp only [islandsScored, HM.bind_apply, e4, f4, HM.pure_apply]

theorem twin_newbornIslands {t : List γ → PyM φ} (init : ρ → PyM (List γ) × ρ) (problem popSize k : Nat) :
    Like (newbornIslands (φ := φ) init problem popSize k) (newbornIslands init problem popSize k) (List.Forall₂ (List.Forall₂ (TwinVal t))) := by
  induction k with
  | zero => exact like_pure .nil
  | succ k ih => exact like_bind (twin_newborns init problem popSize) fun _ _ h => like_bind ih fun _ _ hs => like_pure (.cons h hs)

theorem peer_islandsScored {t : List γ → PyM φ} {dec : Dec γ ψ} {prob : Prob γ ψ φ ρ} (ht : Exact t dec prob) {l l' : List (List (Val γ φ))}
    (h : List.Forall₂ (List.Forall₂ (TwinVal t)) l l') : Like (islandsScored dec prob l) (islandsScored dec prob l') (PeerIslands t) := by
  induction h with
  | nil => exact like_pure .nil
  | cons hx _ ih => exact like_bind (peer_allScored ht hx) fun _ _ hv => like_bind ih fun _ _ h => like_pure (.cons hv h)

theorem looks_of_crowd {m : Mem γ ψ φ ρ} {P : List (List (Entry γ ψ φ))} (h : Crowd m P) :
    (addrs P).map (·.map (looks m)) = (vals P).map (·.map fun v => (some v.genes, some v.fitness, v.viable)) := by
  rw [List.map_map, List.map_map]
  exact List.map_congr_left fun p hp => looks_of_seen (seen_of_in p (h p hp))

theorem looks_of_peers {t : List γ → PyM φ} {a b : List (List (Val γ φ))} (h : PeerIslands t a b) :
    a.map (·.map fun v => (some v.genes, some v.fitness, v.viable)) = b.map (·.map fun v => (some v.genes, some v.fitness, v.viable)) := by
  induction h with
  | nil => rfl
  | cons hx _ ih =>
    rw [List.map_cons, List.map_cons, ih]
    congr 1
    clear ih
    induction hx with
    | nil => rfl
    | cons hy _ ih => simp only [List.map_cons, ih, hy.1.1, hy.1.2.1, hy.1.2.2.1, hy.1.2.2.2.1]

/-- **C134** (`multi_population_ea`), any topology, migration gap, selections and stop condition that go by genes, fitness and viability. Suppose that a call with
`max_generations = mid` returned, that `mid` is a multiple of the migration gap, and that nothing depends on the number of the generation otherwise. If the islands are created
again from the saved genomes, with the random state restored, and with the same `migrate` operator, whose queues still hold those who travel, then a second call with
`max_generations = max - mid` ends as the first would have ended with `max_generations = max`. -/
theorem island_restart_continues (cfg : IslandConfig γ ψ φ ρ) (pre : List (Stage γ ψ φ ρ)) (dec : Dec γ ψ) (prob : Prob γ ψ φ ρ)
    (hst : cfg.stages = pre ++ [.evaluate dec prob]) (hpre : ∀ st ∈ pre, Breeds st) (hd : Deterministic prob) (hc : ∀ g i, ByAppearance (cfg.choose g i))
    (hr : ByAppearance cfg.replace) (hsp : ByAppearance cfg.sponsor) (hs : ∀ g, AllByAppearance (cfg.stop g)) (init : ρ → PyM (List γ) × ρ)
    (problem numPopulations popSize : Nat) (mid max : Int) (h1 : 0 ≤ mid) (h2 : mid ≤ max) (hper : Periodic cfg mid) (m m1 : Mem γ ψ φ ρ) (pops queues : List (List Nat))
    (hrun : islandRun cfg init dec prob problem numPopulations popSize mid m = (.ok (pops, queues), m1)) (reload : ρ → PyM (List γ) × ρ) (problem' popSize' : Nat)
    (saved : List (List (List γ))) (hsaved : pops.map (·.map (genes m1)) = saved.map (·.map some)) (hsize : ∀ p ∈ saved, p.length = popSize') (s : ρ)
    (hload : Delivers reload s saved.flatten m1.rng) :
    IslandsEndAlike (islandRun cfg init dec prob problem numPopulations popSize max m)
      (islandRunReusing cfg queues reload dec prob problem' saved.length popSize' (max - mid) { m1 with rng := s }) := by
  obtain ⟨score, hscore⟩ := hd
  have ht := exact_of dec hscore
  generalize trueScore dec score = t at ht
  have r1 : Ref (islandRun cfg init dec prob problem numPopulations popSize mid) (valueIslandRun cfg init dec prob problem numPopulations popSize mid) m IslandOutcome := by
    have e1 : List.replicate cfg.numIslands [] = addrs (List.replicate cfg.numIslands ([] : List (Entry γ ψ φ))) := by simp
    have e2 : (List.replicate cfg.numIslands [] : List (List (Val γ φ))) = vals (List.replicate cfg.numIslands ([] : List (Entry γ ψ φ))) := by simp
    have := ref_islandRunReusing cfg hc hr hsp hs init dec prob problem numPopulations popSize mid (List.replicate cfg.numIslands []) m (by
      intro q hq e he
      rw [(List.mem_replicate.1 hq).2] at he
      simp at he)
    rw [← e1, ← e2] at this
    exact this
  unfold Ref at r1
  rw [hrun] at r1
  rcases ev : valueIslandRun cfg init dec prob problem numPopulations popSize mid (luck m) with ⟨(e | vq), w1⟩
  · rw [ev] at r1; exact r1.elim
  rw [ev] at r1
  obtain ⟨⟨P, Q, hpq, rfl, hP, hQ⟩, rfl⟩ := r1
  obtain ⟨rfl, rfl⟩ := Prod.mk.inj hpq
  have self : Like (valueIslandRun cfg init dec prob problem numPopulations popSize mid) (valueIslandRun cfg init dec prob problem numPopulations popSize mid)
      fun a b => PeerIslands t a.1 b.1 ∧ PeerIslands t a.2 b.2 :=
    like_bind (twin_newbornIslands init problem popSize numPopulations) fun _ _ h => like_bind (peer_islandsScored ht h) fun _ _ h =>
      like_valueIslandLoop ht hpre cfg hst hc hr hsp hs _ _ h (List.forall₂_same.2 fun q hq => by rw [(List.mem_replicate.1 hq).2]; exact .nil)
  have self := self (luck m) (luck m) rfl
  rw [ev] at self
  obtain ⟨⟨hpp, hqq⟩, _⟩ := self
  have hgenes : (vals P).map (·.map (·.genes)) = saved := by
    have hl := congrArg (List.map (List.map Prod.fst)) (looks_of_crowd hP)
    simp only [List.map_map] at hl
    have h3 : ((vals P).map (·.map (·.genes))).map (List.map some) = saved.map (List.map some) := by
      rw [← hsaved]
      simp only [List.map_map]
      refine Eq.trans ?_ (Eq.trans hl.symm ?_)
      · apply List.map_congr_left
        intro p _
        simp [Function.comp_def]
      · apply List.map_congr_left
        intro p _
        simp [Function.comp_def, looks]
    exact List.map_injective_iff.2 (List.map_injective_iff.2 (Option.some_injective _)) h3
  subst hgenes
  have hpeers : ∀ vs ∈ vals P, vs.length = popSize' ∧ ∀ v ∈ vs, Peer t v v := by
    intro vs hvs
    refine ⟨?_, List.forall₂_same.1 (List.forall₂_same.1 hpp vs hvs)⟩
    have := hsize (vs.map (·.genes)) (List.mem_map_of_mem hvs)
    simpa using this
  have hQ' : Crowd ({ m1 with rng := s } : Mem γ ψ φ ρ) Q := hQ
  have r2 := ref_islandRunReusing cfg hc hr hsp hs reload dec prob problem' (vals P).length popSize' (max - mid) Q { m1 with rng := s } hQ'
  obtain ⟨bss, w2, e1, e2, e3⟩ := reborn_islands ht reload problem' popSize' (vals P) m1.rng (luck ({ m1 with rng := s } : Mem γ ψ φ ρ)) hpeers hload
  obtain ⟨pss, e4, hpss⟩ := e3 w2
  have r4 := like_valueIslandLoop ht hpre cfg hst hc hr hsp hs (max - mid).toNat 0 hpss hqq (luck m1) w2 e2.symm
  have r3 := ref_islandLoop cfg hc hr hsp hs (max - mid).toNat mid P Q m1 hP hQ
  have again := valueIslandLoop_again hper (max - mid).toNat 0 (vals P) (vals Q)
  rw [zero_add] at again
  rw [again] at r3
  rw [islandRun_more cfg hper.stop init dec prob problem numPopulations popSize mid max h1 h2 m, HM.bind_apply, hrun]
  simp only []
  unfold Ref at r2 r3
  simp only [HM.bind_apply, e1, e4] at r2
  unfold IslandsEndAlike
  simp only [List.length_map] at r2 ⊢
  rcases x1 : islandLoop cfg (max - mid).toNat mid (addrs P) (addrs Q) m1 with ⟨(ea | ⟨a1, a2⟩), na⟩ <;>
    rcases x2 : islandRunReusing cfg (addrs Q) reload dec prob problem' P.length popSize' (max - mid) { m1 with rng := s } with ⟨(eb | ⟨b1, b2⟩), nb⟩ <;>
    rcases x3 : valueIslandLoop cfg (max - mid).toNat 0 (vals P) (vals Q) (luck m1) with ⟨(ec | c), nc⟩ <;>
    rcases x4 : valueIslandLoop cfg (max - mid).toNat 0 pss (vals Q) w2 with ⟨(ed | d), nd⟩ <;>
    rw [x1, x3] at r3 <;> rw [x2, x4] at r2 <;> rw [x3, x4] at r4 <;> simp only at r2 r3 r4 ⊢
  · obtain ⟨rfl, rfl⟩ := r3
    obtain ⟨rfl, rfl⟩ := r2
    exact r4
  · obtain ⟨⟨P1, Q1, ha, rfl, hP1, hQ1⟩, rfl⟩ := r3
    obtain ⟨⟨P2, Q2, hb, rfl, hP2, hQ2⟩, rfl⟩ := r2
    obtain ⟨rfl, rfl⟩ := Prod.mk.inj ha
    obtain ⟨rfl, rfl⟩ := Prod.mk.inj hb
    obtain ⟨⟨hpa, hqa⟩, hrng⟩ := r4
    refine ⟨?_, ?_, hrng⟩
    · rw [looks_of_crowd hP1, looks_of_crowd hP2, looks_of_peers hpa]
    · rw [looks_of_crowd hQ1, looks_of_crowd hQ2, looks_of_peers hqa]

end

/-! ### Some runs -/

/-- Two islands of two that send somebody every `gap` generations, and a problem that draws no random numbers. -/
def exCalmIslands (gap : Int) : IslandConfig Int Int Int Nat :=
  { exIslands with
    gap := gap
    stages := [.mutate (.ok ()) false (bitflipFn (some 1) none fun s => (if s % 5 < 3 then [1 / 4, 3 / 4] else [3 / 4, 1 / 4], s + 1)), .evaluate .identity exCalm] }

/-- The genomes on the islands and on the way, and the random state. -/
def exAll (r : PyM (List (List Nat) × List (List Nat)) × Mem Int Int Int Nat) : Option (List (List (Option (List Int))) × List (List (Option (List Int)))) × Nat :=
  (r.1.toOption.map fun x => (x.1.map (·.map (genes r.2)), x.2.map (·.map (genes r.2))), r.2.rng)

theorem exAll_alike {r r' : PyM (List (List Nat) × List (List Nat)) × Mem Int Int Int Nat} (h : IslandsEndAlike r r') : exAll r = exAll r' := by
  obtain ⟨(e | ⟨a, b⟩), m⟩ := r <;> obtain ⟨(e' | ⟨a', b'⟩), m'⟩ := r' <;> unfold IslandsEndAlike at h <;> simp only at h
  · obtain ⟨rfl, h⟩ := h
    simp [exAll, Except.toOption, h]
  · obtain ⟨h1, h2, h3⟩ := h
    have e1 := congrArg (List.map (List.map Prod.fst)) h1
    have e2 := congrArg (List.map (List.map Prod.fst)) h2
    simp only [List.map_map] at e1 e2
    have f1 : a.map (·.map (genes m)) = a'.map (·.map (genes m')) := by simpa [Function.comp_def, looks] using e1
    have f2 : b.map (·.map (genes m)) = b'.map (·.map (genes m')) := by simpa [Function.comp_def, looks] using e2
    simp only [exAll, Except.toOption, Option.map_some, f1, f2, h3]

theorem not_alike {r r' : PyM (List (List Nat) × List (List Nat)) × Mem Int Int Int Nat} (h : exAll r ≠ exAll r') : ¬ IslandsEndAlike r r' := fun e => h (exAll_alike e)

/-- The first island was `[1, 0]`, `[1, 0]`, the second `[1, 0]`, `[0, 1]`. -/
def exReloadIslands (s : Nat) : PyM (List Int) × Nat := (.ok (if s = 16 then [0, 1] else [1, 0]), s + 1)

theorem exCalmIslands_periodic : Periodic (exCalmIslands 1) 1 := ⟨fun _ => rfl, fun _ _ => rfl, one_dvd _⟩

set_option synthInstance.maxSize 1000 in
set_option synthInstance.maxHeartbeats 100000 in
/-- Three generations, and the same after a stop after the first, when somebody is on the way to the first island. -/
example :
    let pre : List (Stage Int Int Int Nat) := [.mutate (.ok ()) false (bitflipFn (some 1) none fun s => (if s % 5 < 3 then [1 / 4, 3 / 4] else [3 / 4, 1 / 4], s + 1))]
    let r := islandRun (exCalmIslands 1) exInit .identity exCalm 0 2 2 1 exStart
    (exCalmIslands 1).stages = pre ++ [.evaluate .identity exCalm] ∧ (∀ st ∈ pre, Breeds st) ∧ Deterministic exCalm ∧ Periodic (exCalmIslands 1) 1 ∧
    (∀ g i, ByAppearance ((exCalmIslands 1).choose g i)) ∧ ByAppearance (exCalmIslands 1).replace ∧ ByAppearance (exCalmIslands 1).sponsor ∧
    (∀ g, AllByAppearance ((exCalmIslands 1).stop g)) ∧
    r.1.toOption = some ([[4, 5], [6, 8]], [[9], []]) ∧ exAll r = (some ([[some [1, 0], some [1, 0]], [some [1, 0], some [0, 1]]], [[some [0, 1]], []]), 17) ∧
    Delivers exReloadIslands 13 [[[1, 0], [1, 0]], [[1, 0], [0, 1]]].flatten 17 ∧
    exAll (islandRun (exCalmIslands 1) exInit .identity exCalm 0 2 2 3 exStart) =
      (some ([[some [1, 0], some [0, 1]], [some [1, 0], some [0, 1]]], [[some [0, 1]], []]), 45) ∧
    exAll (islandRunReusing (exCalmIslands 1) [[9], []] exReloadIslands .identity exCalm 0 2 2 2 { r.2 with rng := 13 }) =
      (some ([[some [1, 0], some [0, 1]], [some [1, 0], some [0, 1]]], [[some [0, 1]], []]), 45) := by
  have len : ∀ {pop pop' : List Nat} {m m' : Mem Int Int Int Nat}, pop.map (looks m) = pop'.map (looks m') → pop.length = pop'.length := by
    intro pop pop' m m' h
    simpa using congrArg List.length h
  refine ⟨rfl, by rintro st (_ | ⟨_, ⟨⟩⟩); exact .mutate, ⟨fun c => match c with | .raw g => .ok g.sum | .value v => .ok v, by rintro (g | v) s <;> rfl⟩,
    exCalmIslands_periodic, ?_, ?_, ?_, fun _ _ _ _ _ _ _ => rfl, by decide +kernel, by decide +kernel, ⟨rfl, rfl, rfl, rfl, rfl⟩, by decide +kernel, by decide +kernel⟩
  · intro g i pop m pop' m' hr hl
    change ((Except.ok (m.rng % pop.length) : PyM Nat), m.rng + 1) = (Except.ok (m'.rng % pop'.length), m'.rng + 1)
    rw [len hl, hr]
  · intro pop m pop' m' hr hl
    change ((Except.ok 0 : PyM Nat), m.rng + 1) = (Except.ok 0, m'.rng + 1)
    rw [hr]
  · intro pop m pop' m' hr hl
    change ((Except.ok (m.rng % pop.length) : PyM Nat), m.rng + 1) = (Except.ok (m'.rng % pop'.length), m'.rng + 1)
    rw [len hl, hr]

set_option synthInstance.maxSize 1000 in
set_option synthInstance.maxHeartbeats 100000 in
/-- **C134** (a limit): with a new `migrate` operator, as in a new process, those who travel are lost, and the run goes on differently: islands that satisfy everything that
`island_restart_continues` asks for, saved after a generation and restarted from all genomes on the islands and the random state. -/
theorem islands_restarted_anew_differ :
    ∃ (pops queues : List (List Nat)) (m1 : Mem Int Int Int Nat), islandRun (exCalmIslands 1) exInit .identity exCalm 0 2 2 1 exStart = (.ok (pops, queues), m1) ∧
      pops.map (·.map (genes m1)) = [[[1, 0], [1, 0]], [[1, 0], [0, 1]]].map (·.map some) ∧ Delivers exReloadIslands 13 [[[1, 0], [1, 0]], [[1, 0], [0, 1]]].flatten m1.rng ∧
      ¬ IslandsEndAlike (islandRun (exCalmIslands 1) exInit .identity exCalm 0 2 2 3 exStart)
        (islandRun (exCalmIslands 1) exReloadIslands .identity exCalm 0 2 2 2 { m1 with rng := 13 }) := by
  have hr : (islandRun (exCalmIslands 1) exInit .identity exCalm 0 2 2 1 exStart).1.toOption = some ([[4, 5], [6, 8]], [[9], []]) := by decide +kernel
  rcases hx : islandRun (exCalmIslands 1) exInit .identity exCalm 0 2 2 1 exStart with ⟨(e | ⟨pops, queues⟩), m1⟩ <;> rw [hx] at hr
  · cases hr
  have hm : m1 = (islandRun (exCalmIslands 1) exInit .identity exCalm 0 2 2 1 exStart).2 := by rw [hx]
  obtain ⟨rfl, rfl⟩ := Prod.mk.inj (Option.some.inj hr)
  refine ⟨_, _, m1, rfl, ?_, ?_, not_alike ?_⟩
  · rw [hm]; decide +kernel
  · have h17 : m1.rng = 17 := by rw [hm]; decide +kernel
    rw [h17]
    exact ⟨rfl, rfl, rfl, rfl, rfl⟩
  · rw [hm]; decide +kernel

set_option synthInstance.maxSize 1000 in
set_option synthInstance.maxHeartbeats 100000 in
/-- **C134** (a limit): and even with the same operator the number of generations has to be a multiple of the migration gap, because the second call counts from 0 again. -/
theorem islands_restarted_out_of_step_differ :
    ∃ (pops queues : List (List Nat)) (m1 : Mem Int Int Int Nat), islandRun (exCalmIslands 2) exInit .identity exCalm 0 2 2 1 exStart = (.ok (pops, queues), m1) ∧
      pops.map (·.map (genes m1)) = [[[1, 0], [1, 0]], [[1, 0], [0, 1]]].map (·.map some) ∧ Delivers exReloadIslands 13 [[[1, 0], [1, 0]], [[1, 0], [0, 1]]].flatten m1.rng ∧
      ¬ IslandsEndAlike (islandRun (exCalmIslands 2) exInit .identity exCalm 0 2 2 3 exStart)
        (islandRunReusing (exCalmIslands 2) queues exReloadIslands .identity exCalm 0 2 2 2 { m1 with rng := 13 }) := by
  have hr : (islandRun (exCalmIslands 2) exInit .identity exCalm 0 2 2 1 exStart).1.toOption = some ([[4, 5], [6, 8]], [[9], []]) := by decide +kernel
  rcases hx : islandRun (exCalmIslands 2) exInit .identity exCalm 0 2 2 1 exStart with ⟨(e | ⟨pops, queues⟩), m1⟩ <;> rw [hx] at hr
  · cases hr
  have hm : m1 = (islandRun (exCalmIslands 2) exInit .identity exCalm 0 2 2 1 exStart).2 := by rw [hx]
  obtain ⟨rfl, rfl⟩ := Prod.mk.inj (Option.some.inj hr)
  refine ⟨_, _, m1, rfl, ?_, ?_, not_alike ?_⟩
  · rw [hm]; decide +kernel
  · have h17 : m1.rng = 17 := by rw [hm]; decide +kernel
    rw [h17]
    exact ⟨rfl, rfl, rfl, rfl, rfl⟩
  · rw [hm]; decide +kernel

end Leap
