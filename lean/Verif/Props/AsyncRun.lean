import Verif.Model.AsyncRun
import Verif.Props.IslandRun
import Verif.Props.Distrib

/-! # Asynchronous steady-state runs: feasible, truly scored, and never losing the best (C89) -/

namespace Leap
open Spec

variable {γ ψ φ ρ : Type} {n : Nat} {allowed : Nat → γ → Prop}

/-- Decoding or scoring `g` raises. -/
def Spec.Fails (dec : Dec γ ψ) (prob : Prob γ ψ φ ρ) (g : List γ) : Prop :=
  (∃ e, decodeOf dec g = .error e) ∨ ∃ c s e, decodeOf dec g = .ok c ∧ (prob.evaluate c s).1 = .error e

/-- Acceptable genes; if viable, the problem's score of exactly these genes as fitness, and if not, NaN because scoring these
genes raises. -/
def Spec.Returned (n : Nat) (allowed : Nat → γ → Prop) (cfg : AsyncConfig γ ψ φ ρ) (m : Mem γ ψ φ ρ) (r : Nat) : Prop :=
  ∃ g f, genes m r = some g ∧ GenesIn n allowed g ∧ fitness m r = some (some f) ∧
    (viableInd m r = true → ScoredBy cfg.dec cfg.prob g f) ∧ (viableInd m r = false → f = cfg.nan ∧ Fails cfg.dec cfg.prob g)

/-- A score that individuals of the run may carry. -/
def Spec.ScoredOrFailed (cfg : AsyncConfig γ ψ φ ρ) (g : List γ) (f : φ) : Prop :=
  ScoredBy cfg.dec cfg.prob g f ∨ f = cfg.nan ∧ Fails cfg.dec cfg.prob g

/-- What an inserter may do: append below capacity, else compare with one member and take its place if that one is not viable or
is worse. -/
def Spec.Inserts (cfg : AsyncConfig γ ψ φ ρ) (gt : Option φ → Option φ → Bool) : Prop :=
  ∀ r pop m pop', (cfg.insert r pop m).1 = .ok pop' →
    (pop.length < cfg.popSize ∧ pop' = pop ++ [r]) ∨
    (cfg.popSize ≤ pop.length ∧ ∃ i old, pop[i]? = some old ∧
      pop' = if viableInd m old = false ∨ gt ((m.inds[r]?).bind Obj.fitness) ((m.inds[old]?).bind Obj.fitness) = true
        then pop.set i r else pop)

/-- C89: tournament insertion is such an inserter. -/
theorem tournament_inserter (cfg : AsyncConfig γ ψ φ ρ) (gt : Option φ → Option φ → Bool) (draw : ρ → Nat × ρ)
    (h : cfg.insert = tournamentInserter gt draw cfg.popSize) : Inserts cfg gt := by
  intro r pop m pop' e
  rw [h] at e
  obtain ⟨h1, h2, h3⟩ := tournament_insert_spec (viableInd m)
    (fun a b => gt ((m.inds[a]?).bind Obj.fitness) ((m.inds[b]?).bind Obj.fitness)) (draw m.rng).1 r pop cfg.popSize
  simp only [tournamentInserter] at e
  by_cases hl : pop.length < cfg.popSize
  · rw [h1 hl] at e; cases e; exact Or.inl ⟨hl, rfl⟩
  · by_cases hne : pop = []
    · rw [h3 (by subst hne; simpa using hl) hne] at e; cases e
    · obtain ⟨old, a, b⟩ := h2 (by omega) hne
      rw [b] at e
      exact Or.inr ⟨by omega, _, old, a, (Except.ok.inj e).symm⟩

/-- C89: so is greedy insertion. -/
theorem greedy_inserter (cfg : AsyncConfig γ ψ φ ρ) (lt gt : Option φ → Option φ → Bool)
    (h : cfg.insert = greedyInserter lt gt cfg.popSize) : Inserts cfg gt := by
  intro r pop m pop' e
  rw [h] at e
  simp only [greedyInserter, greedyInsert] at e
  split at e
  · rename_i hl; cases e; exact Or.inl ⟨hl, rfl⟩
  · rename_i hl
    cases pop with
    | nil => cases e
    | cons x xs =>
      simp only at e
      have hi := indexMin_lt (fun _ a b => lt ((m.inds[a]?).bind Obj.fitness) ((m.inds[b]?).bind Obj.fitness)) x xs
      refine Or.inr ⟨by omega, _, _, List.getElem?_eq_getElem hi, ?_⟩
      obtain ⟨a, b, -⟩ := replace_if_spec (viableInd m)
        (fun a b => gt ((m.inds[a]?).bind Obj.fitness) ((m.inds[b]?).bind Obj.fitness)) r (x :: xs)
        (indexMinFrom (fun _ a b => lt ((m.inds[a]?).bind Obj.fitness) ((m.inds[b]?).bind Obj.fitness)) (0, x) 1 xs)
      split
      · rename_i hc
        rw [a _ (List.getElem?_eq_getElem hi) hc] at e
        exact (Except.ok.inj e).symm
      · rename_i hc
        simp only [not_or, Bool.not_eq_true, Bool.not_eq_false] at hc
        rw [b _ (List.getElem?_eq_getElem hi) hc.1 hc.2] at e
        exact (Except.ok.inj e).symm

/-- C89: greedy insertion compares with the first of the weakest. -/
theorem greedy_inserter_weakest (lt gt : Option φ → Option φ → Bool) (hlt : StrictWeak lt) (popSize r : Nat) (pop : List Nat) (m : Mem γ ψ φ ρ)
    (hfull : popSize ≤ pop.length) (hne : pop ≠ []) :
    ∃ i old, pop[i]? = some old ∧ (∀ z ∈ pop, lt ((m.inds[z]?).bind Obj.fitness) ((m.inds[old]?).bind Obj.fitness) = false) ∧
      (∀ (k : Nat) (z : Nat), k < i → pop[k]? = some z → lt ((m.inds[old]?).bind Obj.fitness) ((m.inds[z]?).bind Obj.fitness) = true) ∧
      greedyInserter lt gt popSize r pop m =
        (.ok (if viableInd m old = false ∨ gt ((m.inds[r]?).bind Obj.fitness) ((m.inds[old]?).bind Obj.fitness) = true
          then pop.set i r else pop), m.rng) := by
  obtain ⟨i, old, h1, h2, h3, h4⟩ := (greedy_insert_spec (viableInd m) (fun a b => lt ((m.inds[a]?).bind Obj.fitness) ((m.inds[b]?).bind Obj.fitness))
    (fun a b => gt ((m.inds[a]?).bind Obj.fitness) ((m.inds[b]?).bind Obj.fitness))
    ⟨fun a b => hlt.asymm _ _, fun a b c => hlt.negTrans _ _ _⟩ r pop popSize).2.1 hfull hne
  exact ⟨i, old, h1, h2, h3, by simp only [greedyInserter]; rw [h4]⟩

theorem viable_same {m m' : Mem γ ψ φ ρ} {r : Nat} (h : SameInd m m' r) : viableInd m' r = viableInd m r := by simp [viableInd, h.1]

theorem returned_same {cfg : AsyncConfig γ ψ φ ρ} {m m' : Mem γ ψ φ ρ} {r : Nat} (h : SameInd m m' r) (hr : Returned n allowed cfg m r) :
    Returned n allowed cfg m' r := by
  obtain ⟨g, f, h1, h2, h3, h4, h5⟩ := hr
  exact ⟨g, f, by rw [h.2, h1], h2, by rw [sameInd_fitness h, h3], by rw [viable_same h]; exact h4, by rw [viable_same h]; exact h5⟩

/-- What a worker does to the individual, and to nobody else. -/
theorem worker_evaluates (cfg : AsyncConfig γ ψ φ ρ) {m m' : Mem γ ψ φ ρ} (hm : Sound m) {r : Nat} {f : φ}
    (hgood : GoodInd (GenesIn n allowed) (ScoredOrFailed cfg) m r)
    (h : robustEvaluate cfg.nan cfg.dec cfg.prob r m = (.ok f, m')) :
    Sound m' ∧ m'.arrays = m.arrays ∧ m'.sets = m.sets ∧ Local [r] m m' ∧ Returned n allowed cfg m' r := by
  obtain ⟨g, fo, hg, hfit, hG, -⟩ := hgood
  obtain ⟨o, ho, ha, hlt⟩ := genes_lt hg
  obtain ⟨k, hk, he⟩ := evaluateImp_effect cfg.dec cfg.prob m r o g ho ha
  -- the individual in place `r` becomes `o'`, and the rest of memory stays
  have fin : ∀ (k' : Obj ψ φ → Obj ψ φ) (s : ρ) (b : Bool) (f : φ), (k' o).genome = o.genome → (k' o).parents = o.parents →
      (k' o).uuid = o.uuid → (k' o).fitness = some f → (k' o).viable = some b → (b = true → ScoredBy cfg.dec cfg.prob g f) →
      (b = false → f = cfg.nan ∧ Fails cfg.dec cfg.prob g) →
      Sound (⟨m.arrays, m.sets, m.inds.modify r k', m.nextUuid, s⟩ : Mem γ ψ φ ρ) ∧
      Local [r] m (⟨m.arrays, m.sets, m.inds.modify r k', m.nextUuid, s⟩ : Mem γ ψ φ ρ) ∧
      Returned n allowed cfg (⟨m.arrays, m.sets, m.inds.modify r k', m.nextUuid, s⟩ : Mem γ ψ φ ρ) r := by
    intro k' s b f e1 e2 e3 e4 e5 h1 h2
    have hr : (m.inds.modify r k')[r]? = some (k' o) := by simp [List.getElem?_modify, ho]
    have hback : ∀ x ∈ m.inds.modify r k', ∃ y ∈ m.inds, x.genome = y.genome ∧ x.parents = y.parents ∧ x.uuid = y.uuid := by
      intro x hx
      obtain ⟨j, hj⟩ := List.mem_iff_getElem?.1 hx
      by_cases hjr : j = r
      · subst hjr
        rw [hr] at hj
        cases hj
        exact ⟨o, List.mem_of_getElem? ho, e1, e2, e3⟩
      · have : (m.inds.modify r k')[j]? = m.inds[j]? := by simp [List.getElem?_modify, Ne.symm hjr]
        rw [this] at hj
        exact ⟨x, List.mem_of_getElem? hj, rfl, rfl, rfl⟩
    refine ⟨⟨fun x hx => ?_, fun x hx => ?_, fun x hx => ?_⟩, ⟨by simp, fun y hy => ?_⟩, g, f, ?_, hG, ?_, ?_, ?_⟩
    · obtain ⟨y, hy, q1, q2, q3⟩ := hback x hx
      rw [q1]; exact hm.genome y hy
    · obtain ⟨y, hy, q1, q2, q3⟩ := hback x hx
      rw [q2]; exact hm.parents y hy
    · obtain ⟨y, hy, q1, q2, q3⟩ := hback x hx
      rw [q3]; exact hm.uuid y hy
    · have hne : y ≠ r := by simpa using hy
      have hi : (m.inds.modify r k')[y]? = m.inds[y]? := by simp [List.getElem?_modify, hne.symm]
      exact ⟨hi, by simp only [genes, hi]⟩
    · simp only [genes, hr, e1, ha]
    · simp [fitness, hr, e4]
    · intro hv; exact h1 (by simpa [viableInd, hr, e5, isViable] using hv)
    · intro hv; exact h2 (by simpa [viableInd, hr, e5, isViable] using hv)
  unfold robustEvaluate at h
  rw [he] at h
  cases hc : decodeOf cfg.dec g with
  | error e =>
    rw [hc] at h
    simp only [Prod.mk.injEq, Except.ok.injEq] at h
    obtain ⟨rfl, rfl⟩ := h
    obtain ⟨a, b, c⟩ := fin (fun x => { x with fitness := some cfg.nan, exception := some e, viable := some false }) m.rng false cfg.nan
      rfl rfl rfl rfl rfl (by simp) (fun _ => ⟨rfl, Or.inl ⟨e, hc⟩⟩)
    exact ⟨a, rfl, rfl, b, c⟩
  | ok c =>
    rw [hc] at h
    simp only at h
    cases hp : (cfg.prob.evaluate c m.rng).1 with
    | error e =>
      rw [hp] at h
      simp only [Prod.mk.injEq, Except.ok.injEq] at h
      obtain ⟨rfl, rfl⟩ := h
      obtain ⟨a, b, c⟩ := fin ((fun x : Obj ψ φ => { x with fitness := some cfg.nan, exception := some e, viable := some false }) ∘ k)
        (cfg.prob.evaluate c m.rng).2 false cfg.nan (hk o).1 (hk o).2.2.2.1 (hk o).2.2.1 rfl rfl (by simp)
        (fun _ => ⟨rfl, Or.inr ⟨c, m.rng, e, hc, hp⟩⟩)
      rw [← List.modify_modify_eq] at a b c
      exact ⟨a, rfl, rfl, b, c⟩
    | ok v =>
      rw [hp] at h
      simp only [Prod.mk.injEq, Except.ok.injEq] at h
      obtain ⟨rfl, rfl⟩ := h
      obtain ⟨a, b, c⟩ := fin ((fun x : Obj ψ φ => { x with fitness := some v, viable := some true }) ∘ k)
        (cfg.prob.evaluate c m.rng).2 true v (hk o).1 (hk o).2.2.2.1 (hk o).2.2.1 rfl rfl
        (fun _ => ⟨c, m.rng, hc, hp⟩) (by simp)
      rw [← List.modify_modify_eq] at a b c
      exact ⟨a, rfl, rfl, b, c⟩

theorem submit_spec {truth : List γ → φ → Prop} {G : List γ → Prop} (copied : Bool) {m m' : Mem γ ψ φ ρ} (hm : Sound m) {r c : Nat}
    (hr : GoodInd G truth m r) (h : submitInd copied r m = (.ok c, m')) :
    Sound m' ∧ Unchanged m m' ∧ GoodInd G truth m' c ∧ (c = r ∨ m.inds.length ≤ c) ∧ c < m'.inds.length := by
  obtain ⟨g, fo, hg, hfit, hG, ht⟩ := hr
  obtain ⟨o, ho, ha, hlt⟩ := genes_lt hg
  cases copied with
  | false =>
    simp only [submitInd, Bool.false_eq_true, if_false, HM.pure_apply, Prod.mk.injEq, Except.ok.injEq] at h
    obtain ⟨rfl, rfl⟩ := h
    exact ⟨hm, unchanged_rng m m.rng, ⟨g, fo, hg, hfit, hG, ht⟩, Or.inl rfl, hlt⟩
  | true =>
    have hp := hm.parents o (List.mem_of_getElem? ho)
    simp only [submitInd, if_true, HM.bind_apply, getObj, ho, getArr, ha, newArr, getSet, List.getElem?_eq_getElem hp, newSet, newObj,
      Prod.mk.injEq, Except.ok.injEq] at h
    obtain ⟨rfl, rfl⟩ := h
    refine ⟨⟨fun x hx => ?_, fun x hx => ?_, fun x hx => ?_⟩,
      ⟨fun y hy => List.getElem?_append_left hy, fun y hy => List.getElem?_append_left hy, fun y hy => List.getElem?_append_left hy⟩,
      ⟨g, fo, by simp [genes], ?_, hG, ht⟩, Or.inr (Nat.le_refl _), by simp⟩
    · simp only [List.mem_append, List.mem_singleton] at hx
      rcases hx with hx | rfl
      · have := hm.genome x hx; simp; omega
      · simp
    · simp only [List.mem_append, List.mem_singleton] at hx
      rcases hx with hx | rfl
      · have := hm.parents x hx; simp; omega
      · simp
    · simp only [List.mem_append, List.mem_singleton] at hx
      rcases hx with hx | rfl
      · exact hm.uuid x hx
      · exact hm.uuid o (List.mem_of_getElem? ho)
    · have : o.fitness = fo := by simpa [fitness, ho] using hfit
      simp [fitness, this]

theorem submitAll_spec {truth : List γ → φ → Prop} {G : List γ → Prop} (copied : Nat → Bool) (rs : List Nat) :
    ∀ (m m' : Mem γ ψ φ ρ) (out : List Nat), Sound m → rs.Nodup → (∀ r ∈ rs, GoodInd G truth m r) →
      submitAll copied rs m = (.ok out, m') →
      Sound m' ∧ Unchanged m m' ∧ out.length = rs.length ∧ out.Nodup ∧
      ∀ c ∈ out, GoodInd G truth m' c ∧ (c ∈ rs ∨ m.inds.length ≤ c) ∧ c < m'.inds.length := by
  induction rs with
  | nil =>
    intro m m' out hm _ _ h
    simp only [submitAll, HM.pure_apply, Prod.mk.injEq, Except.ok.injEq] at h
    obtain ⟨rfl, rfl⟩ := h
    exact ⟨hm, unchanged_rng m m.rng, rfl, by simp, by simp⟩
  | cons r rs ih =>
    intro m m' out hm hnd hg h
    obtain ⟨c, m1, e1, h⟩ := bind_ok h
    obtain ⟨cs, m2, e2, h⟩ := bind_ok h
    simp only [HM.pure_apply, Prod.mk.injEq, Except.ok.injEq] at h
    obtain ⟨rfl, rfl⟩ := h
    obtain ⟨hn1, hn2⟩ := List.nodup_cons.1 hnd
    have hlt : ∀ x ∈ r :: rs, x < m.inds.length := by
      intro x hx
      obtain ⟨g, fo, h1, -⟩ := hg x hx
      exact (genes_lt h1).choose_spec.2.2
    obtain ⟨s1, u1, g1, c1, l1⟩ := submit_spec (copied r) hm (hg r (by simp)) e1
    obtain ⟨s2, u2, n2, nd2, q2⟩ := ih m1 m2 cs s1 hn2
      (fun x hx => goodInd_same (unchanged_same hm u1 (hlt x (by simp [hx]))) (hg x (by simp [hx]))) e2
    have hgrow := (unchanged_length u1).1
    have hgrow2 := (unchanged_length u2).1
    refine ⟨s2, unchanged_then u1 u2, by simp [n2], List.nodup_cons.2 ⟨fun hin => ?_, nd2⟩, fun x hx => ?_⟩
    · rcases (q2 c hin).2.1 with hcr | hcr
      · rcases c1 with hc1 | hc1
        · exact hn1 (hc1 ▸ hcr)
        · have := hlt c (by simp [hcr]); omega
      · omega
    · rcases List.mem_cons.1 hx with rfl | hx
      · exact ⟨goodInd_same (unchanged_same s1 u2 l1) g1, c1.imp (fun h => by simp [h]) id, by omega⟩
      · obtain ⟨a, b, c⟩ := q2 x hx
        exact ⟨a, b.imp (fun h => by simp [h]) (fun h => by omega), c⟩

/-- How many came back not viable, if that matters for the budget. -/
def Spec.lost (cfg : AsyncConfig γ ψ φ ρ) (m : Mem γ ψ φ ρ) (completed : List Nat) : Nat :=
  if cfg.countNonviable then 0 else completed.countP fun r => !viableInd m r

/-- Where a run that started in memory `m0` with `initSize` individuals may be. -/
structure Spec.AsyncOk (n : Nat) (allowed : Nat → γ → Prop) (cfg : AsyncConfig γ ψ φ ρ) (initSize : Nat) (m0 m : Mem γ ψ φ ρ)
    (st : AsyncState) : Prop where
  sound : Sound m
  unchanged : Unchanged m0 m
  /-- nobody is sent out twice, or comes back twice -/
  nodup : (st.completed ++ st.pending).Nodup
  done : ∀ r ∈ st.completed, m0.inds.length ≤ r ∧ Returned n allowed cfg m r
  waiting : ∀ r ∈ st.pending, m0.inds.length ≤ r ∧ GoodInd (GenesIn n allowed) (ScoredOrFailed cfg) m r
  /-- the population: some of those who came back, as many as there is room for -/
  popNodup : st.pop.Nodup
  popSub : ∀ r ∈ st.pop, r ∈ st.completed
  popSize : st.pop.length = min cfg.popSize st.completed.length
  /-- births are those sent out after the initial ones, less those who were lost -/
  account : (st.completed.length + st.pending.length : Int) = initSize + st.births + lost cfg m st.completed
  /-- the budget is overrun by less than one batch of offspring -/
  bounded : st.births ≤ max 0 (cfg.maxBirths - 1 + cfg.size)

/-- Nobody who came back viable is better than everybody viable in the population. -/
def Spec.BestKept (gt : Option φ → Option φ → Bool) (m : Mem γ ψ φ ρ) (st : AsyncState) : Prop :=
  ∀ y ∈ st.completed, viableInd m y = true → ∃ b ∈ st.pop, viableInd m b = true ∧
    gt ((m.inds[y]?).bind Obj.fitness) ((m.inds[b]?).bind Obj.fitness) = false

theorem returned_good {cfg : AsyncConfig γ ψ φ ρ} {m : Mem γ ψ φ ρ} {r : Nat} (h : Returned n allowed cfg m r) :
    GoodInd (GenesIn n allowed) (ScoredOrFailed cfg) m r := by
  obtain ⟨g, f, h1, h2, h3, h4, h5⟩ := h
  refine ⟨g, some f, h1, h3, h2, fun f' e => ?_⟩
  cases e
  cases hv : viableInd m r with
  | true => exact Or.inl (h4 hv)
  | false => exact Or.inr (h5 hv)

theorem good_lt {truth : List γ → φ → Prop} {G : List γ → Prop} {m : Mem γ ψ φ ρ} {r : Nat} (h : GoodInd G truth m r) : r < m.inds.length := by
  obtain ⟨g, fo, h1, -⟩ := h
  exact (genes_lt h1).choose_spec.2.2

theorem lost_same (cfg : AsyncConfig γ ψ φ ρ) {m m' : Mem γ ψ φ ρ} {l : List Nat} (h : ∀ r ∈ l, SameInd m m' r) : lost cfg m' l = lost cfg m l := by
  unfold lost
  split
  · rfl
  · exact List.countP_congr fun r hr => by rw [viable_same (h r hr)]

theorem bestKept_same {gt : Option φ → Option φ → Bool} {m m' : Mem γ ψ φ ρ} {st st' : AsyncState} (hc : st'.completed = st.completed)
    (hp : st'.pop = st.pop) (hs : ∀ r ∈ st.completed, SameInd m m' r) (hsub : ∀ r ∈ st.pop, r ∈ st.completed) (h : BestKept gt m st) :
    BestKept gt m' st' := by
  intro y hy hv
  rw [hc] at hy
  rw [viable_same (hs y hy)] at hv
  obtain ⟨b, hb, h1, h2⟩ := h y hy hv
  refine ⟨b, by rw [hp]; exact hb, by rw [viable_same (hs b (hsub b hb))]; exact h1, ?_⟩
  rw [(hs y hy).1, (hs b (hsub b hb)).1]
  exact h2

/-- What one round does up to the insertion. -/
theorem async_insert_ok (cfg : AsyncConfig γ ψ φ ρ) (gt : Option φ → Option φ → Bool) (hins : Inserts cfg gt) (initSize : Nat)
    (m0 m m1 : Mem γ ψ φ ρ) (st : AsyncState) (hok : AsyncOk n allowed cfg initSize m0 m st) (k : Nat) (x : Nat)
    (hx : st.pending[k]? = some x) (f : φ) (he : robustEvaluate cfg.nan cfg.dec cfg.prob x m = (.ok f, m1)) (pop : List Nat)
    (hi : (cfg.insert x st.pop m1).1 = .ok pop) (s : ρ) :
    AsyncOk n allowed cfg initSize m0 { m1 with rng := s }
      ⟨st.pending.eraseIdx k, pop, if !viableInd m1 x && !cfg.countNonviable then st.births - 1 else st.births, st.completed ++ [x]⟩ ∧
    (∀ r ∈ st.completed, SameInd m m1 r) ∧
    (StrictWeak gt → (∀ g f, GenesIn n allowed g → ScoredBy cfg.dec cfg.prob g f → gt (some cfg.nan) (some f) = false) →
      BestKept gt m st → BestKept gt { m1 with rng := s }
        ⟨st.pending.eraseIdx k, pop, if !viableInd m1 x && !cfg.countNonviable then st.births - 1 else st.births, st.completed ++ [x]⟩) := by
  have hxp : x ∈ st.pending := List.mem_of_getElem? hx
  have hk := (List.getElem?_eq_some_iff.1 hx).1
  obtain ⟨hxb, hxg⟩ := hok.waiting x hxp
  obtain ⟨s1, a1, b1, l1, r1⟩ := worker_evaluates cfg hok.sound hxg he
  have hperm : st.pending.Perm (x :: st.pending.eraseIdx k) := by
    have := (List.getElem?_eq_some_iff.1 hx).2
    rw [← this]
    exact (List.getElem_cons_eraseIdx_perm hk).symm
  have hnd : (x :: (st.completed ++ st.pending.eraseIdx k)).Nodup := by
    have := (hperm.append_left st.completed).nodup_iff.1 hok.nodup
    exact (List.perm_middle.nodup_iff).1 this
  obtain ⟨hxn, hnd'⟩ := List.nodup_cons.1 hnd
  simp only [List.mem_append, not_or] at hxn
  have hsame : ∀ y, y ≠ x → SameInd m m1 y := fun y hy => l1.2 y (by simpa using hy)
  have hcs : ∀ r ∈ st.completed, SameInd m m1 r := fun r hr => hsame r (fun h => hxn.1 (h ▸ hr))
  have hrng : ∀ r, SameInd m1 ({ m1 with rng := s } : Mem γ ψ φ ρ) r := fun r => ⟨rfl, rfl⟩
  have hpopnot : x ∉ st.pop := fun h => hxn.1 (hok.popSub x h)
  have hins' := hins x st.pop m1 pop hi
  have hlen : st.completed.length + 1 = (st.completed ++ [x]).length := by simp
  refine ⟨⟨sound_rng s1 s, ?_, ?_, ?_, ?_, ?_, ?_, ?_, ?_, ?_⟩, hcs, ?_⟩
  · refine unchanged_then ?_ (unchanged_rng m1 s)
    refine ⟨fun y hy => ?_, fun y hy => by rw [a1]; exact hok.unchanged.arrays y hy, fun y hy => by rw [b1]; exact hok.unchanged.sets y hy⟩
    rw [(hsame y (by omega)).1]
    exact hok.unchanged.inds y hy
  · show (st.completed ++ [x] ++ st.pending.eraseIdx k).Nodup
    rw [List.append_assoc]
    exact (List.perm_middle.nodup_iff).2 hnd
  · intro r hr
    rcases List.mem_append.1 hr with hr | hr
    · exact ⟨(hok.done r hr).1, returned_same (sameInd_trans (hcs r hr) (hrng r)) (hok.done r hr).2⟩
    · rw [List.mem_singleton.1 hr]
      exact ⟨hxb, returned_same (hrng x) r1⟩
  · intro r hr
    have hr' : r ∈ st.pending := hperm.mem_iff.2 (by simp [show r ∈ st.pending.eraseIdx k from hr])
    have hne : r ≠ x := fun h => hxn.2 (h ▸ hr)
    exact ⟨(hok.waiting r hr').1, goodInd_same (sameInd_trans (hsame r hne) (hrng r)) (hok.waiting r hr').2⟩
  · rcases hins' with ⟨-, rfl⟩ | ⟨-, i, old, hi', rfl⟩
    · exact List.nodup_append.2 ⟨hok.popNodup, by simp, fun a ha b hb hab => hpopnot (by rw [← List.mem_singleton.1 hb, ← hab]; exact ha)⟩
    · show (if _ then _ else _ : List Nat).Nodup
      split
      · exact hok.popNodup.set hpopnot
      · exact hok.popNodup
  · intro r hr
    rcases hins' with ⟨-, rfl⟩ | ⟨-, i, old, hi', rfl⟩
    · rcases List.mem_append.1 hr with hr | hr
      · exact List.mem_append.2 (Or.inl (hok.popSub r hr))
      · exact List.mem_append.2 (Or.inr hr)
    · have hr : r ∈ (if _ then _ else _ : List Nat) := hr
      split at hr
      · rcases List.mem_or_eq_of_mem_set hr with hr | hr
        · exact List.mem_append.2 (Or.inl (hok.popSub r hr))
        · simp [hr]
      · exact List.mem_append.2 (Or.inl (hok.popSub r hr))
  · have h0 := hok.popSize
    rcases hins' with ⟨hl, rfl⟩ | ⟨hl, i, old, hi', rfl⟩
    · simp; omega
    · show (if _ then _ else _ : List Nat).length = min cfg.popSize (st.completed ++ [x]).length
      rw [← hlen]
      split
      · simp; omega
      · omega
  · have h0 := hok.account
    have hl : (st.pending.eraseIdx k).length + 1 = st.pending.length := by
      have := hperm.length_eq; simp at this; simp [List.length_eraseIdx, hk]; omega
    have hlost : lost cfg ({ m1 with rng := s } : Mem γ ψ φ ρ) (st.completed ++ [x]) =
        lost cfg m st.completed + (if !viableInd m1 x && !cfg.countNonviable then 1 else 0) := by
      rw [show lost cfg ({ m1 with rng := s } : Mem γ ψ φ ρ) (st.completed ++ [x]) = lost cfg m1 (st.completed ++ [x]) from rfl,
        ← lost_same cfg hcs]
      unfold lost
      cases hcn : cfg.countNonviable <;> cases hv : viableInd m1 x <;> simp [List.countP_append, List.countP_cons, hcn, hv]
    simp only [hlost]
    rw [← hlen]
    push_cast
    split <;> simp_all <;> omega
  · refine le_trans (b := st.births) ?_ hok.bounded
    show (if (!viableInd m1 x && !cfg.countNonviable) = true then st.births - 1 else st.births) ≤ st.births
    split <;> omega
  · intro hw hnan hbest y hy hv
    have hw' : ∀ a, gt a a = false := fun a => by
      cases e : gt a a with
      | false => rfl
      | true => exact absurd (hw.asymm _ _ e) (by simp [e])
    -- in terms of `m1`
    have hbest1 : ∀ y ∈ st.completed, viableInd m1 y = true → ∃ b ∈ st.pop, viableInd m1 b = true ∧
        gt ((m1.inds[y]?).bind Obj.fitness) ((m1.inds[b]?).bind Obj.fitness) = false :=
      bestKept_same (st' := st) rfl rfl hcs hok.popSub hbest
    have hv : viableInd m1 y = true := hv
    show ∃ b ∈ pop, viableInd m1 b = true ∧ gt ((m1.inds[y]?).bind Obj.fitness) ((m1.inds[b]?).bind Obj.fitness) = false
    rcases hins' with ⟨-, rfl⟩ | ⟨-, i, old, hi', rfl⟩
    · rcases List.mem_append.1 hy with hy | hy
      · obtain ⟨b, h1, h2, h3⟩ := hbest1 y hy hv
        exact ⟨b, by simp [h1], h2, h3⟩
      · rw [List.mem_singleton.1 hy] at hv ⊢
        exact ⟨x, by simp, hv, hw' _⟩
    · have hil := (List.getElem?_eq_some_iff.1 hi').1
      by_cases hc : viableInd m1 old = false ∨ gt ((m1.inds[x]?).bind Obj.fitness) ((m1.inds[old]?).bind Obj.fitness) = true
      · rw [if_pos hc]
        have hxin : x ∈ st.pop.set i x := List.mem_of_getElem? (i := i) (by simp [hil])
        rcases List.mem_append.1 hy with hy | hy
        · obtain ⟨b, h1, h2, h3⟩ := hbest1 y hy hv
          obtain ⟨j, hj⟩ := List.mem_iff_getElem?.1 h1
          by_cases hij : i = j
          · subst hij
            have hbo : old = b := by rw [hj] at hi'; exact (Option.some.inj hi').symm
            rw [hbo] at hc
            have hg : gt ((m1.inds[x]?).bind Obj.fitness) ((m1.inds[b]?).bind Obj.fitness) = true := by
              rcases hc with hc | hc
              · rw [h2] at hc; cases hc
              · exact hc
            have hxv : viableInd m1 x = true := by
              cases e : viableInd m1 x with
              | true => rfl
              | false =>
                exfalso
                obtain ⟨g, f, -, -, q3, -, q5⟩ := r1
                obtain ⟨g', f', -, q2', q3', q4', -⟩ := returned_same (hcs b (hok.popSub b h1)) (hok.done b (hok.popSub b h1)).2
                have e1 : (m1.inds[x]?).bind Obj.fitness = some cfg.nan := by
                  rw [(q5 e).1] at q3
                  cases ho : m1.inds[x]? with
                  | none => simp [fitness, ho] at q3
                  | some o => simpa [fitness, ho] using q3
                have e2 : (m1.inds[b]?).bind Obj.fitness = some f' := by
                  cases ho : m1.inds[b]? with
                  | none => simp [fitness, ho] at q3'
                  | some o => simpa [fitness, ho] using q3'
                rw [e1, e2, hnan g' f' q2' (q4' h2)] at hg
                cases hg
            refine ⟨x, hxin, hxv, ?_⟩
            cases e : gt ((m1.inds[y]?).bind Obj.fitness) ((m1.inds[x]?).bind Obj.fitness) with
            | false => rfl
            | true => exact absurd (hw.negTrans _ _ _ h3 (hw.asymm _ _ hg)) (by simp [e])
          · exact ⟨b, List.mem_of_getElem? (i := j) (by rw [List.getElem?_set_ne hij]; exact hj), h2, h3⟩
        · rw [List.mem_singleton.1 hy] at hv ⊢
          exact ⟨x, hxin, hv, hw' _⟩
      · rw [if_neg hc]
        simp only [not_or, Bool.not_eq_true, Bool.not_eq_false] at hc
        rcases List.mem_append.1 hy with hy | hy
        · exact hbest1 y hy hv
        · rw [List.mem_singleton.1 hy]
          exact ⟨old, List.mem_of_getElem? hi', hc.1, hc.2⟩

/-- One round keeps everything in order. -/
theorem async_step_ok (cfg : AsyncConfig γ ψ φ ρ) (gt : Option φ → Option φ → Bool) (hins : Inserts cfg gt)
    (hst : ∀ st ∈ cfg.stages, StageOk n allowed (ScoredOrFailed cfg) st) (initSize : Nat) (m0 m m' : Mem γ ψ φ ρ) (c : AsyncRound)
    (st st' : AsyncState) (hok : AsyncOk n allowed cfg initSize m0 m st) (h : asyncStep cfg c st m = (.ok st', m')) :
    AsyncOk n allowed cfg initSize m0 m' st' ∧
    (StrictWeak gt → (∀ g f, GenesIn n allowed g → ScoredBy cfg.dec cfg.prob g f → gt (some cfg.nan) (some f) = false) →
      BestKept gt m st → BestKept gt m' st') ∧
    st'.completed.length = st.completed.length + 1 ∧ (st'.pending = [] → 0 < cfg.size → cfg.maxBirths ≤ st'.births) := by
  unfold asyncStep at h
  cases hx : st.pending[c.which % st.pending.length]? with
  | none => rw [hx] at h; simp [HM.lift_apply] at h
  | some x =>
    rw [hx] at h
    simp only at h
    obtain ⟨f, m1, e1, h⟩ := bind_ok h
    obtain ⟨pop, m2, e2, h⟩ := bind_ok h
    simp only [insertInd, Prod.mk.injEq] at e2
    obtain ⟨e2, rfl⟩ := e2
    obtain ⟨ok1, -, best1⟩ := async_insert_ok cfg gt hins initSize m0 m m1 st hok _ x hx f e1 pop e2 (cfg.insert x st.pop m1).2
    set m2 : Mem γ ψ φ ρ := { m1 with rng := (cfg.insert x st.pop m1).2 } with hm2
    generalize (if !viableInd m1 x && !cfg.countNonviable then st.births - 1 else st.births) = births at h ok1 best1
    split at h
    · obtain ⟨off, m3, e3, h⟩ := bind_ok h
      obtain ⟨sent, m4, e4, h⟩ := bind_ok h
      simp only [HM.pure_apply, Prod.mk.injEq, Except.ok.injEq] at h
      obtain ⟨rfl, rfl⟩ := h
      have hpop : ∀ r ∈ pop, GoodInd (GenesIn n allowed) (ScoredOrFailed cfg) m2 r := fun r hr =>
        returned_good (ok1.done r (ok1.popSub r hr)).2
      obtain ⟨s3, u3, l3, nd3, q3⟩ := pipeline_keeps_feasible m2 m3 ok1.sound pop hpop _ cfg.stages hst cfg.size off e3
      obtain ⟨s4, u4, l4, nd4, q4⟩ := submitAll_spec c.copied off m3 m4 sent s3 nd3 (fun r hr => (q3 r hr).2.2.1) e4
      have u : Unchanged m2 m4 := unchanged_then u3 u4
      have hbase := (unchanged_length ok1.unchanged).1
      have hg3 := (unchanged_length u3).1
      have hcs : ∀ r ∈ st.completed ++ [x], SameInd m2 m4 r := fun r hr =>
        unchanged_same ok1.sound u (good_lt (returned_good (ok1.done r hr).2))
      have hps : ∀ r ∈ st.pending.eraseIdx (c.which % st.pending.length), SameInd m2 m4 r := fun r hr =>
        unchanged_same ok1.sound u (good_lt (ok1.waiting r hr).2)
      have hnew : ∀ r ∈ sent, m2.inds.length ≤ r := by
        intro r hr
        rcases (q4 r hr).2.1 with h | h
        · exact (q3 r h).1
        · omega
      refine ⟨⟨s4, unchanged_then ok1.unchanged u, ?_, fun r hr => ⟨(ok1.done r hr).1, returned_same (hcs r hr) (ok1.done r hr).2⟩,
        fun r hr => ?_, ok1.popNodup, ok1.popSub, ok1.popSize, ?_, ?_⟩, fun hw hnan hbest => ?_, by simp, ?_⟩
      · show ((st.completed ++ [x]) ++ (st.pending.eraseIdx (c.which % st.pending.length) ++ sent)).Nodup
        rw [← List.append_assoc]
        refine List.nodup_append.2 ⟨ok1.nodup, nd4, fun a ha b hb hab => ?_⟩
        have h1 := hnew b hb
        rcases List.mem_append.1 ha with ha | ha
        · have := good_lt (returned_good (ok1.done a ha).2); omega
        · have := good_lt (ok1.waiting a ha).2; omega
      · rcases List.mem_append.1 hr with hr | hr
        · exact ⟨(ok1.waiting r hr).1, goodInd_same (hps r hr) (ok1.waiting r hr).2⟩
        · exact ⟨Nat.le_trans hbase (hnew r hr), (q4 r hr).1⟩
      · have h0 := ok1.account
        rw [← lost_same cfg hcs] at h0
        simp only at h0 ⊢
        rw [List.length_append (as := st.pending.eraseIdx _), l4]
        push_cast at h0 ⊢
        omega
      · show births + (off.length : Int) ≤ _
        rw [l3]
        omega
      · exact bestKept_same rfl rfl hcs ok1.popSub (best1 hw hnan hbest)
      · intro hp hs
        have : sent = [] := (List.append_eq_nil_iff.1 hp).2
        rw [this] at l4
        simp at l4
        omega
    · simp only [HM.pure_apply, Prod.mk.injEq, Except.ok.injEq] at h
      obtain ⟨rfl, rfl⟩ := h
      exact ⟨ok1, best1, by simp, fun _ _ => by show cfg.maxBirths ≤ births; omega⟩

theorem async_loop_ok (cfg : AsyncConfig γ ψ φ ρ) (gt : Option φ → Option φ → Bool) (hins : Inserts cfg gt)
    (hst : ∀ st ∈ cfg.stages, StageOk n allowed (ScoredOrFailed cfg) st) (initSize : Nat) (m0 : Mem γ ψ φ ρ) (rounds : List AsyncRound) :
    ∀ (m m' : Mem γ ψ φ ρ) (st st' : AsyncState), AsyncOk n allowed cfg initSize m0 m st → asyncLoop cfg rounds st m = (.ok st', m') →
    AsyncOk n allowed cfg initSize m0 m' st' ∧
    (StrictWeak gt → (∀ g f, GenesIn n allowed g → ScoredBy cfg.dec cfg.prob g f → gt (some cfg.nan) (some f) = false) →
      BestKept gt m st → BestKept gt m' st') ∧
    (st'.pending = [] ∨ st'.completed.length = st.completed.length + rounds.length) ∧
    ((st.pending = [] → 0 < cfg.size → cfg.maxBirths ≤ st.births) → st'.pending = [] → 0 < cfg.size → cfg.maxBirths ≤ st'.births) := by
  induction rounds with
  | nil =>
    intro m m' st st' hok h
    simp only [asyncLoop, HM.pure_apply, Prod.mk.injEq, Except.ok.injEq] at h
    obtain ⟨rfl, rfl⟩ := h
    exact ⟨hok, fun _ _ h => h, Or.inr rfl, id⟩
  | cons c cs ih =>
    intro m m' st st' hok h
    unfold asyncLoop at h
    split at h
    · simp only [HM.pure_apply, Prod.mk.injEq, Except.ok.injEq] at h
      obtain ⟨rfl, rfl⟩ := h
      exact ⟨hok, fun _ _ h => h, Or.inl (by simp_all), id⟩
    · obtain ⟨st1, m1, e1, h⟩ := bind_ok h
      obtain ⟨ok1, b1, l1, p1⟩ := async_step_ok cfg gt hins hst initSize m0 m m1 c st st1 hok e1
      obtain ⟨ok2, b2, l2, p2⟩ := ih m1 m' st1 st' ok1 h
      exact ⟨ok2, fun hw hn hb => b2 hw hn (b1 hw hn hb), l2.imp id (fun h => by simp only [List.length_cons]; omega), fun _ => p2 p1⟩

/-- C89: run the asynchronous algorithm with either inserter, any selection, any chain of operators, any budget, any random numbers, workers
finishing in any order and getting individuals themselves or copies, in a program that may hold other individuals. At any time, and so also when it
ends: everybody who came back from a worker has acceptable genes and carries the problem's score of exactly these genes, or is marked as not viable,
carries NaN, and scoring their genes raises; nobody comes back twice; the population holds as many of them as there is room for, and nobody twice;
births are counted exactly and overrun the budget by less than a batch; nothing that existed before has changed; and, if NaN beats no score, nobody who
came back viable beats everybody viable in the population. When nobody is with a worker any more, the budget is spent. -/
theorem async_run_ok (cfg : AsyncConfig γ ψ φ ρ) (gt : Option φ → Option φ → Bool) (hins : Inserts cfg gt)
    (initGenome : ρ → PyM (List γ) × ρ) (hinit : ∀ s g s', initGenome s = (.ok g, s') → GenesIn n allowed g)
    (hst : ∀ st ∈ cfg.stages, StageOk n allowed (ScoredOrFailed cfg) st) (problem initSize : Nat) (copied : Nat → Bool)
    (rounds : List AsyncRound) (m m' : Mem γ ψ φ ρ) (hm : Sound m) (st : AsyncState)
    (h : asyncRun cfg initGenome problem initSize copied rounds m = (.ok st, m')) :
    AsyncOk n allowed cfg initSize m m' st ∧
    (StrictWeak gt → (∀ g f, GenesIn n allowed g → ScoredBy cfg.dec cfg.prob g f → gt (some cfg.nan) (some f) = false) →
      BestKept gt m' st) ∧
    (st.pending = [] ∨ st.completed.length = rounds.length) ∧
    (0 < initSize → st.pending = [] → 0 < cfg.size → cfg.maxBirths ≤ st.births) := by
  obtain ⟨initial, m1, e1, h⟩ := bind_ok h
  obtain ⟨sent, m2, e2, h⟩ := bind_ok h
  obtain ⟨s1, u1, l1, nd1, r1, g1⟩ := createPopulation_good (truth := ScoredOrFailed cfg) initGenome hinit problem initSize m m1 hm initial e1
  obtain ⟨s2, u2, l2, nd2, q2⟩ := submitAll_spec copied initial m1 m2 sent s1 nd1 g1 e2
  have hb := (unchanged_length u1).1
  have hok : AsyncOk n allowed cfg initSize m m2 ⟨sent, [], 0, []⟩ := by
    refine ⟨s2, unchanged_then u1 u2, by simpa using nd2, by simp, fun r hr => ⟨?_, (q2 r hr).1⟩, by simp, by simp, by simp, ?_, ?_⟩
    · rcases (q2 r hr).2.1 with h | h
      · exact (r1 r h).1
      · omega
    · simp [lost, l2, l1]
    · show (0 : Int) ≤ _
      omega
  obtain ⟨a, b, c, d⟩ := async_loop_ok cfg gt hins hst initSize m rounds m2 m' _ st hok h
  refine ⟨a, fun hw hn => b hw hn (by intro y hy; simp at hy), by simpa using c, fun hi => d fun hp => ?_⟩
  have : sent = [] := hp
  rw [this] at l2
  simp at l2
  omega

/-- C89: the run ends. When failures count towards the budget, or nothing fails, everybody is back after as many rounds as the initial individuals
and the budget allow. -/
theorem async_run_ends (cfg : AsyncConfig γ ψ φ ρ) (gt : Option φ → Option φ → Bool) (hins : Inserts cfg gt)
    (initGenome : ρ → PyM (List γ) × ρ) (hinit : ∀ s g s', initGenome s = (.ok g, s') → GenesIn n allowed g)
    (hst : ∀ st ∈ cfg.stages, StageOk n allowed (ScoredOrFailed cfg) st) (problem initSize : Nat) (copied : Nat → Bool)
    (rounds : List AsyncRound) (m m' : Mem γ ψ φ ρ) (hm : Sound m) (st : AsyncState)
    (h : asyncRun cfg initGenome problem initSize copied rounds m = (.ok st, m'))
    (hc : cfg.countNonviable = true ∨ ∀ g, GenesIn n allowed g → ¬ Fails cfg.dec cfg.prob g)
    (hr : initSize + (max 0 (cfg.maxBirths - 1 + cfg.size)).toNat ≤ rounds.length) :
    st.pending = [] ∧ (st.completed.length : Int) = initSize + st.births := by
  obtain ⟨a, -, c, -⟩ := async_run_ok cfg gt hins initGenome hinit hst problem initSize copied rounds m m' hm st h
  have hl : lost cfg m' st.completed = 0 := by
    unfold lost
    split
    · rfl
    · rename_i hn
      rw [List.countP_eq_zero]
      intro r hr' hv
      obtain ⟨g, f, -, q2, -, -, q5⟩ := (a.done r hr').2
      rcases hc with hc | hc
      · exact hn hc
      · exact hc g q2 (q5 (by simpa using hv)).2
  have h1 := a.account
  have h2 := a.bounded
  rw [hl] at h1
  have h3 : st.pending = [] := by
    rcases c with c | c
    · exact c
    · rw [← List.length_eq_zero_iff]
      omega
  refine ⟨h3, ?_⟩
  rw [h3] at h1
  simpa using h1

/-! ## The run returns -/

theorem submitAll_returns {truth : List γ → φ → Prop} {G : List γ → Prop} (copied : Nat → Bool) (rs : List Nat) :
    ∀ (m : Mem γ ψ φ ρ), Sound m → rs.Nodup → (∀ r ∈ rs, GoodInd G truth m r) → ∃ out m', submitAll copied rs m = (.ok out, m') := by
  induction rs with
  | nil => intro m _ _ _; exact ⟨[], m, rfl⟩
  | cons r rs ih =>
    intro m hm hnd hg
    obtain ⟨c, m1, e1⟩ : ∃ c m1, submitInd (copied r) r m = (.ok c, m1) := by
      cases copied r with
      | false => exact ⟨r, m, rfl⟩
      | true =>
        obtain ⟨g, fo, h1, -⟩ := hg r (by simp)
        obtain ⟨o, ho, ha, hlt⟩ := genes_lt h1
        have hp := hm.parents o (List.mem_of_getElem? ho)
        simp only [submitInd, if_true, HM.bind_apply, getObj, ho, getArr, ha, newArr, getSet, List.getElem?_eq_getElem hp, newSet, newObj]
        exact ⟨_, _, rfl⟩
    obtain ⟨s1, u1, -⟩ := submit_spec (copied r) hm (hg r (by simp)) e1
    obtain ⟨out, m', e2⟩ := ih m1 s1 (List.nodup_cons.1 hnd).2
      (fun x hx => goodInd_same (unchanged_same hm u1 (good_lt (hg x (by simp [hx])))) (hg x (by simp [hx])))
    exact ⟨c :: out, m', by rw [submitAll, bind_live e1]; exact (bind_live (f := fun cs => pure (c :: cs)) e2).trans rfl⟩

theorem returned_member {cfg : AsyncConfig γ ψ φ ρ} {m : Mem γ ψ φ ρ} {r : Nat} (h : Returned n allowed cfg m r) :
    Member n allowed (ScoredOrFailed cfg) m r := by
  refine (member_iff m r).2 ⟨returned_good h, ?_⟩
  obtain ⟨g, f, -, -, h3, -⟩ := h
  exact ⟨f, h3⟩

theorem async_step_returns (cfg : AsyncConfig γ ψ φ ρ) (gt : Option φ → Option φ → Bool) (hins : Inserts cfg gt)
    (hst : ∀ st ∈ cfg.stages, StageOk n allowed (ScoredOrFailed cfg) st) (hsl : ∀ st ∈ cfg.stages, StageLive n allowed st)
    (hc : Picks n allowed (ScoredOrFailed cfg) cfg.choose)
    (hi : ∀ r pop m, pop.length < cfg.popSize ∨ pop ≠ [] → ∃ pop', (cfg.insert r pop m).1 = .ok pop') (hpos : 1 ≤ cfg.popSize)
    (initSize : Nat) (m0 m : Mem γ ψ φ ρ) (c : AsyncRound) (st : AsyncState) (hok : AsyncOk n allowed cfg initSize m0 m st)
    (hne : st.pending ≠ []) : ∃ st' m', asyncStep cfg c st m = (.ok st', m') := by
  have hk : c.which % st.pending.length < st.pending.length := Nat.mod_lt _ (List.length_pos_iff.2 hne)
  unfold asyncStep
  have hx := List.getElem?_eq_getElem hk
  generalize hxe : st.pending[c.which % st.pending.length] = x at hx
  rw [hx]
  simp only
  obtain ⟨f, m1, e1⟩ := robustEvaluate_live cfg.nan cfg.dec cfg.prob (hok.waiting x (List.mem_of_getElem? hx)).2
  erw [bind_live e1]
  obtain ⟨pop, e2⟩ := hi x st.pop m1 (by rw [← List.length_pos_iff]; omega)
  obtain ⟨ok1, -, -⟩ := async_insert_ok cfg gt hins initSize m0 m m1 st hok _ x hx f e1 pop e2 (cfg.insert x st.pop m1).2
  have e2' : insertInd cfg x st.pop m1 = (.ok pop, { m1 with rng := (cfg.insert x st.pop m1).2 }) := by simp [insertInd, e2]
  erw [bind_live e2']
  generalize (if !viableInd m1 x && !cfg.countNonviable then st.births - 1 else st.births) = births at ok1 ⊢
  split
  · have hmem : ∀ r ∈ pop, Member n allowed (ScoredOrFailed cfg) { m1 with rng := (cfg.insert x st.pop m1).2 } r :=
      fun r hr => returned_member (ok1.done r (ok1.popSub r hr)).2
    have hpne : pop ≠ [] := by
      have h1 := ok1.popSize
      simp at h1
      rw [← List.length_pos_iff]
      omega
    obtain ⟨off, m3, e3⟩ := pipeline_returns _ ok1.sound pop (fun r hr => ((member_iff _ r).1 (hmem r hr)).1) (cfg.choose pop)
      (fun m' u => hc pop m' hpne fun r hr => member_unchanged ok1.sound u (hmem r hr)) cfg.stages hst hsl cfg.size
    obtain ⟨s3, u3, l3, nd3, q3⟩ := pipeline_keeps_feasible _ m3 ok1.sound pop (fun r hr => ((member_iff _ r).1 (hmem r hr)).1) _
      cfg.stages hst cfg.size off e3
    obtain ⟨sent, m4, e4⟩ := submitAll_returns c.copied off m3 s3 nd3 (fun r hr => (q3 r hr).2.2.1)
    rw [bind_live e3, bind_live e4]
    exact ⟨_, _, rfl⟩
  · exact ⟨_, _, rfl⟩

theorem async_loop_returns (cfg : AsyncConfig γ ψ φ ρ) (gt : Option φ → Option φ → Bool) (hins : Inserts cfg gt)
    (hst : ∀ st ∈ cfg.stages, StageOk n allowed (ScoredOrFailed cfg) st) (hsl : ∀ st ∈ cfg.stages, StageLive n allowed st)
    (hc : Picks n allowed (ScoredOrFailed cfg) cfg.choose)
    (hi : ∀ r pop m, pop.length < cfg.popSize ∨ pop ≠ [] → ∃ pop', (cfg.insert r pop m).1 = .ok pop') (hpos : 1 ≤ cfg.popSize)
    (initSize : Nat) (m0 : Mem γ ψ φ ρ) (rounds : List AsyncRound) :
    ∀ (m : Mem γ ψ φ ρ) (st : AsyncState), AsyncOk n allowed cfg initSize m0 m st → ∃ st' m', asyncLoop cfg rounds st m = (.ok st', m') := by
  induction rounds with
  | nil => intro m st _; exact ⟨st, m, rfl⟩
  | cons c cs ih =>
    intro m st hok
    unfold asyncLoop
    split
    · exact ⟨st, m, rfl⟩
    · rename_i hp
      obtain ⟨st1, m1, e1⟩ := async_step_returns cfg gt hins hst hsl hc hi hpos initSize m0 m c st hok (by simpa using hp)
      rw [bind_live e1]
      exact ih m1 st1 (async_step_ok cfg gt hins hst initSize m0 m m1 c st st1 hok e1).1

/-- C89: the run returns when the initialiser does, the operators accept acceptable genomes, selection picks somebody from every non-empty
population of evaluated individuals, and the population has room for somebody. Scoring may raise as it likes. -/
theorem async_run_returns (cfg : AsyncConfig γ ψ φ ρ) (gt : Option φ → Option φ → Bool) (hins : Inserts cfg gt)
    (initGenome : ρ → PyM (List γ) × ρ) (hinit : ∀ s, ∃ g, (initGenome s).1 = .ok g ∧ GenesIn n allowed g)
    (hst : ∀ st ∈ cfg.stages, StageOk n allowed (ScoredOrFailed cfg) st) (hsl : ∀ st ∈ cfg.stages, StageLive n allowed st)
    (hc : Picks n allowed (ScoredOrFailed cfg) cfg.choose)
    (hi : ∀ r pop m, pop.length < cfg.popSize ∨ pop ≠ [] → ∃ pop', (cfg.insert r pop m).1 = .ok pop') (hpos : 1 ≤ cfg.popSize)
    (problem initSize : Nat) (copied : Nat → Bool) (rounds : List AsyncRound) (m : Mem γ ψ φ ρ) (hm : Sound m) :
    ∃ st m', asyncRun cfg initGenome problem initSize copied rounds m = (.ok st, m') := by
  have hinit' : ∀ s g s', initGenome s = (.ok g, s') → GenesIn n allowed g := by
    intro s g s' h
    obtain ⟨g', h1, h2⟩ := hinit s
    rw [h] at h1
    cases h1
    exact h2
  obtain ⟨initial, m1, e1⟩ : ∃ initial m1, createPopulation initGenome problem initSize m = (.ok initial, m1) := by
    rcases drawn_or_raises initGenome initSize m.rng with ⟨gs, s', hd⟩ | ⟨j, gs, s1, e, s2, h1, h2, h3⟩
    · obtain ⟨out, m1, e1, -⟩ := create_population_spec initGenome problem initSize m hm gs s' hd
      exact ⟨out, m1, e1⟩
    · obtain ⟨g, hg, -⟩ := hinit s1
      rw [h3] at hg
      cases hg
  obtain ⟨s1, u1, l1, nd1, r1, g1⟩ := createPopulation_good (truth := ScoredOrFailed cfg) initGenome hinit' problem initSize m m1 hm initial e1
  obtain ⟨sent, m2, e2⟩ := submitAll_returns copied initial m1 s1 nd1 g1
  have e0 : asyncRun cfg initGenome problem initSize copied [] m = (.ok ⟨sent, [], 0, []⟩, m2) := by
    unfold asyncRun
    rw [bind_live e1, bind_live e2]
    rfl
  have hok := (async_run_ok cfg gt hins initGenome hinit' hst problem initSize copied [] m m2 hm _ e0).1
  obtain ⟨st, m', e3⟩ := async_loop_returns cfg gt hins hst hsl hc hi hpos initSize m rounds m2 _ hok
  refine ⟨st, m', ?_⟩
  unfold asyncRun
  rw [bind_live e1, bind_live e2]
  exact e3

/-- C89: both inserters do what `async_run_returns` asks. -/
theorem inserters_return (cfg : AsyncConfig γ ψ φ ρ) (lt gt : Option φ → Option φ → Bool) (draw : ρ → Nat × ρ)
    (h : cfg.insert = tournamentInserter gt draw cfg.popSize ∨ cfg.insert = greedyInserter lt gt cfg.popSize) (r : Nat) (pop : List Nat)
    (m : Mem γ ψ φ ρ) (hp : pop.length < cfg.popSize ∨ pop ≠ []) : ∃ pop', (cfg.insert r pop m).1 = .ok pop' := by
  rcases h with h | h
  · rw [h]
    obtain ⟨h1, h2, -⟩ := tournament_insert_spec (viableInd m)
      (fun a b => gt ((m.inds[a]?).bind Obj.fitness) ((m.inds[b]?).bind Obj.fitness)) (draw m.rng).1 r pop cfg.popSize
    simp only [tournamentInserter]
    by_cases hl : pop.length < cfg.popSize
    · exact ⟨_, h1 hl⟩
    · obtain ⟨old, -, b⟩ := h2 (by omega) (hp.resolve_left hl)
      exact ⟨_, b⟩
  · rw [h]
    simp only [greedyInserter, greedyInsert]
    split
    · exact ⟨_, rfl⟩
    · rename_i hl
      cases pop with
      | nil => exact absurd rfl (hp.resolve_left hl)
      | cons x xs =>
        simp only
        have hi := indexMin_lt (fun _ a b => lt ((m.inds[a]?).bind Obj.fitness) ((m.inds[b]?).bind Obj.fitness)) x xs
        obtain ⟨a, b, -⟩ := replace_if_spec (viableInd m)
          (fun a b => gt ((m.inds[a]?).bind Obj.fitness) ((m.inds[b]?).bind Obj.fitness)) r (x :: xs)
          (indexMinFrom (fun _ a b => lt ((m.inds[a]?).bind Obj.fitness) ((m.inds[b]?).bind Obj.fitness)) (0, x) 1 xs)
        by_cases hc : viableInd m (x :: xs)[indexMinFrom (fun _ a b => lt ((m.inds[a]?).bind Obj.fitness) ((m.inds[b]?).bind Obj.fitness)) (0, x) 1 xs] = false ∨
            gt ((m.inds[r]?).bind Obj.fitness) ((m.inds[(x :: xs)[indexMinFrom (fun _ a b => lt ((m.inds[a]?).bind Obj.fitness) ((m.inds[b]?).bind Obj.fitness)) (0, x) 1 xs]]?).bind Obj.fitness) = true
        · exact ⟨_, a _ (List.getElem?_eq_getElem hi) hc⟩
        · simp only [not_or, Bool.not_eq_true, Bool.not_eq_false] at hc
          exact ⟨_, b _ (List.getElem?_eq_getElem hi) hc.1 hc.2⟩

/-! ## A run -/

/-- As `exSum`, but the genes `[0, 0]` cannot be scored. -/
def exPicky : Prob Int Int Int Nat :=
  { exSum with evaluate := fun c s => match c with
    | .raw g => if g = [0, 0] then (.error .valueError, s + 1) else (.ok g.sum, s + 1)
    | .value v => (.ok v, s + 1) }

/-- Two places, three births, and `-1` for NaN. -/
def exAsync : AsyncConfig Int Int Int Nat where
  maxBirths := 3
  popSize := 2
  countNonviable := false
  insert := tournamentInserter (fun a b => decide (a.getD 0 > b.getD 0)) (fun s => (s, s + 1)) 2
  choose pop m := (.ok (m.rng % pop.length), m.rng + 1)
  stages := [.mutate (.ok ()) false (bitflipFn (some 1) none fun s => (if s % 5 < 3 then [1 / 4, 3 / 4] else [3 / 4, 1 / 4], s + 1))]
  size := 1
  nan := -1
  dec := .identity
  prob := exPicky

def exRounds : List AsyncRound := (List.range 12).map fun i : Nat => ⟨i, fun r => r % 3 == 0⟩

set_option synthInstance.maxSize 1000 in
set_option synthInstance.maxHeartbeats 100000 in
/-- The run meets the hypotheses of `async_run_ok` and `async_run_returns`. Six come back, the first of them not viable, and so four
were born after the initial two for a counted three. -/
example :
    Inserts exAsync (fun a b => decide (a.getD 0 > b.getD 0)) ∧ StrictWeak (fun a b : Option Int => decide (a.getD 0 > b.getD 0)) ∧
    (∀ g f, GenesIn 2 (fun _ x => x = 0 ∨ x = 1) g → ScoredBy exAsync.dec exAsync.prob g f →
      decide ((some exAsync.nan).getD 0 > (some f).getD 0) = false) ∧
    (∀ s, ∃ g, (exInit s).1 = .ok g ∧ GenesIn 2 (fun _ x => x = 0 ∨ x = 1) g) ∧
    (∀ st ∈ exAsync.stages, StageOk 2 (fun _ x => x = 0 ∨ x = 1) (ScoredOrFailed exAsync) st) ∧
    (∀ st ∈ exAsync.stages, StageLive 2 (fun _ x => x = 0 ∨ x = 1) st) ∧ Sound exStart ∧
    Picks 2 (fun _ x => x = 0 ∨ x = 1) (ScoredOrFailed exAsync) exAsync.choose ∧
    ((asyncRun exAsync exInit 0 2 (fun r => r % 2 == 0) exRounds exStart).1.toOption.map fun st =>
      (st, st.completed.map fun r => (genes (asyncRun exAsync exInit 0 2 (fun r => r % 2 == 0) exRounds exStart).2 r,
        fitness (asyncRun exAsync exInit 0 2 (fun r => r % 2 == 0) exRounds exStart).2 r))) =
      some (⟨[], [2, 4], 3, [2, 4, 1, 7, 5, 8]⟩, [(some [0, 0], some (some (-1))), (some [1, 0], some (some 1)), (some [1, 0], some (some 1)),
        (some [0, 1], some (some 1)), (some [0, 1], some (some 1)), (some [1, 0], some (some 1))]) := by
  refine ⟨tournament_inserter exAsync _ (fun s => (s, s + 1)) rfl, ⟨?_, ?_⟩, ?_, ?_, ?_, ?_, ⟨by simp [exStart], by simp [exStart], by simp [exStart]⟩, ?_, ?_⟩
  · intro a b; simp; omega
  · intro a b c; simp; omega
  · rintro g f ⟨-, hg⟩ ⟨c, s, hc, hf⟩
    simp only [exAsync, decodeOf, Except.ok.injEq] at hc
    subst hc
    simp only [exAsync, exPicky] at hf
    split at hf
    · cases hf
    · cases hf
      have : 0 ≤ g.sum := List.sum_nonneg fun x hx => by
        obtain ⟨i, hi⟩ := List.mem_iff_getElem?.1 hx
        rcases hg i x hi with h | h <;> omega
      simp [exAsync]
      omega
  · intro s
    refine ⟨_, rfl, rfl, fun i x hx => ?_⟩
    have := List.mem_of_getElem? hx
    simp only [List.mem_cons, List.not_mem_nil, or_false] at this
    rcases this with rfl | rfl
    · omega
    · exact Or.inl rfl
  · intro st hst
    simp only [exAsync, List.mem_cons, List.not_mem_nil, or_false] at hst
    subst hst
    exact bitflip_stage_ok _ _ _ _ _ _ _
  · intro st hst
    simp only [exAsync, List.mem_cons, List.not_mem_nil, or_false] at hst
    subst hst
    exact bitflip_stage_live _ _ _ _ (1 / 2) (Or.inr ⟨rfl, by decide, 1, rfl, by norm_num⟩) (by norm_num) (by norm_num)
      (fun s => by split <;> rfl) _
  · exact fun pop m hne _ => ⟨_, rfl, Nat.mod_lt _ (List.length_pos_iff.2 hne)⟩
  · decide +kernel

end Leap
