import Verif.Model.CoopRun
import Verif.Lemmas.Carry
import Verif.Props.EvoRun
import Verif.Props.IslandRun

/-! # Whole runs of cooperative coevolution: every fitness is the mean score of the right teams (C100) -/

namespace Leap
open Spec

variable {γ ψ ρ : Type}

/-- `f` is a score of the team: the genes of its members, one after another, decoded and scored by the decoder and the problem of
its first member. -/
def Spec.TeamScore (env : Nat → Dec γ ψ × Prob γ ψ ℚ ρ) (m : Mem γ ψ ℚ ρ) (team : List Nat) (f : ℚ) : Prop :=
  ∃ (p : Nat) (gs : List (List γ)), team.head?.bind (fun r => (m.inds[r]?).map Obj.problem) = some p ∧ team.map (genes m) = gs.map some ∧
    ScoredBy (env p).1 (env p).2 gs.flatten f

/-- A team for individual `r` of sub-population `cur`: one member for each sub-population, `r` at its own place and at every
other place somebody living there. -/
def Spec.IsTeam (partners : List (List Nat)) (cur r : Nat) (team : List Nat) : Prop :=
  team.length = partners.length ∧ team[cur]? = some r ∧
    ∀ (j x : Nat) (pop : List Nat), j ≠ cur → team[j]? = some x → partners[j]? = some pop → x ∈ pop

/-- The fitness of individual `r` of sub-population `cur` is the mean score of `numTrials` teams. -/
def Spec.Cooperated (env : Nat → Dec γ ψ × Prob γ ψ ℚ ρ) (numTrials : Nat) (m : Mem γ ψ ℚ ρ) (partners : List (List Nat))
    (cur r : Nat) : Prop :=
  ∃ ts : List (List Nat × ℚ), ts.length = numTrials ∧ ts ≠ [] ∧
    fitness m r = some (some ((ts.map Prod.snd).sum / numTrials)) ∧
    ∀ t ∈ ts, IsTeam partners cur r t.1 ∧ TeamScore env m t.1 t.2

theorem teamScore_congr {env : Nat → Dec γ ψ × Prob γ ψ ℚ ρ} {m m' : Mem γ ψ ℚ ρ} {team : List Nat} {f : ℚ}
    (h : ∀ x ∈ team, genes m' x = genes m x ∧ (m'.inds[x]?).map Obj.problem = (m.inds[x]?).map Obj.problem)
    (ht : TeamScore env m team f) : TeamScore env m' team f := by
  obtain ⟨p, gs, h1, h2, h3⟩ := ht
  refine ⟨p, gs, ?_, ?_, h3⟩
  · cases team with
    | nil => simp at h1
    | cons a l => simpa [(h a (by simp)).2] using h1
  · rw [← h2]
    exact List.map_congr_left fun x hx => (h x hx).1

theorem sameInd_keeps {m m' : Mem γ ψ ℚ ρ} {x : Nat} (h : SameInd m m' x) :
    genes m' x = genes m x ∧ (m'.inds[x]?).map Obj.problem = (m.inds[x]?).map Obj.problem := ⟨h.2, by rw [h.1]⟩

theorem team_mem {partners : List (List Nat)} {cur r : Nat} {team : List Nat} (h : IsTeam partners cur r team) {x : Nat}
    (hx : x ∈ team) : x = r ∨ ∃ pop ∈ partners, x ∈ pop := by
  obtain ⟨j, hj⟩ := List.mem_iff_getElem?.1 hx
  by_cases e : j = cur
  · subst e
    rw [h.2.1] at hj
    exact Or.inl (Option.some.inj hj).symm
  · have hlt := (List.getElem?_eq_some_iff.1 hj).1
    rw [h.1] at hlt
    exact Or.inr ⟨partners[j], List.getElem_mem hlt, h.2.2 j x _ e hj (List.getElem?_eq_getElem hlt)⟩

theorem cooperated_same {env : Nat → Dec γ ψ × Prob γ ψ ℚ ρ} {k : Nat} {m m' : Mem γ ψ ℚ ρ} {partners : List (List Nat)} {cur r : Nat}
    (hr : SameInd m m' r) (hp : ∀ pop ∈ partners, ∀ x ∈ pop, SameInd m m' x) (h : Cooperated env k m partners cur r) :
    Cooperated env k m' partners cur r := by
  obtain ⟨ts, h1, h2, h3, h4⟩ := h
  refine ⟨ts, h1, h2, by rw [sameInd_fitness hr, h3], fun t ht => ⟨(h4 t ht).1, teamScore_congr (fun x hx => ?_) (h4 t ht).2⟩⟩
  rcases team_mem (h4 t ht).1 hx with rfl | ⟨pop, hpop, hx⟩
  · exact sameInd_keeps hr
  · exact sameInd_keeps (hp pop hpop x hx)

/-! ## One evaluation -/

theorem collab_next_ok {c : Collab γ ψ ρ} {pop : List Nat} {s s' : c.σ} {m m' : Mem γ ψ ℚ ρ} {r : Nat}
    (h : c.next pop s m = (.ok (r, s'), m')) : r ∈ pop ∧ ∃ t, m' = { m with rng := t } := by
  unfold Collab.next at h
  rcases e : c.pick pop s m with ⟨x, t⟩
  rw [e] at h
  cases x with
  | error err => simp at h
  | ok is =>
    obtain ⟨i, s1⟩ := is
    simp only at h
    cases hp : pop[i]? with
    | none => rw [hp] at h; simp at h
    | some q =>
      rw [hp] at h
      simp only [Prod.mk.injEq, Except.ok.injEq] at h
      obtain ⟨⟨rfl, rfl⟩, rfl⟩ := h
      exact ⟨List.mem_of_getElem? hp, t, rfl⟩

theorem chooseTeam_ok (c : Collab γ ψ ρ) (current cur : Nat) (pops : List (List Nat)) : ∀ (i : Nat) (ss ss' : List c.σ)
    (m m' : Mem γ ψ ℚ ρ) (team : List Nat), ss.length = pops.length → chooseTeam c current cur i pops ss m = (.ok (team, ss'), m') →
    (∃ t, m' = { m with rng := t }) ∧ team.length = pops.length ∧ ss'.length = pops.length ∧
    ∀ (j x : Nat), team[j]? = some x → (i + j = cur → x = current) ∧ (i + j ≠ cur → ∀ pop, pops[j]? = some pop → x ∈ pop) := by
  induction pops with
  | nil =>
    intro i ss ss' m m' team hl h
    cases ss with
    | cons => simp at hl
    | nil =>
      simp only [chooseTeam, HM.pure_apply, Prod.mk.injEq, Except.ok.injEq] at h
      obtain ⟨⟨rfl, rfl⟩, rfl⟩ := h
      exact ⟨⟨m.rng, rfl⟩, rfl, rfl, by simp⟩
  | cons pop pops ih =>
    intro i ss ss' m m' team hl h
    cases ss with
    | nil => simp at hl
    | cons s ss =>
      have hl : ss.length = pops.length := by simpa using hl
      simp only [chooseTeam] at h
      split at h
      · rename_i hne
        obtain ⟨⟨x, s1⟩, m1, e1, h⟩ := bind_ok h
        obtain ⟨⟨xs, ss1⟩, m2, e2, h⟩ := bind_ok h
        simp only [HM.pure_apply, Prod.mk.injEq, Except.ok.injEq] at h
        obtain ⟨⟨rfl, rfl⟩, rfl⟩ := h
        obtain ⟨hx, t, rfl⟩ := collab_next_ok e1
        obtain ⟨⟨t2, rfl⟩, l1, l2, hq⟩ := ih _ _ _ _ _ _ hl e2
        refine ⟨⟨t2, rfl⟩, by simp [l1], by simp [l2], fun j y hj => ?_⟩
        cases j with
        | zero =>
          simp only [List.getElem?_cons_zero, Option.some.injEq] at hj
          subst hj
          refine ⟨fun e => absurd e hne, fun _ p hp => ?_⟩
          simp only [List.getElem?_cons_zero, Option.some.injEq] at hp
          subst hp
          exact hx
        | succ j =>
          simp only [List.getElem?_cons_succ] at hj
          obtain ⟨q1, q2⟩ := hq j y hj
          exact ⟨fun e => q1 (by omega), fun e p hp => q2 (by omega) p (by simpa using hp)⟩
      · rename_i hne
        obtain ⟨⟨xs, ss1⟩, m2, e2, h⟩ := bind_ok h
        simp only [HM.pure_apply, Prod.mk.injEq, Except.ok.injEq] at h
        obtain ⟨⟨rfl, rfl⟩, rfl⟩ := h
        obtain ⟨⟨t2, rfl⟩, l1, l2, hq⟩ := ih _ _ _ _ _ _ hl e2
        refine ⟨⟨t2, rfl⟩, by simp [l1], by simp [l2], fun j y hj => ?_⟩
        cases j with
        | zero =>
          simp only [List.getElem?_cons_zero, Option.some.injEq] at hj
          subst hj
          exact ⟨fun _ => rfl, fun e => absurd (by simpa using e) hne⟩
        | succ j =>
          simp only [List.getElem?_cons_succ] at hj
          obtain ⟨q1, q2⟩ := hq j y hj
          exact ⟨fun e => q1 (by omega), fun e p hp => q2 (by omega) p (by simpa using hp)⟩

theorem genomesOf_ok (team : List Nat) : ∀ (m m' : Mem γ ψ ℚ ρ) (gs : List (List γ)), genomesOf team m = (.ok gs, m') →
    m' = m ∧ team.map (genes m) = gs.map some := by
  induction team with
  | nil =>
    intro m m' gs h
    simp only [genomesOf, HM.pure_apply, Prod.mk.injEq, Except.ok.injEq] at h
    obtain ⟨rfl, rfl⟩ := h
    exact ⟨rfl, rfl⟩
  | cons r rs ih =>
    intro m m' gs h
    obtain ⟨o, m1, e1, h⟩ := bind_ok h
    obtain ⟨g, m2, e2, h⟩ := bind_ok h
    obtain ⟨gs', m3, e3, h⟩ := bind_ok h
    simp only [HM.pure_apply, Prod.mk.injEq, Except.ok.injEq] at h
    obtain ⟨rfl, rfl⟩ := h
    cases ho : m.inds[r]? with
    | none => simp [getObj, ho] at e1
    | some o' =>
      simp only [getObj, ho, Prod.mk.injEq, Except.ok.injEq] at e1
      obtain ⟨rfl, rfl⟩ := e1
      cases ha : m.arrays[o'.genome]? with
      | none => simp [getArr, ha] at e2
      | some g' =>
        simp only [getArr, ha, Prod.mk.injEq, Except.ok.injEq] at e2
        obtain ⟨rfl, rfl⟩ := e2
        obtain ⟨rfl, h3⟩ := ih _ _ _ e3
        exact ⟨rfl, by simp [h3, genes, ho, ha]⟩

/-- Combining makes one new individual with all genes and the problem of the first, and touches nobody. -/
theorem combineInds_ok {m0 m m' : Mem γ ψ ℚ ρ} (h : Fresh m0 m) {team : List Nat} {c : Nat}
    (hteam : ∀ x ∈ team, x < m.inds.length) (hx : combineInds team m = (.ok c, m')) :
    c = m.inds.length ∧ m'.inds.length = m.inds.length + 1 ∧ Fresh m0 m' ∧ (∀ y, y < m.inds.length → SameInd m m' y) ∧
    ∃ (o : Obj ψ ℚ) (gs : List (List γ)), m'.inds[c]? = some o ∧ team.head?.bind (fun r => (m.inds[r]?).map Obj.problem) = some o.problem ∧
      team.map (genes m) = gs.map some ∧ genes m' c = some gs.flatten := by
  cases team with
  | nil => simp [combineInds] at hx
  | cons r0 rs =>
    obtain ⟨c1, m1, e1, hx⟩ := bind_ok (show ((cloneInd r0 >>= fun c => genomesOf (r0 :: rs) >>= fun gs => newArr gs.flatten >>= fun a =>
      modObj c (fun x => { x with genome := a }) >>= fun _ => pure c) m) = (.ok c, m') from hx)
    obtain ⟨gs, m2, e2, hx2⟩ := bind_ok hx
    clear hx
    obtain ⟨rfl, hgs⟩ := genomesOf_ok _ _ _ _ e2
    -- the first collaborator exists
    cases ho : m.inds[r0]? with
    | none => simp [cloneInd, HM.bind_apply, getObj, ho] at e1
    | some o =>
    have hlt := h.sound.genome o (List.mem_of_getElem? ho)
    have he := clone_effect m r0 o _ ho (List.getElem?_eq_getElem hlt)
    have hfr := (cloneInd_fresh (m0 := m0) (k := 0) r0).ok ⟨h, Nat.zero_le _⟩ e1
    have hfr2 := (newGenome_fresh (m0 := m0) (k := 0) c1 hfr.2.2 gs.flatten).ok ⟨hfr.1.1, Nat.zero_le _⟩
      (show (newArr gs.flatten >>= fun a => modObj c1 fun x => { x with genome := a }) m2 = (.ok (), _) from rfl)
    have hr0 := (List.getElem?_eq_some_iff.1 ho).1
    obtain ⟨a, m3, e3, hx⟩ := bind_ok hx2
    have e3 : newArr gs.flatten m2 = (.ok a, m3) := e3
    simp only [newArr, Prod.mk.injEq, Except.ok.injEq] at e3
    obtain ⟨rfl, rfl⟩ := e3
    obtain ⟨u, m4, e4, hx⟩ := bind_ok hx
    have e4 : modObj c1 _ _ = (.ok u, m4) := e4
    simp only [modObj, Prod.mk.injEq, true_and] at e4
    subst e4
    simp only [HM.pure_apply, Prod.mk.injEq, Except.ok.injEq] at hx
    obtain ⟨rfl, rfl⟩ := hx
    rw [e1] at he
    simp only [Prod.mk.injEq, Except.ok.injEq] at he
    obtain ⟨rfl, rfl⟩ := he
    have hsame : ∀ y, y < m.inds.length → SameInd m (⟨m.arrays ++ [m.arrays[o.genome]'hlt] ++ [gs.flatten], m.sets ++ [[o.uuid]],
        (m.inds ++ [{ o with genome := m.arrays.length, fitness := none, uuid := m.nextUuid, parents := m.sets.length }]).modify m.inds.length
          fun x => { x with genome := (m.arrays ++ [m.arrays[o.genome]'hlt]).length }, m.nextUuid + 1, m.rng⟩ : Mem γ ψ ℚ ρ) y := by
      intro y hy
      have hi : ((m.inds ++ [{ o with genome := m.arrays.length, fitness := none, uuid := m.nextUuid, parents := m.sets.length }]).modify m.inds.length
          fun x => { x with genome := (m.arrays ++ [m.arrays[o.genome]'hlt]).length })[y]? = m.inds[y]? := by
        have hne : m.inds.length ≠ y := by omega
        rw [List.getElem?_modify, List.getElem?_append_left hy]
        simp [hne]
      refine ⟨hi, ?_⟩
      simp only [genes, hi, List.getElem?_eq_getElem hy]
      have := h.sound.genome _ (List.getElem_mem hy)
      rw [List.getElem?_append_left (by simp; omega), List.getElem?_append_left this]
    have hsame1 : ∀ y, y < m.inds.length → SameInd m (⟨m.arrays ++ [m.arrays[o.genome]'hlt], m.sets ++ [[o.uuid]],
        m.inds ++ [{ o with genome := m.arrays.length, fitness := none, uuid := m.nextUuid, parents := m.sets.length }],
        m.nextUuid + 1, m.rng⟩ : Mem γ ψ ℚ ρ) y := by
      intro y hy
      have hi : (m.inds ++ [{ o with genome := m.arrays.length, fitness := none, uuid := m.nextUuid, parents := m.sets.length }])[y]? = m.inds[y]? :=
        List.getElem?_append_left hy
      refine ⟨hi, ?_⟩
      simp only [genes, hi, List.getElem?_eq_getElem hy]
      exact List.getElem?_append_left (h.sound.genome _ (List.getElem_mem hy))
    refine ⟨rfl, by simp, hfr2.1, hsame,
      { o with genome := m.arrays.length + 1, fitness := none, uuid := m.nextUuid, parents := m.sets.length }, gs, ?_, ?_, ?_, ?_⟩
    · simp [List.getElem?_modify]
    · simp [ho]
    · rw [← hgs]
      exact List.map_congr_left fun x hx => ((hsame1 x (hteam x hx)).2).symm
    · simp [genes, List.getElem?_modify]

theorem evaluateCombined_ok (env : Nat → Dec γ ψ × Prob γ ψ ℚ ρ) {m0 m m' : Mem γ ψ ℚ ρ} (h : Fresh m0 m) {c : Nat}
    (hc : m0.inds.length ≤ c) {o : Obj ψ ℚ} {g : List γ} (ho : m.inds[c]? = some o) (hg : genes m c = some g) {f : ℚ}
    (hx : evaluateCombined env c m = (.ok f, m')) :
    Fresh m0 m' ∧ m'.inds.length = m.inds.length ∧ (∀ y, y ≠ c → SameInd m m' y) ∧ ScoredBy (env o.problem).1 (env o.problem).2 g f := by
  obtain ⟨o', m1, e1, hx⟩ := bind_ok hx
  simp only [getObj, ho, Prod.mk.injEq, Except.ok.injEq] at e1
  obtain ⟨rfl, rfl⟩ := e1
  have hgood : GoodInd (fun g' => g' = g) (fun _ _ => True) m c := ⟨g, o.fitness, hg, by simp [fitness, ho], rfl, fun _ _ => trivial⟩
  have hloc := (evaluateInd_local _ _ (fun _ _ _ _ _ _ _ => trivial) hgood hx).1
  have hfr := (evaluateInd_fresh (m0 := m0) (k := 0) (env o.problem).1 (env o.problem).2 c hc).ok ⟨h, Nat.zero_le _⟩ hx
  refine ⟨hfr.1, hloc.1, fun y hy => hloc.2 y (by simpa using hy), ?_⟩
  cases hd : decodeOf (env o.problem).1 g with
  | error e =>
    obtain ⟨m2, e2, -⟩ := evaluate_raises _ (env o.problem).2 m c g hg e (Or.inl hd)
    rw [hx] at e2
    cases e2
  | ok x =>
    rcases hp : (env o.problem).2.evaluate x m.rng with ⟨y, s⟩
    cases y with
    | error e =>
      obtain ⟨m2, e2, -⟩ := evaluate_raises _ (env o.problem).2 m c g hg e (Or.inr ⟨x, hd, by rw [hp]⟩)
      rw [hx] at e2
      cases e2
    | ok f' =>
      obtain ⟨m2, e2, -⟩ := evaluate_scores_current_genome _ (env o.problem).2 m c g hg x hd f' s hp
      rw [hx] at e2
      cases e2
      exact ⟨x, m.rng, hd, by rw [hp]⟩

/-- The teams of some trials, one after another, where each trial takes up the selection iterators where the one before left them. -/
inductive Teams (c : Collab γ ψ ρ) (pops : List (List Nat)) (current cur : Nat) : List c.σ → List (List Nat) → Prop where
  | nil (ss : List c.σ) : Teams c pops current cur ss []
  | cons {ss ss1 : List c.σ} {team : List Nat} {ts : List (List Nat)} (m m1 : Mem γ ψ ℚ ρ)
      (h : chooseTeam c current cur 0 pops ss m = (.ok (team, ss1), m1)) (hs : Teams c pops current cur ss1 ts) :
      Teams c pops current cur ss (team :: ts)

/-- The trials: as many teams as asked for, their scores, and nobody who existed before is touched. -/
theorem coopTrials_ok (env : Nat → Dec γ ψ × Prob γ ψ ℚ ρ) (c : Collab γ ψ ρ) (pops : List (List Nat)) (current cur : Nat)
    (hcur : cur < pops.length) {m0 : Mem γ ψ ℚ ρ} (k : Nat) : ∀ (ss : List c.σ) (m m' : Mem γ ψ ℚ ρ) (fs : List ℚ),
    ss.length = pops.length → Fresh m0 m → current < m.inds.length → (∀ pop ∈ pops, ∀ x ∈ pop, x < m.inds.length) →
    coopTrials env c pops current cur k ss m = (.ok fs, m') →
    Fresh m0 m' ∧ m.inds.length ≤ m'.inds.length ∧ (∀ y, y < m.inds.length → SameInd m m' y) ∧
    ∃ ts : List (List Nat × ℚ), ts.map Prod.snd = fs ∧ ts.length = k ∧
      (∀ t ∈ ts, IsTeam pops cur current t.1 ∧ TeamScore env m t.1 t.2) ∧ Teams c pops current cur ss (ts.map Prod.fst) := by
  induction k with
  | zero =>
    intro ss m m' fs hl hm hc hp h
    simp only [coopTrials, HM.pure_apply, Prod.mk.injEq, Except.ok.injEq] at h
    obtain ⟨rfl, rfl⟩ := h
    exact ⟨hm, Nat.le_refl _, fun _ _ => sameInd_refl _ _, [], rfl, rfl, by simp, .nil ss⟩
  | succ k ih =>
    intro ss m m' fs hl hm hc hp h
    obtain ⟨⟨team, ss1⟩, m1, e1, h⟩ := bind_ok h
    obtain ⟨comb, m2, e2, h⟩ := bind_ok h
    obtain ⟨f, m3, e3, h⟩ := bind_ok h
    obtain ⟨fs', m4, e4, h⟩ := bind_ok h
    simp only [HM.pure_apply, Prod.mk.injEq, Except.ok.injEq] at h
    obtain ⟨rfl, rfl⟩ := h
    obtain ⟨⟨t, rfl⟩, l1, l2, hq⟩ := chooseTeam_ok c current cur pops 0 ss ss1 m m1 team hl e1
    have hteam : IsTeam pops cur current team := by
      refine ⟨l1, ?_, fun j x pop hj hx hpop => (hq j x hx).2 (by omega) pop hpop⟩
      have hlt : cur < team.length := by omega
      have := (hq cur _ (List.getElem?_eq_getElem hlt)).1 (by omega)
      rw [List.getElem?_eq_getElem hlt, this]
    have hlt : ∀ x ∈ team, x < m.inds.length := by
      intro x hx
      rcases team_mem hteam hx with rfl | ⟨pop, hpop, hx⟩
      · exact hc
      · exact hp pop hpop x hx
    have hm1 : Fresh m0 { m with rng := t } := fresh_rng hm t
    obtain ⟨rfl, b2, b3, b4, o, gs, b5, b6, b7, b8⟩ := combineInds_ok hm1 hlt e2
    obtain ⟨d1, d2, d3, d4⟩ := evaluateCombined_ok env b3 hm1.inds b5 b8 e3
    have hsame : ∀ y, y < m.inds.length → SameInd m m3 y := fun y hy =>
      sameInd_trans (sameInd_trans (m1 := { m with rng := t }) ⟨rfl, rfl⟩ (b4 y hy)) (d3 y (by simp; omega))
    have hlen : m.inds.length ≤ m3.inds.length := by rw [d2, b2]; simp
    obtain ⟨g1, g2, g3, ts, g4, g5, g6, g7⟩ := ih ss1 m3 m4 fs' l2 d1 (by omega)
      (fun pop hpop x hx => Nat.lt_of_lt_of_le (hp pop hpop x hx) hlen) e4
    refine ⟨g1, by omega, fun y hy => sameInd_trans (hsame y hy) (g3 y (by omega)), (team, f) :: ts, by simp [g4], by simp [g5], ?_, .cons m _ e1 g7⟩
    intro u hu
    rcases List.mem_cons.1 hu with rfl | hu
    · exact ⟨hteam, o.problem, gs, b6, b7, d4⟩
    · refine ⟨(g6 u hu).1, teamScore_congr (fun x hx => ?_) (g6 u hu).2⟩
      have hx' : x < m.inds.length := by
        rcases team_mem (g6 u hu).1 hx with rfl | ⟨pop, hpop, hx⟩
        · exact hc
        · exact hp pop hpop x hx
      have := sameInd_keeps (hsame x hx')
      exact ⟨this.1.symm, this.2.symm⟩

theorem coopEvaluate_fresh (env : Nat → Dec γ ψ × Prob γ ψ ℚ ρ) (c : Collab γ ψ ρ) (numTrials : Nat) (pops : List (List Nat))
    (current cur : Nat) (hcur : cur < pops.length) {m0 m m' : Mem γ ψ ℚ ρ} (hm : Fresh m0 m) (hn : m0.inds.length ≤ current)
    (hc : current < m.inds.length) (hp : ∀ pop ∈ pops, ∀ x ∈ pop, x < m.inds.length)
    (h : coopEvaluate env c numTrials pops current cur m = (.ok (), m')) : Fresh m0 m' ∧ m.inds.length ≤ m'.inds.length := by
  obtain ⟨fs, m1, e1, h⟩ := bind_ok h
  obtain ⟨_, m2, e2, h⟩ := bind_ok h
  obtain ⟨g1, g2, -⟩ := coopTrials_ok env c pops current cur hcur numTrials _ m m1 fs (by simp) hm hc hp e1
  simp only [HM.lift_apply, Prod.mk.injEq] at e2
  obtain ⟨-, rfl⟩ := e2
  have := (modObj_attr_fresh (m0 := m0) (k := m.inds.length) current hn (fun x => { x with fitness := some (mean fs) })
    (fun _ => rfl) (fun _ => rfl) (fun _ => rfl)).ok ⟨g1, g2⟩ h
  exact this

theorem coop_evaluate_core (env : Nat → Dec γ ψ × Prob γ ψ ℚ ρ) (c : Collab γ ψ ρ) (numTrials : Nat) (pops : List (List Nat))
    (current cur : Nat) (hcur : cur < pops.length) (m m' : Mem γ ψ ℚ ρ) (hm : Sound m) (hc : current < m.inds.length)
    (hp : ∀ pop ∈ pops, ∀ x ∈ pop, x < m.inds.length)
    (h : coopEvaluate env c numTrials pops current cur m = (.ok (), m')) :
    (∃ ts : List (List Nat × ℚ), ts.length = numTrials ∧ ts ≠ [] ∧
      fitness m' current = some (some ((ts.map Prod.snd).sum / numTrials)) ∧
      (∀ t ∈ ts, IsTeam pops cur current t.1 ∧ TeamScore env m' t.1 t.2) ∧
      Teams c pops current cur (pops.map fun _ => c.init) (ts.map Prod.fst)) ∧ genes m' current = genes m current ∧
    (∃ f, m'.inds[current]? = (m.inds[current]?).map fun o => { o with fitness := some f }) ∧
    ∀ y, y < m.inds.length → y ≠ current → SameInd m m' y := by
  obtain ⟨fs, m1, e1, h⟩ := bind_ok h
  obtain ⟨_, m2, e2, h⟩ := bind_ok h
  obtain ⟨g1, g2, g3, ts, g4, g5, g6, g7⟩ := coopTrials_ok env c pops current cur hcur numTrials _ m m1 fs (by simp) (.refl m hm) hc hp e1
  have hne : fs ≠ [] := by
    rintro rfl
    simp [HM.lift_apply] at e2
  rw [if_neg hne] at e2
  simp only [HM.lift_apply, Prod.mk.injEq, true_and] at e2
  subst e2
  simp only [modObj, Prod.mk.injEq, true_and] at h
  subst h
  have hother : ∀ y, y ≠ current → SameInd m1 { m1 with inds := m1.inds.modify current fun x => { x with fitness := some (mean fs) } } y := by
    intro y hy
    have hi : (m1.inds.modify current fun x => { x with fitness := some (mean fs) })[y]? = m1.inds[y]? := by
      simp [List.getElem?_modify, Ne.symm hy]
    exact ⟨hi, by simp only [genes, hi]⟩
  have hs := g3 current hc
  have ho : m1.inds[current]? = some (m.inds[current]'hc) := by rw [hs.1]; exact List.getElem?_eq_getElem hc
  have hgen : genes (⟨m1.arrays, m1.sets, m1.inds.modify current fun x => { x with fitness := some (mean fs) }, m1.nextUuid, m1.rng⟩ : Mem γ ψ ℚ ρ) current
      = genes m1 current := by
    simp [genes, List.getElem?_modify, ho]
  refine ⟨⟨ts, g5, ?_, ?_, fun t ht => ⟨(g6 t ht).1, teamScore_congr (fun x hx => ?_) (g6 t ht).2⟩, g7⟩, by rw [hgen, hs.2], ⟨mean fs, ?_⟩,
    fun y hy hyc => sameInd_trans (g3 y hy) (hother y hyc)⟩
  · rintro rfl
    exact hne (by rw [← g4]; rfl)
  · have : fs.length = numTrials := by rw [← g4, List.length_map, g5]
    simp only [fitness, List.getElem?_modify, ho, g4]
    simp [mean, this]
  · have hx' : x < m.inds.length := by
      rcases team_mem (g6 t ht).1 hx with rfl | ⟨pop, hpop, hx⟩
      · exact hc
      · exact hp pop hpop x hx
    by_cases hxc : x = current
    · subst hxc
      exact ⟨by rw [hgen, hs.2], by simp [List.getElem?_modify, ho, List.getElem?_eq_getElem hc]⟩
    · exact sameInd_keeps (sameInd_trans (g3 x hx') (hother x hxc))
  · simp [List.getElem?_modify, ho, List.getElem?_eq_getElem hc]

/-- C100: cooperative evaluation of one individual sets its fitness to the mean score of `num_trials` teams it belongs to, and
changes nothing else about it and nothing about anybody else. -/
theorem coop_evaluate_exact (env : Nat → Dec γ ψ × Prob γ ψ ℚ ρ) (c : Collab γ ψ ρ) (numTrials : Nat) (pops : List (List Nat))
    (current cur : Nat) (hcur : cur < pops.length) (m m' : Mem γ ψ ℚ ρ) (hm : Sound m) (hc : current < m.inds.length)
    (hp : ∀ pop ∈ pops, ∀ x ∈ pop, x < m.inds.length)
    (h : coopEvaluate env c numTrials pops current cur m = (.ok (), m')) :
    Cooperated env numTrials m' pops cur current ∧ genes m' current = genes m current ∧
    (∃ f, m'.inds[current]? = (m.inds[current]?).map fun o => { o with fitness := some f }) ∧
    ∀ y, y < m.inds.length → y ≠ current → SameInd m m' y := by
  obtain ⟨⟨ts, a1, a2, a3, a4, -⟩, b⟩ := coop_evaluate_core env c numTrials pops current cur hcur m m' hm hc hp h
  exact ⟨⟨ts, a1, a2, a3, a4⟩, b⟩

/-- C100: no trials, no fitness: `num_trials=0` raises `ValueError` and leaves the individual as it was. -/
theorem coop_zero_trials (env : Nat → Dec γ ψ × Prob γ ψ ℚ ρ) (c : Collab γ ψ ρ) (pops : List (List Nat)) (current cur : Nat)
    (m : Mem γ ψ ℚ ρ) : coopEvaluate env c 0 pops current cur m = (.error .valueError, m) := by
  simp [coopEvaluate, coopTrials, HM.bind_apply, HM.lift_apply]

/-- A collaborator selector that needs no random numbers, such as `cyclic_selection`: at its `n`-th `next()` it takes the member at
position `pos pop n`. -/
abbrev rotating (γ ψ ρ : Type) (pos : List Nat → Nat → Nat) : Collab γ ψ ρ where
  σ := Nat
  init := 0
  pick pop n m := (.ok (pos pop n, n + 1), m.rng)

theorem rotating_team (pos : List Nat → Nat → Nat) (current cur k : Nat) (pops : List (List Nat)) : ∀ (i : Nat) (ss ss' : List Nat)
    (m m' : Mem γ ψ ℚ ρ) (team : List Nat), ss.length = pops.length → (∀ j, j < ss.length → i + j ≠ cur → ss[j]? = some k) →
    chooseTeam (rotating γ ψ ρ pos) current cur i pops ss m = (.ok (team, ss'), m') →
    ss'.length = pops.length ∧ (∀ j, j < ss'.length → i + j ≠ cur → ss'[j]? = some (k + 1)) ∧
    ∀ (j : Nat) (pop : List Nat), i + j ≠ cur → pops[j]? = some pop → team[j]? = pop[pos pop k]? := by
  induction pops with
  | nil =>
    intro i ss ss' m m' team hl hk h
    cases ss with
    | cons => simp at hl
    | nil =>
      simp only [chooseTeam, HM.pure_apply, Prod.mk.injEq, Except.ok.injEq] at h
      obtain ⟨⟨rfl, rfl⟩, rfl⟩ := h
      exact ⟨rfl, by simp, by simp⟩
  | cons pop pops ih =>
    intro i ss ss' m m' team hl hk h
    cases ss with
    | nil => simp at hl
    | cons s ss =>
      have hl : ss.length = pops.length := by simpa using hl
      have hk' : ∀ j, j < ss.length → i + 1 + j ≠ cur → ss[j]? = some k := fun j hj hc => by
        simpa using hk (j + 1) (by simpa using hj) (by omega)
      simp only [chooseTeam] at h
      split at h
      · rename_i hne
        obtain ⟨⟨x, s1⟩, m1, e1, h⟩ := bind_ok h
        obtain ⟨⟨xs, ss1⟩, m2, e2, h⟩ := bind_ok h
        simp only [HM.pure_apply, Prod.mk.injEq, Except.ok.injEq] at h
        obtain ⟨⟨rfl, rfl⟩, rfl⟩ := h
        have hs : s = k := by simpa using hk 0 (by simp) (by omega)
        subst hs
        obtain ⟨q1, q2, q3⟩ := ih _ _ _ _ _ _ hl hk' e2
        simp only [Collab.next, rotating] at e1
        cases hx : pop[pos pop s]? with
        | none => simp [hx] at e1
        | some y =>
        simp only [hx, Prod.mk.injEq, Except.ok.injEq] at e1
        obtain ⟨⟨rfl, rfl⟩, -⟩ := e1
        refine ⟨by simp [q1], fun j hj hc => ?_, fun j p hc hp => ?_⟩
        · cases j with
          | zero => rfl
          | succ j => simpa using q2 j (by simpa using hj) (by omega)
        · cases j with
          | zero =>
            simp only [List.getElem?_cons_zero, Option.some.injEq] at hp ⊢
            subst hp
            exact hx.symm
          | succ j => simpa using q3 j p (by omega) (by simpa using hp)
      · rename_i hne
        have hne : i = cur := by simpa using hne
        obtain ⟨⟨xs, ss1⟩, m2, e2, h⟩ := bind_ok h
        simp only [HM.pure_apply, Prod.mk.injEq, Except.ok.injEq] at h
        obtain ⟨⟨rfl, rfl⟩, rfl⟩ := h
        obtain ⟨q1, q2, q3⟩ := ih _ _ _ _ _ _ hl hk' e2
        refine ⟨by simp [q1], fun j hj hc => ?_, fun j p hc hp => ?_⟩
        · cases j with
          | zero => omega
          | succ j => simpa using q2 j (by simpa using hj) (by omega)
        · cases j with
          | zero => omega
          | succ j => simpa using q3 j p (by omega) (by simpa using hp)

theorem rotating_teams (pos : List Nat → Nat → Nat) {pops : List (List Nat)} {current cur : Nat}
    {ss : List (rotating γ ψ ρ pos).σ} {ts : List (List Nat)} (h : Teams (rotating γ ψ ρ pos) pops current cur ss ts) : ∀ k : Nat, ss.length = pops.length →
    (∀ j, j < ss.length → j ≠ cur → ss[j]? = some k) → ∀ (t : Nat) (team : List Nat), ts[t]? = some team →
    ∀ (j : Nat) (pop : List Nat), j ≠ cur → pops[j]? = some pop → team[j]? = pop[pos pop (k + t)]? := by
  induction h with
  | nil ss => simp
  | cons m m1 h hs ih =>
    intro k hl hk t team ht j pop hj hp
    obtain ⟨q1, q2, q3⟩ := rotating_team pos current cur k pops 0 _ _ m m1 _ hl (by simpa using hk) h
    cases t with
    | zero =>
      simp only [List.getElem?_cons_zero, Option.some.injEq] at ht
      subst ht
      exact q3 j pop (by omega) hp
    | succ t =>
      have := ih (k + 1) q1 (by simpa using q2) t team (by simpa using ht) j pop hj hp
      rw [this, show k + 1 + t = k + (t + 1) by omega]

/-- C100: the partners go round. With a collaborator selector that takes members in a fixed order, trial `t` of every individual is
played with the `t`-th choice of the selector from each other sub-population. -/
theorem coop_partners_rotate (env : Nat → Dec γ ψ × Prob γ ψ ℚ ρ) (pos : List Nat → Nat → Nat) (numTrials : Nat)
    (pops : List (List Nat)) (current cur : Nat) (hcur : cur < pops.length) (m m' : Mem γ ψ ℚ ρ) (hm : Sound m)
    (hc : current < m.inds.length) (hp : ∀ pop ∈ pops, ∀ x ∈ pop, x < m.inds.length)
    (h : coopEvaluate env (rotating γ ψ ρ pos) numTrials pops current cur m = (.ok (), m')) :
    ∃ ts : List (List Nat × ℚ), ts.length = numTrials ∧ fitness m' current = some (some ((ts.map Prod.snd).sum / numTrials)) ∧
      ∀ (t : Nat) (tf : List Nat × ℚ), ts[t]? = some tf → TeamScore env m' tf.1 tf.2 ∧ tf.1.length = pops.length ∧
        tf.1[cur]? = some current ∧ ∀ (j : Nat) (pop : List Nat), j ≠ cur → pops[j]? = some pop → tf.1[j]? = pop[pos pop t]? := by
  obtain ⟨⟨ts, a1, a2, a3, a4, a5⟩, b⟩ := coop_evaluate_core env _ numTrials pops current cur hcur m m' hm hc hp h
  refine ⟨ts, a1, a3, fun t tf ht => ?_⟩
  obtain ⟨⟨b1, b2, -⟩, b3⟩ := a4 tf (List.mem_of_getElem? ht)
  refine ⟨b3, b1, b2, fun j pop hj hpop => ?_⟩
  have := rotating_teams pos a5 0 (by simp) (fun j hj _ => by simp at hj; simp [rotating, hj]) t tf.1 (by simp [ht]) j pop hj hpop
  rwa [Nat.zero_add] at this

/-! ## The pipeline of one sub-population -/

theorem fresh_same {m0 m m' : Mem γ ψ ℚ ρ} (h0 : Sound m0) (h : Fresh m0 m) (h' : Fresh m0 m') {x : Nat} (hx : x < m0.inds.length) :
    SameInd m m' x := by
  have a := unchanged_same h0 h.unchanged hx
  have b := unchanged_same h0 h'.unchanged hx
  exact ⟨b.1.trans a.1.symm, b.2.trans a.2.symm⟩

/-- Everybody in sub-population `i` has acceptable genes for that sub-population. -/
def Spec.TeamsOk (len : Nat → Nat) (allowed : Nat → Nat → γ → Prop) (m : Mem γ ψ ℚ ρ) (pops : List (List Nat)) : Prop :=
  ∀ (i : Nat) (p : List Nat), pops[i]? = some p → ∀ r ∈ p, GoodGenes (len i) (allowed i) m r

theorem teamsOk_lt {len : Nat → Nat} {allowed : Nat → Nat → γ → Prop} {m : Mem γ ψ ℚ ρ} {pops : List (List Nat)}
    (h : TeamsOk len allowed m pops) : ∀ pop ∈ pops, ∀ x ∈ pop, x < m.inds.length := by
  intro pop hpop x hx
  obtain ⟨i, hi⟩ := List.mem_iff_getElem?.1 hpop
  exact goodGenes_lt (h i pop hi x hx)

/-- C100: the pipeline on sub-population `cur` returns `size` new, different individuals with acceptable genes. The fitness of each
is the mean score of `num_trials` teams, made of itself and of members of the other sub-populations as they are when the
pipeline runs. Nobody who existed before is changed. -/
theorem coop_pipeline_spec (cfg : CoopConfig γ ψ ρ) (len : Nat → Nat) (allowed : Nat → Nat → γ → Prop) (g : Int) (cur : Nat)
    (hst : ∀ st ∈ cfg.stages, StageOk (len cur) (allowed cur) (fun _ _ => True) st) (pops : List (List Nat)) (parents : List Nat)
    (hpar : pops[cur]? = some parents) (m m' : Mem γ ψ ℚ ρ) (hm : Sound m) (hok : TeamsOk len allowed m pops) (out : List Nat)
    (h : coopPipeline cfg g cur pops parents m = (.ok out, m')) :
    Sound m' ∧ Unchanged m m' ∧ out.length = cfg.size ∧ out.Nodup ∧
    ∀ r ∈ out, m.inds.length ≤ r ∧ GoodGenes (len cur) (allowed cur) m' r ∧ Cooperated cfg.env cfg.numTrials m' pops cur r := by
  have hcur := (List.getElem?_eq_some_iff.1 hpar).1
  have hlt := teamsOk_lt hok
  obtain ⟨pend, how⟩ := stages_carries hm cfg.stages hst _ _ (clone_first_carries hm parents (hok cur parents hpar) (cfg.choose g cur parents))
  have hstep : ∀ s m1 r s' m2, Fresh m m1 → (∀ p ∈ pend s, m.inds.length ≤ p ∧ GoodGenes (len cur) (allowed cur) m1 p) → (pend s).Nodup →
      (coopApply cfg.env cfg.collab cfg.numTrials pops cur (stagesIter (selectionIter parents (cfg.choose g cur parents))
        (Stage.clone :: cfg.stages))).next s m1 = (.ok (r, s'), m2) →
      Yield (len cur) (allowed cur) m m1 m2 (pend s) (pend s') r ∧ Cooperated cfg.env cfg.numTrials m2 pops cur r := by
    intro s m1 r s' m2 hm1 hp hn hx
    obtain ⟨⟨r1, s1⟩, m3, e1, hx⟩ := bind_ok (pep_ok hx)
    obtain ⟨_, m4, e2, hx⟩ := bind_ok hx
    simp only [HM.pure_apply, Prod.mk.injEq, Except.ok.injEq] at hx
    obtain ⟨⟨rfl, rfl⟩, rfl⟩ := hx
    have o := how.step s m1 r _ m3 hm1 hp hn e1
    have hp3 : ∀ pop ∈ pops, ∀ x ∈ pop, x < m3.inds.length := fun pop hpop x hx =>
      Nat.lt_of_lt_of_le (hlt pop hpop x hx) o.fresh.inds
    obtain ⟨f1, f2⟩ := coopEvaluate_fresh cfg.env cfg.collab cfg.numTrials pops r cur hcur o.fresh o.new (goodGenes_lt o.good) hp3 e2
    obtain ⟨c1, c2, -, c4⟩ := coop_evaluate_exact cfg.env cfg.collab cfg.numTrials pops r cur hcur m3 m4 o.fresh.sound
      (goodGenes_lt o.good) hp3 e2
    obtain ⟨gg, hg1, hg2⟩ := o.good
    exact ⟨o.touch f2 c4 f1 ⟨gg, by rw [c2, hg1], hg2⟩, c1⟩
  obtain ⟨⟨os, s'⟩, m1, e1, h⟩ := bind_ok (show (hpull (coopApply cfg.env cfg.collab cfg.numTrials pops cur
    (stagesIter (selectionIter parents (cfg.choose g cur parents)) (Stage.clone :: cfg.stages))).next cfg.size
    (coopApply cfg.env cfg.collab cfg.numTrials pops cur
    (stagesIter (selectionIter parents (cfg.choose g cur parents)) (Stage.clone :: cfg.stages))).init >>= fun os => pure os.1) m = (.ok out, m') from h)
  simp only [HM.pure_apply, Prod.mk.injEq, Except.ok.injEq] at h
  obtain ⟨rfl, rfl⟩ := h
  have hinit : pend (coopApply cfg.env cfg.collab cfg.numTrials pops cur
      (stagesIter (selectionIter parents (cfg.choose g cur parents)) (Stage.clone :: cfg.stages))).init = [] := how.init
  obtain ⟨q1, -, q3, q4, -, q6⟩ := hpull_carries (m0 := m) (coopApply cfg.env cfg.collab cfg.numTrials pops cur
    (stagesIter (selectionIter parents (cfg.choose g cur parents)) (Stage.clone :: cfg.stages))) pend
    ⟨hinit, fun s m1 r s' m2 a b c d => (hstep s m1 r s' m2 a b c d).1⟩ (fun m r => Cooperated cfg.env cfg.numTrials m pops cur r)
    (fun s m1 r s' m2 a b c d => (hstep s m1 r s' m2 a b c d).2)
    (fun m1 m2 r a b c d => cooperated_same c (fun pop hpop x hx => fresh_same hm a b (hlt pop hpop x hx)) d)
    cfg.size _ m _ _ _ (.refl m hm) (by rw [hinit]; simp) (by rw [hinit]; simp) e1
  exact ⟨q1.sound, q1.unchanged, q3, q4, fun r hr => ⟨(q6 r hr).1, (q6 r hr).2.2⟩⟩

/-! ## A generation -/

theorem teamsOk_unchanged {len : Nat → Nat} {allowed : Nat → Nat → γ → Prop} {m m' : Mem γ ψ ℚ ρ} (hm : Sound m) (hu : Unchanged m m')
    {pops : List (List Nat)} (h : TeamsOk len allowed m pops) : TeamsOk len allowed m' pops := fun i p hp r hr =>
  goodGenes_same (unchanged_same hm hu (goodGenes_lt (h i p hp r hr))) (h i p hp r hr)

theorem cooperated_unchanged {env : Nat → Dec γ ψ × Prob γ ψ ℚ ρ} {k : Nat} {m m' : Mem γ ψ ℚ ρ} (hm : Sound m) (hu : Unchanged m m')
    {partners : List (List Nat)} {cur r : Nat} (hr : r < m.inds.length) (hp : ∀ pop ∈ partners, ∀ x ∈ pop, x < m.inds.length)
    (h : Cooperated env k m partners cur r) : Cooperated env k m' partners cur r :=
  cooperated_same (unchanged_same hm hu hr) (fun pop hpop x hx => unchanged_same hm hu (hp pop hpop x hx)) h

theorem take_drop_eq {α : Type} {l l' : List α} {k : Nat} (hlen : l'.length = l.length) (h : ∀ i, i < k → l'[i]? = l[i]?) :
    l'.take k ++ l.drop k = l := by
  rw [show l'.take k = l.take k from ?_, List.take_append_drop]
  apply List.ext_getElem?
  intro i
  rw [List.getElem?_take, List.getElem?_take]
  split
  · exact h i ‹_›
  · rfl

/-- A generation from sub-population `cur` on. -/
theorem coop_sweep_spec (cfg : CoopConfig γ ψ ρ) (len : Nat → Nat) (allowed : Nat → Nat → γ → Prop) (g : Int)
    (hst : ∀ i, ∀ st ∈ cfg.stages, StageOk (len i) (allowed i) (fun _ _ => True) st) (k : Nat) :
    ∀ (cur : Nat) (pops pops' : List (List Nat)) (m m' : Mem γ ψ ℚ ρ), cur + k = pops.length → Sound m → pops.flatten.Nodup →
      TeamsOk len allowed m pops → coopSweep cfg g k cur pops m = (.ok pops', m') →
      Sound m' ∧ Unchanged m m' ∧ pops'.length = pops.length ∧ pops'.flatten.Nodup ∧ TeamsOk len allowed m' pops' ∧
      (∀ r ∈ pops'.flatten, r ∈ pops.flatten ∨ m.inds.length ≤ r) ∧ (∀ i, i < cur → pops'[i]? = pops[i]?) ∧
      ∀ (i : Nat) (p : List Nat), cur ≤ i → pops'[i]? = some p → p.length = cfg.size ∧
        ∀ r ∈ p, m.inds.length ≤ r ∧ Cooperated cfg.env cfg.numTrials m' (pops'.take i ++ pops.drop i) i r := by
  induction k with
  | zero =>
    intro cur pops pops' m m' hk hm hnd hok h
    simp only [coopSweep, HM.pure_apply, Prod.mk.injEq, Except.ok.injEq] at h
    obtain ⟨rfl, rfl⟩ := h
    refine ⟨hm, ⟨fun _ _ => rfl, fun _ _ => rfl, fun _ _ => rfl⟩, rfl, hnd, hok, fun r hr => Or.inl hr, fun _ _ => rfl, fun i p hi hp => ?_⟩
    have := (List.getElem?_eq_some_iff.1 hp).1
    omega
  | succ k ih =>
    intro cur pops pops' m m' hk hm hnd hok h
    obtain ⟨off, m1, e1, h⟩ := bind_ok h
    have hcur : cur < pops.length := by omega
    have hpar : pops[cur]? = some (pops.getD cur []) := by
      rw [List.getD_eq_getElem?_getD, List.getElem?_eq_getElem hcur]; rfl
    obtain ⟨s1, u1, l1, nd1, q1⟩ := coop_pipeline_spec cfg len allowed g cur (hst cur) pops _ hpar m m1 hm hok off e1
    obtain ⟨c1, -, -⟩ := unchanged_length u1
    have hperm := flatten_set_perm off hpar
    have hperm0 := flatten_perm hpar
    have hnd1 : (pops.set cur off).flatten.Nodup := by
      refine hperm.nodup_iff.2 (List.nodup_append.2 ⟨nd1, (List.nodup_append.1 (hperm0.nodup_iff.1 hnd)).2.1, ?_⟩)
      rintro a ha b hb rfl
      have h1 := (q1 a ha).1
      have : a ∈ pops.flatten := hperm0.mem_iff.2 (List.mem_append.2 (Or.inr hb))
      obtain ⟨p, hp, hap⟩ := List.mem_flatten.1 this
      have := teamsOk_lt hok p hp a hap
      omega
    have hok1 : TeamsOk len allowed m1 (pops.set cur off) := by
      intro i p hp r hr
      by_cases hi : i = cur
      · subst hi
        simp only [List.getElem?_set_self hcur, Option.some.injEq] at hp
        subst hp
        exact (q1 r hr).2.1
      · rw [List.getElem?_set_ne (Ne.symm hi)] at hp
        exact teamsOk_unchanged hm u1 hok i p hp r hr
    obtain ⟨s2, u2, l2, nd2, ok2, old2, pre2, q2⟩ := ih (cur + 1) (pops.set cur off) pops' m1 m' (by simp; omega) s1 hnd1 hok1 h
    have hl' : pops'.length = pops.length := by simpa using l2
    have hpre : ∀ i, i < cur → pops'[i]? = pops[i]? := fun i hi => by
      rw [pre2 i (by omega), List.getElem?_set_ne (by omega)]
    refine ⟨s2, unchanged_then u1 u2, hl', nd2, ok2, fun r hr => ?_, hpre, fun i p hi hp => ?_⟩
    · rcases old2 r hr with h | h
      · rcases List.mem_append.1 (hperm.mem_iff.1 h) with h | h
        · exact Or.inr (q1 r h).1
        · exact Or.inl (hperm0.mem_iff.2 (List.mem_append.2 (Or.inr h)))
      · exact Or.inr (by omega)
    · by_cases hic : i = cur
      · subst hic
        rw [pre2 i (by omega), List.getElem?_set_self hcur, Option.some.injEq] at hp
        subst hp
        rw [take_drop_eq hl' hpre]
        refine ⟨l1, fun r hr => ⟨(q1 r hr).1, cooperated_unchanged s1 u2 (goodGenes_lt (q1 r hr).2.1) ?_ (q1 r hr).2.2⟩⟩
        exact fun pop hpop x hx => Nat.lt_of_lt_of_le (teamsOk_lt hok pop hpop x hx) c1
      · have := q2 i p (by omega) hp
        rw [List.drop_set_of_lt (by omega)] at this
        exact ⟨this.1, fun r hr => ⟨by have := (this.2 r hr).1; omega, (this.2 r hr).2⟩⟩

/-! ## Whole runs -/

/-- The populations of a generation and those of the generation before: everybody's fitness is the mean score of teams with
members of this generation where the sub-population comes earlier, and of the generation before where it comes later. -/
def Spec.CoopGeneration (cfg : CoopConfig γ ψ ρ) (m : Mem γ ψ ℚ ρ) (before now : List (List Nat)) : Prop :=
  ∀ (i : Nat) (p : List Nat), now[i]? = some p → p.length = cfg.size ∧
    ∀ r ∈ p, Cooperated cfg.env cfg.numTrials m (now.take i ++ before.drop i) i r

theorem coop_loop_spec (cfg : CoopConfig γ ψ ρ) (len : Nat → Nat) (allowed : Nat → Nat → γ → Prop)
    (hst : ∀ i, ∀ st ∈ cfg.stages, StageOk (len i) (allowed i) (fun _ _ => True) st) (fuel : Nat) :
    ∀ (g : Int) (pops pops' : List (List Nat)) (m m' : Mem γ ψ ℚ ρ), Sound m → pops.flatten.Nodup → TeamsOk len allowed m pops →
      coopLoop cfg fuel g pops m = (.ok pops', m') →
      Sound m' ∧ Unchanged m m' ∧ pops'.length = pops.length ∧ pops'.flatten.Nodup ∧ TeamsOk len allowed m' pops' ∧
      (∀ r ∈ pops'.flatten, r ∈ pops.flatten ∨ m.inds.length ≤ r) ∧
      ((pops' = pops ∧ m' = m ∧ (fuel = 0 ∨ cfg.stop g pops m = true)) ∨ ∃ before : List (List Nat), before.length = pops.length ∧
        TeamsOk len allowed m' before ∧ (∀ r ∈ before.flatten, r ∈ pops.flatten ∨ m.inds.length ≤ r) ∧
        CoopGeneration cfg m' before pops') := by
  induction fuel with
  | zero =>
    intro g pops pops' m m' hm hnd hok h
    simp only [coopLoop, HM.pure_apply, Prod.mk.injEq, Except.ok.injEq] at h
    obtain ⟨rfl, rfl⟩ := h
    exact ⟨hm, ⟨fun _ _ => rfl, fun _ _ => rfl, fun _ _ => rfl⟩, rfl, hnd, hok, fun r hr => Or.inl hr, Or.inl ⟨rfl, rfl, Or.inl rfl⟩⟩
  | succ fuel ih =>
    intro g pops pops' m m' hm hnd hok h
    unfold coopLoop at h
    split at h
    · rename_i hs
      simp only [Prod.mk.injEq, Except.ok.injEq] at h
      obtain ⟨rfl, rfl⟩ := h
      exact ⟨hm, ⟨fun _ _ => rfl, fun _ _ => rfl, fun _ _ => rfl⟩, rfl, hnd, hok, fun r hr => Or.inl hr, Or.inl ⟨rfl, rfl, Or.inr hs⟩⟩
    · obtain ⟨ps, m1, e1, h⟩ := bind_ok h
      obtain ⟨s1, u1, l1, nd1, ok1, old1, -, q1⟩ := coop_sweep_spec cfg len allowed g hst _ 0 pops ps m m1 (by simp) hm hnd hok e1
      obtain ⟨c1, -, -⟩ := unchanged_length u1
      obtain ⟨s2, u2, l2, nd2, ok2, old2, q2⟩ := ih (g + 1) ps pops' m1 m' s1 nd1 ok1 h
      have hold : ∀ r, (r ∈ ps.flatten ∨ m1.inds.length ≤ r) → r ∈ pops.flatten ∨ m.inds.length ≤ r := by
        rintro r (h | h)
        · exact old1 r h
        · exact Or.inr (by omega)
      refine ⟨s2, unchanged_then u1 u2, l2.trans l1, nd2, ok2, fun r hr => hold r (old2 r hr), Or.inr ?_⟩
      rcases q2 with ⟨rfl, -, -⟩ | ⟨before, b1, b2, b3, b4⟩
      · refine ⟨pops, rfl, teamsOk_unchanged hm (unchanged_then u1 u2) hok, fun r hr => Or.inl hr, fun i p hp => ?_⟩
        obtain ⟨a1, a2⟩ := q1 i p (Nat.zero_le _) hp
        refine ⟨a1, fun r hr => cooperated_unchanged s1 u2 (goodGenes_lt (ok1 i p hp r hr)) ?_ (a2 r hr).2⟩
        intro pop hpop x hx
        rcases List.mem_append.1 hpop with h | h
        · exact teamsOk_lt ok1 pop (List.mem_of_mem_take h) x hx
        · exact Nat.lt_of_lt_of_le (teamsOk_lt hok pop (List.mem_of_mem_drop h) x hx) c1
      · exact ⟨before, b1.trans l1, b2, fun r hr => hold r (b3 r hr), b4⟩

theorem constEvaluate_append (v : ℚ) (a b : List Nat) (m : Mem γ ψ ℚ ρ) :
    constEvaluate v (a ++ b) m = (constEvaluate v a >>= fun _ => constEvaluate v b) m := by
  induction a generalizing m with
  | nil => rfl
  | cons r rs ih => simp only [List.cons_append, constEvaluate, HM.bind_apply, modObj]; exact ih _

theorem constEvaluateAll_eq (v : ℚ) (pops : List (List Nat)) (m : Mem γ ψ ℚ ρ) :
    constEvaluateAll v pops m = constEvaluate v pops.flatten m := by
  induction pops generalizing m with
  | nil => rfl
  | cons p ps ih =>
    rw [List.flatten_cons, constEvaluate_append]
    simp only [constEvaluateAll, HM.bind_apply]
    rcases constEvaluate v p m with ⟨x, m1⟩
    cases x with
    | error e => rfl
    | ok f => exact ih m1

/-- Giving new individuals a constant fitness. -/
theorem constEvaluate_new (v : ℚ) {m0 : Mem γ ψ ℚ ρ} (pop : List Nat) : ∀ (m m' : Mem γ ψ ℚ ρ), Sound m → Unchanged m0 m →
    (∀ r ∈ pop, m0.inds.length ≤ r) → constEvaluate v pop m = (.ok (), m') →
    Sound m' ∧ Unchanged m0 m' ∧ m'.inds.length = m.inds.length ∧ (∀ r, genes m' r = genes m r) ∧
    ∀ r, fitness m' r = if r ∈ pop ∧ r < m.inds.length then some (some v) else fitness m r := by
  induction pop with
  | nil =>
    intro m m' hm hu _ h
    simp only [constEvaluate, HM.pure_apply, Prod.mk.injEq, true_and] at h
    subst h
    exact ⟨hm, hu, rfl, fun _ => rfl, by simp⟩
  | cons r rs ih =>
    intro m m' hm hu hp h
    obtain ⟨_, m1, e1, h⟩ := bind_ok h
    simp only [modObj, Prod.mk.injEq, true_and] at e1
    have hs1 : Sound m1 := by
      subst e1
      refine ⟨?_, ?_, ?_⟩ <;>
      · intro o ho
        obtain ⟨i, hi⟩ := List.mem_iff_getElem?.1 ho
        rw [List.getElem?_modify] at hi
        cases hx : m.inds[i]? with
        | none => simp [hx] at hi
        | some x =>
          have hmem := List.mem_of_getElem? hx
          have h1 := hm.genome x hmem
          have h2 := hm.parents x hmem
          have h3 := hm.uuid x hmem
          rw [hx] at hi
          simp only [Option.map_eq_map, Option.map_some, Option.some.injEq] at hi
          subst hi
          by_cases hri : r = i <;> simp [hri, h1, h2, h3]
    have hu1 : Unchanged m0 m1 := by
      subst e1
      refine ⟨fun x hx => ?_, hu.arrays, hu.sets⟩
      have hne : r ≠ x := by
        have := hp r (by simp)
        omega
      rw [List.getElem?_modify, ← hu.inds x hx]
      cases m.inds[x]? <;> simp [hne]
    obtain ⟨a1, a1', a2, a3, a4⟩ := ih m1 m' hs1 hu1 (fun x hx => hp x (by simp [hx])) h
    subst e1
    refine ⟨a1, a1', by simpa using a2, fun x => ?_, fun x => ?_⟩
    · rw [a3]
      unfold genes
      rw [List.getElem?_modify]
      by_cases hx : r = x
      · subst hx; cases m.inds[r]? <;> simp
      · cases m.inds[x]? <;> simp [hx]
    · rw [a4]
      unfold fitness
      simp only [List.length_modify, List.getElem?_modify, List.mem_cons]
      by_cases hx : r = x
      · subst hx
        by_cases hl : r < m.inds.length
        · simp [hl]
        · simp [hl]
      · have : x ≠ r := fun h => hx h.symm
        by_cases hl : x ∈ rs ∧ x < m.inds.length
        · simp [hl]
        · cases m.inds[x]? <;> simp [hl, hx, this]

theorem createTeams_ok (popSize : Nat) (subpops : List ((ρ → PyM (List γ) × ρ) × Nat)) :
    ∀ (len : Nat → Nat) (allowed : Nat → Nat → γ → Prop) (m m' : Mem γ ψ ℚ ρ) (pops : List (List Nat)),
      (∀ (i : Nat) ip, subpops[i]? = some ip → ∀ s g s', ip.1 s = (.ok g, s') → GenesIn (len i) (allowed i) g) → Sound m →
      createTeams popSize subpops m = (.ok pops, m') →
      Sound m' ∧ Unchanged m m' ∧ pops.length = subpops.length ∧ (∀ p ∈ pops, p.length = popSize) ∧ pops.flatten.Nodup ∧
      (∀ r ∈ pops.flatten, m.inds.length ≤ r) ∧ TeamsOk len allowed m' pops := by
  induction subpops with
  | nil =>
    intro len allowed m m' pops hi hm h
    simp only [createTeams, HM.pure_apply, Prod.mk.injEq, Except.ok.injEq] at h
    obtain ⟨rfl, rfl⟩ := h
    exact ⟨hm, unchanged_rng m m.rng, rfl, by simp, by simp, by simp, by intro i p hp; simp at hp⟩
  | cons ip rest ih =>
    intro len allowed m m' pops hi hm h
    obtain ⟨p, m1, e1, h⟩ := bind_ok h
    obtain ⟨ps, m2, e2, h⟩ := bind_ok h
    simp only [HM.pure_apply, Prod.mk.injEq, Except.ok.injEq] at h
    obtain ⟨rfl, rfl⟩ := h
    obtain ⟨s1, u1, l1, nd1, r1, g1⟩ := createPopulation_good (truth := fun _ _ => True) ip.1 (hi 0 ip rfl) ip.2 popSize m m1 hm p e1
    obtain ⟨s2, u2, l2, z2, nd2, r2, g2⟩ := ih (fun i => len (i + 1)) (fun i => allowed (i + 1)) m1 m2 ps
      (fun i ip' h => hi (i + 1) ip' (by simpa using h)) s1 e2
    obtain ⟨c1, -, -⟩ := unchanged_length u1
    refine ⟨s2, unchanged_then u1 u2, by simp [l2], ?_, ?_, ?_, ?_⟩
    · intro q hq
      rcases List.mem_cons.1 hq with rfl | hq
      · exact l1
      · exact z2 q hq
    · rw [List.flatten_cons, List.nodup_append]
      refine ⟨nd1, nd2, ?_⟩
      rintro a ha b hb rfl
      have := (r1 a ha).2
      have := r2 a hb
      omega
    · intro r hr
      rw [List.flatten_cons] at hr
      rcases List.mem_append.1 hr with hr | hr
      · have := r1 r hr; omega
      · have := r2 r hr; omega
    · intro i q hq r hr
      cases i with
      | zero =>
        simp only [List.getElem?_cons_zero, Option.some.injEq] at hq
        subst hq
        exact goodGenes_same (unchanged_same s1 u2 (r1 r hr).2) ((goodGenes_iff m1 r).2 (g1 r hr))
      | succ i => exact g2 i q (by simpa using hq) r hr

/-- C100: a run of cooperative coevolution over any number of sub-populations, each with its own initialiser, with any parent
selection, collaborator selection and stop condition and any chain of operators that keeps acceptable genes acceptable. If it
returns, nobody who existed before it is changed; the result has one population for each sub-population; its members are new,
all different, and have acceptable genes for their sub-population. If no generation ran, there are `pop_size` members
everywhere, with the constant initial fitness. Otherwise everybody in the result was scored in teams with members of the
other sub-populations, of the last generation for earlier ones and of the generation before it for later ones. -/
theorem coop_run_members (cfg : CoopConfig γ ψ ρ) (len : Nat → Nat) (allowed : Nat → Nat → γ → Prop)
    (hst : ∀ i, ∀ st ∈ cfg.stages, StageOk (len i) (allowed i) (fun _ _ => True) st)
    (subpops : List ((ρ → PyM (List γ) × ρ) × Nat)) (popSize : Nat) (value : ℚ) (maxGenerations : Int)
    (hinit : ∀ (i : Nat) ip, subpops[i]? = some ip → ∀ s g s', ip.1 s = (.ok g, s') → GenesIn (len i) (allowed i) g)
    (m m' : Mem γ ψ ℚ ρ) (hm : Sound m) (pops : List (List Nat))
    (h : coopRun cfg subpops popSize value maxGenerations m = (.ok pops, m')) :
    Sound m' ∧ Unchanged m m' ∧ pops.length = subpops.length ∧ pops.flatten.Nodup ∧ (∀ r ∈ pops.flatten, m.inds.length ≤ r) ∧
    TeamsOk len allowed m' pops ∧
    (((∀ p ∈ pops, p.length = popSize) ∧ (∀ r ∈ pops.flatten, fitness m' r = some (some value)) ∧
        (maxGenerations ≤ 0 ∨ cfg.stop 0 pops m' = true)) ∨
      ∃ before : List (List Nat), before.length = subpops.length ∧ TeamsOk len allowed m' before ∧
        (∀ r ∈ before.flatten, m.inds.length ≤ r) ∧ CoopGeneration cfg m' before pops) := by
  obtain ⟨ps, m1, e1, h⟩ := bind_ok h
  obtain ⟨_, m2, e2, h⟩ := bind_ok h
  obtain ⟨s1, u1, l1, z1, nd1, new1, ok1⟩ := createTeams_ok popSize subpops len allowed m m1 ps hinit hm e1
  rw [constEvaluateAll_eq] at e2
  obtain ⟨s2, u2, n2, g2, v2⟩ := constEvaluate_new value ps.flatten m1 m2 s1 u1 new1 e2
  have ok2 : TeamsOk len allowed m2 ps := fun i p hp r hr => by
    obtain ⟨g, hg, hg'⟩ := ok1 i p hp r hr
    exact ⟨g, by rw [g2, hg], hg'⟩
  obtain ⟨s3, u3, l3, nd3, ok3, old3, q3⟩ := coop_loop_spec cfg len allowed hst _ 0 ps pops m2 m' s2 nd1 ok2 h
  have hle := (unchanged_length u2).1
  have hold : ∀ r, (r ∈ ps.flatten ∨ m2.inds.length ≤ r) → m.inds.length ≤ r := by
    rintro r (h | h)
    · exact new1 r h
    · omega
  refine ⟨s3, unchanged_then u2 u3, l3.trans l1, nd3, fun r hr => hold r (old3 r hr), ok3, ?_⟩
  rcases q3 with ⟨rfl, rfl, hs⟩ | ⟨before, b1, b2, b3, b4⟩
  · refine Or.inl ⟨z1, fun r hr => ?_, hs.imp (fun h => by omega) id⟩
    obtain ⟨p, hp, hrp⟩ := List.mem_flatten.1 hr
    rw [v2 r, if_pos ⟨hr, n2 ▸ teamsOk_lt ok2 p hp r hrp⟩]
  · exact Or.inr ⟨before, b1.trans l1, b2, fun r hr => hold r (b3 r hr), b4⟩

/-! ## A run -/

/-- The sum of the genes, as a fraction. -/
def exTeamSum : Prob Int Int ℚ Nat where
  evaluate c s := match c with
    | .raw g => (.ok g.sum, s + 1)
    | .value v => (.ok v, s + 1)
  evaluateMultiple cs s := (.ok (cs.map fun c => match c with | .raw g => (g.sum : ℚ) | .value v => v), s)
  takesIndividuals := true

/-- Collaborators take turns, two trials each; parents take turns. -/
def exCoop : CoopConfig Int Int Nat where
  env _ := (.identity, exTeamSum)
  collab := rotating Int Int Nat fun pop n => n % pop.length
  numTrials := 2
  choose _ _ _ m := (.ok (m.rng % 2), m.rng + 1)
  stages := [.mutate (.ok ()) false (bitflipFn (some 1) none fun s => (if s % 3 < 1 then [1 / 4, 3 / 4] else [3 / 4, 1 / 4], s + 1))]
  size := 2
  stop _ _ _ := false

def exLen : Nat → Nat := fun _ => 2

def exAllowed : Nat → Nat → Int → Prop := fun _ _ x => x = 0 ∨ x = 1

def exCoopStart : Mem Int Int ℚ Nat := ⟨[], [], [], 0, 0⟩

/-- Two sub-populations with two genes each: the run meets the hypotheses of `coop_run_members` and returns after two generations. -/
example :
    (∀ i : Nat, ∀ st ∈ exCoop.stages, StageOk (exLen i) (exAllowed i) (fun _ _ => True) st) ∧
    (∀ (i : Nat) ip, [(exInit, 0), (exInit, 1)][i]? = some ip → ∀ s g s', ip.1 s = (.ok g, s') →
      GenesIn (exLen i) (exAllowed i) g) ∧ Sound exCoopStart ∧
    ((coopRun exCoop [(exInit, 0), (exInit, 1)] 2 (-10) 2 exCoopStart).1.toOption.map fun pops => pops.map fun p =>
      p.map fun r => (genes (coopRun exCoop [(exInit, 0), (exInit, 1)] 2 (-10) 2 exCoopStart).2 r,
        fitness (coopRun exCoop [(exInit, 0), (exInit, 1)] 2 (-10) 2 exCoopStart).2 r)) =
      some [[(some [1, 1], some (some 3)), (some [0, 0], some (some 1))], [(some [0, 0], some (some 1)), (some [1, 1], some (some 3))]] := by
  refine ⟨?_, ?_, ⟨by simp [exCoopStart], by simp [exCoopStart], by simp [exCoopStart]⟩, ?_⟩
  · intro i st hst
    simp only [exCoop, List.mem_cons, List.not_mem_nil, or_false] at hst
    subst hst
    exact bitflip_stage_ok _ _ _ _ _ _ _
  · intro i ip hip s g s' h
    have : ip.1 = exInit := by
      have := List.mem_of_getElem? hip
      simp only [List.mem_cons, List.not_mem_nil, or_false] at this
      rcases this with rfl | rfl <;> rfl
    rw [this] at h
    simp only [exInit, Prod.mk.injEq, Except.ok.injEq] at h
    obtain ⟨rfl, rfl⟩ := h
    refine ⟨rfl, fun i x hx => ?_⟩
    have := List.mem_of_getElem? hx
    simp only [List.mem_cons, List.not_mem_nil, or_false] at this
    rcases this with rfl | rfl
    · rcases Nat.mod_two_eq_zero_or_one s with h | h <;> simp [exAllowed, h]
    · exact Or.inl rfl
  · decide +kernel

end Leap
