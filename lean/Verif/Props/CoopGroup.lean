import Verif.Model.CoopGroup
import Verif.Props.CoopRun

/-! # Whole runs of coevolution by a `CooperativeProblem`: every fitness is the mean score of the right teams (C102) -/

namespace Leap
open Spec

variable {γ ψ ρ : Type}

/-- Whoever the first member of a team is, the combined individual is decoded and scored by the arguments of the problem. -/
def Spec.wrappedIn (cp : CoopProblem γ ψ ρ) : Nat → Dec γ ψ × Prob γ ψ ℚ ρ := fun _ => (cp.dec, cp.wrapped)

/-- From `m` to `m'` attributes other than genes, identity, parents and problem of the individuals in `R` may have changed, and things may
have been added. -/
structure Kept (R : List Nat) (m m' : Mem γ ψ ℚ ρ) : Prop where
  sound : Sound m'
  grows : m.inds.length ≤ m'.inds.length
  other : ∀ y, y < m.inds.length → y ∉ R → SameInd m m' y
  arrays : ∀ a, a < m.arrays.length → m'.arrays[a]? = m.arrays[a]?
  sets : ∀ a, a < m.sets.length → m'.sets[a]? = m.sets[a]?
  genes : ∀ y, y < m.inds.length → genes m' y = genes m y ∧ (m'.inds[y]?).map Obj.problem = (m.inds[y]?).map Obj.problem

theorem getElem?_grows {α : Type} {l l' : List α} (h : ∀ a, a < l.length → l'[a]? = l[a]?) : l.length ≤ l'.length := by
  rcases Nat.eq_zero_or_pos l.length with h0 | h0
  · omega
  · have := h (l.length - 1) (by omega)
    rw [List.getElem?_eq_getElem (show l.length - 1 < l.length by omega)] at this
    have := (List.getElem?_eq_some_iff.1 this).1
    omega

theorem Kept.refl {R : List Nat} {m : Mem γ ψ ℚ ρ} (h : Sound m) : Kept R m m :=
  ⟨h, Nat.le_refl _, fun _ _ _ => sameInd_refl _ _, fun _ _ => rfl, fun _ _ => rfl, fun _ _ => ⟨rfl, rfl⟩⟩

theorem Kept.trans {R : List Nat} {m m1 m2 : Mem γ ψ ℚ ρ} (h1 : Kept R m m1) (h2 : Kept R m1 m2) : Kept R m m2 := by
  have ha := getElem?_grows h1.arrays
  have hs := getElem?_grows h1.sets
  have hg := h1.grows
  refine ⟨h2.sound, Nat.le_trans h1.grows h2.grows, fun y hy hn => sameInd_trans (h1.other y hy hn) (h2.other y (by omega) hn),
    fun a h => (h2.arrays a (by omega)).trans (h1.arrays a h), fun a h => (h2.sets a (by omega)).trans (h1.sets a h), fun y hy => ?_⟩
  obtain ⟨a1, a2⟩ := h1.genes y hy
  obtain ⟨b1, b2⟩ := h2.genes y (by omega)
  exact ⟨b1.trans a1, b2.trans a2⟩

theorem Kept.mono {R R' : List Nat} {m m' : Mem γ ψ ℚ ρ} (h : Kept R m m') (hR : ∀ r ∈ R, r ∈ R') : Kept R' m m' :=
  ⟨h.sound, h.grows, fun y hy hn => h.other y hy fun hr => hn (hR y hr), h.arrays, h.sets, h.genes⟩

theorem kept_of_unchanged {R : List Nat} {m m' : Mem γ ψ ℚ ρ} (hm : Sound m) (h : Unchanged m m') (h' : Sound m') : Kept R m m' := by
  have hs : ∀ y, y < m.inds.length → SameInd m m' y := fun y hy => unchanged_same hm h hy
  exact ⟨h', (unchanged_length h).1, fun y hy _ => hs y hy, h.arrays, h.sets, fun y hy => sameInd_keeps (hs y hy)⟩

theorem modObj_kept {R : List Nat} {m : Mem γ ψ ℚ ρ} (hm : Sound m) (r : Nat) (hr : r ∈ R) (f : Obj ψ ℚ → Obj ψ ℚ) (hg : ∀ x, (f x).genome = x.genome)
    (hp : ∀ x, (f x).parents = x.parents) (hu : ∀ x, (f x).uuid = x.uuid) (hb : ∀ x, (f x).problem = x.problem) :
    Kept R m { m with inds := m.inds.modify r f } := by
  have hmem : ∀ o ∈ m.inds.modify r f, ∃ x ∈ m.inds, o.genome = x.genome ∧ o.parents = x.parents ∧ o.uuid = x.uuid := by
    intro o ho
    obtain ⟨i, hi⟩ := List.mem_iff_getElem?.1 ho
    rw [List.getElem?_modify] at hi
    cases hx : m.inds[i]? with
    | none => simp [hx] at hi
    | some x =>
      rw [hx] at hi
      simp only [Option.map_eq_map, Option.map_some, Option.some.injEq] at hi
      subst hi
      refine ⟨x, List.mem_of_getElem? hx, ?_⟩
      by_cases h : r = i <;> simp [h, hg, hp, hu]
  refine ⟨⟨fun o ho => ?_, fun o ho => ?_, fun o ho => ?_⟩, by simp, fun y hy hn => ?_, fun _ _ => rfl, fun _ _ => rfl, fun y hy => ?_⟩
  · obtain ⟨x, hx, h, -, -⟩ := hmem o ho; rw [h]; exact hm.genome x hx
  · obtain ⟨x, hx, -, h, -⟩ := hmem o ho; rw [h]; exact hm.parents x hx
  · obtain ⟨x, hx, -, -, h⟩ := hmem o ho; rw [h]; exact hm.uuid x hx
  · have hne : r ≠ y := fun e => hn (e ▸ hr)
    have hi : (m.inds.modify r f)[y]? = m.inds[y]? := by simp [hne]
    exact ⟨hi, by simp only [Spec.genes, hi]⟩
  · simp only [Spec.genes, List.getElem?_modify, List.getElem?_eq_getElem hy]
    by_cases h : r = y <;> simp [h, hg, hb]

/-! ## One evaluation -/

/-- A new `Individual` on a new array. -/
theorem newIndividual_ok {m m' : Mem γ ψ ℚ ρ} (hm : Sound m) {g : List γ} {p c : Nat} {a : Nat} {m1 : Mem γ ψ ℚ ρ}
    (e1 : newArr g m = (.ok a, m1)) (e2 : makeIndividual a p m1 = (.ok c, m')) :
    c = m.inds.length ∧ Fresh m m' ∧ (∃ o, m'.inds[c]? = some o) ∧ Spec.genes m' c = some g := by
  simp only [newArr, Prod.mk.injEq, Except.ok.injEq] at e1
  obtain ⟨rfl, rfl⟩ := e1
  simp only [makeIndividual, HM.bind_apply, freshUuid, newSet, newObj, Prod.mk.injEq, Except.ok.injEq] at e2
  obtain ⟨rfl, rfl⟩ := e2
  refine ⟨rfl, ⟨⟨?_, ?_, ?_⟩, ⟨?_, ?_, ?_⟩, by simp, by simp, by simp, ?_, ?_⟩, ⟨_, List.getElem?_concat_length ..⟩, ?_⟩
  · intro i hi; exact List.getElem?_append_left hi
  · intro i hi; exact List.getElem?_append_left hi
  · intro i hi; exact List.getElem?_append_left hi
  · intro o ho
    rcases List.mem_append.1 ho with h | h
    · have := hm.genome o h; simp; omega
    · simp only [List.mem_singleton] at h; subst h; simp
  · intro o ho
    rcases List.mem_append.1 ho with h | h
    · have := hm.parents o h; simp; omega
    · simp only [List.mem_singleton] at h; subst h; simp
  · intro o ho
    rcases List.mem_append.1 ho with h | h
    · have := hm.uuid o h; simp; omega
    · simp only [List.mem_singleton] at h; subst h; simp
  · intro i o hi ho
    have hlt := (List.getElem?_eq_some_iff.1 ho).1
    have : i = m.inds.length := by simp at hlt; omega
    subst this
    simp only [List.getElem?_concat_length, Option.some.injEq] at ho
    subst ho
    exact ⟨Nat.le_refl _, Nat.le_refl _⟩
  · intro i j o1 o2 hi hj hne h1 h2
    have a1 := (List.getElem?_eq_some_iff.1 h1).1
    have a2 := (List.getElem?_eq_some_iff.1 h2).1
    simp at a1 a2
    omega
  · simp [Spec.genes]

/-- One team after another, each chosen with new selection iterators. -/
def Spec.FreshTeam (cp : CoopProblem γ ψ ρ) (pops : List (List Nat)) (current cur : Nat) (team : List Nat) : Prop :=
  ∃ ss m m1, chooseTeam cp.collab current cur 0 pops (pops.map fun _ => cp.collab.init) m = (.ok (team, ss), m1)

/-- The trials: as many teams as asked for, their scores, and nobody who existed before is touched. -/
theorem cpTrials_ok (cp : CoopProblem γ ψ ρ) (pops : List (List Nat)) (current cur : Nat) (hcur : cur < pops.length) (k : Nat) :
    ∀ (m m' : Mem γ ψ ℚ ρ) (fs : List ℚ), Sound m → current < m.inds.length → (∀ pop ∈ pops, ∀ x ∈ pop, x < m.inds.length) →
    cpTrials cp pops current cur k m = (.ok fs, m') →
    Sound m' ∧ Unchanged m m' ∧
    ∃ ts : List (List Nat × ℚ), ts.map Prod.snd = fs ∧ ts.length = k ∧
      ∀ t ∈ ts, IsTeam pops cur current t.1 ∧ TeamScore (wrappedIn cp) m t.1 t.2 ∧ FreshTeam cp pops current cur t.1 := by
  induction k with
  | zero =>
    intro m m' fs hm hc hp h
    simp only [cpTrials, HM.pure_apply, Prod.mk.injEq, Except.ok.injEq] at h
    obtain ⟨rfl, rfl⟩ := h
    exact ⟨hm, unchanged_rng m m.rng, [], rfl, rfl, by simp⟩
  | succ k ih =>
    intro m m' fs hm hc hp h
    obtain ⟨⟨team, ss1⟩, m1, e1, h⟩ := bind_ok h
    obtain ⟨gs, m2, e2, h⟩ := bind_ok h
    obtain ⟨a, m3, e3, h⟩ := bind_ok h
    obtain ⟨comb, m4, e4, h⟩ := bind_ok h
    obtain ⟨f, m5, e5, h⟩ := bind_ok h
    obtain ⟨fs', m6, e6, h⟩ := bind_ok h
    simp only [HM.pure_apply, Prod.mk.injEq, Except.ok.injEq] at h
    obtain ⟨rfl, rfl⟩ := h
    obtain ⟨⟨t, rfl⟩, l1, l2, hq⟩ := chooseTeam_ok cp.collab current cur pops 0 _ ss1 m m1 team (by simp) e1
    have hteam : IsTeam pops cur current team := by
      refine ⟨l1, ?_, fun j x pop hj hx hpop => (hq j x hx).2 (by omega) pop hpop⟩
      have hlt : cur < team.length := by omega
      have := (hq cur _ (List.getElem?_eq_getElem hlt)).1 (by omega)
      rw [List.getElem?_eq_getElem hlt, this]
    have hlt : ∀ x ∈ team, x < m.inds.length := by
      intro x hx
      rcases team_mem hteam hx with rfl | ⟨pop, hpop, hx⟩
      · exact hc
      · exact hp pop hpop x hx
    obtain ⟨rfl, hgs⟩ := genomesOf_ok _ _ _ _ e2
    have hm1 : Sound { m with rng := t } := ⟨hm.1, hm.2, hm.3⟩
    obtain ⟨rfl, hfr, ⟨o, ho⟩, hg⟩ := newIndividual_ok hm1 e3 e4
    obtain ⟨d1, d2, -, d4⟩ := evaluateCombined_ok (wrappedIn cp) hfr (Nat.le_refl _) ho hg
      (show evaluateCombined (wrappedIn cp) _ m4 = (.ok f, m5) from (bind_live (by simp only [getObj, ho]; rfl)).trans e5)
    have hu : Unchanged m m5 := ⟨d1.unchanged.1, d1.unchanged.2, d1.unchanged.3⟩
    have hlen := (unchanged_length hu).1
    obtain ⟨g1, g2, ts, g4, g5, g6⟩ := ih m5 m6 fs' d1.sound (by omega) (fun pop hpop x hx => Nat.lt_of_lt_of_le (hp pop hpop x hx) hlen) e6
    refine ⟨g1, unchanged_then hu g2, (team, f) :: ts, by simp [g4], by simp [g5], ?_⟩
    intro u hu'
    rcases List.mem_cons.1 hu' with rfl | hu'
    · refine ⟨hteam, ?_, ss1, m, _, e1⟩
      cases hteam' : team with
      | nil =>
        have := hteam.2.1
        rw [hteam'] at this
        simp at this
      | cons r0 rs =>
        have hr0 := hlt r0 (by simp [hteam'])
        refine ⟨(m.inds[r0]'hr0).problem, gs, ?_, ?_, d4⟩
        · simp [List.getElem?_eq_getElem hr0]
        · rw [← hteam']; exact hgs
    · refine ⟨(g6 u hu').1, teamScore_congr (fun x hx => ?_) (g6 u hu').2.1, (g6 u hu').2.2⟩
      have hx' : x < m.inds.length := by
        rcases team_mem (g6 u hu').1 hx with rfl | ⟨pop, hpop, hx⟩
        · exact hc
        · exact hp pop hpop x hx
      have := sameInd_keeps (unchanged_same hm hu hx')
      exact ⟨this.1.symm, this.2.symm⟩

/-- `f` is the mean score of `num_trials` teams of individual `r`, each chosen with new selection iterators. -/
def Spec.TeamMean (cp : CoopProblem γ ψ ρ) (m : Mem γ ψ ℚ ρ) (partners : List (List Nat)) (cur : Nat) (f : ℚ) (r : Nat) : Prop :=
  ∃ ts : List (List Nat × ℚ), ts.length = cp.numTrials ∧ f = (ts.map Prod.snd).sum / cp.numTrials ∧
    ∀ t ∈ ts, IsTeam partners cur r t.1 ∧ TeamScore (wrappedIn cp) m t.1 t.2 ∧ FreshTeam cp partners r cur t.1

/-- C102: `CooperativeProblem.evaluate` returns the mean score of `num_trials` teams the individual belongs to, and changes nothing that
existed before, whatever phenome it is given. -/
theorem cp_evaluate_exact (cp : CoopProblem γ ψ ρ) (pops : List (List Nat)) (current cur : Nat) (hcur : cur < pops.length)
    (m m' : Mem γ ψ ℚ ρ) (hm : Sound m) (hc : current < m.inds.length) (hp : ∀ pop ∈ pops, ∀ x ∈ pop, x < m.inds.length) (f : ℚ)
    (h : cpEvaluate cp pops current cur m = (.ok f, m')) : Sound m' ∧ Unchanged m m' ∧ TeamMean cp m pops cur f current := by
  obtain ⟨fs, m1, e1, h⟩ := bind_ok h
  simp only [HM.pure_apply, Prod.mk.injEq, Except.ok.injEq] at h
  obtain ⟨rfl, rfl⟩ := h
  obtain ⟨g1, g2, ts, g4, g5, g6⟩ := cpTrials_ok cp pops current cur hcur cp.numTrials m m1 fs hm hc hp e1
  refine ⟨g1, g2, ts, g5, ?_, g6⟩
  have : fs.length = cp.numTrials := by rw [← g4, List.length_map, g5]
  rw [g4, mean, this]

theorem teamMean_congr {cp : CoopProblem γ ψ ρ} {m m' : Mem γ ψ ℚ ρ} {partners : List (List Nat)} {cur r : Nat} {f : ℚ}
    (hr : genes m' r = genes m r ∧ (m'.inds[r]?).map Obj.problem = (m.inds[r]?).map Obj.problem)
    (hp : ∀ pop ∈ partners, ∀ x ∈ pop, genes m' x = genes m x ∧ (m'.inds[x]?).map Obj.problem = (m.inds[x]?).map Obj.problem)
    (h : TeamMean cp m partners cur f r) : TeamMean cp m' partners cur f r := by
  obtain ⟨ts, h1, h2, h3⟩ := h
  refine ⟨ts, h1, h2, fun t ht => ⟨(h3 t ht).1, teamScore_congr (fun x hx => ?_) (h3 t ht).2.1, (h3 t ht).2.2⟩⟩
  rcases team_mem (h3 t ht).1 hx with rfl | ⟨pop, hpop, hx⟩
  · exact hr
  · exact hp pop hpop x hx

theorem cpMultiple_ok (cp : CoopProblem γ ψ ρ) (pops : List (List Nat)) (cur : Nat) (hcur : cur < pops.length) (rs : List Nat) :
    ∀ (m m' : Mem γ ψ ℚ ρ) (fs : List ℚ), Sound m → (∀ r ∈ rs, r < m.inds.length) → (∀ pop ∈ pops, ∀ x ∈ pop, x < m.inds.length) →
    cpMultiple cp pops cur rs m = (.ok fs, m') → Sound m' ∧ Unchanged m m' ∧ List.Forall₂ (TeamMean cp m pops cur) fs rs := by
  induction rs with
  | nil =>
    intro m m' fs hm hr hp h
    simp only [cpMultiple, HM.pure_apply, Prod.mk.injEq, Except.ok.injEq] at h
    obtain ⟨rfl, rfl⟩ := h
    exact ⟨hm, unchanged_rng m m.rng, .nil⟩
  | cons r rs ih =>
    intro m m' fs hm hr hp h
    obtain ⟨f, m1, e1, h⟩ := bind_ok h
    obtain ⟨fs', m2, e2, h⟩ := bind_ok h
    simp only [HM.pure_apply, Prod.mk.injEq, Except.ok.injEq] at h
    obtain ⟨rfl, rfl⟩ := h
    obtain ⟨s1, u1, t1⟩ := cp_evaluate_exact cp pops r cur hcur m m1 hm (hr r (by simp)) hp f e1
    have hlen := (unchanged_length u1).1
    obtain ⟨s2, u2, t2⟩ := ih m1 m2 fs' s1 (fun x hx => Nat.lt_of_lt_of_le (hr x (by simp [hx])) hlen)
      (fun pop hpop x hx => Nat.lt_of_lt_of_le (hp pop hpop x hx) hlen) e2
    refine ⟨s2, unchanged_then u1 u2, .cons t1 ?_⟩
    have hback : ∀ x, x < m.inds.length → genes m x = genes m1 x ∧ (m.inds[x]?).map Obj.problem = (m1.inds[x]?).map Obj.problem := fun x hx => by
      have := sameInd_keeps (unchanged_same hm u1 hx)
      exact ⟨this.1.symm, this.2.symm⟩
    have : ∀ (l : List ℚ) (k : List Nat), (∀ x ∈ k, x < m.inds.length) → List.Forall₂ (TeamMean cp m1 pops cur) l k →
        List.Forall₂ (TeamMean cp m pops cur) l k := by
      intro l k hk h
      induction h with
      | nil => exact .nil
      | cons h _ ih =>
        exact .cons (teamMean_congr (hback _ (hk _ (by simp))) (fun pop hpop x hx => hback x (hp pop hpop x hx)) h)
          (ih fun x hx => hk x (by simp [hx]))
    exact this _ _ (fun x hx => hr x (by simp [hx])) t2

/-! ## `grouped_evaluate` -/

theorem decodeInd_kept (own : Dec γ ψ) (r : Nat) (m m' : Mem γ ψ ℚ ρ) (p : Phen ψ) (hm : Sound m) (h : decodeInd own r m = (.ok p, m')) :
    Kept [r] m m' ∧ m'.inds.length = m.inds.length := by
  cases ho : m.inds[r]? with
  | none => cases own <;> simp [decodeInd, HM.bind_apply, getObj, ho] at h
  | some o =>
    cases own with
    | identity =>
      simp only [decodeInd, HM.bind_apply, getObj, ho, modObj, HM.pure_apply, Prod.mk.injEq, Except.ok.injEq] at h
      obtain ⟨rfl, rfl⟩ := h
      exact ⟨modObj_kept hm r (by simp) _ (fun _ => rfl) (fun _ => rfl) (fun _ => rfl) (fun _ => rfl), by simp⟩
    | fn d =>
      simp only [decodeInd, HM.bind_apply, getObj, ho] at h
      cases hg : m.arrays[o.genome]? with
      | none => simp [getArr, hg] at h
      | some g =>
        cases hd : d g with
        | error e => simp [getArr, hg, HM.lift_apply, hd] at h
        | ok v =>
          simp only [getArr, hg, HM.lift_apply, hd, modObj, HM.pure_apply, Prod.mk.injEq, Except.ok.injEq] at h
          obtain ⟨rfl, rfl⟩ := h
          exact ⟨modObj_kept hm r (by simp) _ (fun _ => rfl) (fun _ => rfl) (fun _ => rfl) (fun _ => rfl), by simp⟩

theorem phenomesOf_kept (own : Dec γ ψ) (rs : List Nat) : ∀ (m m' : Mem γ ψ ℚ ρ) (ps : List (Phen ψ)), Sound m →
    phenomesOf own rs m = (.ok ps, m') → Kept rs m m' ∧ m'.inds.length = m.inds.length := by
  induction rs with
  | nil =>
    intro m m' ps hm h
    simp only [phenomesOf, HM.pure_apply, Prod.mk.injEq, Except.ok.injEq] at h
    obtain ⟨rfl, rfl⟩ := h
    exact ⟨.refl hm, rfl⟩
  | cons r rs ih =>
    intro m m' ps hm h
    obtain ⟨p, m1, e1, h⟩ := bind_ok h
    obtain ⟨ps', m2, e2, h⟩ := bind_ok h
    simp only [HM.pure_apply, Prod.mk.injEq, Except.ok.injEq] at h
    obtain ⟨rfl, rfl⟩ := h
    have h1 : Kept [r] m m1 ∧ m1.inds.length = m.inds.length := by
      obtain ⟨o, m3, e3, e1⟩ := bind_ok e1
      cases ho : m.inds[r]? with
      | none => simp [getObj, ho] at e3
      | some o' =>
        simp only [getObj, ho, Prod.mk.injEq, Except.ok.injEq] at e3
        obtain ⟨rfl, rfl⟩ := e3
        cases hph : o'.phenome with
        | some q =>
          rw [hph] at e1
          simp only [HM.pure_apply, Prod.mk.injEq, Except.ok.injEq] at e1
          obtain ⟨rfl, rfl⟩ := e1
          exact ⟨.refl hm, rfl⟩
        | none =>
          rw [hph] at e1
          exact decodeInd_kept own r _ _ _ hm e1
    obtain ⟨h2, h3⟩ := ih m1 m2 ps' h1.1.sound e2
    exact ⟨(h1.1.mono (by simp)).trans (h2.mono fun x hx => by simp [hx]), h3.trans h1.2⟩

theorem forall₂_congr {R : List Nat} {cp : CoopProblem γ ψ ρ} {pops : List (List Nat)} {cur : Nat} {m m1 : Mem γ ψ ℚ ρ} (hk : Kept R m m1)
    (hp : ∀ pop ∈ pops, ∀ x ∈ pop, x < m.inds.length) {l : List ℚ} {k : List Nat} (hr : ∀ x ∈ k, x < m.inds.length)
    (h : List.Forall₂ (TeamMean cp m1 pops cur) l k) : List.Forall₂ (TeamMean cp m pops cur) l k := by
  have hback : ∀ x, x < m.inds.length → genes m x = genes m1 x ∧ (m.inds[x]?).map Obj.problem = (m1.inds[x]?).map Obj.problem := fun x hx =>
    ⟨(hk.genes x hx).1.symm, (hk.genes x hx).2.symm⟩
  induction h with
  | nil => exact .nil
  | cons h _ ih =>
    exact .cons (teamMean_congr (hback _ (hr _ (by simp))) (fun pop hpop x hx => hback x (hp pop hpop x hx)) h)
      (ih fun x hx => hr x (by simp [hx]))

theorem cpChunks_ok (cp : CoopProblem γ ψ ρ) (own : Dec γ ψ) (pops : List (List Nat)) (cur : Nat) (hcur : cur < pops.length)
    (chs : List (List Nat)) : ∀ (m m' : Mem γ ψ ℚ ρ) (fs : List ℚ), Sound m → (∀ r ∈ chs.flatten, r < m.inds.length) →
    (∀ pop ∈ pops, ∀ x ∈ pop, x < m.inds.length) → cpChunks cp own pops cur chs m = (.ok fs, m') →
    Kept chs.flatten m m' ∧ List.Forall₂ (TeamMean cp m pops cur) fs chs.flatten := by
  induction chs with
  | nil =>
    intro m m' fs hm hr hp h
    simp only [cpChunks, HM.pure_apply, Prod.mk.injEq, Except.ok.injEq] at h
    obtain ⟨rfl, rfl⟩ := h
    exact ⟨.refl hm, .nil⟩
  | cons ch chs ih =>
    intro m m' fs hm hr hp h
    obtain ⟨ps, m1, e1, h⟩ := bind_ok h
    obtain ⟨f1, m2, e2, h⟩ := bind_ok h
    obtain ⟨f2, m3, e3, h⟩ := bind_ok h
    simp only [HM.pure_apply, Prod.mk.injEq, Except.ok.injEq] at h
    obtain ⟨rfl, rfl⟩ := h
    obtain ⟨k1, n1⟩ := phenomesOf_kept own ch m m1 ps hm e1
    have hr1 : ∀ r ∈ ch, r < m.inds.length := fun r h => hr r (by simp [h])
    have hr2 : ∀ r ∈ chs.flatten, r < m.inds.length := fun r h => hr r (by rw [List.flatten_cons]; exact List.mem_append_right _ h)
    have hp1 : ∀ pop ∈ pops, ∀ x ∈ pop, x < m1.inds.length := fun pop hpop x hx => by rw [n1]; exact hp pop hpop x hx
    obtain ⟨s2, u2, t2⟩ := cpMultiple_ok cp pops cur hcur ch m1 m2 f1 k1.sound (fun r h => by rw [n1]; exact hr1 r h) hp1 e2
    have k2 : Kept ch m m2 := k1.trans (kept_of_unchanged k1.sound u2 s2)
    obtain ⟨k3, t3⟩ := ih m2 m3 f2 s2 (fun r h => Nat.lt_of_lt_of_le (hr2 r h) k2.grows)
      (fun pop hpop x hx => Nat.lt_of_lt_of_le (hp pop hpop x hx) k2.grows) e3
    refine ⟨(k2.mono fun x hx => by simp [hx]).trans (k3.mono fun x hx => by rw [List.flatten_cons]; exact List.mem_append_right _ hx), ?_⟩
    rw [List.flatten_cons]
    exact List.rel_append (forall₂_congr k1 hp hr1 t2) (forall₂_congr k2 hp hr2 t3)

theorem assignFitnesses_ok {P : ℚ → Nat → Prop} {fs : List ℚ} {rs : List Nat} (h : List.Forall₂ P fs rs) : ∀ (m m' : Mem γ ψ ℚ ρ), Sound m →
    rs.Nodup → (∀ r ∈ rs, r < m.inds.length) → assignFitnesses fs rs m = (.ok (), m') →
    Kept rs m m' ∧ ∀ r ∈ rs, ∃ f, P f r ∧ fitness m' r = some (some f) := by
  induction h with
  | nil =>
    intro m m' hm _ _ h
    simp only [assignFitnesses, HM.pure_apply, Prod.mk.injEq, true_and] at h
    subst h
    exact ⟨.refl hm, by simp⟩
  | @cons f r fs rs hf _ ih =>
    intro m m' hm hnd hr h
    obtain ⟨_, m1, e1, h⟩ := bind_ok h
    simp only [modObj, Prod.mk.injEq, true_and] at e1
    subst e1
    obtain ⟨hnr, hnd⟩ := List.nodup_cons.1 hnd
    have k1 : Kept [r] m { m with inds := m.inds.modify r fun x => { x with fitness := some f } } :=
      modObj_kept hm r (by simp) _ (fun _ => rfl) (fun _ => rfl) (fun _ => rfl) (fun _ => rfl)
    obtain ⟨k2, h2⟩ := ih _ m' k1.sound hnd (fun x hx => by simpa using hr x (by simp [hx])) h
    refine ⟨(k1.mono (by simp)).trans (k2.mono fun x hx => by simp [hx]), fun x hx => ?_⟩
    rcases List.mem_cons.1 hx with rfl | hx
    · refine ⟨f, hf, ?_⟩
      have hlt := hr x (by simp)
      rw [sameInd_fitness (k2.other x (by simpa using hlt) hnr)]
      simp [fitness, List.getElem?_eq_getElem hlt]
    · exact h2 x hx

theorem problemsOf_ok (rs : List Nat) : ∀ (m m' : Mem γ ψ ℚ ρ) (ps : List Nat), problemsOf rs m = (.ok ps, m') → m' = m := by
  induction rs with
  | nil =>
    intro m m' ps h
    simp only [problemsOf, HM.pure_apply, Prod.mk.injEq] at h
    exact h.2.symm
  | cons r rs ih =>
    intro m m' ps h
    obtain ⟨o, m1, e1, h⟩ := bind_ok h
    obtain ⟨ps', m2, e2, h⟩ := bind_ok h
    simp only [HM.pure_apply, Prod.mk.injEq] at h
    cases ho : m.inds[r]? with
    | none => simp [getObj, ho] at e1
    | some o' =>
      simp only [getObj, ho, Prod.mk.injEq] at e1
      rw [← h.2, ih _ _ _ e2, ← e1.2]

theorem teamMean_cooperated {cp : CoopProblem γ ψ ρ} (hn : 0 < cp.numTrials) {m : Mem γ ψ ℚ ρ} {partners : List (List Nat)} {cur r : Nat} {f : ℚ}
    (h : TeamMean cp m partners cur f r) (hf : fitness m r = some (some f)) : Cooperated (wrappedIn cp) cp.numTrials m partners cur r := by
  obtain ⟨ts, h1, h2, h3⟩ := h
  refine ⟨ts, h1, ?_, by rw [hf, h2], fun t ht => ⟨(h3 t ht).1, (h3 t ht).2.1⟩⟩
  rintro rfl
  simp at h1
  omega

/-- C102: grouped evaluation gives everybody in the population, whatever the size of the chunks and whatever phenomes are cached, the mean
score of `num_trials` teams it belongs to. Nobody's genes change, and nothing about anybody else. -/
theorem grouped_cooperate_exact (cp : CoopProblem γ ψ ρ) (own : Dec γ ψ) (chunk : Option Nat) (pops : List (List Nat)) (cur : Nat)
    (hcur : cur < pops.length) (population out : List Nat) (hnd : population.Nodup) (m m' : Mem γ ψ ℚ ρ) (hm : Sound m)
    (hr : ∀ r ∈ population, r < m.inds.length) (hp : ∀ pop ∈ pops, ∀ x ∈ pop, x < m.inds.length)
    (h : groupedCooperate cp own chunk pops cur population m = (.ok out, m')) :
    out = population ∧ Kept population m m' ∧ ∀ r ∈ population, ∃ f, fitness m' r = some (some f) ∧ TeamMean cp m' pops cur f r := by
  cases population with
  | nil => simp [groupedCooperate] at h
  | cons p0 rest =>
    unfold groupedCooperate at h
    obtain ⟨o, m1, e1, h'⟩ := bind_ok h
    clear h
    obtain ⟨ps, m2, e2, h⟩ := bind_ok h'
    clear h'
    cases ho : m.inds[p0]? with
    | none => simp [getObj, ho] at e1
    | some o' =>
      simp only [getObj, ho, Prod.mk.injEq] at e1
      obtain ⟨-, rfl⟩ := e1
      obtain rfl := problemsOf_ok _ _ _ _ e2
      split at h
      · simp only at h
        split at h
        · rename_i hn
          obtain ⟨fs, m3, e3, h⟩ := bind_ok h
          obtain ⟨_, m4, e4, h⟩ := bind_ok h
          simp only [HM.pure_apply, Prod.mk.injEq, Except.ok.injEq] at h
          obtain ⟨rfl, rfl⟩ := h
          have hfl := chunksOf_flatten _ hn (p0 :: rest)
          obtain ⟨k3, t3⟩ := cpChunks_ok cp own pops cur hcur _ m2 m3 fs hm (by rw [hfl]; exact hr) hp e3
          rw [hfl] at k3 t3
          obtain ⟨k4, t4⟩ := assignFitnesses_ok t3 m3 m4 k3.sound hnd (fun r h => Nat.lt_of_lt_of_le (hr r h) k3.grows) e4
          have k := k3.trans k4
          refine ⟨rfl, k, fun r hr' => ?_⟩
          obtain ⟨f, hf, hfit⟩ := t4 r hr'
          exact ⟨f, hfit, teamMean_congr (k.genes r (hr r hr')) (fun pop hpop x hx => k.genes x (hp pop hpop x hx)) hf⟩
        · simp at h
      · simp at h

/-! ## The pipeline of one sub-population and a generation -/

theorem teamMean_unchanged {cp : CoopProblem γ ψ ρ} {m m' : Mem γ ψ ℚ ρ} (hm : Sound m) (hu : Unchanged m m')
    {partners : List (List Nat)} {cur r : Nat} (hr : r < m.inds.length) (hp : ∀ pop ∈ partners, ∀ x ∈ pop, x < m.inds.length)
    (h : ∃ f, fitness m r = some (some f) ∧ TeamMean cp m partners cur f r) :
    ∃ f, fitness m' r = some (some f) ∧ TeamMean cp m' partners cur f r := by
  obtain ⟨f, h1, h2⟩ := h
  exact ⟨f, by rw [sameInd_fitness (unchanged_same hm hu hr), h1], teamMean_congr (sameInd_keeps (unchanged_same hm hu hr))
    (fun pop hpop x hx => sameInd_keeps (unchanged_same hm hu (hp pop hpop x hx))) h2⟩

/-- C102: the pipeline on sub-population `cur` returns `size` new, different individuals with acceptable genes. The fitness of each
is the mean score of `num_trials` teams, made of itself and of members of the other sub-populations as they are when the
pipeline runs. Nobody who existed before is changed. -/
theorem coop_group_pipeline_spec (cfg : CoopGroupConfig γ ψ ρ) (len : Nat → Nat) (allowed : Nat → Nat → γ → Prop) (g : Int) (cur : Nat)
    (hst : ∀ st ∈ cfg.stages, StageOk (len cur) (allowed cur) (fun _ _ => True) st) (pops : List (List Nat)) (parents : List Nat)
    (hpar : pops[cur]? = some parents) (m m' : Mem γ ψ ℚ ρ) (hm : Sound m) (hok : TeamsOk len allowed m pops) (out : List Nat)
    (h : coopGroupPipeline cfg g cur pops parents m = (.ok out, m')) :
    Sound m' ∧ Unchanged m m' ∧ out.length = cfg.size ∧ out.Nodup ∧
    ∀ r ∈ out, m.inds.length ≤ r ∧ GoodGenes (len cur) (allowed cur) m' r ∧
      ∃ f, fitness m' r = some (some f) ∧ TeamMean cfg.cp m' pops cur f r := by
  have hcur := (List.getElem?_eq_some_iff.1 hpar).1
  have hlt := teamsOk_lt hok
  obtain ⟨pool, m1, e1, h⟩ := bind_ok h
  obtain ⟨pend, how⟩ := stages_carries hm cfg.stages hst _ _ (clone_first_carries hm parents (hok cur parents hpar) (cfg.choose g cur parents))
  obtain ⟨⟨os, s'⟩, m2, e2, e1⟩ := bind_ok (show (hpull (stagesIter (selectionIter parents (cfg.choose g cur parents))
    (Stage.clone :: cfg.stages)).next cfg.size (stagesIter (selectionIter parents (cfg.choose g cur parents)) (Stage.clone :: cfg.stages)).init >>=
    fun os => pure os.1) m = (.ok pool, m1) from e1)
  simp only [HM.pure_apply, Prod.mk.injEq, Except.ok.injEq] at e1
  obtain ⟨rfl, rfl⟩ := e1
  have hinit : pend (stagesIter (selectionIter parents (cfg.choose g cur parents)) (Stage.clone :: cfg.stages)).init = [] := how.init
  obtain ⟨q1, -, q3, q4, -, q6⟩ := hpull_carries (m0 := m) _ pend how (fun _ _ => True) (fun _ _ _ _ _ _ _ _ _ => trivial)
    (fun _ _ _ _ _ _ _ => trivial) cfg.size _ m _ _ _ (.refl m hm) (by rw [hinit]; simp) (by rw [hinit]; simp) e2
  obtain ⟨rfl, k, hf⟩ := grouped_cooperate_exact cfg.cp (cfg.own cur) cfg.chunk pops cur hcur _ out q4 m2 m' q1.sound
    (fun r hr => goodGenes_lt (q6 r hr).2.2.1) (fun pop hpop x hx => Nat.lt_of_lt_of_le (hlt pop hpop x hx) q1.inds) h
  refine ⟨k.sound, ?_, q3, q4, fun r hr => ⟨(q6 r hr).1, ?_, hf r hr⟩⟩
  · have u := q1.unchanged
    obtain ⟨c1, c2, c3⟩ := unchanged_length u
    refine ⟨fun r hr => ?_, fun a ha => (k.arrays a (by omega)).trans (u.arrays a ha), fun a ha => (k.sets a (by omega)).trans (u.sets a ha)⟩
    rw [(k.other r (by omega) fun hx => by have := (q6 r hx).1; omega).1, u.inds r hr]
  · obtain ⟨gg, hg1, hg2⟩ := (q6 r hr).2.2.1
    exact ⟨gg, by rw [(k.genes r (goodGenes_lt (q6 r hr).2.2.1)).1, hg1], hg2⟩

/-- A generation from sub-population `cur` on. -/
theorem coop_group_sweep_spec (cfg : CoopGroupConfig γ ψ ρ) (len : Nat → Nat) (allowed : Nat → Nat → γ → Prop) (g : Int)
    (hst : ∀ i, ∀ st ∈ cfg.stages, StageOk (len i) (allowed i) (fun _ _ => True) st) (k : Nat) :
    ∀ (cur : Nat) (pops pops' : List (List Nat)) (m m' : Mem γ ψ ℚ ρ), cur + k = pops.length → Sound m → pops.flatten.Nodup →
      TeamsOk len allowed m pops → coopGroupSweep cfg g k cur pops m = (.ok pops', m') →
      Sound m' ∧ Unchanged m m' ∧ pops'.length = pops.length ∧ pops'.flatten.Nodup ∧ TeamsOk len allowed m' pops' ∧
      (∀ r ∈ pops'.flatten, r ∈ pops.flatten ∨ m.inds.length ≤ r) ∧ (∀ i, i < cur → pops'[i]? = pops[i]?) ∧
      ∀ (i : Nat) (p : List Nat), cur ≤ i → pops'[i]? = some p → p.length = cfg.size ∧
        ∀ r ∈ p, m.inds.length ≤ r ∧ ∃ f, fitness m' r = some (some f) ∧ TeamMean cfg.cp m' (pops'.take i ++ pops.drop i) i f r := by
  induction k with
  | zero =>
    intro cur pops pops' m m' hk hm hnd hok h
    simp only [coopGroupSweep, HM.pure_apply, Prod.mk.injEq, Except.ok.injEq] at h
    obtain ⟨rfl, rfl⟩ := h
    refine ⟨hm, ⟨fun _ _ => rfl, fun _ _ => rfl, fun _ _ => rfl⟩, rfl, hnd, hok, fun r hr => Or.inl hr, fun _ _ => rfl, fun i p hi hp => ?_⟩
    have := (List.getElem?_eq_some_iff.1 hp).1
    omega
  | succ k ih =>
    intro cur pops pops' m m' hk hm hnd hok h
    obtain ⟨off, m1, e1, h⟩ := bind_ok h
    have hcur : cur < pops.length := by omega
    have hpar : pops[cur]? = some (pops.getD cur []) := by
      rw [List.getD_eq_getElem?_getD, List.getElem?_eq_getElem hcur]; rfl
    obtain ⟨s1, u1, l1, nd1, q1⟩ := coop_group_pipeline_spec cfg len allowed g cur (hst cur) pops _ hpar m m1 hm hok off e1
    obtain ⟨c1, -, -⟩ := unchanged_length u1
    have hperm := flatten_set_perm off hpar
    have hperm0 := flatten_perm hpar
    have hnd1 : (pops.set cur off).flatten.Nodup := by
      refine hperm.nodup_iff.2 (List.nodup_append.2 ⟨nd1, (List.nodup_append.1 (hperm0.nodup_iff.1 hnd)).2.1, ?_⟩)
      rintro a ha b hb rfl
      have h1 := (q1 a ha).1
      have : a ∈ pops.flatten := hperm0.mem_iff.2 (List.mem_append.2 (Or.inr hb))
      obtain ⟨p, hp, hap⟩ := List.mem_flatten.1 this
      have := teamsOk_lt hok p hp a hap
      omega
    have hok1 : TeamsOk len allowed m1 (pops.set cur off) := by
      intro i p hp r hr
      by_cases hi : i = cur
      · subst hi
        simp only [List.getElem?_set_self hcur, Option.some.injEq] at hp
        subst hp
        exact (q1 r hr).2.1
      · rw [List.getElem?_set_ne (Ne.symm hi)] at hp
        exact teamsOk_unchanged hm u1 hok i p hp r hr
    obtain ⟨s2, u2, l2, nd2, ok2, old2, pre2, q2⟩ := ih (cur + 1) (pops.set cur off) pops' m1 m' (by simp; omega) s1 hnd1 hok1 h
    have hl' : pops'.length = pops.length := by simpa using l2
    have hpre : ∀ i, i < cur → pops'[i]? = pops[i]? := fun i hi => by
      rw [pre2 i (by omega), List.getElem?_set_ne (by omega)]
    refine ⟨s2, unchanged_then u1 u2, hl', nd2, ok2, fun r hr => ?_, hpre, fun i p hi hp => ?_⟩
    · rcases old2 r hr with h | h
      · rcases List.mem_append.1 (hperm.mem_iff.1 h) with h | h
        · exact Or.inr (q1 r h).1
        · exact Or.inl (hperm0.mem_iff.2 (List.mem_append.2 (Or.inr h)))
      · exact Or.inr (by omega)
    · by_cases hic : i = cur
      · subst hic
        rw [pre2 i (by omega), List.getElem?_set_self hcur, Option.some.injEq] at hp
        subst hp
        rw [take_drop_eq hl' hpre]
        refine ⟨l1, fun r hr => ⟨(q1 r hr).1, teamMean_unchanged s1 u2 (goodGenes_lt (q1 r hr).2.1) ?_ (q1 r hr).2.2⟩⟩
        exact fun pop hpop x hx => Nat.lt_of_lt_of_le (teamsOk_lt hok pop hpop x hx) c1
      · have := q2 i p (by omega) hp
        rw [List.drop_set_of_lt (by omega)] at this
        exact ⟨this.1, fun r hr => ⟨by have := (this.2 r hr).1; omega, (this.2 r hr).2⟩⟩

/-! ## Whole runs -/

/-- The populations of a generation and those of the generation before: everybody's fitness is the mean score of teams with
members of this generation where the sub-population comes earlier, and of the generation before where it comes later. -/
def Spec.CoopGroupGeneration (cfg : CoopGroupConfig γ ψ ρ) (m : Mem γ ψ ℚ ρ) (before now : List (List Nat)) : Prop :=
  ∀ (i : Nat) (p : List Nat), now[i]? = some p → p.length = cfg.size ∧
    ∀ r ∈ p, ∃ f, fitness m r = some (some f) ∧ TeamMean cfg.cp m (now.take i ++ before.drop i) i f r

theorem coop_group_loop_spec (cfg : CoopGroupConfig γ ψ ρ) (len : Nat → Nat) (allowed : Nat → Nat → γ → Prop)
    (hst : ∀ i, ∀ st ∈ cfg.stages, StageOk (len i) (allowed i) (fun _ _ => True) st) (fuel : Nat) :
    ∀ (g : Int) (pops pops' : List (List Nat)) (m m' : Mem γ ψ ℚ ρ), Sound m → pops.flatten.Nodup → TeamsOk len allowed m pops →
      coopGroupLoop cfg fuel g pops m = (.ok pops', m') →
      Sound m' ∧ Unchanged m m' ∧ pops'.length = pops.length ∧ pops'.flatten.Nodup ∧ TeamsOk len allowed m' pops' ∧
      (∀ r ∈ pops'.flatten, r ∈ pops.flatten ∨ m.inds.length ≤ r) ∧
      ((pops' = pops ∧ m' = m ∧ (fuel = 0 ∨ cfg.stop g pops m = true)) ∨ ∃ before : List (List Nat), before.length = pops.length ∧
        TeamsOk len allowed m' before ∧ (∀ r ∈ before.flatten, r ∈ pops.flatten ∨ m.inds.length ≤ r) ∧
        CoopGroupGeneration cfg m' before pops') := by
  induction fuel with
  | zero =>
    intro g pops pops' m m' hm hnd hok h
    simp only [coopGroupLoop, HM.pure_apply, Prod.mk.injEq, Except.ok.injEq] at h
    obtain ⟨rfl, rfl⟩ := h
    exact ⟨hm, ⟨fun _ _ => rfl, fun _ _ => rfl, fun _ _ => rfl⟩, rfl, hnd, hok, fun r hr => Or.inl hr, Or.inl ⟨rfl, rfl, Or.inl rfl⟩⟩
  | succ fuel ih =>
    intro g pops pops' m m' hm hnd hok h
    unfold coopGroupLoop at h
    split at h
    · rename_i hs
      simp only [Prod.mk.injEq, Except.ok.injEq] at h
      obtain ⟨rfl, rfl⟩ := h
      exact ⟨hm, ⟨fun _ _ => rfl, fun _ _ => rfl, fun _ _ => rfl⟩, rfl, hnd, hok, fun r hr => Or.inl hr, Or.inl ⟨rfl, rfl, Or.inr hs⟩⟩
    · obtain ⟨ps, m1, e1, h⟩ := bind_ok h
      obtain ⟨s1, u1, l1, nd1, ok1, old1, -, q1⟩ := coop_group_sweep_spec cfg len allowed g hst _ 0 pops ps m m1 (by simp) hm hnd hok e1
      obtain ⟨c1, -, -⟩ := unchanged_length u1
      obtain ⟨s2, u2, l2, nd2, ok2, old2, q2⟩ := ih (g + 1) ps pops' m1 m' s1 nd1 ok1 h
      have hold : ∀ r, (r ∈ ps.flatten ∨ m1.inds.length ≤ r) → r ∈ pops.flatten ∨ m.inds.length ≤ r := by
        rintro r (h | h)
        · exact old1 r h
        · exact Or.inr (by omega)
      refine ⟨s2, unchanged_then u1 u2, l2.trans l1, nd2, ok2, fun r hr => hold r (old2 r hr), Or.inr ?_⟩
      rcases q2 with ⟨rfl, -, -⟩ | ⟨before, b1, b2, b3, b4⟩
      · refine ⟨pops, rfl, teamsOk_unchanged hm (unchanged_then u1 u2) hok, fun r hr => Or.inl hr, fun i p hp => ?_⟩
        obtain ⟨a1, a2⟩ := q1 i p (Nat.zero_le _) hp
        refine ⟨a1, fun r hr => teamMean_unchanged s1 u2 (goodGenes_lt (ok1 i p hp r hr)) ?_ (a2 r hr).2⟩
        intro pop hpop x hx
        rcases List.mem_append.1 hpop with h | h
        · exact teamsOk_lt ok1 pop (List.mem_of_mem_take h) x hx
        · exact Nat.lt_of_lt_of_le (teamsOk_lt hok pop (List.mem_of_mem_drop h) x hx) c1
      · exact ⟨before, b1.trans l1, b2, fun r hr => hold r (b3 r hr), b4⟩

/-- C102: a run of cooperative coevolution by a `CooperativeProblem` and grouped evaluation, with chunks of any size, over any number of sub-populations, each with its own initialiser, with any parent
selection, collaborator selection and stop condition and any chain of operators that keeps acceptable genes acceptable. If it
returns, nobody who existed before it is changed; the result has one population for each sub-population; its members are new,
all different, and have acceptable genes for their sub-population. If no generation ran, there are `pop_size` members
everywhere, with the constant initial fitness. Otherwise the fitness of everybody in the result is the mean score of `num_trials` teams with members of the
other sub-populations, of the last generation for earlier ones and of the generation before it for later ones. -/
theorem coop_group_run_members (cfg : CoopGroupConfig γ ψ ρ) (len : Nat → Nat) (allowed : Nat → Nat → γ → Prop)
    (hst : ∀ i, ∀ st ∈ cfg.stages, StageOk (len i) (allowed i) (fun _ _ => True) st)
    (subpops : List ((ρ → PyM (List γ) × ρ) × Nat)) (popSize : Nat) (value : ℚ) (maxGenerations : Int)
    (hinit : ∀ (i : Nat) ip, subpops[i]? = some ip → ∀ s g s', ip.1 s = (.ok g, s') → GenesIn (len i) (allowed i) g)
    (m m' : Mem γ ψ ℚ ρ) (hm : Sound m) (pops : List (List Nat))
    (h : coopGroupRun cfg subpops popSize value maxGenerations m = (.ok pops, m')) :
    0 < cfg.cp.numTrials ∧ Sound m' ∧ Unchanged m m' ∧ pops.length = subpops.length ∧ pops.flatten.Nodup ∧ (∀ r ∈ pops.flatten, m.inds.length ≤ r) ∧
    TeamsOk len allowed m' pops ∧
    (((∀ p ∈ pops, p.length = popSize) ∧ (∀ r ∈ pops.flatten, fitness m' r = some (some value)) ∧
        (maxGenerations ≤ 0 ∨ cfg.stop 0 pops m' = true)) ∨
      ∃ before : List (List Nat), before.length = subpops.length ∧ TeamsOk len allowed m' before ∧
        (∀ r ∈ before.flatten, m.inds.length ≤ r) ∧ CoopGroupGeneration cfg m' before pops) := by
  obtain ⟨_, m3, e3, h'⟩ := bind_ok h
  clear h
  obtain ⟨hpos, rfl⟩ : 0 < cfg.cp.numTrials ∧ m3 = m := by
    by_cases hn : 0 < cfg.cp.numTrials
    · simp only [hn, if_true, HM.lift_apply, Prod.mk.injEq] at e3
      exact ⟨hn, e3.2.symm⟩
    · simp [hn, HM.lift_apply] at e3
  obtain ⟨ps, m1, e1, h⟩ := bind_ok h'
  obtain ⟨_, m2, e2, h⟩ := bind_ok h
  obtain ⟨s1, u1, l1, z1, nd1, new1, ok1⟩ := createTeams_ok popSize subpops len allowed m3 m1 ps hinit hm e1
  rw [constEvaluateAll_eq] at e2
  obtain ⟨s2, u2, n2, g2, v2⟩ := constEvaluate_new value ps.flatten m1 m2 s1 u1 new1 e2
  have ok2 : TeamsOk len allowed m2 ps := fun i p hp r hr => by
    obtain ⟨g, hg, hg'⟩ := ok1 i p hp r hr
    exact ⟨g, by rw [g2, hg], hg'⟩
  obtain ⟨s3, u3, l3, nd3, ok3, old3, q3⟩ := coop_group_loop_spec cfg len allowed hst _ 0 ps pops m2 m' s2 nd1 ok2 h
  have hle := (unchanged_length u2).1
  have hold : ∀ r, (r ∈ ps.flatten ∨ m2.inds.length ≤ r) → m3.inds.length ≤ r := by
    rintro r (h | h)
    · exact new1 r h
    · omega
  refine ⟨hpos, s3, unchanged_then u2 u3, l3.trans l1, nd3, fun r hr => hold r (old3 r hr), ok3, ?_⟩
  rcases q3 with ⟨rfl, rfl, hs⟩ | ⟨before, b1, b2, b3, b4⟩
  · refine Or.inl ⟨z1, fun r hr => ?_, hs.imp (fun h => by omega) id⟩
    obtain ⟨p, hp, hrp⟩ := List.mem_flatten.1 hr
    rw [v2 r, if_pos ⟨hr, n2 ▸ teamsOk_lt ok2 p hp r hrp⟩]
  · exact Or.inr ⟨before, b1.trans l1, b2, fun r hr => hold r (b3 r hr), b4⟩


/-! ## Partners do not go round -/

/-- C102: with a collaborator selector that takes members in a fixed order, every trial is the same: it is played with the first
choice of the selector from each other sub-population. All trials of an individual have the same team. -/
theorem cp_partners_repeat (cp : CoopProblem γ ψ ρ) (pos : List Nat → Nat → Nat) (hc : cp.collab = rotating γ ψ ρ pos)
    (hn : 0 < cp.numTrials) (m : Mem γ ψ ℚ ρ) (partners : List (List Nat)) (cur r : Nat) (f : ℚ) (h : TeamMean cp m partners cur f r) :
    ∃ team : List Nat, team.length = partners.length ∧ team[cur]? = some r ∧
      (∀ (j : Nat) (pop : List Nat), j ≠ cur → partners[j]? = some pop → team[j]? = pop[pos pop 0]?) ∧
      ∃ fs : List ℚ, fs.length = cp.numTrials ∧ f = fs.sum / cp.numTrials ∧ ∀ x ∈ fs, TeamScore (wrappedIn cp) m team x := by
  obtain ⟨dec, wrapped, wid, n, collab⟩ := cp
  simp only at hc hn
  subst hc
  obtain ⟨ts, h1, h2, h3⟩ := h
  have hfix : ∀ t ∈ ts, ∀ (j : Nat) (pop : List Nat), j ≠ cur → partners[j]? = some pop → t.1[j]? = pop[pos pop 0]? := by
    intro t ht j pop hj hp
    obtain ⟨-, -, ss, mm, m1, e⟩ := h3 t ht
    exact (rotating_team pos r cur 0 partners 0 _ ss mm m1 t.1 (by simp) (fun j hj _ => by simp at hj; simp [rotating, hj]) e).2.2 j pop
      (by omega) hp
  have hsame : ∀ t ∈ ts, ∀ u ∈ ts, t.1 = u.1 := by
    intro t ht u hu
    obtain ⟨⟨a1, a2, -⟩, -⟩ := h3 t ht
    obtain ⟨⟨b1, b2, -⟩, -⟩ := h3 u hu
    apply List.ext_getElem?
    intro j
    by_cases hj : j = cur
    · subst hj; rw [a2, b2]
    · cases hp : partners[j]? with
      | none =>
        have := List.getElem?_eq_none_iff.1 hp
        rw [List.getElem?_eq_none_iff.2 (by omega), List.getElem?_eq_none_iff.2 (by omega)]
      | some pop => rw [hfix t ht j pop hj hp, hfix u hu j pop hj hp]
  cases ts with
  | nil => simp only [List.length_nil] at h1; omega
  | cons t ts =>
    obtain ⟨⟨a1, a2, -⟩, -⟩ := h3 t (by simp)
    refine ⟨t.1, a1, a2, hfix t (by simp), _, by rw [List.length_map]; exact h1, h2, fun x hx => ?_⟩
    obtain ⟨u, hu, rfl⟩ := List.mem_map.1 hx
    rw [hsame t (by simp) u hu]
    exact (h3 u hu).2.1

/-! ## Initial evaluation by the problem itself -/

/-- C102: the default initial evaluation asks the problem, which looks for the sub-populations in the context. In a clean context it
raises `KeyError` as soon as an individual is decoded. -/
theorem default_init_needs_context (cp : CoopProblem γ ψ ρ) (own : Dec γ ψ) (cur : Option Nat) (r : Nat) (rs : List Nat)
    (m m1 : Mem γ ψ ℚ ρ) (p : Phen ψ) (hd : decodeInd own r m = (.ok p, m1)) :
    wholeEvaluatePopulation cp own (none, cur) (r :: rs) m = (.error .keyError, m1) := by
  simp only [wholeEvaluatePopulation, wholeEvaluate, HM.bind_apply, hd, Option.elim, HM.lift_apply]

/-- C102: after an earlier run in the same process the default initial evaluation does not raise, but scores the initial individuals in teams with members of the
last sub-populations of that earlier run, as if they belonged to its last sub-population. -/
theorem default_init_uses_leftovers (cp : CoopProblem γ ψ ρ) (own : Dec γ ψ) (old : List (List Nat)) (cur : Nat) (hcur : cur < old.length)
    (rs : List Nat) : ∀ (m m' : Mem γ ψ ℚ ρ), Sound m → rs.Nodup → (∀ r ∈ rs, r < m.inds.length) → (∀ pop ∈ old, ∀ x ∈ pop, x < m.inds.length) →
    wholeEvaluatePopulation cp own (some old, some cur) rs m = (.ok (), m') →
    Kept rs m m' ∧ ∀ r ∈ rs, ∃ f, fitness m' r = some (some f) ∧ TeamMean cp m' old cur f r := by
  induction rs with
  | nil =>
    intro m m' hm _ _ _ h
    simp only [wholeEvaluatePopulation, HM.pure_apply, Prod.mk.injEq, true_and] at h
    subst h
    exact ⟨.refl hm, by simp⟩
  | cons r rs ih =>
    intro m m' hm hnd hr hp h
    obtain ⟨_, m1, e1, h'⟩ := bind_ok h
    clear h
    obtain ⟨p, m2, e2, h3⟩ := bind_ok e1
    obtain ⟨pops, m3, e3, h4⟩ := bind_ok h3
    obtain ⟨c, m4, e4, h5⟩ := bind_ok h4
    obtain ⟨f, m5, e5, h6⟩ := bind_ok h5
    clear e1 h3 h4 h5
    simp only [Option.elim, HM.lift_apply, Prod.mk.injEq, Except.ok.injEq] at e3 e4
    obtain ⟨rfl, rfl⟩ := e3
    obtain ⟨rfl, rfl⟩ := e4
    simp only [modObj, Prod.mk.injEq, true_and] at h6
    obtain ⟨hnr, hnd⟩ := List.nodup_cons.1 hnd
    have hr0 := hr r (by simp)
    have k2 : Kept [r] m m2 ∧ m2.inds.length = m.inds.length := decodeInd_kept own r m m2 p hm e2
    obtain ⟨s5, u5, t5⟩ := cp_evaluate_exact cp old r cur hcur m2 m5 k2.1.sound (by omega)
      (fun pop hpop x hx => by rw [k2.2]; exact hp pop hpop x hx) f e5
    have k5 : Kept [r] m m5 := k2.1.trans (kept_of_unchanged k2.1.sound u5 s5)
    have k6 : Kept [r] m5 m1 := by
      rw [← h6]
      exact modObj_kept s5 r (by simp) _ (fun _ => rfl) (fun _ => rfl) (fun _ => rfl) (fun _ => rfl)
    have k1 := k5.trans k6
    have hg := k1.grows
    obtain ⟨k7, q7⟩ := ih m1 m' k1.sound hnd (fun x hx => Nat.lt_of_lt_of_le (hr x (by simp [hx])) hg)
      (fun pop hpop x hx => Nat.lt_of_lt_of_le (hp pop hpop x hx) hg) h'
    have kk : Kept (r :: rs) m m' := (k1.mono (by simp)).trans (k7.mono fun x hx => by simp [hx])
    refine ⟨kk, fun x hx => ?_⟩
    rcases List.mem_cons.1 hx with rfl | hx
    · refine ⟨f, ?_, ?_⟩
      · rw [sameInd_fitness (k7.other x (by omega) hnr), ← h6]
        have : x < m5.inds.length := Nat.lt_of_lt_of_le hr0 k5.grows
        simp [fitness, List.getElem?_eq_getElem this]
      · have tm : TeamMean cp m old cur f x := by
          refine teamMean_congr ?_ (fun pop hpop y hy => ?_) t5
          · exact ⟨(k2.1.genes x hr0).1.symm, (k2.1.genes x hr0).2.symm⟩
          · have := k2.1.genes y (hp pop hpop y hy)
            exact ⟨this.1.symm, this.2.symm⟩
        exact teamMean_congr (kk.genes x hr0) (fun pop hpop y hy => kk.genes y (hp pop hpop y hy)) tm
    · exact q7 x hx

/-! ## A run -/

/-- Two trials with partners in turn, on chunks of one individual; parents take turns. -/
def exCoopGroup : CoopGroupConfig Int Int Nat where
  cp := { dec := .identity, wrapped := exTeamSum, wrappedId := 7, numTrials := 2, collab := rotating Int Int Nat fun pop n => n % pop.length }
  own _ := .identity
  chunk := some 1
  choose _ _ _ m := (.ok (m.rng % 2), m.rng + 1)
  stages := [.mutate (.ok ()) false (bitflipFn (some 1) none fun s => (if s % 3 < 1 then [1 / 4, 3 / 4] else [3 / 4, 1 / 4], s + 1))]
  size := 2
  stop _ _ _ := false

/-- Two sub-populations with two genes each: the run meets the hypotheses of `coop_group_run_members` and returns after two generations. -/
example :
    (∀ i : Nat, ∀ st ∈ exCoopGroup.stages, StageOk (exLen i) (exAllowed i) (fun _ _ => True) st) ∧
    (∀ (i : Nat) ip, [(exInit, 0), (exInit, 0)][i]? = some ip → ∀ s g s', ip.1 s = (.ok g, s') →
      GenesIn (exLen i) (exAllowed i) g) ∧ Sound exCoopStart ∧
    ((coopGroupRun exCoopGroup [(exInit, 0), (exInit, 0)] 2 (-10) 2 exCoopStart).1.toOption.map fun pops => pops.map fun p =>
      p.map fun r => (genes (coopGroupRun exCoopGroup [(exInit, 0), (exInit, 0)] 2 (-10) 2 exCoopStart).2 r,
        fitness (coopGroupRun exCoopGroup [(exInit, 0), (exInit, 0)] 2 (-10) 2 exCoopStart).2 r)) =
      some [[(some [1, 1], some (some 3)), (some [0, 0], some (some 1))], [(some [0, 0], some (some 2)), (some [0, 0], some (some 2))]] := by
  refine ⟨?_, ?_, ⟨by simp [exCoopStart], by simp [exCoopStart], by simp [exCoopStart]⟩, ?_⟩
  · intro i st hst
    simp only [exCoopGroup, List.mem_cons, List.not_mem_nil, or_false] at hst
    subst hst
    exact bitflip_stage_ok _ _ _ _ _ _ _
  · intro i ip hip s g s' h
    have : ip.1 = exInit := by
      have := List.mem_of_getElem? hip
      simp only [List.mem_cons, List.not_mem_nil, or_false] at this
      rcases this with rfl | rfl <;> rfl
    rw [this] at h
    simp only [exInit, Prod.mk.injEq, Except.ok.injEq] at h
    obtain ⟨rfl, rfl⟩ := h
    refine ⟨rfl, fun i x hx => ?_⟩
    have := List.mem_of_getElem? hx
    simp only [List.mem_cons, List.not_mem_nil, or_false] at this
    rcases this with rfl | rfl
    · rcases Nat.mod_two_eq_zero_or_one s with h | h <;> simp [exAllowed, h]
    · exact Or.inl rfl
  · decide +kernel

/-- One individual of each of two sub-populations of an earlier run, and one of a new run. -/
def exLeft : Mem Int Int ℚ Nat :=
  ⟨[[5], [6], [1]], [[], [], []], [{ genome := 0, fitness := none, phenome := none, uuid := 0, parents := 0, problem := 0 },
    { genome := 1, fitness := none, phenome := none, uuid := 1, parents := 1, problem := 0 },
    { genome := 2, fitness := none, phenome := none, uuid := 2, parents := 2, problem := 0 }], 3, 0⟩

/-- In a clean context the new individual cannot be evaluated; after the earlier run it gets the score of its team with the old
individual from sub-population 0. -/
example :
    Sound exLeft ∧ (wholeEvaluatePopulation exCoopGroup.cp .identity (none, none) [2] exLeft).1.toOption = none ∧
    (wholeEvaluatePopulation exCoopGroup.cp .identity (some [[0], [1]], some 1) [2] exLeft).1.toOption = some () ∧
    fitness (wholeEvaluatePopulation exCoopGroup.cp .identity (some [[0], [1]], some 1) [2] exLeft).2 2 = some (some 6) := by
  refine ⟨⟨by decide, by decide, by decide⟩, ?_, ?_, ?_⟩ <;> decide +kernel

end Leap
