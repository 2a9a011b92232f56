import Verif.Props.Genealogy

/-!
# What operators do to cached phenomes

Cloning copies the cached phenome and the problem; mutation and crossover leave them.
-/

namespace Leap
open Spec

variable {γ ψ φ ρ : Type}

/-- Cached phenome and problem of everybody. -/
def tags (m : Mem γ ψ φ ρ) : List (Option (Phen ψ) × Nat) := m.inds.map fun o => (o.phenome, o.problem)

def KeepsTags {α : Type} (x : HM (Mem γ ψ φ ρ) α) : Prop := ∀ m, tags (x m).2 = tags m

theorem tags_bind {α β : Type} {x : HM (Mem γ ψ φ ρ) α} {f : α → HM (Mem γ ψ φ ρ) β} (hx : KeepsTags x) (hf : ∀ a, KeepsTags (f a)) :
    KeepsTags (x >>= f) := by
  intro m
  have h := hx m
  rw [HM.bind_apply]
  rcases e : x m with ⟨r, m1⟩
  rw [e] at h
  cases r with
  | error e => exact h
  | ok a => exact (hf a m1).trans h

theorem tags_pure {α : Type} (a : α) : KeepsTags (pure a : HM (Mem γ ψ φ ρ) α) := fun _ => rfl
theorem tags_lift {α : Type} (x : PyM α) : KeepsTags (HM.lift x : HM (Mem γ ψ φ ρ) α) := fun _ => rfl
theorem tags_getObj (r : Nat) : KeepsTags (getObj r : HM (Mem γ ψ φ ρ) _) := by
  intro m; unfold getObj; split <;> rfl
theorem tags_getArr (r : Nat) : KeepsTags (getArr r : HM (Mem γ ψ φ ρ) _) := by
  intro m; unfold getArr; split <;> rfl
theorem tags_getSet (r : Nat) : KeepsTags (getSet r : HM (Mem γ ψ φ ρ) _) := by
  intro m; unfold getSet; split <;> rfl
theorem tags_newArr (g : List γ) : KeepsTags (newArr g : HM (Mem γ ψ φ ρ) _) := fun _ => rfl
theorem tags_setArr (a : Nat) (g : List γ) : KeepsTags (setArr a g : HM (Mem γ ψ φ ρ) _) := fun _ => rfl
theorem tags_setSet (a : Nat) (g : List Nat) : KeepsTags (setSet a g : HM (Mem γ ψ φ ρ) _) := fun _ => rfl
theorem tags_useRng {α : Type} (f : ρ → PyM α × ρ) : KeepsTags (useRng f : HM (Mem γ ψ φ ρ) α) := fun _ => rfl

theorem tags_list_modify (l : List (Obj ψ φ)) (r : Nat) (f : Obj ψ φ → Obj ψ φ) (hf : ∀ x, (f x).phenome = x.phenome ∧ (f x).problem = x.problem) :
    (l.modify r f).map (fun o => (o.phenome, o.problem)) = l.map fun o => (o.phenome, o.problem) := by
  induction l generalizing r with
  | nil => cases r <;> rfl
  | cons a l ih =>
    cases r with
    | zero => simp [hf a]
    | succ r => simp [ih r]

theorem tags_modObj (r : Nat) (f : Obj ψ φ → Obj ψ φ) (hf : ∀ x, (f x).phenome = x.phenome ∧ (f x).problem = x.problem) :
    KeepsTags (modObj r f : HM (Mem γ ψ φ ρ) _) := fun m => tags_list_modify m.inds r f hf

theorem tags_mutateInd (f : MutFn γ ρ) (r : Nat) : KeepsTags (mutateInd f r : HM (Mem γ ψ φ ρ) _) := by
  refine tags_bind (tags_getObj _) fun o => tags_bind (tags_getArr _) fun g => tags_bind (tags_useRng _) fun res =>
    tags_bind (tags_setArr _ _) fun _ => tags_bind (tags_lift _) fun new => ?_
  cases new with
  | none => exact tags_modObj _ _ fun _ => ⟨rfl, rfl⟩
  | some g' => exact tags_bind (tags_newArr _) fun a => tags_bind (tags_modObj _ _ fun _ => ⟨rfl, rfl⟩) fun _ => tags_modObj _ _ fun _ => ⟨rfl, rfl⟩

theorem tags_recombineInds (rec : Recombiner ρ) (ra rb : Nat) : KeepsTags (recombineInds rec ra rb : HM (Mem γ ψ φ ρ) _) := by
  refine tags_bind (tags_getObj _) fun oa => tags_bind (tags_getObj _) fun ob => tags_bind (tags_getArr _) fun a => tags_bind (tags_getArr _) fun b => ?_
  cases rec with
  | uniform mask =>
    exact tags_bind (tags_useRng _) fun _ => tags_bind (tags_lift _) fun _ => tags_bind (tags_lift _) fun _ => tags_bind (tags_lift _) fun _ =>
      tags_bind (tags_setArr _ _) fun _ => tags_bind (tags_getArr _) fun _ => tags_bind (tags_lift _) fun _ => tags_setArr _ _
  | nary k cuts =>
    exact tags_bind (tags_useRng _) fun _ => tags_bind (tags_lift _) fun _ => tags_bind (tags_newArr _) fun _ =>
      tags_bind (tags_modObj _ _ fun _ => ⟨rfl, rfl⟩) fun _ => tags_bind (tags_newArr _) fun _ => tags_modObj _ _ fun _ => ⟨rfl, rfl⟩

theorem tags_crossInds (rec : Recombiner ρ) (ra rb : Nat) : KeepsTags (crossInds rec ra rb : HM (Mem γ ψ φ ρ) _) :=
  tags_bind (tags_recombineInds _ _ _) fun _ => tags_bind (tags_getObj _) fun _ => tags_bind (tags_getObj _) fun _ =>
    tags_bind (tags_getSet _) fun _ => tags_bind (tags_getSet _) fun _ => tags_bind (tags_setSet _ _) fun _ => tags_bind (tags_getSet _) fun _ =>
    tags_bind (tags_getSet _) fun _ => tags_bind (tags_setSet _ _) fun _ => tags_bind (tags_modObj _ _ fun _ => ⟨rfl, rfl⟩) fun _ =>
    tags_modObj _ _ fun _ => ⟨rfl, rfl⟩

theorem KeepsTags.ok {α : Type} {x : HM (Mem γ ψ φ ρ) α} (h : KeepsTags x) {m m' : Mem γ ψ φ ρ} {a : α} (e : x m = (.ok a, m')) : tags m' = tags m := by
  have := h m; rw [e] at this; exact this

/-- A clone has the cached phenome and the problem of its parent. -/
theorem cloneInd_tags {m m' : Mem γ ψ φ ρ} {r c : Nat} (h0 : cloneInd r m = (.ok c, m')) :
    c = m.inds.length ∧ ∃ t, (tags m)[r]? = some t ∧ tags m' = tags m ++ [t] := by
  obtain ⟨o, m1, e1, h⟩ := bind_ok h0
  have ho : m.inds[r]? = some o ∧ m1 = m := by
    unfold getObj at e1
    split at e1
    · simp only [Prod.mk.injEq, Except.ok.injEq] at e1
      obtain ⟨rfl, rfl⟩ := e1
      exact ⟨by assumption, rfl⟩
    · simp at e1
  obtain ⟨ho, rfl⟩ := ho
  obtain ⟨c1, m2, e2, h⟩ := bind_ok h
  unfold newObj at e2; simp only [Prod.mk.injEq, Except.ok.injEq] at e2
  obtain ⟨rfl, rfl⟩ := e2
  obtain ⟨g, m3, e3, h⟩ := bind_ok h
  have k3 := (tags_getArr _).ok e3
  obtain ⟨a, m4, e4, h⟩ := bind_ok h
  have k4 := (tags_newArr _).ok e4
  obtain ⟨_, m5, e5, h⟩ := bind_ok h
  have k5 := KeepsTags.ok (tags_modObj _ _ (by intro x; exact ⟨rfl, rfl⟩)) e5
  obtain ⟨_, m6, e6, h⟩ := bind_ok h
  have k6 := KeepsTags.ok (tags_modObj _ _ (by intro x; exact ⟨rfl, rfl⟩)) e6
  obtain ⟨u, m7, e7, h⟩ := bind_ok h
  have k7 : tags m7 = tags m6 := by
    simp only [freshUuid, Prod.mk.injEq] at e7
    rw [← e7.2]; rfl
  obtain ⟨_, m8, e8, h⟩ := bind_ok h
  have k8 := KeepsTags.ok (tags_modObj _ _ (by intro x; exact ⟨rfl, rfl⟩)) e8
  obtain ⟨s, m9, e9, h⟩ := bind_ok h
  have k9 : tags m9 = tags m8 := by
    simp only [newSet, Prod.mk.injEq] at e9
    rw [← e9.2]; rfl
  obtain ⟨_, m10, e10, h⟩ := bind_ok h
  have k10 := KeepsTags.ok (tags_modObj _ _ (by intro x; exact ⟨rfl, rfl⟩)) e10
  simp only [HM.pure_apply, Prod.mk.injEq, Except.ok.injEq] at h
  obtain ⟨rfl, rfl⟩ := h
  refine ⟨rfl, (o.phenome, o.problem), by simp [tags, ho], ?_⟩
  rw [k10, k9, k8, k7, k6, k5, k4, k3]
  simp [tags]

/-! ### Pipelines without evaluation -/

/-- Everything made since `m0` has a tag in `S`. -/
def Handed (S : Option (Phen ψ) × Nat → Prop) (m0 m : Mem γ ψ φ ρ) : Prop := ∃ ext, tags m = tags m0 ++ ext ∧ ∀ t ∈ ext, S t

theorem Handed.get {S : Option (Phen ψ) × Nat → Prop} {m0 m : Mem γ ψ φ ρ} (h : Handed S m0 m) {r : Nat} {t} (hr : m0.inds.length ≤ r)
    (ht : (tags m)[r]? = some t) : S t := by
  obtain ⟨ext, e, hs⟩ := h
  rw [e, List.getElem?_append_right (by simpa [tags] using hr)] at ht
  exact hs t (List.mem_of_getElem? ht)

/-- A generator that yields what was made since `m0`, and makes individuals with tags in `S` only. -/
structure Hands (S : Option (Phen ψ) × Nat → Prop) (m0 : Mem γ ψ φ ρ) (it : HIter (Mem γ ψ φ ρ)) (pend : it.σ → List Nat) : Prop where
  init : pend it.init = []
  step : ∀ s m r s' m', Handed S m0 m → (∀ p ∈ pend s, m0.inds.length ≤ p) → it.next s m = (.ok (r, s'), m') →
    Handed S m0 m' ∧ m0.inds.length ≤ r ∧ ∀ p ∈ pend s', m0.inds.length ≤ p

variable {S : Option (Phen ψ) × Nat → Prop} {m0 : Mem γ ψ φ ρ}

theorem Handed.length {m : Mem γ ψ φ ρ} (h : Handed S m0 m) : m0.inds.length ≤ m.inds.length := by
  obtain ⟨ext, e, -⟩ := h
  have := congrArg List.length e
  simp only [tags, List.length_map, List.length_append] at this
  omega

theorem Handed.of_tags {m m' : Mem γ ψ φ ρ} (h : Handed S m0 m) (e : tags m' = tags m) : Handed S m0 m' := by
  obtain ⟨ext, e1, h⟩ := h
  exact ⟨ext, e.trans e1, h⟩

theorem Handed.clone {m m' : Mem γ ψ φ ρ} {r c : Nat} (h : Handed S m0 m) (hc : cloneInd r m = (.ok c, m'))
    (hr : ∀ t, (tags m)[r]? = some t → S t) : Handed S m0 m' ∧ m0.inds.length ≤ c := by
  obtain ⟨rfl, t, ht, e⟩ := cloneInd_tags hc
  refine ⟨?_, h.length⟩
  obtain ⟨ext, e1, h1⟩ := h
  refine ⟨ext ++ [t], by rw [e, e1, List.append_assoc], fun x hx => ?_⟩
  rcases List.mem_append.1 hx with hx | hx
  · exact h1 x hx
  · rw [List.mem_singleton.1 hx]; exact hr t ht

theorem stage_hands (up : HIter (Mem γ ψ φ ρ)) (pend : up.σ → List Nat) (h : Hands S m0 up pend) (st : Stage γ ψ φ ρ)
    (hst : evaluates st = false) : Hands S m0 (st.apply up) (heldBy up pend st) := by
  obtain ⟨hinit, hstep⟩ := h
  cases st with
  | clone =>
    refine ⟨hinit, ?_⟩
    intro s m r s' m' hm hp hx
    obtain ⟨⟨r1, s1⟩, m1, e1, hx⟩ := bind_ok (pep_ok hx)
    obtain ⟨c, m2, e2, hx⟩ := bind_ok hx
    simp only [HM.pure_apply, Prod.mk.injEq, Except.ok.injEq] at hx
    obtain ⟨⟨rfl, rfl⟩, rfl⟩ := hx
    obtain ⟨b1, b2, b3⟩ := hstep s m r1 _ m1 hm hp e1
    obtain ⟨b4, b5⟩ := b1.clone e2 fun t ht => b1.get b2 ht
    exact ⟨b4, b5, b3⟩
  | mutate check stopOk f =>
    refine ⟨hinit, ?_⟩
    rintro ⟨started, s⟩ m r ⟨started', s'⟩ m' hm hp hx
    obtain ⟨_, m1, e1, hx⟩ := bind_ok hx
    have hm1 := hm.of_tags ((tags_lift _).ok e1)
    obtain ⟨⟨r1, s1⟩, m2, e2, hx⟩ := bind_ok hx
    have e2' : up.next s m1 = (.ok (r1, s1), m2) := by
      unfold upstream at e2
      split at e2
      · exact e2
      · exact pep_ok e2
    obtain ⟨_, m3, e3, hx⟩ := bind_ok hx
    simp only [HM.pure_apply, Prod.mk.injEq, Except.ok.injEq] at hx
    obtain ⟨⟨rfl, rfl, rfl⟩, rfl⟩ := hx
    obtain ⟨b1, b2, b3⟩ := hstep s m1 _ _ m2 hm1 hp e2'
    exact ⟨b1.of_tags ((tags_mutateInd f _).ok (pep_ok e3)), b2, b3⟩
  | crossover skip rec =>
    refine ⟨by simpa [Stage.apply, heldBy] using hinit, ?_⟩
    rintro ⟨pending, s⟩ m r ⟨pending', s'⟩ m' hm hp hx
    have hx := pep_ok hx
    have hp' : ∀ p ∈ pend s, m0.inds.length ≤ p := fun p h => hp p (by simp [heldBy, h])
    cases pending with
    | some b =>
      simp only [HM.pure_apply, Prod.mk.injEq, Except.ok.injEq] at hx
      obtain ⟨⟨rfl, rfl, rfl⟩, rfl⟩ := hx
      exact ⟨hm, hp _ (by simp [heldBy]), fun p h => hp' p (by simpa [heldBy] using h)⟩
    | none =>
      obtain ⟨⟨a, s1⟩, m1, e1, hx⟩ := bind_ok hx
      obtain ⟨⟨b, s2⟩, m2, e2, hx⟩ := bind_ok hx
      obtain ⟨sk, m3, e3, hx⟩ := bind_ok hx
      obtain ⟨b1, b2, b3⟩ := hstep s m _ _ m1 hm hp' e1
      obtain ⟨c1, c2, c3⟩ := hstep s1 m1 _ _ m2 b1 b3 e2
      have d1 := c1.of_tags ((tags_useRng _).ok e3)
      have hheld : ∀ p ∈ heldBy up pend (.crossover skip rec) (some b, s2), m0.inds.length ≤ p := by
        intro p hp
        simp only [heldBy, Option.toList_some, List.mem_append, List.mem_singleton] at hp
        rcases hp with rfl | hp
        · exact c2
        · exact c3 p hp
      split at hx
      · simp only [HM.pure_apply, Prod.mk.injEq, Except.ok.injEq] at hx
        obtain ⟨⟨rfl, rfl, rfl⟩, rfl⟩ := hx
        exact ⟨d1, b2, hheld⟩
      · obtain ⟨_, m4, e4, hx⟩ := bind_ok hx
        simp only [HM.pure_apply, Prod.mk.injEq, Except.ok.injEq] at hx
        obtain ⟨⟨rfl, rfl, rfl⟩, rfl⟩ := hx
        exact ⟨d1.of_tags ((tags_crossInds _ _ _).ok e4), b2, hheld⟩
  | evaluate dec prob => simp [evaluates] at hst
  | robustEvaluate nan dec prob => simp [evaluates] at hst

theorem stages_hand (stages : List (Stage γ ψ φ ρ)) (hst : ∀ st ∈ stages, evaluates st = false) :
    ∀ (up : HIter (Mem γ ψ φ ρ)) (pend : up.σ → List Nat), Hands S m0 up pend → ∃ pend', Hands S m0 (stagesIter up stages) pend' := by
  induction stages with
  | nil => intro up pend h; exact ⟨pend, h⟩
  | cons st rest ih =>
    intro up pend h
    exact ih (fun s hs => hst s (by simp [hs])) _ _ (stage_hands up pend h st (hst st (by simp)))

theorem clone_first_hands (pop : List Nat) (hpop : ∀ r ∈ pop, r < m0.inds.length) (choose : Mem γ ψ φ ρ → PyM Nat × ρ) :
    Hands (fun t => ∃ r ∈ pop, (tags m0)[r]? = some t) m0 (Stage.clone.apply (selectionIter pop choose)) (fun _ => []) := by
  refine ⟨rfl, ?_⟩
  intro s m r s' m' hm hp hx
  obtain ⟨⟨r1, s1⟩, m1, e1, hx⟩ := bind_ok (pep_ok hx)
  obtain ⟨c, m2, e2, hx⟩ := bind_ok hx
  simp only [HM.pure_apply, Prod.mk.injEq, Except.ok.injEq] at hx
  obtain ⟨⟨rfl, rfl⟩, rfl⟩ := hx
  have hsel : r1 ∈ pop ∧ ∃ q, m1 = { m with rng := q } := by
    simp only [selectionIter] at e1
    rcases hc : choose m with ⟨x, q⟩
    rw [hc] at e1
    cases x with
    | error e => simp at e1
    | ok i =>
      cases hpi : pop[i]? with
      | none => simp [hpi] at e1
      | some y =>
        simp only [hpi, Prod.mk.injEq, Except.ok.injEq] at e1
        exact ⟨(Prod.mk.inj e1.1).1 ▸ List.mem_of_getElem? hpi, q, e1.2.symm⟩
  obtain ⟨hr1, q, rfl⟩ := hsel
  have hm1 : Handed (fun t => ∃ r ∈ pop, (tags m0)[r]? = some t) m0 { m with rng := q } := hm.of_tags rfl
  obtain ⟨b1, b2⟩ := hm1.clone e2 fun t ht => by
    obtain ⟨ext, e, -⟩ := hm1
    rw [e, List.getElem?_append_left (by simpa [tags] using hpop r1 hr1)] at ht
    exact ⟨r1, hr1, ht⟩
  exact ⟨b1, b2, by simp⟩

theorem hpull_hands (it : HIter (Mem γ ψ φ ρ)) (pend : it.σ → List Nat) (h : Hands S m0 it pend) (k : Nat) :
    ∀ (s : it.σ) (m : Mem γ ψ φ ρ) (out : List Nat) (s' : it.σ) (m' : Mem γ ψ φ ρ), Handed S m0 m → (∀ p ∈ pend s, m0.inds.length ≤ p) →
      hpull it.next k s m = (.ok (out, s'), m') → Handed S m0 m' ∧ ∀ r ∈ out, m0.inds.length ≤ r := by
  induction k with
  | zero =>
    intro s m out s' m' hm hp hx
    simp only [hpull, HM.pure_apply, Prod.mk.injEq, Except.ok.injEq] at hx
    obtain ⟨⟨rfl, rfl⟩, rfl⟩ := hx
    exact ⟨hm, by simp⟩
  | succ k ih =>
    intro s m out s' m' hm hp hx
    obtain ⟨⟨r, s1⟩, m1, e1, hx⟩ := bind_ok hx
    obtain ⟨⟨rs, s2⟩, m2, e2, hx⟩ := bind_ok hx
    simp only [HM.pure_apply, Prod.mk.injEq, Except.ok.injEq] at hx
    obtain ⟨⟨rfl, rfl⟩, rfl⟩ := hx
    obtain ⟨b1, b2, b3⟩ := h.step s m r s1 m1 hm hp e1
    obtain ⟨c1, c2⟩ := ih s1 m1 rs s2 m2 b1 b3 e2
    refine ⟨c1, fun x hx => ?_⟩
    rcases List.mem_cons.1 hx with rfl | hx
    · exact b2
    · exact c2 x hx

/-- Everybody a pipeline without evaluation makes has the cached phenome and the problem of a member of the population. -/
theorem pipeline_tags (m m' : Mem γ ψ φ ρ) (pop : List Nat) (hpop : ∀ r ∈ pop, r < m.inds.length) (choose : Mem γ ψ φ ρ → PyM Nat × ρ)
    (stages : List (Stage γ ψ φ ρ)) (hst : ∀ st ∈ stages, evaluates st = false) (size : Nat) (out : List Nat)
    (h : runPipeline pop choose stages size m = (.ok out, m')) (r : Nat) (hr : r ∈ out) (o : Obj ψ φ) (ho : m'.inds[r]? = some o) :
    ∃ p ∈ pop, ∃ op, m.inds[p]? = some op ∧ o.phenome = op.phenome ∧ o.problem = op.problem := by
  obtain ⟨pend, hb⟩ := stages_hand stages hst _ _ (clone_first_hands pop hpop choose)
  have h : (hpull (stagesIter (selectionIter pop choose) (Stage.clone :: stages)).next size
    (stagesIter (selectionIter pop choose) (Stage.clone :: stages)).init >>= fun os => pure os.1) m = (.ok out, m') := h
  obtain ⟨⟨os, s'⟩, m1, e1, h⟩ := bind_ok h
  simp only [HM.pure_apply, Prod.mk.injEq, Except.ok.injEq] at h
  obtain ⟨rfl, rfl⟩ := h
  have hinit : pend (stagesIter (selectionIter pop choose) (Stage.clone :: stages)).init = [] := hb.init
  obtain ⟨b1, b2⟩ := hpull_hands _ pend hb size _ m os s' m1 ⟨[], by simp, by simp⟩ (by intro p hp; have := hinit ▸ hp; simp at this) e1
  obtain ⟨p, hp, ht⟩ := b1.get (b2 r hr) (t := (o.phenome, o.problem)) (by simp [tags, ho])
  simp only [tags, List.getElem?_map] at ht
  cases hop : m.inds[p]? with
  | none => rw [hop] at ht; simp at ht
  | some op =>
    rw [hop] at ht
    simp only [Option.map_some, Option.some.injEq, Prod.mk.injEq] at ht
    exact ⟨p, hp, op, hop, ht.1.symm, ht.2.symm⟩

end Leap
