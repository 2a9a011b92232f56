import Mathlib.Data.List.ReduceOption
import Verif.Model.PersistRun
import Verif.Props.EvoRun
import Verif.Props.IslandRun

/-! # C110: runs whose crossover operators keep children -/

namespace Leap
open Spec

variable {γ ψ φ ρ : Type} {n : Nat} {allowed : Nat → γ → Prop} {truth : List γ → φ → Prop} {m0 : Mem γ ψ φ ρ}

/-! ### With operators that keep nobody the model is that of `Model/EvoRun.lean` -/

theorem stagesStart_none : ∀ (stages : List (Stage γ ψ φ ρ)) (up : HIter (Mem γ ψ φ ρ)) (kept : List (Option Nat)), (∀ c ∈ kept, c = none) →
    stagesStart up up.init stages kept = (stagesIter up stages).init := by
  intro stages
  induction stages with
  | nil => intro up kept _; rfl
  | cons st rest ih =>
    intro up kept hk
    have h0 : kept.headD none = none := by
      cases kept with
      | nil => rfl
      | cons c cs => exact hk c (by simp)
    have h1 : stageStart up up.init none st = (st.apply up).init := by cases st <;> rfl
    show stagesStart (st.apply up) (stageStart up up.init (kept.headD none) st) rest kept.tail = _
    rw [h0, h1]
    exact ih _ _ fun c hc => hk c (List.mem_of_mem_tail hc)

theorem keptChildren_none {persist : List Bool} (hp : ∀ p ∈ persist, p = false) (second : List (Option Nat)) : ∀ c ∈ keptChildren persist second, c = none := by
  intro c hc
  obtain ⟨i, hi⟩ := List.mem_iff_getElem?.1 hc
  simp only [keptChildren, List.getElem?_zipWith] at hi
  rcases e1 : persist[i]? with _ | p
  · simp [e1] at hi
  · rcases e2 : second[i]? with _ | d
    · simp [e1, e2] at hi
    · simp only [e1, e2, hp p (List.mem_of_getElem? e1)] at hi
      simpa using hi.symm

/-- With `persist_children=False` everywhere, whatever the operators hold is ignored: the offspring are those of the plain pipeline. -/
theorem persist_off_pipeline (pop : List Nat) (choose : Mem γ ψ φ ρ → PyM Nat × ρ) (stages : List (Stage γ ψ φ ρ)) (persist : List Bool)
    (hp : ∀ p ∈ persist, p = false) (size : Nat) (second : List (Option Nat)) (m : Mem γ ψ φ ρ) :
    (persistPipeline pop choose stages persist size second m).1.map Prod.fst = (runPipeline pop choose stages size m).1 ∧
    (persistPipeline pop choose stages persist size second m).2 = (runPipeline pop choose stages size m).2 := by
  unfold persistPipeline runPipeline
  rw [stagesStart_none stages _ _ (keptChildren_none hp second)]
  simp only [HM.bind_apply]
  rcases e : hpull (stagesIter (Stage.clone.apply (selectionIter pop choose)) stages).next size
    (stagesIter (Stage.clone.apply (selectionIter pop choose)) stages).init m with ⟨r, m1⟩
  have e' : hpull (stagesIter (selectionIter pop choose) (Stage.clone :: stages)).next size
    (stagesIter (selectionIter pop choose) (Stage.clone :: stages)).init m = (r, m1) := e
  rw [e']
  cases r with
  | error err => exact ⟨rfl, rfl⟩
  | ok os => exact ⟨rfl, rfl⟩

/-! ### Who is held back -/

/-- The individuals held back by a chain of operators. -/
def heldByAll : (up : HIter (Mem γ ψ φ ρ)) → (up.σ → List Nat) → (stages : List (Stage γ ψ φ ρ)) → (stagesIter up stages).σ → List Nat
  | _, pend, [] => pend
  | up, pend, st :: rest => heldByAll (st.apply up) (heldBy up pend st) rest

theorem stages_owns_held (h0 : Sound m0) (stages : List (Stage γ ψ φ ρ)) (hst : ∀ st ∈ stages, StageOk n allowed truth st) :
    ∀ (up : HIter (Mem γ ψ φ ρ)) (pend : up.σ → List Nat) (ev : Bool), Owns (GenesIn n allowed) truth m0 up pend ev →
      Owns (GenesIn n allowed) truth m0 (stagesIter up stages) (heldByAll up pend stages) ((stages.getLast?.map evaluates).getD ev) := by
  induction stages with
  | nil => intro up pend ev h; exact h
  | cons st rest ih =>
    intro up pend ev h
    have h2 := ih (fun s hs => hst s (by simp [hs])) _ _ _ (stage_owns h0 up pend ev h st (hst st (by simp)))
    cases rest with
    | nil => exact h2
    | cons a l =>
      rw [List.getLast?_cons_cons]
      obtain ⟨z, hz⟩ : ∃ z, (a :: l).getLast? = some z := ⟨_, List.getLast?_eq_some_getLast (by simp)⟩
      rw [hz] at h2 ⊢
      exact h2

theorem heldBy_left (up : HIter (Mem γ ψ φ ρ)) (pend : up.σ → List Nat) (st : Stage γ ψ φ ρ) (s : (st.apply up).σ) :
    heldBy up pend st s = (stageLeft up st s).1.toList ++ pend (stageLeft up st s).2 := by
  cases st <;> rfl

theorem reduceOption_toList {α : Type} (c : Option α) (l : List (Option α)) : (c :: l).reduceOption = c.toList ++ l.reduceOption := by
  cases c <;> simp [List.reduceOption]

theorem heldByAll_left (stages : List (Stage γ ψ φ ρ)) : ∀ (up : HIter (Mem γ ψ φ ρ)) (pend : up.σ → List Nat) (s : (stagesIter up stages).σ),
    (heldByAll up pend stages s).Perm ((stagesLeft up stages s).1.reduceOption ++ pend (stagesLeft up stages s).2) := by
  induction stages with
  | nil => intro up pend s; exact List.Perm.refl _
  | cons st rest ih =>
    intro up pend s
    refine (ih (st.apply up) (heldBy up pend st) s).trans ?_
    rw [heldBy_left]
    simp only [stagesLeft, reduceOption_toList]
    rw [← List.append_assoc]
    exact List.Perm.append_right _ List.perm_append_comm

theorem stageLeft_start (up : HIter (Mem γ ψ φ ρ)) (s : up.σ) (kept : Option Nat) (st : Stage γ ψ φ ρ) :
    (stageLeft up st (stageStart up s kept st)).2 = s ∧
    ((stageLeft up st (stageStart up s kept st)).1 = kept ∨ (stageLeft up st (stageStart up s kept st)).1 = none) := by
  cases st <;> simp [stageLeft, stageStart]

theorem stagesLeft_start (stages : List (Stage γ ψ φ ρ)) : ∀ (up : HIter (Mem γ ψ φ ρ)) (s : up.σ) (kept : List (Option Nat)),
    (stagesLeft up stages (stagesStart up s stages kept)).2 = s ∧
    (stagesLeft up stages (stagesStart up s stages kept)).1.reduceOption.Sublist kept.reduceOption := by
  induction stages with
  | nil => intro up s kept; exact ⟨rfl, List.nil_sublist _⟩
  | cons st rest ih =>
    intro up s kept
    obtain ⟨h1, h2⟩ := ih (st.apply up) (stageStart up s (kept.headD none) st) kept.tail
    obtain ⟨h3, h4⟩ := stageLeft_start up s (kept.headD none) st
    simp only [stagesLeft, stagesStart, h1, h3, reduceOption_toList, true_and]
    cases kept with
    | nil =>
      rcases h4 with h4 | h4 <;> (rw [h4]; simpa using h2)
    | cons c cs =>
      rw [reduceOption_toList]
      rcases h4 with h4 | h4
      · rw [h4]; exact h2.append_left _
      · rw [h4]; exact h2.trans (List.sublist_append_right _ _)

theorem keptChildren_sublist : ∀ (persist : List Bool) (second : List (Option Nat)), (keptChildren persist second).reduceOption.Sublist second.reduceOption
  | [], _ => List.nil_sublist _
  | _ :: _, [] => by simp [keptChildren]
  | p :: ps, c :: cs => by
    have ih := keptChildren_sublist ps cs
    show List.Sublist ((if p then c else none) :: keptChildren ps cs).reduceOption _
    rw [reduceOption_toList, reduceOption_toList]
    cases p
    · exact ih.trans (List.sublist_append_right _ _)
    · exact ih.append_left _

/-! ### One use of the pipeline -/

/-- Selecting and cloning members of a population that is partly older than `m0` and partly new. -/
theorem clone_mixed_owns (h0 : Sound m0) (pop : List Nat) (hpop : ∀ r ∈ pop, GoodInd (GenesIn n allowed) truth m0 r ∨ m0.inds.length ≤ r)
    (choose : Mem γ ψ φ ρ → PyM Nat × ρ) :
    Owns (GenesIn n allowed) truth m0 (Stage.clone.apply (selectionIter pop choose)) (fun _ => []) false := by
  refine ⟨rfl, ?_⟩
  intro s m r s' m' hm hp hn hx
  obtain ⟨⟨r1, s1⟩, m1, e1, hx⟩ := bind_ok (pep_ok hx)
  obtain ⟨c, m2, e2, hx⟩ := bind_ok hx
  simp only [HM.pure_apply, Prod.mk.injEq, Except.ok.injEq] at hx
  obtain ⟨⟨rfl, rfl⟩, rfl⟩ := hx
  have hsel : r1 ∈ pop ∧ ∃ q, m1 = { m with rng := q } := by
    simp only [selectionIter] at e1
    rcases hc : choose m with ⟨x, q⟩
    rw [hc] at e1
    cases x with
    | error e => simp at e1
    | ok i =>
      cases hpi : pop[i]? with
      | none => simp [hpi] at e1
      | some y =>
        simp only [hpi, Prod.mk.injEq, Except.ok.injEq] at e1
        exact ⟨(Prod.mk.inj e1.1).1 ▸ List.mem_of_getElem? hpi, q, e1.2.symm⟩
  obtain ⟨hr1, q, rfl⟩ := hsel
  have hf1 : Full (GenesIn n allowed) truth m0 { m with rng := q } :=
    ⟨fresh_rng hm.1 _, fun x h1 h2 => goodInd_rng _ (hm.2 x h1 h2)⟩
  have hlt : r1 < m.inds.length := by
    by_contra hlt
    simp [cloneInd, HM.bind_apply, getObj, List.getElem?_eq_none (Nat.le_of_not_lt hlt)] at e2
  have hgood : GoodInd (GenesIn n allowed) truth { m with rng := q } r1 := by
    rcases hpop r1 hr1 with hg | hnew
    · obtain ⟨g, fo, hg', -⟩ := id hg
      obtain ⟨-, -, -, hlt0⟩ := genes_lt hg'
      exact goodInd_same (unchanged_same h0 hf1.1.unchanged hlt0) hg
    · exact hf1.2 r1 hnew hlt
  obtain ⟨rfl, hl, hfull, hs⟩ := cloneInd_good hf1 hgood e2
  refine ⟨⟨hfull, by rw [hl]; simp, fun x hx _ => sameInd_trans ⟨rfl, rfl⟩ (hs x hx), Or.inr (Nat.le_refl _), hm.1.inds,
    by rw [hl]; simp, by simp, by simp, by simp⟩, by simp⟩

/-- What a generator yields is distinct and no longer held back. -/
theorem hpull_distinct (it : HIter (Mem γ ψ φ ρ)) (pend : it.σ → List Nat) (ev : Bool) (h : Owns (GenesIn n allowed) truth m0 it pend ev)
    (k : Nat) : ∀ (s : it.σ) (m : Mem γ ψ φ ρ) (out : List Nat) (s' : it.σ) (m' : Mem γ ψ φ ρ), Full (GenesIn n allowed) truth m0 m →
      (∀ p ∈ pend s, m0.inds.length ≤ p ∧ p < m.inds.length) → (pend s).Nodup → hpull it.next k s m = (.ok (out, s'), m') →
      out.length = k ∧ out.Nodup ∧ (pend s').Nodup ∧ (∀ r ∈ out, (r ∈ pend s ∨ m.inds.length ≤ r) ∧ r ∉ pend s') ∧
      ∀ q ∈ pend s', (q ∈ pend s ∨ m.inds.length ≤ q) ∧ q < m'.inds.length := by
  induction k with
  | zero =>
    intro s m out s' m' hm hp hn hx
    simp only [hpull, HM.pure_apply, Prod.mk.injEq, Except.ok.injEq] at hx
    obtain ⟨⟨rfl, rfl⟩, rfl⟩ := hx
    exact ⟨rfl, List.nodup_nil, hn, by simp, fun q hq => ⟨Or.inl hq, (hp q hq).2⟩⟩
  | succ k ih =>
    intro s m out s' m' hm hp hn hx
    obtain ⟨⟨r, s1⟩, m1, e1, hx⟩ := bind_ok hx
    obtain ⟨⟨rs, s2⟩, m2, e2, hx⟩ := bind_ok hx
    simp only [HM.pure_apply, Prod.mk.injEq, Except.ok.injEq] at hx
    obtain ⟨⟨rfl, rfl⟩, rfl⟩ := hx
    obtain ⟨o, -⟩ := h.step s m r s1 m1 hm hp hn e1
    have hp1 : ∀ p ∈ pend s1, m0.inds.length ≤ p ∧ p < m1.inds.length := fun p hp' => ⟨by
      rcases (o.held p hp').1 with h | h
      · exact (hp p h).1
      · exact Nat.le_trans hm.1.inds h, (o.held p hp').2⟩
    obtain ⟨g1, g2, g3, g4, g5⟩ := ih s1 m1 rs s2 m2 o.full hp1 o.nodup e2
    have back : ∀ q, (q ∈ pend s1 ∨ m1.inds.length ≤ q) → (q ∈ pend s ∨ m.inds.length ≤ q) ∧ q ≠ r := by
      intro q hq
      rcases hq with hq | hq
      · exact ⟨(o.held q hq).1, fun e => o.gone (e ▸ hq)⟩
      · exact ⟨Or.inr (Nat.le_trans o.grows hq), fun e => by have := o.there; omega⟩
    refine ⟨by simp [g1], List.nodup_cons.2 ⟨fun hr => (back r (g4 r hr).1).2 rfl, g2⟩, g3, fun x hx => ?_, fun q hq => ⟨(back q (g5 q hq).1).1, (g5 q hq).2⟩⟩
    rcases List.mem_cons.1 hx with rfl | hx
    · exact ⟨o.owned, fun hx' => (back x (g5 x hx').1).2 rfl⟩
    · exact ⟨(back x (g4 x hx).1).1, (g4 x hx).2⟩

/-- **C110**, one use of the pipeline. The operators hold children that are not members of the population. Then the offspring are different individuals, each kept since an
earlier use or made in this one; nobody but the kept children has changed; everybody is acceptable with a true fitness or none; and what the operators hold
afterwards is again different from the offspring and from everybody else who was there. -/
theorem persist_pipeline (h0 : Sound m0) (m m' : Mem γ ψ φ ρ) (pop : List Nat) (hpop : ∀ r ∈ pop, GoodInd (GenesIn n allowed) truth m0 r ∨ m0.inds.length ≤ r)
    (choose : Mem γ ψ φ ρ → PyM Nat × ρ) (stages : List (Stage γ ψ φ ρ)) (hst : ∀ st ∈ stages, StageOk n allowed truth st) (persist : List Bool) (size : Nat)
    (second second' : List (Option Nat)) (hfull : Full (GenesIn n allowed) truth m0 m)
    (hsec : ∀ c ∈ second.reduceOption, m0.inds.length ≤ c ∧ c < m.inds.length) (hnd : second.reduceOption.Nodup) (out : List Nat)
    (h : persistPipeline pop choose stages persist size second m = (.ok (out, second'), m')) :
    Full (GenesIn n allowed) truth m0 m' ∧ m.inds.length ≤ m'.inds.length ∧ out.length = size ∧ out.Nodup ∧ second'.reduceOption.Nodup ∧
    (∀ x < m.inds.length, x ∉ second.reduceOption → SameInd m m' x) ∧
    (∀ r ∈ out, (r ∈ second.reduceOption ∨ m.inds.length ≤ r) ∧ m0.inds.length ≤ r ∧ r < m'.inds.length ∧ r ∉ second'.reduceOption ∧
      (endsEvaluated stages = true → HasFitness m' r)) ∧
    (∀ c ∈ second'.reduceOption, (c ∈ second.reduceOption ∨ m.inds.length ≤ c) ∧ m0.inds.length ≤ c ∧ c < m'.inds.length) := by
  have how := stages_owns_held h0 stages hst _ _ _ (clone_mixed_owns h0 pop hpop choose)
  obtain ⟨⟨os, s'⟩, m1, e1, h⟩ := bind_ok h
  simp only [HM.pure_apply, Prod.mk.injEq, Except.ok.injEq] at h
  obtain ⟨⟨rfl, rfl⟩, rfl⟩ := h
  have hperm := fun s => heldByAll_left stages (Stage.clone.apply (selectionIter pop choose)) (fun _ => []) s
  simp only [List.append_nil] at hperm
  have hsub := (stagesLeft_start stages (Stage.clone.apply (selectionIter pop choose)) (Stage.clone.apply (selectionIter pop choose)).init
    (keptChildren persist second)).2.trans (keptChildren_sublist persist second)
  have hin : ∀ c ∈ heldByAll (Stage.clone.apply (selectionIter pop choose)) (fun _ => []) stages
      (stagesStart _ (Stage.clone.apply (selectionIter pop choose)).init stages (keptChildren persist second)), c ∈ second.reduceOption :=
    fun c hc => hsub.subset ((hperm _).subset hc)
  have hn1 := ((hperm (stagesStart _ (Stage.clone.apply (selectionIter pop choose)).init stages (keptChildren persist second))).nodup_iff).2 (hsub.nodup hnd)
  obtain ⟨g1, g2, g3, g4⟩ := hpull_owns _ _ _ how size _ m _ _ _ hfull (fun p hp => hsec p (hin p hp)) hn1 e1
  obtain ⟨d1, d2, d3, d4, d5⟩ := hpull_distinct _ _ _ how size _ m _ _ _ hfull (fun p hp => hsec p (hin p hp)) hn1 e1
  have hout : ∀ q, q ∈ (stagesLeft (Stage.clone.apply (selectionIter pop choose)) stages s').1.reduceOption ↔
      q ∈ heldByAll (Stage.clone.apply (selectionIter pop choose)) (fun _ => []) stages s' := fun q => (hperm s').mem_iff.symm
  refine ⟨g1, g2, d1, d2, (hperm s').nodup_iff.1 d3, fun x hx hnx => g3 x hx fun hx' => hnx (hin x hx'), fun r hr => ?_, fun c hc => ?_⟩
  · obtain ⟨a1, a2, a3⟩ := g4 r hr
    refine ⟨(d4 r hr).1.imp (hin r) id, a1, a2, fun hr' => (d4 r hr).2 ((hout r).1 hr'), fun he => a3 ?_⟩
    exact he
  · have := d5 c ((hout c).1 hc)
    refine ⟨this.1.imp (hin c) id, ?_, this.2⟩
    rcases this.1 with hc' | hc'
    · exact (hsec c (hin c hc')).1
    · exact Nat.le_trans hfull.1.inds hc'

/-! ### Whole runs -/

theorem persist_loop_members (h0 : Sound m0) (cfg : EvoConfig γ ψ φ ρ) (persist : List Bool) (hst : ∀ st ∈ cfg.stages, StageOk n allowed truth st)
    (hev : endsEvaluated cfg.stages = true) (fuel : Nat) : ∀ (g : Int) (parents : List Nat) (second second' : List (Option Nat)) (m m' : Mem γ ψ φ ρ) (out : List Nat),
      Full (GenesIn n allowed) truth m0 m → parents.Nodup → (∀ r ∈ parents, GoodInd (GenesIn n allowed) truth m0 r ∨ m0.inds.length ≤ r) →
      (∀ r ∈ parents, Member n allowed truth m r) → (∀ c ∈ second.reduceOption, m0.inds.length ≤ c ∧ c < m.inds.length ∧ c ∉ parents) →
      second.reduceOption.Nodup → persistLoop cfg persist fuel g parents second m = (.ok (out, second'), m') →
      Full (GenesIn n allowed) truth m0 m' ∧ m.inds.length ≤ m'.inds.length ∧ out.Nodup ∧ (out = parents ∨ out.length = cfg.size) ∧
      (∀ x < m.inds.length, x ∉ second.reduceOption → SameInd m m' x) ∧
      (∀ r ∈ out, Member n allowed truth m' r ∧ (r ∈ parents ∨ r ∈ second.reduceOption ∨ m.inds.length ≤ r)) ∧
      (second'.reduceOption.Nodup ∧ ∀ c ∈ second'.reduceOption, (c ∈ second.reduceOption ∨ m.inds.length ≤ c) ∧ c < m'.inds.length ∧ c ∉ out) ∧
      (StrictWeak cfg.worse → 1 ≤ cfg.kElites → 1 ≤ cfg.size → ∀ x ∈ parents, ∃ b ∈ out, cfg.lt m' b x = false) := by
  have stay : ∀ (parents : List Nat) (second : List (Option Nat)) (m : Mem γ ψ φ ρ), Full (GenesIn n allowed) truth m0 m → parents.Nodup →
      (∀ r ∈ parents, Member n allowed truth m r) → (∀ c ∈ second.reduceOption, m0.inds.length ≤ c ∧ c < m.inds.length ∧ c ∉ parents) →
      second.reduceOption.Nodup →
      Full (GenesIn n allowed) truth m0 m ∧ m.inds.length ≤ m.inds.length ∧ parents.Nodup ∧ (parents = parents ∨ parents.length = cfg.size) ∧
      (∀ x < m.inds.length, x ∉ second.reduceOption → SameInd m m x) ∧
      (∀ r ∈ parents, Member n allowed truth m r ∧ (r ∈ parents ∨ r ∈ second.reduceOption ∨ m.inds.length ≤ r)) ∧
      (second.reduceOption.Nodup ∧ ∀ c ∈ second.reduceOption, (c ∈ second.reduceOption ∨ m.inds.length ≤ c) ∧ c < m.inds.length ∧ c ∉ parents) ∧
      (StrictWeak cfg.worse → 1 ≤ cfg.kElites → 1 ≤ cfg.size → ∀ x ∈ parents, ∃ b ∈ parents, cfg.lt m b x = false) := by
    intro parents second m hf hnd hp hs hsn
    refine ⟨hf, Nat.le_refl _, hnd, Or.inl rfl, fun x _ _ => sameInd_refl _ _, fun r hr => ⟨hp r hr, Or.inl hr⟩,
      ⟨hsn, fun c hc => ⟨Or.inl hc, (hs c hc).2⟩⟩, fun hw _ _ x hx => ⟨x, hx, ?_⟩⟩
    have hw := evo_lt_strictWeak cfg hw m
    cases e : cfg.lt m x x with
    | false => rfl
    | true => exact absurd (hw.asymm _ _ e) (by simp [e])
  induction fuel with
  | zero =>
    intro g parents second second' m m' out hf hnd hpn hp hs hsn h
    simp only [persistLoop, HM.pure_apply, Prod.mk.injEq, Except.ok.injEq] at h
    obtain ⟨⟨rfl, rfl⟩, rfl⟩ := h
    exact stay _ _ _ hf hnd hp hs hsn
  | succ fuel ih =>
    intro g parents second second' m m' out hf hnd hpn hp hs hsn h
    unfold persistLoop at h
    split at h
    · simp only [Prod.mk.injEq, Except.ok.injEq] at h
      obtain ⟨⟨rfl, rfl⟩, rfl⟩ := h
      exact stay _ _ _ hf hnd hp hs hsn
    · rcases e : persistPipeline parents (cfg.choose g parents) cfg.stages persist cfg.size second m with ⟨x, m1⟩
      rw [e] at h
      rcases x with err | ⟨off, sec1⟩
      · simp at h
      · simp only at h
        obtain ⟨f1, l1, n1, nd1, sn1, fr1, q1, c1⟩ := persist_pipeline h0 m m1 parents hpn _ cfg.stages hst persist cfg.size second sec1 hf
          (fun c hc => ⟨(hs c hc).1, (hs c hc).2.1⟩) hsn off e
        have hlt : ∀ r ∈ parents, r < m.inds.length := by
          intro r hr
          obtain ⟨g, f, hg, -⟩ := hp r hr
          obtain ⟨-, -, -, h⟩ := genes_lt hg
          exact h
        have hps : ∀ r ∈ parents, r ∉ second.reduceOption := fun r hr hc => (hs r hc).2.2 hr
        have hmem : ∀ r ∈ off ++ parents, Member n allowed truth m1 r := by
          intro r hr
          rcases List.mem_append.1 hr with hr | hr
          · obtain ⟨-, a0, a1, -, a2⟩ := q1 r hr
            exact (member_iff m1 r).2 ⟨f1.2 r a0 a1, a2 hev⟩
          · exact member_same (fr1 r (hlt r hr) (hps r hr)) (hp r hr)
        have hsub : ∀ r ∈ (elitistSurvival (cfg.lt m1) off parents cfg.kElites).1, r ∈ off ++ parents := by
          intro r hr
          have := topk_mem hr
          rcases List.mem_append.1 this with h | h
          · exact List.mem_append.2 (Or.inl h)
          · exact List.mem_append.2 (Or.inr (topk_mem h))
        have hnd2 : (elitistSurvival (cfg.lt m1) off parents cfg.kElites).1.Nodup := by
          refine nodup_of_subperm (topk_subperm _ _ _) ?_
          rw [List.nodup_append]
          refine ⟨nd1, nodup_of_subperm (topk_subperm _ _ _) hnd, ?_⟩
          rintro a ha b hb rfl
          have hb' := topk_mem hb
          rcases (q1 a ha).1 with h1 | h1
          · exact hps a hb' h1
          · have := hlt a hb'; omega
        have hlen : (elitistSurvival (cfg.lt m1) off parents cfg.kElites).1.length = cfg.size := by
          simp [elitistSurvival, topk_length, n1]
        have hsec2 : ∀ c ∈ sec1.reduceOption, m0.inds.length ≤ c ∧ c < m1.inds.length ∧ c ∉ (elitistSurvival (cfg.lt m1) off parents cfg.kElites).1 := by
          intro c hc
          obtain ⟨a1, a2, a3⟩ := c1 c hc
          refine ⟨a2, a3, fun hc' => ?_⟩
          rcases List.mem_append.1 (hsub c hc') with h | h
          · exact (q1 c h).2.2.2.1 hc
          · rcases a1 with a1 | a1
            · exact hps c h a1
            · have := hlt c h; omega
        obtain ⟨f2, l2, nd2, n2, fr2, q2, ⟨sn2, c2⟩, b2⟩ := ih (g + 1) _ sec1 second' m1 m' out f1 hnd2
          (fun r hr => by
            rcases List.mem_append.1 (hsub r hr) with h | h
            · exact Or.inr (q1 r h).2.1
            · exact hpn r h) (fun r hr => hmem r (hsub r hr)) hsec2 sn1 h
        have hback : ∀ x < m.inds.length, x ∉ second.reduceOption → x ∉ sec1.reduceOption := by
          intro x hx hn hc
          rcases (c1 x hc).1 with h | h
          · exact hn h
          · omega
        refine ⟨f2, Nat.le_trans l1 l2, nd2, Or.inr ?_, fun x hx hn => sameInd_trans (fr1 x hx hn) (fr2 x (Nat.lt_of_lt_of_le hx l1) (hback x hx hn)),
          fun r hr => ⟨(q2 r hr).1, ?_⟩, ⟨sn2, fun c hc => ⟨?_, (c2 c hc).2⟩⟩, ?_⟩
        · rcases n2 with rfl | n2
          · exact hlen
          · exact n2
        · rcases (q2 r hr).2 with h | h | h
          · rcases List.mem_append.1 (hsub r h) with h | h
            · exact Or.inr (q1 r h).1
            · exact Or.inl h
          · exact Or.inr (c1 r h).1
          · exact Or.inr (Or.inr (Nat.le_trans l1 h))
        · rcases (c2 c hc).1 with h | h
          · exact (c1 c h).1
          · exact Or.inr (Nat.le_trans l1 h)
        · intro hw hk hs' x hx
          have hne : off ≠ [] := by rintro rfl; simp at n1; omega
          obtain ⟨b, hb, hbest⟩ := elitist_never_loses_best (cfg.lt m1) (evo_lt_strictWeak cfg hw m1) off parents cfg.kElites hk hne
          have hb' : b ∈ (elitistSurvival (cfg.lt m1) off parents cfg.kElites).1 := List.mem_of_mem_head? hb
          obtain ⟨d, hd, hdb⟩ := b2 hw hk hs' b hb'
          refine ⟨d, hd, ?_⟩
          have hb1 : b < m1.inds.length := by
            obtain ⟨g, f, hg, -⟩ := hmem b (hsub b hb')
            obtain ⟨-, -, -, h⟩ := genes_lt hg
            exact h
          have hbn : b ∉ sec1.reduceOption := fun hc => (hsec2 b hc).2.2 hb'
          have hbx : cfg.lt m' b x = false := by
            rw [evo_lt_same cfg (fr2 b hb1 hbn).1 (fr2 x (Nat.lt_of_lt_of_le (hlt x hx) l1) (hback x (hlt x hx) (hps x hx))).1]
            exact hbest x (by simp [hx])
          exact (evo_lt_strictWeak cfg hw m').negTrans _ _ _ hdb hbx

/-- **C110**: what C86 says of a run of `generational_ea` holds with crossover operators that keep children as well, when they are new at the start of the run: the
population returned consists of different individuals made in the run, each acceptable and with the score of its own genome, nothing older has changed, and the
best is not lost. The children still in the operators are none of those returned. -/
theorem persist_run_members (cfg : EvoConfig γ ψ φ ρ) (persist : List Bool) (initGenome : ρ → PyM (List γ) × ρ) (dec : Dec γ ψ) (prob : Prob γ ψ φ ρ)
    (hinit : ∀ s g s', initGenome s = (.ok g, s') → GenesIn n allowed g)
    (hst : ∀ st ∈ cfg.stages, StageOk n allowed (ScoredBy dec prob) st) (hev : endsEvaluated cfg.stages = true)
    (problem popSize : Nat) (startGeneration maxGenerations : Int) (m m' : Mem γ ψ φ ρ) (hm : Sound m) (out : List Nat) (second' : List (Option Nat))
    (h : persistRun cfg persist [] initGenome dec prob problem popSize startGeneration maxGenerations m = (.ok (out, second'), m')) :
    Unchanged m m' ∧ out.Nodup ∧ (out.length = popSize ∨ out.length = cfg.size) ∧
    (∀ r ∈ out, m.inds.length ≤ r ∧ Member n allowed (ScoredBy dec prob) m' r) ∧
    (second'.reduceOption.Nodup ∧ ∀ c ∈ second'.reduceOption, m.inds.length ≤ c ∧ c < m'.inds.length ∧ c ∉ out) ∧
    (StrictWeak cfg.worse → 1 ≤ cfg.kElites → 1 ≤ cfg.size →
      ∀ x, m.inds.length ≤ x → x < m.inds.length + popSize → Member n allowed (ScoredBy dec prob) m' x ∧
        ∃ b ∈ out, cfg.lt m' b x = false) := by
  obtain ⟨parents, m1, e1, h⟩ := bind_ok h
  obtain ⟨_, m2, e2, h⟩ := bind_ok h
  rcases drawn_or_raises initGenome popSize m.rng with ⟨gs, s', hd⟩ | ⟨j, gs, s1, e, s2, h1, h2, h3⟩
  swap
  · have := create_population_raises initGenome problem popSize j m gs s1 s2 e h1 h2 h3
    rw [e1] at this
    cases this
  have heff := create_population_effect initGenome problem popSize m gs s' hd
  obtain ⟨out', m1', e1', -, -, u1, s1, q1⟩ := create_population_spec initGenome problem popSize m hm gs s' hd
  have hp : parents = List.range' m.inds.length popSize := by rw [e1] at heff; cases heff; rfl
  rw [e1] at e1'
  simp only [Prod.mk.injEq, Except.ok.injEq] at e1'
  obtain ⟨rfl, rfl⟩ := e1'
  have hgood : ∀ r ∈ parents, GoodInd (GenesIn n allowed) (ScoredBy dec prob) m1 r := by
    intro r hr
    obtain ⟨i, hi⟩ := List.mem_iff_getElem?.1 hr
    obtain ⟨-, a2, -, o, a3, a4, -⟩ := q1 i r hi
    have hil : i < gs.length := by
      have := (List.getElem?_eq_some_iff.1 hi).1
      rw [hd.length]; rw [hp] at this; simpa using this
    rw [List.getElem?_eq_getElem hil] at a2
    exact ⟨gs[i], none, a2, by simp [fitness, a3, a4], drawn_all hinit hd _ (List.getElem_mem hil), by simp⟩
  obtain ⟨s2, sm2, a2, b2, n2, k2, -, p2⟩ := evaluatePopulation_members dec prob (fun g c s f _ hc hf => ⟨c, s, hc, hf⟩) parents m1 m2 s1 hgood e2
  have hmem : ∀ r ∈ parents, Member n allowed (ScoredBy dec prob) m2 r := fun r hr => (member_iff m2 r).2 ⟨k2 r (hgood r hr), p2 r hr⟩
  have hnd : parents.Nodup := by rw [hp]; exact List.nodup_range'
  obtain ⟨l1, l2, l3⟩ := unchanged_length u1
  have u2 : Unchanged m m2 := by
    refine ⟨fun r hr => ?_, fun a ha => by rw [a2]; exact u1.arrays a ha, fun a ha => by rw [b2]; exact u1.sets a ha⟩
    rw [(sm2 r (by rw [hp]; simp; omega)).1]
    exact u1.inds r hr
  obtain ⟨f3, l3', nd3, len3, fr3, q3, ⟨sn3, c3⟩, best3⟩ := persist_loop_members (m0 := m2) s2 cfg persist hst hev _ _ parents [] second' m2 m' out
    ⟨.refl m2 s2, fun r h1 h2 => by omega⟩ hnd (fun r hr => Or.inl ((member_iff m2 r).1 (hmem r hr)).1) hmem (fun c hc => by cases hc) List.nodup_nil h
  have u : Unchanged m m' := unchanged_trans u2 f3.1.unchanged (by omega) (by rw [a2]; omega) (by rw [b2]; omega)
  refine ⟨u, nd3, ?_, fun r hr => ⟨?_, (q3 r hr).1⟩, ⟨sn3, fun c hc => ?_⟩, fun hw hk hs x hx1 hx2 => ?_⟩
  · rcases len3 with rfl | len3
    · left; rw [hp]; simp
    · exact Or.inr len3
  · rcases (q3 r hr).2 with h | h | h
    · rw [hp] at h; simp at h; omega
    · cases h
    · omega
  · obtain ⟨a, b, c'⟩ := c3 c hc
    refine ⟨?_, b, c'⟩
    rcases a with a | a
    · cases a
    · omega
  · have hx : x ∈ parents := by rw [hp]; simp; omega
    refine ⟨?_, best3 hw hk hs x hx⟩
    obtain ⟨g, f, hg, -⟩ := hmem x hx
    obtain ⟨-, -, -, hlt⟩ := genes_lt hg
    exact member_same (fr3 x hlt (fun hc => by cases hc)) (hmem x hx)

/-! ### How many individuals are made -/

/-- Whenever `x` returns, there are `k` more individuals. -/
def Adds {α : Type} (k : Nat) (x : HM (Mem γ ψ φ ρ) α) : Prop := ∀ m a m', x m = (.ok a, m') → m'.inds.length = m.inds.length + k

theorem adds_bind {α β : Type} {j k : Nat} {x : HM (Mem γ ψ φ ρ) α} {f : α → HM (Mem γ ψ φ ρ) β} (hx : Adds j x) (hf : ∀ a, Adds k (f a)) :
    Adds (j + k) (x >>= f) := by
  intro m b m' h
  obtain ⟨a, m1, e1, e2⟩ := bind_ok h
  rw [hf a m1 b m' e2, hx m a m1 e1, Nat.add_assoc]

theorem adds_bind0 {α β : Type} {k : Nat} {x : HM (Mem γ ψ φ ρ) α} {f : α → HM (Mem γ ψ φ ρ) β} (hx : Adds 0 x) (hf : ∀ a, Adds k (f a)) :
    Adds k (x >>= f) := by
  have := adds_bind hx hf
  rwa [Nat.zero_add] at this

theorem adds_pure {α : Type} (a : α) : Adds 0 (pure a : HM (Mem γ ψ φ ρ) α) := by
  intro m b m' h
  simp only [HM.pure_apply, Prod.mk.injEq] at h
  rw [← h.2, Nat.add_zero]

theorem adds_lift {α : Type} (x : PyM α) : Adds 0 (HM.lift x : HM (Mem γ ψ φ ρ) α) := by
  intro m b m' h
  simp only [HM.lift, Prod.mk.injEq] at h
  rw [← h.2, Nat.add_zero]

theorem adds_pep {α : Type} {k : Nat} {x : HM (Mem γ ψ φ ρ) α} (hx : Adds k x) : Adds k (HM.pep479 x) := fun m a m' h => hx m a m' (pep_ok h)

theorem adds_getObj (r : Nat) : Adds 0 (getObj r : HM (Mem γ ψ φ ρ) _) := by
  intro m a m' h
  simp only [getObj] at h
  split at h <;> simp_all

theorem adds_getArr (r : Nat) : Adds 0 (getArr r : HM (Mem γ ψ φ ρ) _) := by
  intro m a m' h
  simp only [getArr] at h
  split at h <;> simp_all

theorem adds_getSet (r : Nat) : Adds 0 (getSet r : HM (Mem γ ψ φ ρ) _) := by
  intro m a m' h
  simp only [getSet] at h
  split at h <;> simp_all

theorem adds_modObj (r : Nat) (f : Obj ψ φ → Obj ψ φ) : Adds 0 (modObj r f : HM (Mem γ ψ φ ρ) _) := by
  intro m a m' h
  simp only [modObj, Prod.mk.injEq] at h
  rw [← h.2]; simp

theorem adds_newObj (o : Obj ψ φ) : Adds 1 (newObj o : HM (Mem γ ψ φ ρ) _) := by
  intro m a m' h
  simp only [newObj, Prod.mk.injEq] at h
  rw [← h.2]; simp

theorem adds_newArr (g : List γ) : Adds 0 (newArr g : HM (Mem γ ψ φ ρ) _) := by
  intro m a m' h
  simp only [newArr, Prod.mk.injEq] at h
  rw [← h.2]; simp

theorem adds_setArr (a : Nat) (g : List γ) : Adds 0 (setArr a g : HM (Mem γ ψ φ ρ) _) := by
  intro m a m' h
  simp only [setArr, Prod.mk.injEq] at h
  rw [← h.2]; simp

theorem adds_newSet (g : List Nat) : Adds 0 (newSet g : HM (Mem γ ψ φ ρ) _) := by
  intro m a m' h
  simp only [newSet, Prod.mk.injEq] at h
  rw [← h.2]; simp

theorem adds_setSet (a : Nat) (g : List Nat) : Adds 0 (setSet a g : HM (Mem γ ψ φ ρ) _) := by
  intro m a m' h
  simp only [setSet, Prod.mk.injEq] at h
  rw [← h.2]; simp

theorem adds_freshUuid : Adds 0 (freshUuid : HM (Mem γ ψ φ ρ) _) := by
  intro m a m' h
  simp only [freshUuid, Prod.mk.injEq] at h
  rw [← h.2]; simp

theorem adds_useRng {α : Type} (f : ρ → PyM α × ρ) : Adds 0 (useRng f : HM (Mem γ ψ φ ρ) α) := by
  intro m a m' h
  simp only [useRng, Prod.mk.injEq] at h
  rw [← h.2]; simp

theorem adds_cloneInd (r : Nat) : Adds 1 (cloneInd r : HM (Mem γ ψ φ ρ) _) :=
  adds_bind0 (adds_getObj r) fun o => adds_bind (k := 0) (adds_newObj o) fun c => adds_bind0 (adds_getArr _) fun g => adds_bind0 (adds_newArr g) fun a =>
    adds_bind0 (adds_modObj c _) fun _ => adds_bind0 (adds_modObj c _) fun _ => adds_bind0 adds_freshUuid fun u => adds_bind0 (adds_modObj c _) fun _ =>
    adds_bind0 (adds_newSet _) fun s => adds_bind0 (adds_modObj c _) fun _ => adds_pure c

theorem adds_mutateInd (f : MutFn γ ρ) (r : Nat) : Adds 0 (mutateInd f r : HM (Mem γ ψ φ ρ) _) := by
  refine adds_bind0 (adds_getObj r) fun o => adds_bind0 (adds_getArr _) fun g => adds_bind0 (adds_useRng _) fun res => adds_bind0 (adds_setArr _ _) fun _ =>
    adds_bind0 (adds_lift _) fun new => ?_
  cases new with
  | none => exact adds_modObj _ _
  | some g' => exact adds_bind0 (adds_newArr _) fun a => adds_bind0 (adds_modObj _ _) fun _ => adds_modObj _ _

theorem adds_recombineInds (rec : Recombiner ρ) (ra rb : Nat) : Adds 0 (recombineInds rec ra rb : HM (Mem γ ψ φ ρ) _) := by
  refine adds_bind0 (adds_getObj _) fun oa => adds_bind0 (adds_getObj _) fun ob => adds_bind0 (adds_getArr _) fun a => adds_bind0 (adds_getArr _) fun b => ?_
  cases rec with
  | uniform mask =>
    exact adds_bind0 (adds_useRng _) fun mk => adds_bind0 (adds_lift _) fun _ => adds_bind0 (adds_lift _) fun _ => adds_bind0 (adds_lift _) fun _ =>
      adds_bind0 (adds_setArr _ _) fun _ => adds_bind0 (adds_getArr _) fun _ => adds_bind0 (adds_lift _) fun _ => adds_setArr _ _
  | nary k cuts =>
    exact adds_bind0 (adds_useRng _) fun xs => adds_bind0 (adds_lift _) fun g => adds_bind0 (adds_newArr _) fun a1 => adds_bind0 (adds_modObj _ _) fun _ =>
      adds_bind0 (adds_newArr _) fun a2 => adds_modObj _ _

theorem adds_crossInds (rec : Recombiner ρ) (ra rb : Nat) : Adds 0 (crossInds rec ra rb : HM (Mem γ ψ φ ρ) _) :=
  adds_bind0 (adds_recombineInds rec ra rb) fun _ => adds_bind0 (adds_getObj _) fun _ => adds_bind0 (adds_getObj _) fun _ => adds_bind0 (adds_getSet _) fun _ =>
    adds_bind0 (adds_getSet _) fun _ => adds_bind0 (adds_setSet _ _) fun _ => adds_bind0 (adds_getSet _) fun _ => adds_bind0 (adds_getSet _) fun _ =>
    adds_bind0 (adds_setSet _ _) fun _ => adds_bind0 (adds_modObj _ _) fun _ => adds_modObj _ _

theorem adds_decodeInd (dec : Dec γ ψ) (r : Nat) : Adds 0 (decodeInd dec r : HM (Mem γ ψ φ ρ) _) := by
  refine adds_bind0 (adds_getObj r) fun o => ?_
  cases dec with
  | identity => exact adds_bind0 (adds_modObj _ _) fun _ => adds_pure _
  | fn f => exact adds_bind0 (adds_getArr _) fun g => adds_bind0 (adds_lift _) fun v => adds_bind0 (adds_modObj _ _) fun _ => adds_pure _

theorem adds_evaluateInd (dec : Dec γ ψ) (prob : Prob γ ψ φ ρ) (r : Nat) : Adds 0 (evaluateInd dec prob r : HM (Mem γ ψ φ ρ) _) := by
  refine adds_bind0 (adds_bind0 (adds_decodeInd dec r) fun _ => adds_bind0 (adds_bind0 (adds_getObj r) fun o => ?_) fun p => adds_bind0 ?_ fun c => adds_useRng _)
    fun f => adds_bind0 (adds_modObj _ _) fun _ => adds_pure _
  · cases o.phenome with
    | none => exact adds_decodeInd dec r
    | some p => exact adds_pure p
  · rcases p with a | v
    · exact adds_bind0 (adds_getArr a) fun g => adds_pure _
    · exact adds_pure _

theorem still_bind {α β : Type} {x : HM (Mem γ ψ φ ρ) α} {f : α → HM (Mem γ ψ φ ρ) β} (hx : ∀ m, (x m).2.inds.length = m.inds.length)
    (hf : ∀ a m, (f a m).2.inds.length = m.inds.length) (m : Mem γ ψ φ ρ) : ((x >>= f) m).2.inds.length = m.inds.length := by
  have h := hx m
  rw [HM.bind_apply]
  rcases e : x m with ⟨r, m1⟩
  rw [e] at h
  cases r with
  | error e => exact h
  | ok a => exact (hf a m1).trans h

theorem still_getObj (r : Nat) (m : Mem γ ψ φ ρ) : (getObj r m).2.inds.length = m.inds.length := by
  unfold getObj; split <;> rfl

theorem still_getArr (r : Nat) (m : Mem γ ψ φ ρ) : (getArr r m).2.inds.length = m.inds.length := by
  unfold getArr; split <;> rfl

theorem still_modObj (r : Nat) (f : Obj ψ φ → Obj ψ φ) (m : Mem γ ψ φ ρ) : (modObj r f m).2.inds.length = m.inds.length := by
  simp [modObj]

theorem still_decodeInd (dec : Dec γ ψ) (r : Nat) (m : Mem γ ψ φ ρ) : (decodeInd dec r m).2.inds.length = m.inds.length := by
  refine still_bind (still_getObj r) (fun o => ?_) m
  cases dec with
  | identity => exact still_bind (still_modObj _ _) fun _ _ => rfl
  | fn f => exact still_bind (still_getArr _) fun g => still_bind (fun _ => rfl) fun v => still_bind (still_modObj _ _) fun _ _ => rfl

theorem still_evaluateImp (dec : Dec γ ψ) (prob : Prob γ ψ φ ρ) (r : Nat) (m : Mem γ ψ φ ρ) : (evaluateImp dec prob r m).2.inds.length = m.inds.length := by
  refine still_bind (still_decodeInd dec r) (fun _ => still_bind (still_bind (still_getObj r) fun o => ?_) fun p => still_bind ?_ fun c _ => rfl) m
  · cases o.phenome with
    | none => exact still_decodeInd dec r
    | some p => exact fun _ => rfl
  · rcases p with a | v
    · exact still_bind (still_getArr a) fun g _ => rfl
    · exact fun _ => rfl

theorem adds_robustEvaluate (nan : φ) (dec : Dec γ ψ) (prob : Prob γ ψ φ ρ) (r : Nat) : Adds 0 (robustEvaluate nan dec prob r : HM (Mem γ ψ φ ρ) _) := by
  intro m a m' h
  have hs := still_evaluateImp dec prob r m
  unfold robustEvaluate at h
  rcases e : evaluateImp dec prob r m with ⟨x, m1⟩
  rw [e] at h hs
  cases x <;> (simp only [Prod.mk.injEq] at h; rw [← h.2]; simpa using hs)

/-- A generator that makes exactly the individuals it hands out or holds back. -/
def Conserves (it : HIter (Mem γ ψ φ ρ)) (pend : it.σ → List Nat) : Prop :=
  ∀ s m r s' m', it.next s m = (.ok (r, s'), m') → m'.inds.length + (pend s).length = m.inds.length + 1 + (pend s').length

/-- Not a second `clone`. -/
def Spec.notClone : Stage γ ψ φ ρ → Bool
  | .clone => false
  | _ => true

theorem stage_conserves (up : HIter (Mem γ ψ φ ρ)) (pend : up.σ → List Nat) (h : Conserves up pend) (st : Stage γ ψ φ ρ) (hst : notClone st = true) :
    Conserves (st.apply up) (heldBy up pend st) := by
  cases st with
  | clone => cases hst
  | mutate check stopOk f =>
    rintro ⟨b, s⟩ m r s' m' hx
    obtain ⟨_, m1, e1, hx⟩ := bind_ok hx
    simp only [HM.lift, Prod.mk.injEq] at e1
    obtain ⟨-, rfl⟩ := e1
    obtain ⟨⟨r1, s1⟩, m2, e2, hx⟩ := bind_ok hx
    have e2' : up.next s m = (.ok (r1, s1), m2) := by
      unfold upstream at e2
      split at e2
      · exact e2
      · exact pep_ok e2
    obtain ⟨_, m3, e3, hx⟩ := bind_ok hx
    simp only [HM.pure_apply, Prod.mk.injEq, Except.ok.injEq] at hx
    obtain ⟨⟨rfl, rfl⟩, rfl⟩ := hx
    rw [adds_mutateInd f _ _ _ _ (pep_ok e3)]
    exact h _ _ _ _ _ e2'
  | crossover skip rec =>
    rintro ⟨pending, s⟩ m r s' m' hx
    have hx := pep_ok hx
    cases pending with
    | some b =>
      simp only [HM.pure_apply, Prod.mk.injEq, Except.ok.injEq] at hx
      obtain ⟨⟨rfl, rfl⟩, rfl⟩ := hx
      simp only [heldBy, Option.toList, List.length_append, List.length_cons, List.length_nil]
      omega
    | none =>
      obtain ⟨⟨a, s1⟩, m1, e1, hx⟩ := bind_ok hx
      obtain ⟨⟨b, s2⟩, m2, e2, hx⟩ := bind_ok hx
      obtain ⟨sk, m3, e3, hx⟩ := bind_ok hx
      have h1 := h _ _ _ _ _ e1
      have h2 := h _ _ _ _ _ e2
      have h3 := adds_useRng _ _ _ _ e3
      have key : m'.inds.length = m3.inds.length ∧ s' = (some b, s2) := by
        cases sk with
        | true =>
          simp only [if_true, HM.pure_apply, Prod.mk.injEq, Except.ok.injEq] at hx
          obtain ⟨h5, h6⟩ := hx
          cases h5
          exact ⟨by rw [h6], rfl⟩
        | false =>
          simp only [Bool.false_eq_true, if_false] at hx
          obtain ⟨_, m4, e4, hx⟩ := bind_ok hx
          simp only [HM.pure_apply, Prod.mk.injEq, Except.ok.injEq] at hx
          obtain ⟨h5, h6⟩ := hx
          cases h5
          exact ⟨by rw [← h6, adds_crossInds rec _ _ _ _ _ e4]; rfl, rfl⟩
      obtain ⟨h4, rfl⟩ := key
      simp only [heldBy, Option.toList, List.length_append, List.length_cons, List.length_nil]
      omega
  | evaluate dec prob =>
    intro s m r s' m' hx
    obtain ⟨⟨r1, s1⟩, m1, e1, hx⟩ := bind_ok (pep_ok hx)
    obtain ⟨f, m2, e2, hx⟩ := bind_ok hx
    simp only [HM.pure_apply, Prod.mk.injEq, Except.ok.injEq] at hx
    obtain ⟨⟨rfl, rfl⟩, rfl⟩ := hx
    rw [adds_evaluateInd dec prob _ _ _ _ e2]
    exact h _ _ _ _ _ e1
  | robustEvaluate nan dec prob =>
    intro s m r s' m' hx
    obtain ⟨⟨r1, s1⟩, m1, e1, hx⟩ := bind_ok (pep_ok hx)
    obtain ⟨f, m2, e2, hx⟩ := bind_ok hx
    simp only [HM.pure_apply, Prod.mk.injEq, Except.ok.injEq] at hx
    obtain ⟨⟨rfl, rfl⟩, rfl⟩ := hx
    rw [adds_robustEvaluate nan dec prob _ _ _ _ e2]
    exact h _ _ _ _ _ e1

theorem stages_conserve (stages : List (Stage γ ψ φ ρ)) (hst : ∀ st ∈ stages, notClone st = true) :
    ∀ (up : HIter (Mem γ ψ φ ρ)) (pend : up.σ → List Nat), Conserves up pend → Conserves (stagesIter up stages) (heldByAll up pend stages) := by
  induction stages with
  | nil => intro up pend h; exact h
  | cons st rest ih => intro up pend h; exact ih (fun s hs => hst s (by simp [hs])) _ _ (stage_conserves up pend h st (hst st (by simp)))

theorem clone_conserves (pop : List Nat) (choose : Mem γ ψ φ ρ → PyM Nat × ρ) :
    Conserves (Stage.clone.apply (selectionIter pop choose)) (fun _ => []) := by
  intro s m r s' m' hx
  obtain ⟨⟨r1, s1⟩, m1, e1, hx⟩ := bind_ok (pep_ok hx)
  obtain ⟨c, m2, e2, hx⟩ := bind_ok hx
  simp only [HM.pure_apply, Prod.mk.injEq, Except.ok.injEq] at hx
  obtain ⟨-, rfl⟩ := hx
  rw [adds_cloneInd r1 _ _ _ e2]
  have : m1.inds.length = m.inds.length := by
    simp only [selectionIter] at e1
    split at e1
    · simp at e1
    · split at e1
      · simp at e1
      · simp only [Prod.mk.injEq] at e1
        rw [← e1.2]
  simp [this]

theorem hpull_conserves (it : HIter (Mem γ ψ φ ρ)) (pend : it.σ → List Nat) (h : Conserves it pend) (k : Nat) :
    ∀ s m out s' m', hpull it.next k s m = (.ok (out, s'), m') → m'.inds.length + (pend s).length = m.inds.length + k + (pend s').length := by
  induction k with
  | zero =>
    intro s m out s' m' hx
    simp only [hpull, HM.pure_apply, Prod.mk.injEq, Except.ok.injEq] at hx
    obtain ⟨⟨rfl, rfl⟩, rfl⟩ := hx
    rfl
  | succ k ih =>
    intro s m out s' m' hx
    obtain ⟨⟨r, s1⟩, m1, e1, hx⟩ := bind_ok hx
    obtain ⟨⟨rs, s2⟩, m2, e2, hx⟩ := bind_ok hx
    simp only [HM.pure_apply, Prod.mk.injEq, Except.ok.injEq] at hx
    obtain ⟨⟨rfl, rfl⟩, rfl⟩ := hx
    have h1 := h _ _ _ _ _ e1
    have h2 := ih _ _ _ _ _ e2
    omega

/-- What operators can hold: only crossover operators hold a child. -/
def Spec.Fitting (stages : List (Stage γ ψ φ ρ)) (second : List (Option Nat)) : Prop :=
  ∀ i c : Nat, second[i]? = some (some c) → ∃ skip rec, stages[i]? = some (Stage.crossover skip rec)

theorem stagesLeft_fitting (stages : List (Stage γ ψ φ ρ)) : ∀ (up : HIter (Mem γ ψ φ ρ)) (s : (stagesIter up stages).σ),
    Fitting stages (stagesLeft up stages s).1 := by
  induction stages with
  | nil => intro up s i c h; simp [stagesLeft] at h
  | cons st rest ih =>
    intro up s i c h
    cases i with
    | zero =>
      simp only [stagesLeft, List.getElem?_cons_zero, Option.some.injEq] at h
      cases st with
      | crossover skip rec => exact ⟨skip, rec, rfl⟩
      | _ => simp [stageLeft] at h
    | succ i =>
      simp only [stagesLeft, List.getElem?_cons_succ] at h ⊢
      exact ih _ s i c h

theorem stagesLeft_start_fitting (stages : List (Stage γ ψ φ ρ)) : ∀ (up : HIter (Mem γ ψ φ ρ)) (s : up.σ) (kept : List (Option Nat)), Fitting stages kept →
    (stagesLeft up stages (stagesStart up s stages kept)).1.reduceOption = kept.reduceOption := by
  induction stages with
  | nil =>
    intro up s kept hf
    have hn : ∀ c ∈ kept, c = none := by
      intro c hc
      obtain ⟨i, hi⟩ := List.mem_iff_getElem?.1 hc
      cases c with
      | none => rfl
      | some c => obtain ⟨_, _, h⟩ := hf i c hi; simp at h
    show [].reduceOption = _
    symm
    induction kept with
    | nil => rfl
    | cons c cs ih =>
      rw [reduceOption_toList, hn c (by simp)]
      refine (ih ?_ fun d hd => hn d (by simp [hd]))
      intro i d h
      exact absurd (hn (some d) (List.mem_cons_of_mem _ (List.mem_of_getElem? h))) (by simp)
  | cons st rest ih =>
    intro up s kept hf
    have h1 := (stagesLeft_start rest (st.apply up) (stageStart up s (kept.headD none) st) kept.tail).1
    have h2 := ih (st.apply up) (stageStart up s (kept.headD none) st) kept.tail (fun i c h => by
      have := hf (i + 1) c (by cases kept <;> simp_all)
      simpa using this)
    simp only [stagesLeft, stagesStart, h1, reduceOption_toList, h2]
    cases kept with
    | nil => cases st <;> rfl
    | cons c cs =>
      rw [reduceOption_toList]
      congr 1
      cases c with
      | none => cases st <;> rfl
      | some c =>
        obtain ⟨skip, rec, h⟩ := hf 0 c rfl
        simp only [List.getElem?_cons_zero, Option.some.injEq] at h
        subst h
        rfl

theorem keptChildren_all {stages : List (Stage γ ψ φ ρ)} : ∀ {second : List (Option Nat)}, Fitting stages second →
    (keptChildren (stages.map fun _ => true) second).reduceOption = second.reduceOption ∧ Fitting stages (keptChildren (stages.map fun _ => true) second) := by
  induction stages with
  | nil =>
    intro second hf
    have := stagesLeft_start_fitting (γ := γ) (ψ := ψ) (φ := φ) (ρ := ρ) [] ⟨Unit, (), fun _ => HM.lift (.error .valueError)⟩ () second hf
    exact ⟨this, fun i c h => by simp [keptChildren] at h⟩
  | cons st rest ih =>
    intro second hf
    cases second with
    | nil => exact ⟨rfl, fun i c h => by simp [keptChildren] at h⟩
    | cons c cs =>
      obtain ⟨h1, h2⟩ := ih (second := cs) fun i d h => by
        have := hf (i + 1) d (by simpa using h)
        simpa using this
      refine ⟨?_, fun i d h => ?_⟩
      · show (c :: keptChildren (rest.map fun _ => true) cs).reduceOption = _
        rw [reduceOption_toList, reduceOption_toList, h1]
      · cases i with
        | zero => exact hf 0 d h
        | succ i => simpa using h2 i d h

/-- **C110**, accounting for one use: the individuals made, together with the children kept before, are the offspring and the children kept after. Nobody is lost. -/
theorem persist_pipeline_accounts (pop : List Nat) (choose : Mem γ ψ φ ρ → PyM Nat × ρ) (stages : List (Stage γ ψ φ ρ)) (hst : ∀ st ∈ stages, notClone st = true)
    (size : Nat) (second second' : List (Option Nat)) (hf : Fitting stages second) (out : List Nat) (m m' : Mem γ ψ φ ρ)
    (h : persistPipeline pop choose stages (stages.map fun _ => true) size second m = (.ok (out, second'), m')) :
    m'.inds.length + second.reduceOption.length = m.inds.length + size + second'.reduceOption.length ∧ Fitting stages second' := by
  obtain ⟨⟨os, s'⟩, m1, e1, h⟩ := bind_ok h
  simp only [HM.pure_apply, Prod.mk.injEq, Except.ok.injEq] at h
  obtain ⟨⟨rfl, rfl⟩, rfl⟩ := h
  have hc := hpull_conserves _ _ (stages_conserve stages hst _ _ (clone_conserves pop choose)) size _ _ _ _ _ e1
  obtain ⟨k1, k2⟩ := keptChildren_all hf
  have hp := fun s => (heldByAll_left stages (Stage.clone.apply (selectionIter pop choose)) (fun _ => []) s).length_eq
  simp only [List.append_nil] at hp
  rw [hp, hp, stagesLeft_start_fitting stages _ _ _ k2, k1] at hc
  exact ⟨hc, stagesLeft_fitting stages _ _⟩

/-- Without `persist_children` the children held afterwards were made for nobody: the next use does not count them. -/
theorem no_persist_pipeline_wastes (pop : List Nat) (choose : Mem γ ψ φ ρ → PyM Nat × ρ) (stages : List (Stage γ ψ φ ρ)) (hst : ∀ st ∈ stages, notClone st = true)
    (persist : List Bool) (hp : ∀ p ∈ persist, p = false) (size : Nat) (second second' : List (Option Nat)) (out : List Nat) (m m' : Mem γ ψ φ ρ)
    (h : persistPipeline pop choose stages persist size second m = (.ok (out, second'), m')) :
    m'.inds.length = m.inds.length + size + second'.reduceOption.length := by
  obtain ⟨⟨os, s'⟩, m1, e1, h⟩ := bind_ok h
  simp only [HM.pure_apply, Prod.mk.injEq, Except.ok.injEq] at h
  obtain ⟨⟨rfl, rfl⟩, rfl⟩ := h
  have hc := hpull_conserves _ _ (stages_conserve stages hst _ _ (clone_conserves pop choose)) size _ _ _ _ _ e1
  have hp' := fun s => (heldByAll_left stages (Stage.clone.apply (selectionIter pop choose)) (fun _ => []) s).length_eq
  simp only [List.append_nil] at hp'
  have hz : (stagesLeft (Stage.clone.apply (selectionIter pop choose)) stages
      (stagesStart _ (Stage.clone.apply (selectionIter pop choose)).init stages (keptChildren persist second))).1.reduceOption = [] := by
    have hs := (stagesLeft_start stages (Stage.clone.apply (selectionIter pop choose)) (Stage.clone.apply (selectionIter pop choose)).init
      (keptChildren persist second)).2
    have hn : (keptChildren persist second).reduceOption = [] := by
      rw [List.eq_nil_iff_forall_not_mem]
      intro c hc
      exact absurd (keptChildren_none hp second (some c) (List.reduceOption_mem_iff.1 hc)) (by simp)
    rw [hn] at hs
    exact List.sublist_nil.1 hs
  rw [hp', hp', hz] at hc
  exact hc

/-- Some operator of the chain is a crossover. -/
def Spec.hasCrossover : List (Stage γ ψ φ ρ) → Bool
  | [] => false
  | .crossover _ _ :: _ => true
  | _ :: rest => hasCrossover rest

/-- Of the operators of the chain the last crossover, and no other, holds a child. -/
def Spec.HoldsLast : List (Stage γ ψ φ ρ) → List (Option Nat) → Prop
  | [], _ => False
  | _ :: _, [] => False
  | st :: rest, c :: cs => if hasCrossover rest then c = none ∧ HoldsLast rest cs else c.isSome ∧ cs.reduceOption = [] ∧ hasCrossover [st] = true

theorem holdsLast_length : ∀ {stages : List (Stage γ ψ φ ρ)} {second : List (Option Nat)}, HoldsLast stages second → second.reduceOption.length = 1
  | [], _, h => h.elim
  | _ :: _, [], h => h.elim
  | st :: rest, c :: cs, h => by
    unfold HoldsLast at h
    rw [reduceOption_toList]
    split at h
    · rw [h.1]; exact holdsLast_length h.2
    · rw [h.2.1]
      cases c with
      | none => simp at h
      | some c => rfl

/-- A generator that goes back and forth between two kinds of states. -/
def Alternates (it : HIter (Mem γ ψ φ ρ)) (A B : it.σ → Prop) : Prop :=
  ∀ s m r s' m', it.next s m = (.ok (r, s'), m') → (A s → B s') ∧ (B s → A s')

def stageA (up : HIter (Mem γ ψ φ ρ)) (A : up.σ → Prop) (st : Stage γ ψ φ ρ) (s : (st.apply up).σ) : Prop :=
  A (stageLeft up st s).2 ∧ (stageLeft up st s).1 = none

def stageB (up : HIter (Mem γ ψ φ ρ)) (A B : up.σ → Prop) (st : Stage γ ψ φ ρ) (s : (st.apply up).σ) : Prop :=
  if hasCrossover [st] then A (stageLeft up st s).2 ∧ (stageLeft up st s).1.isSome else B (stageLeft up st s).2 ∧ (stageLeft up st s).1 = none

theorem stage_alternates (up : HIter (Mem γ ψ φ ρ)) (A B : up.σ → Prop) (h : Alternates up A B) (st : Stage γ ψ φ ρ) :
    Alternates (st.apply up) (stageA up A st) (stageB up A B st) := by
  cases st with
  | clone =>
    intro s m r s' m' hx
    obtain ⟨⟨r1, s1⟩, m1, e1, hx⟩ := bind_ok (pep_ok hx)
    obtain ⟨f, m2, e2, hx⟩ := bind_ok hx
    simp only [HM.pure_apply, Prod.mk.injEq, Except.ok.injEq] at hx
    obtain ⟨⟨rfl, rfl⟩, rfl⟩ := hx
    have := h _ _ _ _ _ e1
    simpa [stageA, stageB, hasCrossover, stageLeft] using this
  | mutate check stopOk f =>
    rintro ⟨b, s⟩ m r s' m' hx
    obtain ⟨_, m1, e1, hx⟩ := bind_ok hx
    simp only [HM.lift, Prod.mk.injEq] at e1
    obtain ⟨-, rfl⟩ := e1
    obtain ⟨⟨r1, s1⟩, m2, e2, hx⟩ := bind_ok hx
    have e2' : up.next s m = (.ok (r1, s1), m2) := by
      unfold upstream at e2
      split at e2
      · exact e2
      · exact pep_ok e2
    obtain ⟨_, m3, e3, hx⟩ := bind_ok hx
    simp only [HM.pure_apply, Prod.mk.injEq, Except.ok.injEq] at hx
    obtain ⟨⟨rfl, rfl⟩, rfl⟩ := hx
    have := h _ _ _ _ _ e2'
    simpa [stageA, stageB, hasCrossover, stageLeft] using this
  | crossover skip rec =>
    rintro ⟨pending, s⟩ m r s' m' hx
    have hx := pep_ok hx
    cases pending with
    | some b =>
      simp only [HM.pure_apply, Prod.mk.injEq, Except.ok.injEq] at hx
      obtain ⟨⟨rfl, rfl⟩, rfl⟩ := hx
      simp [stageA, stageB, hasCrossover, stageLeft]
    | none =>
      obtain ⟨⟨a, s1⟩, m1, e1, hx⟩ := bind_ok hx
      obtain ⟨⟨b, s2⟩, m2, e2, hx⟩ := bind_ok hx
      obtain ⟨sk, m3, e3, hx⟩ := bind_ok hx
      have h1 := h _ _ _ _ _ e1
      have h2 := h _ _ _ _ _ e2
      have key : s' = (some b, s2) := by
        cases sk with
        | true =>
          simp only [if_true, HM.pure_apply, Prod.mk.injEq, Except.ok.injEq] at hx
          obtain ⟨h5, h6⟩ := hx
          cases h5
          rfl
        | false =>
          simp only [Bool.false_eq_true, if_false] at hx
          obtain ⟨_, m4, e4, hx⟩ := bind_ok hx
          simp only [HM.pure_apply, Prod.mk.injEq, Except.ok.injEq] at hx
          obtain ⟨h5, h6⟩ := hx
          cases h5
          rfl
      subst key
      simp only [stageA, stageB, hasCrossover, stageLeft]
      exact ⟨fun hA => by simpa using h2.2 (h1.1 hA.1), fun hB => by simp at hB⟩
  | evaluate dec prob =>
    intro s m r s' m' hx
    obtain ⟨⟨r1, s1⟩, m1, e1, hx⟩ := bind_ok (pep_ok hx)
    obtain ⟨f, m2, e2, hx⟩ := bind_ok hx
    simp only [HM.pure_apply, Prod.mk.injEq, Except.ok.injEq] at hx
    obtain ⟨⟨rfl, rfl⟩, rfl⟩ := hx
    have := h _ _ _ _ _ e1
    simpa [stageA, stageB, hasCrossover, stageLeft] using this
  | robustEvaluate nan dec prob =>
    intro s m r s' m' hx
    obtain ⟨⟨r1, s1⟩, m1, e1, hx⟩ := bind_ok (pep_ok hx)
    obtain ⟨f, m2, e2, hx⟩ := bind_ok hx
    simp only [HM.pure_apply, Prod.mk.injEq, Except.ok.injEq] at hx
    obtain ⟨⟨rfl, rfl⟩, rfl⟩ := hx
    have := h _ _ _ _ _ e1
    simpa [stageA, stageB, hasCrossover, stageLeft] using this

def stagesA (up : HIter (Mem γ ψ φ ρ)) (A : up.σ → Prop) (stages : List (Stage γ ψ φ ρ)) (s : (stagesIter up stages).σ) : Prop :=
  A (stagesLeft up stages s).2 ∧ (stagesLeft up stages s).1.reduceOption = []

def stagesB (up : HIter (Mem γ ψ φ ρ)) (A B : up.σ → Prop) (stages : List (Stage γ ψ φ ρ)) (s : (stagesIter up stages).σ) : Prop :=
  if hasCrossover stages then A (stagesLeft up stages s).2 ∧ HoldsLast stages (stagesLeft up stages s).1
  else B (stagesLeft up stages s).2 ∧ (stagesLeft up stages s).1.reduceOption = []

theorem hasCrossover_cons (st : Stage γ ψ φ ρ) (rest : List (Stage γ ψ φ ρ)) : hasCrossover (st :: rest) = (hasCrossover [st] || hasCrossover rest) := by
  cases st <;> simp [hasCrossover]

theorem reduceOption_cons_nil {α : Type} (c : Option α) (l : List (Option α)) : (c :: l).reduceOption = [] ↔ c = none ∧ l.reduceOption = [] := by
  rw [reduceOption_toList]
  cases c <;> simp

theorem stages_alternate (stages : List (Stage γ ψ φ ρ)) : ∀ (up : HIter (Mem γ ψ φ ρ)) (A B : up.σ → Prop), Alternates up A B →
    Alternates (stagesIter up stages) (stagesA up A stages) (stagesB up A B stages) := by
  induction stages with
  | nil =>
    intro up A B h s m r s' m' hx
    have := h s m r s' m' hx
    simpa [stagesA, stagesB, hasCrossover, stagesLeft, List.reduceOption] using this
  | cons st rest ih =>
    intro up A B h s m r s' m' hx
    have h2 := ih (st.apply up) _ _ (stage_alternates up A B h st) s m r s' m' hx
    have ha : ∀ s, stagesA up A (st :: rest) s ↔ stagesA (st.apply up) (stageA up A st) rest s := by
      intro s
      simp only [stagesA, stageA, stagesLeft, reduceOption_cons_nil, and_assoc]
    have hb : ∀ s, stagesB up A B (st :: rest) s ↔ stagesB (st.apply up) (stageA up A st) (stageB up A B st) rest s := by
      intro s
      simp only [stagesB, stageA, stageB, stagesLeft, HoldsLast, hasCrossover_cons st rest, reduceOption_cons_nil]
      cases hasCrossover rest <;> cases hasCrossover [st] <;> simp <;> tauto
    exact ⟨fun x => (hb s').2 (h2.1 ((ha s).1 x)), fun x => (ha s').2 (h2.2 ((hb s).1 x))⟩

theorem hpull_alternates (it : HIter (Mem γ ψ φ ρ)) (A B : it.σ → Prop) (h : Alternates it A B) (k : Nat) :
    ∀ s m out s' m', hpull it.next k s m = (.ok (out, s'), m') →
      (A s → if k % 2 = 0 then A s' else B s') ∧ (B s → if k % 2 = 0 then B s' else A s') := by
  induction k with
  | zero =>
    intro s m out s' m' hx
    simp only [hpull, HM.pure_apply, Prod.mk.injEq, Except.ok.injEq] at hx
    obtain ⟨⟨rfl, rfl⟩, rfl⟩ := hx
    simp
  | succ k ih =>
    intro s m out s' m' hx
    obtain ⟨⟨r, s1⟩, m1, e1, hx⟩ := bind_ok hx
    obtain ⟨⟨rs, s2⟩, m2, e2, hx⟩ := bind_ok hx
    simp only [HM.pure_apply, Prod.mk.injEq, Except.ok.injEq] at hx
    obtain ⟨⟨rfl, rfl⟩, rfl⟩ := hx
    have h1 := h _ _ _ _ _ e1
    have h2 := ih _ _ _ _ _ e2
    rcases Nat.mod_two_eq_zero_or_one k with hk | hk
    · have : (k + 1) % 2 = 1 := by omega
      simp only [hk, if_true] at h2
      simp only [this, Nat.one_ne_zero, if_false]
      exact ⟨fun x => h2.2 (h1.1 x), fun x => h2.1 (h1.2 x)⟩
    · have : (k + 1) % 2 = 0 := by omega
      simp only [hk, Nat.one_ne_zero, if_false] at h2
      simp only [this, if_true]
      exact ⟨fun x => h2.2 (h1.1 x), fun x => h2.1 (h1.2 x)⟩

theorem stagesLeft_start_exact (stages : List (Stage γ ψ φ ρ)) : ∀ (up : HIter (Mem γ ψ φ ρ)) (s : up.σ) (kept : List (Option Nat)),
    Fitting stages kept → kept.length = stages.length → (stagesLeft up stages (stagesStart up s stages kept)).1 = kept := by
  induction stages with
  | nil => intro up s kept _ hl; simp only [List.length_nil, List.length_eq_zero_iff] at hl; subst hl; rfl
  | cons st rest ih =>
    intro up s kept hf hl
    cases kept with
    | nil => simp at hl
    | cons c cs =>
      have h1 := (stagesLeft_start rest (st.apply up) (stageStart up s c st) cs).1
      have h2 := ih (st.apply up) (stageStart up s c st) cs (fun i c h => by
        have := hf (i + 1) c (by simpa using h)
        simpa using this) (by simpa using hl)
      simp only [stagesLeft, stagesStart, List.headD_cons, List.tail_cons, h1, h2, List.cons.injEq, and_true]
      cases c with
      | none => cases st <;> rfl
      | some c =>
        obtain ⟨skip, rec, h⟩ := hf 0 c rfl
        simp only [List.getElem?_cons_zero, Option.some.injEq] at h
        subst h
        rfl

theorem stagesLeft_length (stages : List (Stage γ ψ φ ρ)) : ∀ (up : HIter (Mem γ ψ φ ρ)) (s : (stagesIter up stages).σ),
    (stagesLeft up stages s).1.length = stages.length := by
  induction stages with
  | nil => intro up s; rfl
  | cons st rest ih => intro up s; simp only [stagesLeft, List.length_cons, ih (st.apply up) s]

theorem keptChildren_id {stages : List (Stage γ ψ φ ρ)} : ∀ {second : List (Option Nat)}, second.length = stages.length →
    keptChildren (stages.map fun _ => true) second = second := by
  induction stages with
  | nil => intro second h; simp only [List.length_nil, List.length_eq_zero_iff] at h; subst h; rfl
  | cons st rest ih =>
    intro second h
    cases second with
    | nil => simp at h
    | cons c cs =>
      show c :: keptChildren (rest.map fun _ => true) cs = _
      rw [ih (by simpa using h)]

/-- What the operators hold: nothing, or a child in the last crossover. -/
def Spec.Held (stages : List (Stage γ ψ φ ρ)) (one : Bool) (second : List (Option Nat)) : Prop :=
  if one then HoldsLast stages second ∧ Fitting stages second ∧ second.length = stages.length else second.reduceOption = []

theorem held_length {stages : List (Stage γ ψ φ ρ)} {one : Bool} {second : List (Option Nat)} (h : Held stages one second) :
    second.reduceOption.length = if one then 1 else 0 := by
  cases one with
  | false => have h : second.reduceOption = [] := h; simp [h]
  | true => exact holdsLast_length h.1

theorem held_fitting {stages : List (Stage γ ψ φ ρ)} {one : Bool} {second : List (Option Nat)} (h : Held stages one second) : Fitting stages second := by
  cases one with
  | false =>
    have h : second.reduceOption = [] := h
    intro i c hc
    have := List.reduceOption_mem_iff.2 (List.mem_of_getElem? hc)
    rw [h] at this
    cases this
  | true => exact h.2.1

theorem clone_alternates (pop : List Nat) (choose : Mem γ ψ φ ρ → PyM Nat × ρ) :
    Alternates (Stage.clone.apply (selectionIter pop choose)) (fun _ => True) (fun _ => True) := fun _ _ _ _ _ _ => ⟨fun _ => trivial, fun _ => trivial⟩

theorem left_held {pop : List Nat} {choose : Mem γ ψ φ ρ → PyM Nat × ρ} {stages : List (Stage γ ψ φ ρ)} (hx : hasCrossover stages = true) {kept : List (Option Nat)} {one : Bool}
    (hk : if one then HoldsLast stages kept ∧ Fitting stages kept ∧ kept.length = stages.length else kept.reduceOption = []) {size : Nat} {m m1 : Mem γ ψ φ ρ} {os : List Nat} {s'}
    (e1 : hpull (stagesIter (Stage.clone.apply (selectionIter pop choose)) stages).next size
      (stagesStart _ (Stage.clone.apply (selectionIter pop choose)).init stages kept) m = (.ok (os, s'), m1)) :
    Held stages (one ^^ decide (size % 2 = 1)) (stagesLeft _ stages s').1 := by
  have hc := hpull_alternates _ _ _ (stages_alternate stages _ _ _ (clone_alternates pop choose)) size _ _ _ _ _ e1
  have hf := stagesLeft_fitting stages _ s'
  have hl := stagesLeft_length stages _ s'
  simp only [stagesA, stagesB, hx, if_true, true_and] at hc
  have hmod := Nat.mod_two_eq_zero_or_one size
  cases one with
  | false =>
    have hk : kept.reduceOption = [] := hk
    have hz := (stagesLeft_start stages (Stage.clone.apply (selectionIter pop choose)) (Stage.clone.apply (selectionIter pop choose)).init kept).2
    rw [hk] at hz
    have := hc.1 (List.sublist_nil.1 hz)
    rcases hmod with h | h
    · simp only [h, if_true] at this
      simpa [Held, h] using this
    · simp only [h, Nat.one_ne_zero, if_false] at this
      simpa [Held, h] using ⟨this, hf, hl⟩
  | true =>
    obtain ⟨k1, k2, k3⟩ := hk
    have := hc.2 (by rw [stagesLeft_start_exact stages _ _ _ k2 k3]; exact k1)
    rcases hmod with h | h
    · simp only [h, if_true] at this
      simpa [Held, h] using ⟨this, hf, hl⟩
    · simp only [h, Nat.one_ne_zero, if_false] at this
      simpa [Held, h] using this

/-- **C110**, one use of operators that keep children: what they hold afterwards is what they held before, changed by every individual drawn. -/
theorem persist_pipeline_held (pop : List Nat) (choose : Mem γ ψ φ ρ → PyM Nat × ρ) (stages : List (Stage γ ψ φ ρ)) (hx : hasCrossover stages = true)
    (size : Nat) (one : Bool) (second second' : List (Option Nat)) (hs : Held stages one second) (out : List Nat) (m m' : Mem γ ψ φ ρ)
    (h : persistPipeline pop choose stages (stages.map fun _ => true) size second m = (.ok (out, second'), m')) :
    Held stages (one ^^ decide (size % 2 = 1)) second' := by
  obtain ⟨⟨os, s'⟩, m1, e1, h⟩ := bind_ok h
  simp only [HM.pure_apply, Prod.mk.injEq, Except.ok.injEq] at h
  obtain ⟨⟨rfl, rfl⟩, rfl⟩ := h
  refine left_held hx ?_ e1
  cases one with
  | false => exact (keptChildren_all (held_fitting hs)).1.trans hs
  | true =>
    have h3 := hs.2.2
    simp only [if_true]
    rw [keptChildren_id h3]
    exact hs

theorem no_persist_pipeline_held (pop : List Nat) (choose : Mem γ ψ φ ρ → PyM Nat × ρ) (stages : List (Stage γ ψ φ ρ)) (hx : hasCrossover stages = true)
    (persist : List Bool) (hp : ∀ p ∈ persist, p = false) (size : Nat) (second second' : List (Option Nat)) (out : List Nat) (m m' : Mem γ ψ φ ρ)
    (h : persistPipeline pop choose stages persist size second m = (.ok (out, second'), m')) :
    second'.reduceOption.length = size % 2 := by
  obtain ⟨⟨os, s'⟩, m1, e1, h⟩ := bind_ok h
  simp only [HM.pure_apply, Prod.mk.injEq, Except.ok.injEq] at h
  obtain ⟨⟨rfl, rfl⟩, rfl⟩ := h
  have hn : (keptChildren persist second).reduceOption = [] := by
    rw [List.eq_nil_iff_forall_not_mem]
    intro c hc
    exact absurd (keptChildren_none hp second (some c) (List.reduceOption_mem_iff.1 hc)) (by simp)
  rw [held_length (left_held hx (one := false) hn e1)]
  rcases Nat.mod_two_eq_zero_or_one size with h | h <;> simp [h]

theorem persist_loop_accounts (cfg : EvoConfig γ ψ φ ρ) (hst : ∀ st ∈ cfg.stages, notClone st = true) (hx : hasCrossover cfg.stages = true) (fuel : Nat) :
    ∀ (g : Int) (parents out : List Nat) (one : Bool) (second second' : List (Option Nat)) (m m' : Mem γ ψ φ ρ), Held cfg.stages one second →
      persistLoop cfg (cfg.stages.map fun _ => true) fuel g parents second m = (.ok (out, second'), m') →
      ∃ G ≤ fuel, ((∀ g p m, cfg.stop g p m = false) → G = fuel) ∧ Held cfg.stages (one ^^ decide ((G * cfg.size) % 2 = 1)) second' ∧
        m'.inds.length + second.reduceOption.length = m.inds.length + G * cfg.size + second'.reduceOption.length := by
  induction fuel with
  | zero =>
    intro g parents out one second second' m m' hs h
    simp only [persistLoop, HM.pure_apply, Prod.mk.injEq, Except.ok.injEq] at h
    obtain ⟨⟨rfl, rfl⟩, rfl⟩ := h
    exact ⟨0, Nat.le_refl _, fun _ => rfl, by simpa using hs, by simp⟩
  | succ fuel ih =>
    intro g parents out one second second' m m' hs h
    unfold persistLoop at h
    split at h
    · rename_i hstop
      simp only [Prod.mk.injEq, Except.ok.injEq] at h
      obtain ⟨⟨rfl, rfl⟩, rfl⟩ := h
      exact ⟨0, Nat.zero_le _, fun hn => by simp [hn] at hstop, by simpa using hs, by simp⟩
    · rcases e : persistPipeline parents (cfg.choose g parents) cfg.stages (cfg.stages.map fun _ => true) cfg.size second m with ⟨x, m1⟩
      rw [e] at h
      rcases x with err | ⟨off, sec1⟩
      · simp at h
      · simp only at h
        have h1 := persist_pipeline_held _ _ _ hx _ _ _ _ hs _ _ _ e
        have h2 := (persist_pipeline_accounts _ _ _ hst _ _ _ (held_fitting hs) _ _ _ e).1
        obtain ⟨G, g1, g2, g3, g4⟩ := ih _ _ _ _ _ _ _ _ h1 h
        refine ⟨G + 1, by omega, fun hn => by rw [g2 hn], ?_, ?_⟩
        · have : (one ^^ decide ((G + 1) * cfg.size % 2 = 1)) = ((one ^^ decide (cfg.size % 2 = 1)) ^^ decide (G * cfg.size % 2 = 1)) := by
            rw [Bool.xor_assoc, Nat.add_mul, Nat.one_mul, Nat.add_mod]
            congr 1
            rcases Nat.mod_two_eq_zero_or_one (G * cfg.size) with a | a <;> rcases Nat.mod_two_eq_zero_or_one cfg.size with b | b <;> simp [a, b]
          rw [this]
          exact g3
        · rw [Nat.add_mul]; omega

theorem no_persist_loop_wastes (cfg : EvoConfig γ ψ φ ρ) (hst : ∀ st ∈ cfg.stages, notClone st = true) (hx : hasCrossover cfg.stages = true)
    (persist : List Bool) (hp : ∀ p ∈ persist, p = false) (fuel : Nat) :
    ∀ (g : Int) (parents out : List Nat) (second second' : List (Option Nat)) (m m' : Mem γ ψ φ ρ),
      persistLoop cfg persist fuel g parents second m = (.ok (out, second'), m') →
      ∃ G ≤ fuel, ((∀ g p m, cfg.stop g p m = false) → G = fuel) ∧ m'.inds.length = m.inds.length + G * (cfg.size + cfg.size % 2) := by
  induction fuel with
  | zero =>
    intro g parents out second second' m m' h
    simp only [persistLoop, HM.pure_apply, Prod.mk.injEq, Except.ok.injEq] at h
    obtain ⟨⟨rfl, rfl⟩, rfl⟩ := h
    exact ⟨0, Nat.le_refl _, fun _ => rfl, by simp⟩
  | succ fuel ih =>
    intro g parents out second second' m m' h
    unfold persistLoop at h
    split at h
    · rename_i hstop
      simp only [Prod.mk.injEq, Except.ok.injEq] at h
      obtain ⟨⟨rfl, rfl⟩, rfl⟩ := h
      exact ⟨0, Nat.zero_le _, fun hn => by simp [hn] at hstop, by simp⟩
    · rcases e : persistPipeline parents (cfg.choose g parents) cfg.stages persist cfg.size second m with ⟨x, m1⟩
      rw [e] at h
      rcases x with err | ⟨off, sec1⟩
      · simp at h
      · simp only at h
        have h1 := no_persist_pipeline_held _ _ _ hx _ hp _ _ _ _ _ _ e
        have h2 := no_persist_pipeline_wastes _ _ _ hst _ hp _ _ _ _ _ _ e
        obtain ⟨G, g1, g2, g4⟩ := ih _ _ _ _ _ _ _ h
        refine ⟨G + 1, by omega, fun hn => by rw [g2 hn], ?_⟩
        rw [Nat.add_mul]; omega

theorem adds_createPopulation (initGenome : ρ → PyM (List γ) × ρ) (problem : Nat) : ∀ k, Adds k (createPopulation initGenome problem k : HM (Mem γ ψ φ ρ) _)
  | 0 => adds_pure _
  | k + 1 => by
    have : Adds (1 + (k + 0)) (createPopulation initGenome problem (k + 1) : HM (Mem γ ψ φ ρ) _) :=
     adds_bind0 (adds_useRng _) fun g => adds_bind0 (adds_newArr g) fun a => adds_bind (adds_bind0 adds_freshUuid fun _ => adds_bind0 (adds_newSet _) fun _ => adds_newObj _)
      fun r => adds_bind (k := 0) (adds_createPopulation initGenome problem k) fun rs => adds_pure _
    rwa [Nat.add_zero, Nat.add_comm] at this

theorem adds_evaluatePopulation (dec : Dec γ ψ) (prob : Prob γ ψ φ ρ) : ∀ rs, Adds 0 (evaluatePopulation dec prob rs : HM (Mem γ ψ φ ρ) _)
  | [] => adds_pure _
  | r :: rs => adds_bind0 (adds_evaluateInd dec prob r) fun _ => adds_evaluatePopulation dec prob rs

/-- **C110**, accounting for a run whose crossover operators all keep children: every child made is used, except that after an odd number of offspring in all one
child is still waiting in the last crossover operator. -/
theorem persist_run_accounts (cfg : EvoConfig γ ψ φ ρ) (hst : ∀ st ∈ cfg.stages, notClone st = true) (hx : hasCrossover cfg.stages = true)
    (hstop : ∀ g p m, cfg.stop g p m = false) (initGenome : ρ → PyM (List γ) × ρ) (dec : Dec γ ψ) (prob : Prob γ ψ φ ρ) (problem popSize G : Nat) (start : Int)
    (m m' : Mem γ ψ φ ρ) (out : List Nat) (second' : List (Option Nat))
    (h : persistRun cfg (cfg.stages.map fun _ => true) [] initGenome dec prob problem popSize start (start + G) m = (.ok (out, second'), m')) :
    m'.inds.length = m.inds.length + popSize + G * cfg.size + (G * cfg.size) % 2 ∧ second'.reduceOption.length = (G * cfg.size) % 2 ∧
      ((G * cfg.size) % 2 = 1 → HoldsLast cfg.stages second') := by
  obtain ⟨parents, m1, e1, h⟩ := bind_ok h
  obtain ⟨_, m2, e2, h⟩ := bind_ok h
  have h1 := adds_createPopulation _ _ _ _ _ _ e1
  have h2 := adds_evaluatePopulation _ _ _ _ _ _ e2
  have hG : (start + G - start).toNat = G := by omega
  rw [hG] at h
  obtain ⟨G', -, g2, g3, g4⟩ := persist_loop_accounts cfg hst hx G _ _ _ false [] second' _ _ (by rfl) h
  have hl := held_length g3
  rw [g2 hstop] at hl g3 g4
  simp only [Bool.false_xor] at hl g3
  have hl' : second'.reduceOption.length = (G * cfg.size) % 2 := by
    rw [hl]
    rcases Nat.mod_two_eq_zero_or_one (G * cfg.size) with h | h <;> simp [h]
  refine ⟨?_, hl', fun ho => ?_⟩
  · rw [hl'] at g4
    have : ([] : List (Option Nat)).reduceOption.length = 0 := rfl
    omega
  · simp only [ho, decide_true, Held, if_true] at g3
    exact g3.1

/-- **C110**, the same for operators that do not keep children (the default): with an odd `pool` size every generation makes one child that nobody sees. -/
theorem no_persist_run_wastes (cfg : EvoConfig γ ψ φ ρ) (hst : ∀ st ∈ cfg.stages, notClone st = true) (hx : hasCrossover cfg.stages = true)
    (hstop : ∀ g p m, cfg.stop g p m = false) (initGenome : ρ → PyM (List γ) × ρ) (dec : Dec γ ψ) (prob : Prob γ ψ φ ρ) (problem popSize G : Nat) (start : Int)
    (m m' : Mem γ ψ φ ρ) (out : List Nat) (second second' : List (Option Nat))
    (h : persistRun cfg (cfg.stages.map fun _ => false) second initGenome dec prob problem popSize start (start + G) m = (.ok (out, second'), m')) :
    m'.inds.length = m.inds.length + popSize + G * (cfg.size + cfg.size % 2) := by
  obtain ⟨parents, m1, e1, h⟩ := bind_ok h
  obtain ⟨_, m2, e2, h⟩ := bind_ok h
  have h1 := adds_createPopulation _ _ _ _ _ _ e1
  have h2 := adds_evaluatePopulation _ _ _ _ _ _ e2
  have hG : (start + G - start).toNat = G := by omega
  rw [hG] at h
  obtain ⟨G', -, g2, g4⟩ := no_persist_loop_wastes cfg hst hx _ (by simp) G _ _ _ _ second' _ _ h
  rw [g2 hstop] at g4
  omega

/-- Two genes, `pool(3)`: three offspring a generation. -/
def exPersist : EvoConfig Int Int Int Nat := { exEvo with size := 3 }

/-- The runs meet the hypotheses above: three generations of three offspring make nine children and a waiting one, against twelve without keeping. -/
example : (∀ st ∈ exPersist.stages, notClone st = true) ∧ hasCrossover exPersist.stages = true ∧ (∀ g p m, exPersist.stop g p m = false) ∧
    ((persistRun exPersist [true, true, true] [] exInit .identity exSum 0 2 0 3 exStart).1.toOption = some ([7, 8, 9], [none, some 11, none])) ∧
    (persistRun exPersist [true, true, true] [] exInit .identity exSum 0 2 0 3 exStart).2.inds.length = 12 ∧
    (persistRun exPersist [false, false, false] [] exInit .identity exSum 0 2 0 3 exStart).1.isOk = true ∧
    (persistRun exPersist [false, false, false] [] exInit .identity exSum 0 2 0 3 exStart).2.inds.length = 14 := by
  refine ⟨by simp [exPersist, exEvo, notClone], by simp [exPersist, exEvo, hasCrossover], fun _ _ _ => rfl, ?_, ?_, ?_, ?_⟩ <;> decide +kernel

/-- Crossover alone, three offspring a generation. -/
def exCross : EvoConfig Int Int Int Nat where
  worse a b := decide (a.getD 0 < b.getD 0)
  choose _ _ m := (.ok (m.rng % 2), m.rng + 1)
  stages := [.crossover (fun s => (false, s)) (.uniform fun s k => (.ok (List.replicate k (s % 7 == 0)), s)), .evaluate .identity exSum]
  size := 3
  kElites := 0
  stop _ _ _ := false

/-- Every genome is `[x, x]`. -/
def exUniformInit (x : Int) (s : Nat) : PyM (List Int) × Nat := (.ok [x, x], s + 1)

/-- Two islands, of zeros and of ones, and one generation on each. -/
def exTwoIslands (persist : List Bool) : HM (Mem Int Int Int Nat) (List (List Nat) × List (Option Nat)) := do
  let a ← createPopulation (exUniformInit 0) 0 2
  evaluatePopulation .identity exSum a
  let b ← createPopulation (exUniformInit 1) 0 2
  evaluatePopulation .identity exSum b
  persistSweep exCross persist 0 2 0 [a, b] []

/-- Two runs one after the other with the same operators, one that starts from zeros and one that starts from ones. -/
def exTwoRuns (persist : List Bool) : HM (Mem Int Int Int Nat) (List Nat) := do
  let (_, second) ← persistRun exCross persist [] (exUniformInit 0) .identity exSum 0 2 0 1
  let (out, _) ← persistRun exCross persist second (exUniformInit 1) .identity exSum 0 2 0 1
  pure out

/-- The genomes of the individuals. -/
def genesReturned (x : PyM (List Nat) × Mem Int Int Int Nat) : Option (List (Option (List Int))) := x.1.toOption.map fun out => out.map (genes x.2)

/-- The genomes on each island. -/
def genesOnIslands (x : PyM (List (List Nat) × List (Option Nat)) × Mem Int Int Int Nat) : Option (List (List (Option (List Int)))) :=
  x.1.toOption.map fun out => out.1.map fun pop => pop.map (genes x.2)

/-- **C110**, limit: the islands of `multi_population_ea` share their operators, so a child of the first island that was kept appears on the second although nobody
migrates. -/
theorem kept_child_crosses_islands :
    genesOnIslands (exTwoIslands [true, true] exStart) =
      some [[some [0, 0], some [0, 0], some [0, 0]], [some [0, 0], some [1, 1], some [1, 1]]] ∧
    genesOnIslands (exTwoIslands [false, false] exStart) =
      some [[some [0, 0], some [0, 0], some [0, 0]], [some [1, 1], some [1, 1], some [1, 1]]] := by
  refine ⟨?_, ?_⟩ <;> decide +kernel

/-- **C110**, limit: a child kept in one run is among the individuals that a later run with the same operator objects returns. -/
theorem kept_child_enters_next_run :
    genesReturned (exTwoRuns [true, true] exStart) = some [some [1, 1], some [1, 1], some [0, 0]] ∧
    genesReturned (exTwoRuns [false, false] exStart) = some [some [1, 1], some [1, 1], some [1, 1]] := by
  refine ⟨?_, ?_⟩ <;> decide +kernel

end Leap
