import Verif.Lemmas.Footprint
import Verif.Props.Pipeline

/-! # Generators own the individuals they have not yet passed on -/

namespace Leap
open Spec

variable {γ ψ φ ρ : Type}

theorem bind_ok {M α β : Type} {x : HM M α} {f : α → HM M β} {m m' : M} {b : β} (h : (x >>= f) m = (.ok b, m')) :
    ∃ a m1, x m = (.ok a, m1) ∧ f a m1 = (.ok b, m') := by
  rw [HM.bind_apply] at h
  rcases e : x m with ⟨r, m1⟩
  rw [e] at h
  cases r with
  | error err => simp at h
  | ok a => exact ⟨a, m1, rfl, h⟩

theorem pep_ok {M α : Type} {x : HM M α} {m m' : M} {a : α} (h : HM.pep479 x m = (.ok a, m')) : x m = (.ok a, m') := by
  unfold HM.pep479 at h
  split at h
  · simp at h
  · exact h

theorem Ensures.ok {M α : Type} {P : M → Prop} {x : HM M α} {Q : α → M → Prop} {E : M → Prop} (h : Ensures P x Q E)
    {m m' : M} {a : α} (hm : P m) (hx : x m = (.ok a, m')) : Q a m' := by
  have := h m hm
  rw [hx] at this
  exact this

/-- Everything of `m0` is unchanged, and whoever is new is good. -/
def Full (G : List γ → Prop) (truth : List γ → φ → Prop) (m0 m : Mem γ ψ φ ρ) : Prop :=
  Fresh m0 m ∧ ∀ r, m0.inds.length ≤ r → r < m.inds.length → GoodInd G truth m r

variable {m0 : Mem γ ψ φ ρ} {n : Nat} {allowed : Nat → γ → Prop} {truth : List γ → φ → Prop}

/-- What a call of `next()` did that took memory from `m` to `m'` and yielded `r`; before and after it the generator
held back the individuals `p` and `p'`. -/
structure Outcome (G : List γ → Prop) (truth : List γ → φ → Prop) (m0 m m' : Mem γ ψ φ ρ) (p p' : List Nat) (r : Nat) : Prop where
  full : Full G truth m0 m'
  grows : m.inds.length ≤ m'.inds.length
  frame : ∀ x, x < m.inds.length → x ∉ p → SameInd m m' x
  owned : r ∈ p ∨ m.inds.length ≤ r
  new : m0.inds.length ≤ r
  there : r < m'.inds.length
  gone : r ∉ p'
  held : ∀ q ∈ p', (q ∈ p ∨ m.inds.length ≤ q) ∧ q < m'.inds.length
  nodup : p'.Nodup

/-- An evaluated individual. -/
def Spec.HasFitness (m : Mem γ ψ φ ρ) (r : Nat) : Prop := ∃ f, fitness m r = some (some f)

/-- A generator that touches and yields only individuals it holds back or makes, and if `ev` yields them
evaluated. -/
structure Owns (G : List γ → Prop) (truth : List γ → φ → Prop) (m0 : Mem γ ψ φ ρ) (it : HIter (Mem γ ψ φ ρ))
    (pend : it.σ → List Nat) (ev : Bool) : Prop where
  init : pend it.init = []
  step : ∀ s m r s' m', Full G truth m0 m → (∀ p ∈ pend s, m0.inds.length ≤ p ∧ p < m.inds.length) → (pend s).Nodup →
    it.next s m = (.ok (r, s'), m') →
    Outcome G truth m0 m m' (pend s) (pend s') r ∧ (ev = true → HasFitness m' r)

/-- Doing something to the individual just received. -/
theorem Outcome.touch {G : List γ → Prop} {m m1 m2 : Mem γ ψ φ ρ} {p p' : List Nat} {r : Nat} (h : Outcome G truth m0 m m1 p p' r)
    (hl : Local [r] m1 m2) (hf : Fresh m0 m2) (hg : GoodInd G truth m2 r) : Outcome G truth m0 m m2 p p' r := by
  refine ⟨⟨hf, fun x h1 h2 => ?_⟩, by rw [hl.1]; exact h.grows, fun x hx hn => ?_, h.owned, h.new, by rw [hl.1]; exact h.there,
    h.gone, fun q hq => ⟨(h.held q hq).1, by rw [hl.1]; exact (h.held q hq).2⟩, h.nodup⟩
  · by_cases hx : x = r
    · rw [hx]; exact hg
    · exact goodInd_same (hl.2 x (by simpa using hx)) (h.full.2 x h1 (by rw [← hl.1]; exact h2))
  · have hne : x ≠ r := by
      rintro rfl
      rcases h.owned with h1 | h1
      · exact hn h1
      · omega
    exact sameInd_trans (h.frame x hx hn) (hl.2 x (by simpa using hne))

theorem fresh_rng {m : Mem γ ψ φ ρ} (h : Fresh m0 m) (s : ρ) : Fresh m0 { m with rng := s } :=
  ⟨⟨h.unchanged.1, h.unchanged.2, h.unchanged.3⟩, ⟨h.sound.1, h.sound.2, h.sound.3⟩,
    h.inds, h.arrays, h.sets, h.owned, h.distinct⟩

theorem goodInd_rng {G : List γ → Prop} {m : Mem γ ψ φ ρ} {r : Nat} (s : ρ) (h : GoodInd G truth m r) :
    GoodInd G truth { m with rng := s } r := goodInd_same ⟨rfl, rfl⟩ h

/-- Cloning a good individual gives a good one, and touches nobody. -/
theorem cloneInd_good {G : List γ → Prop} {m m' : Mem γ ψ φ ρ} (h : Full G truth m0 m) {r c : Nat} (hr : GoodInd G truth m r)
    (hx : cloneInd r m = (.ok c, m')) :
    c = m.inds.length ∧ m'.inds.length = m.inds.length + 1 ∧ Full G truth m0 m' ∧
    ∀ y, y < m.inds.length → SameInd m m' y := by
  obtain ⟨g, fo, hg, -, hG, -⟩ := hr
  obtain ⟨o, ho, ha, -⟩ := genes_lt hg
  have he := clone_effect m r o g ho ha
  have hfr := (cloneInd_fresh (m0 := m0) (k := 0) r).ok ⟨h.1, Nat.zero_le _⟩ hx
  rw [hx] at he
  simp only [Prod.mk.injEq, Except.ok.injEq] at he
  obtain ⟨rfl, rfl⟩ := he
  have hs : ∀ y, y < m.inds.length → SameInd m (⟨m.arrays ++ [g], m.sets ++ [[o.uuid]], m.inds ++ [{ o with genome := m.arrays.length, fitness := none, uuid := m.nextUuid, parents := m.sets.length }], m.nextUuid + 1, m.rng⟩ : Mem γ ψ φ ρ) y := by
    intro y hy
    have hi : (m.inds ++ [{ o with genome := m.arrays.length, fitness := none, uuid := m.nextUuid, parents := m.sets.length }])[y]? = m.inds[y]? :=
      List.getElem?_append_left hy
    refine ⟨hi, ?_⟩
    simp only [genes, hi, List.getElem?_eq_getElem hy]
    exact List.getElem?_append_left (h.1.sound.genome _ (List.getElem_mem hy))
  refine ⟨rfl, by simp, ⟨hfr.1.1, fun x h1 h2 => ?_⟩, hs⟩
  by_cases hlt : x < m.inds.length
  · exact goodInd_same (hs x hlt) (h.2 x h1 hlt)
  · have : x = m.inds.length := by simp at h2; omega
    subst this
    exact ⟨g, none, by simp [genes], by simp [fitness], hG, by simp⟩

/-- What is asked of an operator: mutation keeps genes acceptable, cut points are possible ones, and evaluation gives true
fitnesses. -/
def Spec.StageOk (n : Nat) (allowed : Nat → γ → Prop) (truth : List γ → φ → Prop) : Stage γ ψ φ ρ → Prop
  | .clone => True
  | .mutate _ _ f => ∀ g s, GenesIn n allowed g → match (f g s).result with
      | .error _ => True
      | .ok none => GenesIn n allowed (f g s).left
      | .ok (some g') => GenesIn n allowed g'
  | .crossover _ rec => GoodCuts n rec
  | .evaluate dec prob => ∀ g c s f, GenesIn n allowed g → decodeOf dec g = .ok c → (prob.evaluate c s).1 = .ok f → truth g f
  | .robustEvaluate nan dec prob =>
      (∀ g c s f, GenesIn n allowed g → decodeOf dec g = .ok c → (prob.evaluate c s).1 = .ok f → truth g f) ∧
      (∀ g e, GenesIn n allowed g → decodeOf dec g = .error e → truth g nan) ∧
      (∀ g c s e, GenesIn n allowed g → decodeOf dec g = .ok c → (prob.evaluate c s).1 = .error e → truth g nan)

/-- Does the operator evaluate? -/
def Spec.evaluates : Stage γ ψ φ ρ → Bool
  | .evaluate _ _ => true
  | .robustEvaluate _ _ _ => true
  | _ => false

/-- The individuals held back by an operator applied to a generator that holds back `pend`. -/
def heldBy (up : HIter (Mem γ ψ φ ρ)) (pend : up.σ → List Nat) : (st : Stage γ ψ φ ρ) → (st.apply up).σ → List Nat
  | .clone => pend
  | .mutate _ _ _ => fun s : Bool × up.σ => pend s.2
  | .crossover _ _ => fun s : Option Nat × up.σ => s.1.toList ++ pend s.2
  | .evaluate _ _ => pend
  | .robustEvaluate _ _ _ => pend

theorem stage_owns (h0 : Sound m0) (up : HIter (Mem γ ψ φ ρ)) (pend : up.σ → List Nat) (ev : Bool)
    (h : Owns (GenesIn n allowed) truth m0 up pend ev) (st : Stage γ ψ φ ρ) (hst : StageOk n allowed truth st) :
    Owns (GenesIn n allowed) truth m0 (st.apply up) (heldBy up pend st) (evaluates st) := by
  obtain ⟨hinit, hstep⟩ := h
  cases st with
  | clone =>
    refine ⟨hinit, ?_⟩
    intro s m r s' m' hm hp hn hx
    obtain ⟨⟨r1, s1⟩, m1, e1, hx⟩ := bind_ok (pep_ok hx)
    obtain ⟨c, m2, e2, hx⟩ := bind_ok hx
    simp only [HM.pure_apply, Prod.mk.injEq, Except.ok.injEq] at hx
    obtain ⟨⟨rfl, rfl⟩, rfl⟩ := hx
    obtain ⟨o, -⟩ := hstep s m r1 _ m1 hm hp hn e1
    obtain ⟨rfl, hl, hfull, hs⟩ := cloneInd_good o.full (o.full.2 r1 o.new o.there) e2
    refine ⟨⟨hfull, by rw [hl]; have := o.grows; omega, ?_, Or.inr o.grows, ?_, by omega, ?_, ?_, o.nodup⟩, by simp [evaluates]⟩
    · intro x hx hnp
      exact sameInd_trans (o.frame x hx hnp) (hs x (Nat.lt_of_lt_of_le hx o.grows))
    · exact o.full.1.inds
    · intro hc; have := (o.held _ hc).2; omega
    · intro q hq; exact ⟨(o.held q hq).1, by have := (o.held q hq).2; omega⟩
  | mutate check stopOk f =>
    refine ⟨hinit, ?_⟩
    rintro ⟨started, s⟩ m r ⟨b, s'⟩ m' hm hp hn hx
    have hx : (HM.lift (if started then .ok () else check) >>= fun _ => upstream stopOk (up.next s) >>= fun rs =>
      HM.pep479 (mutateInd f rs.1) >>= fun _ => pure (rs.1, (true, rs.2))) m = (.ok (r, (b, s')), m') := hx
    obtain ⟨_, m1, e0, hx1⟩ := bind_ok hx
    have hm1 : m1 = m := by simp only [HM.lift_apply, Prod.mk.injEq] at e0; exact e0.2.symm
    subst hm1
    clear hx
    obtain ⟨⟨r1, s1⟩, m2, e1, hx2⟩ := bind_ok hx1
    obtain ⟨_, m3, e2, hx⟩ := bind_ok hx2
    simp only [HM.pure_apply, Prod.mk.injEq, Except.ok.injEq] at hx
    obtain ⟨⟨rfl, rfl, rfl⟩, rfl⟩ := hx
    have e1 : up.next s m1 = (.ok (r1, s1), m2) := by
      cases stopOk
      · exact pep_ok e1
      · exact e1
    have e2 := pep_ok e2
    obtain ⟨o, -⟩ := hstep s m1 _ _ m2 hm hp hn e1
    obtain ⟨hl, hg⟩ := mutateInd_local h0 f hst o.full.1 o.new (o.full.2 _ o.new o.there) e2
    have hfr := (mutateInd_fresh (m0 := m0) (k := 0) f _ o.new).ok ⟨o.full.1, Nat.zero_le _⟩ e2
    exact ⟨o.touch hl hfr.1 hg, by simp [evaluates]⟩
  | crossover skip rec =>
    refine ⟨by simpa [heldBy, Stage.apply] using hinit, ?_⟩
    rintro ⟨pending, s⟩ m r ⟨pending', s'⟩ m' hm hp hn hx
    have hx := pep_ok hx
    refine ⟨?_, by simp [evaluates]⟩
    have hp : ∀ p ∈ pending.toList ++ pend s, m0.inds.length ≤ p ∧ p < m.inds.length := hp
    have hn : (pending.toList ++ pend s).Nodup := hn
    show Outcome (GenesIn n allowed) truth m0 m m' (pending.toList ++ pend s) (pending'.toList ++ pend s') r
    cases pending with
    | some b =>
      simp only [HM.pure_apply, Prod.mk.injEq, Except.ok.injEq] at hx
      obtain ⟨⟨rfl, rfl, rfl⟩, rfl⟩ := hx
      simp only [Option.toList, List.cons_append, List.nil_append, List.nodup_cons] at hn hp ⊢
      have hb := hp r (by simp)
      exact ⟨hm, Nat.le_refl _, fun _ _ _ => sameInd_refl _ _, Or.inl (by simp), hb.1, hb.2, hn.1,
        fun q hq => ⟨Or.inl (by simp [hq]), (hp q (by simp [hq])).2⟩, hn.2⟩
    | none =>
      simp only [Option.toList, List.nil_append] at hp hn
      obtain ⟨⟨a, s1⟩, m1, e1, hx⟩ := bind_ok hx
      obtain ⟨⟨b, s2⟩, m2, e2, hx⟩ := bind_ok hx
      obtain ⟨oa, -⟩ := hstep s m a s1 m1 hm hp hn e1
      obtain ⟨ob, -⟩ := hstep s1 m1 b s2 m2 oa.full (fun p hp' => ⟨by
        rcases (oa.held p hp').1 with h | h
        · exact (hp p h).1
        · exact Nat.le_trans hm.1.inds h, (oa.held p hp').2⟩) oa.nodup e2
      have hne : a ≠ b := by
        rintro rfl
        rcases ob.owned with h | h
        · exact oa.gone h
        · have := oa.there; omega
      have hsa := ob.frame a oa.there oa.gone
      have hlt : a < m2.inds.length := Nat.lt_of_lt_of_le oa.there ob.grows
      -- memory after both have arrived
      have base : ∀ m3, Fresh m0 m3 → Local [a, b] m2 m3 → GoodInd (GenesIn n allowed) truth m3 a →
          GoodInd (GenesIn n allowed) truth m3 b → Outcome (GenesIn n allowed) truth m0 m m3 (pend s) (b :: pend s2) a := by
        intro m3 hf hl ga gb
        refine ⟨⟨hf, fun x h1 h2 => ?_⟩, by rw [hl.1]; exact Nat.le_trans oa.grows ob.grows, fun x hx hnp => ?_, oa.owned,
          oa.new, by rw [hl.1]; exact hlt, ?_, ?_, ?_⟩
        · by_cases hxa : x = a
          · rw [hxa]; exact ga
          · by_cases hxb : x = b
            · rw [hxb]; exact gb
            · exact goodInd_same (hl.2 x (by simp [hxa, hxb])) (ob.full.2 x h1 (by rw [← hl.1]; exact h2))
        · have hnp1 : x ∉ pend s1 := by
            intro hx1
            rcases (oa.held x hx1).1 with h | h
            · exact hnp h
            · omega
          have hxa : x ≠ a := by
            rintro rfl
            rcases oa.owned with h | h
            · exact hnp h
            · omega
          have hxb : x ≠ b := by
            rintro rfl
            rcases ob.owned with h | h
            · exact hnp1 h
            · have := oa.grows; omega
          exact sameInd_trans (sameInd_trans (oa.frame x hx hnp) (ob.frame x (Nat.lt_of_lt_of_le hx oa.grows) hnp1))
            (hl.2 x (by simp [hxa, hxb]))
        · simp only [List.mem_cons, not_or]
          refine ⟨hne, fun h => ?_⟩
          rcases (ob.held a h).1 with h1 | h1
          · exact oa.gone h1
          · have := oa.there; omega
        · intro q hq
          simp only [List.mem_cons] at hq
          have key : ∀ q, (q ∈ pend s1 ∨ m1.inds.length ≤ q) → q ∈ pend s ∨ m.inds.length ≤ q := by
            intro q hq
            rcases hq with h | h
            · exact (oa.held q h).1
            · exact Or.inr (Nat.le_trans oa.grows h)
          rw [hl.1]
          rcases hq with rfl | hq
          · exact ⟨key _ ob.owned, ob.there⟩
          · exact ⟨key _ (ob.held q hq).1, (ob.held q hq).2⟩
        · exact List.nodup_cons.2 ⟨ob.gone, ob.nodup⟩
      obtain ⟨sk, m3, e3, hx⟩ := bind_ok hx
      simp only [useRng, Prod.mk.injEq, Except.ok.injEq] at e3
      obtain ⟨rfl, rfl⟩ := e3
      have hf3 : Full (GenesIn n allowed) truth m0 { m2 with rng := (skip m2.rng).2 } :=
        ⟨fresh_rng ob.full.1 _, fun x h1 h2 => goodInd_rng _ (ob.full.2 x h1 h2)⟩
      cases hsk : (skip m2.rng).1 with
      | true =>
        simp only [hsk, if_true, HM.pure_apply, Prod.mk.injEq, Except.ok.injEq] at hx
        obtain ⟨⟨rfl, rfl, rfl⟩, rfl⟩ := hx
        exact base _ hf3.1 ⟨rfl, fun y _ => ⟨rfl, rfl⟩⟩ (hf3.2 _ oa.new hlt) (hf3.2 _ ob.new ob.there)
      | false =>
        simp only [hsk, Bool.false_eq_true, if_false] at hx
        obtain ⟨_, m4, e4, hx⟩ := bind_ok hx
        simp only [HM.pure_apply, Prod.mk.injEq, Except.ok.injEq] at hx
        obtain ⟨⟨rfl, rfl, rfl⟩, rfl⟩ := hx
        obtain ⟨hl, ga, gb⟩ := crossInds_local h0 rec hst hf3.1 oa.new ob.new hne (hf3.2 _ oa.new hlt) (hf3.2 _ ob.new ob.there) e4
        have hfr := (crossInds_fresh (m0 := m0) (k := 0) rec _ b oa.new ob.new).ok ⟨hf3.1, Nat.zero_le _⟩ e4
        exact base _ hfr.1 ⟨hl.1, fun y hy => hl.2 y hy⟩ ga gb
  | evaluate dec prob =>
    refine ⟨hinit, ?_⟩
    intro s m r s' m' hm hp hn hx
    obtain ⟨⟨r1, s1⟩, m1, e1, hx⟩ := bind_ok (pep_ok hx)
    obtain ⟨f, m2, e2, hx⟩ := bind_ok hx
    simp only [HM.pure_apply, Prod.mk.injEq, Except.ok.injEq] at hx
    obtain ⟨⟨rfl, rfl⟩, rfl⟩ := hx
    obtain ⟨o, -⟩ := hstep s m _ _ m1 hm hp hn e1
    obtain ⟨hl, hg, hfit⟩ := evaluateInd_local dec prob hst (o.full.2 _ o.new o.there) e2
    have hfr := (evaluateInd_fresh (m0 := m0) (k := 0) dec prob _ o.new).ok ⟨o.full.1, Nat.zero_le _⟩ e2
    exact ⟨o.touch hl hfr.1 hg, fun _ => ⟨f, hfit⟩⟩
  | robustEvaluate nan dec prob =>
    refine ⟨hinit, ?_⟩
    intro s m r s' m' hm hp hn hx
    obtain ⟨⟨r1, s1⟩, m1, e1, hx⟩ := bind_ok (pep_ok hx)
    obtain ⟨f, m2, e2, hx⟩ := bind_ok hx
    simp only [HM.pure_apply, Prod.mk.injEq, Except.ok.injEq] at hx
    obtain ⟨⟨rfl, rfl⟩, rfl⟩ := hx
    obtain ⟨o, -⟩ := hstep s m _ _ m1 hm hp hn e1
    obtain ⟨hl, hg, hfit⟩ := robustEvaluate_local nan dec prob hst.1 hst.2.1 hst.2.2 (o.full.2 _ o.new o.there) e2
    have hfr := (robustEvaluate_fresh (m0 := m0) (k := 0) nan dec prob _ o.new).ok ⟨o.full.1, Nat.zero_le _⟩ e2
    exact ⟨o.touch hl hfr.1 hg, fun _ => ⟨f, hfit⟩⟩

/-- Does the chain end with an evaluation? -/
def Spec.endsEvaluated (stages : List (Stage γ ψ φ ρ)) : Bool := (stages.getLast?.map evaluates).getD false

theorem stages_owns (h0 : Sound m0) (stages : List (Stage γ ψ φ ρ)) (hst : ∀ st ∈ stages, StageOk n allowed truth st) :
    ∀ (up : HIter (Mem γ ψ φ ρ)) (pend : up.σ → List Nat) (ev : Bool), Owns (GenesIn n allowed) truth m0 up pend ev →
      ∃ pend', Owns (GenesIn n allowed) truth m0 (stagesIter up stages) pend' ((stages.getLast?.map evaluates).getD ev) := by
  induction stages with
  | nil => intro up pend ev h; exact ⟨pend, h⟩
  | cons st rest ih =>
    intro up pend ev h
    have h1 := stage_owns h0 up pend ev h st (hst st (by simp))
    obtain ⟨p2, h2⟩ := ih (fun s hs => hst s (by simp [hs])) _ _ _ h1
    refine ⟨p2, ?_⟩
    cases rest with
    | nil => exact h2
    | cons a l =>
      rw [List.getLast?_cons_cons]
      obtain ⟨z, hz⟩ : ∃ z, (a :: l).getLast? = some z := ⟨_, List.getLast?_eq_some_getLast (by simp)⟩
      rw [hz] at h2 ⊢
      exact h2

/-- The first clone stage, on individuals picked from a good population. -/
theorem clone_first_owns (h0 : Sound m0) (pop : List Nat) (hpop : ∀ r ∈ pop, GoodInd (GenesIn n allowed) truth m0 r)
    (choose : Mem γ ψ φ ρ → PyM Nat × ρ) :
    Owns (GenesIn n allowed) truth m0 (Stage.clone.apply (selectionIter pop choose)) (fun _ => []) false := by
  refine ⟨rfl, ?_⟩
  intro s m r s' m' hm hp hn hx
  obtain ⟨⟨r1, s1⟩, m1, e1, hx⟩ := bind_ok (pep_ok hx)
  obtain ⟨c, m2, e2, hx⟩ := bind_ok hx
  simp only [HM.pure_apply, Prod.mk.injEq, Except.ok.injEq] at hx
  obtain ⟨⟨rfl, rfl⟩, rfl⟩ := hx
  have hsel : r1 ∈ pop ∧ ∃ q, m1 = { m with rng := q } := by
    simp only [selectionIter] at e1
    rcases hc : choose m with ⟨x, q⟩
    rw [hc] at e1
    cases x with
    | error e => simp at e1
    | ok i =>
      cases hpi : pop[i]? with
      | none => simp [hpi] at e1
      | some y =>
        simp only [hpi, Prod.mk.injEq, Except.ok.injEq] at e1
        exact ⟨(Prod.mk.inj e1.1).1 ▸ List.mem_of_getElem? hpi, q, e1.2.symm⟩
  obtain ⟨hr1, q, rfl⟩ := hsel
  have hf1 : Full (GenesIn n allowed) truth m0 { m with rng := q } :=
    ⟨fresh_rng hm.1 _, fun x h1 h2 => goodInd_rng _ (hm.2 x h1 h2)⟩
  obtain ⟨g, fo, hg, -⟩ := hpop r1 hr1
  obtain ⟨-, -, -, hlt⟩ := genes_lt hg
  have hgood := goodInd_same (unchanged_same h0 hf1.1.unchanged hlt) (hpop r1 hr1)
  obtain ⟨rfl, hl, hfull, hs⟩ := cloneInd_good hf1 hgood e2
  refine ⟨⟨hfull, by rw [hl]; simp, fun x hx _ => sameInd_trans ⟨rfl, rfl⟩ (hs x hx), Or.inr (Nat.le_refl _), hm.1.inds,
    by rw [hl]; simp, by simp, by simp, by simp⟩, by simp⟩

theorem hpull_owns (it : HIter (Mem γ ψ φ ρ)) (pend : it.σ → List Nat) (ev : Bool) (h : Owns (GenesIn n allowed) truth m0 it pend ev)
    (k : Nat) : ∀ (s : it.σ) (m : Mem γ ψ φ ρ) (out : List Nat) (s' : it.σ) (m' : Mem γ ψ φ ρ), Full (GenesIn n allowed) truth m0 m →
      (∀ p ∈ pend s, m0.inds.length ≤ p ∧ p < m.inds.length) → (pend s).Nodup → hpull it.next k s m = (.ok (out, s'), m') →
      Full (GenesIn n allowed) truth m0 m' ∧ m.inds.length ≤ m'.inds.length ∧
      (∀ x, x < m.inds.length → x ∉ pend s → SameInd m m' x) ∧
      (∀ r ∈ out, m0.inds.length ≤ r ∧ r < m'.inds.length ∧ (ev = true → HasFitness m' r)) := by
  induction k with
  | zero =>
    intro s m out s' m' hm hp hn hx
    simp only [hpull, HM.pure_apply, Prod.mk.injEq, Except.ok.injEq] at hx
    obtain ⟨⟨rfl, rfl⟩, rfl⟩ := hx
    exact ⟨hm, Nat.le_refl _, fun _ _ _ => sameInd_refl _ _, by simp⟩
  | succ k ih =>
    intro s m out s' m' hm hp hn hx
    obtain ⟨⟨r, s1⟩, m1, e1, hx⟩ := bind_ok hx
    obtain ⟨⟨rs, s2⟩, m2, e2, hx⟩ := bind_ok hx
    simp only [HM.pure_apply, Prod.mk.injEq, Except.ok.injEq] at hx
    obtain ⟨⟨rfl, rfl⟩, rfl⟩ := hx
    obtain ⟨o, hev⟩ := h.step s m r s1 m1 hm hp hn e1
    obtain ⟨g1, g2, g3, g4⟩ := ih s1 m1 rs s2 m2 o.full (fun p hp' => ⟨by
      rcases (o.held p hp').1 with h | h
      · exact (hp p h).1
      · exact Nat.le_trans hm.1.inds h, (o.held p hp').2⟩) o.nodup e2
    refine ⟨g1, Nat.le_trans o.grows g2, ?_, ?_⟩
    · intro x hx hnp
      refine sameInd_trans (o.frame x hx hnp) (g3 x (Nat.lt_of_lt_of_le hx o.grows) fun hx1 => ?_)
      rcases (o.held x hx1).1 with h | h
      · exact hnp h
      · omega
    · intro x hx
      simp only [List.mem_cons] at hx
      rcases hx with rfl | hx
      · refine ⟨o.new, Nat.lt_of_lt_of_le o.there g2, fun he => ?_⟩
        obtain ⟨f, hf⟩ := hev he
        exact ⟨f, by rw [sameInd_fitness (g3 x o.there o.gone)]; exact hf⟩
      · exact g4 x hx

end Leap
