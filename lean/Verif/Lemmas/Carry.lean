import Verif.Lemmas.Owns

/-! # Generators between which temporary individuals are made

As `Lemmas/Owns.lean`, but nothing is asked of new individuals that no generator holds back. -/

namespace Leap
open Spec

variable {γ ψ φ ρ : Type} {m0 : Mem γ ψ φ ρ} {n : Nat} {allowed : Nat → γ → Prop}

/-- Individual `r` has acceptable genes. -/
def Spec.GoodGenes (n : Nat) (allowed : Nat → γ → Prop) (m : Mem γ ψ φ ρ) (r : Nat) : Prop :=
  ∃ g, genes m r = some g ∧ GenesIn n allowed g

theorem goodGenes_iff (m : Mem γ ψ φ ρ) (r : Nat) :
    GoodGenes n allowed m r ↔ GoodInd (GenesIn n allowed) (fun _ _ => True) m r := by
  constructor
  · rintro ⟨g, h1, h2⟩
    obtain ⟨o, ho, -, -⟩ := genes_lt h1
    exact ⟨g, o.fitness, h1, by simp [fitness, ho], h2, fun _ _ => trivial⟩
  · rintro ⟨g, fo, h1, -, h2, -⟩
    exact ⟨g, h1, h2⟩

theorem goodGenes_same {m m' : Mem γ ψ φ ρ} {y : Nat} (h : SameInd m m' y) (hg : GoodGenes n allowed m y) :
    GoodGenes n allowed m' y := by
  obtain ⟨g, h1, h2⟩ := hg
  exact ⟨g, by rw [h.2, h1], h2⟩

theorem goodGenes_lt {m : Mem γ ψ φ ρ} {y : Nat} (hg : GoodGenes n allowed m y) : y < m.inds.length := by
  obtain ⟨g, h1, h2⟩ := hg
  obtain ⟨-, -, -, h⟩ := genes_lt h1
  exact h

/-- What a call of `next()` did that took memory from `m` to `m'` and yielded `r`; before and after it the generator
held back the individuals `p` and `p'`. -/
structure Yield (n : Nat) (allowed : Nat → γ → Prop) (m0 m m' : Mem γ ψ φ ρ) (p p' : List Nat) (r : Nat) : Prop where
  fresh : Fresh m0 m'
  grows : m.inds.length ≤ m'.inds.length
  frame : ∀ x, x < m.inds.length → x ∉ p → SameInd m m' x
  owned : r ∈ p ∨ m.inds.length ≤ r
  new : m0.inds.length ≤ r
  good : GoodGenes n allowed m' r
  gone : r ∉ p'
  held : ∀ q ∈ p', (q ∈ p ∨ m.inds.length ≤ q) ∧ m0.inds.length ≤ q ∧ GoodGenes n allowed m' q
  nodup : p'.Nodup

/-- A generator that touches and yields only individuals it holds back or makes. -/
structure Carries (n : Nat) (allowed : Nat → γ → Prop) (m0 : Mem γ ψ φ ρ) (it : HIter (Mem γ ψ φ ρ))
    (pend : it.σ → List Nat) : Prop where
  init : pend it.init = []
  step : ∀ s m r s' m', Fresh m0 m → (∀ p ∈ pend s, m0.inds.length ≤ p ∧ GoodGenes n allowed m p) → (pend s).Nodup →
    it.next s m = (.ok (r, s'), m') → Yield n allowed m0 m m' (pend s) (pend s') r

/-- Doing something to the individual just received. -/
theorem Yield.touch {m m1 m2 : Mem γ ψ φ ρ} {p p' : List Nat} {r : Nat} (h : Yield n allowed m0 m m1 p p' r)
    (hgrow : m1.inds.length ≤ m2.inds.length) (hl : ∀ y, y < m1.inds.length → y ≠ r → SameInd m1 m2 y) (hf : Fresh m0 m2)
    (hg : GoodGenes n allowed m2 r) : Yield n allowed m0 m m2 p p' r := by
  refine ⟨hf, Nat.le_trans h.grows hgrow, fun x hx hn => ?_, h.owned, h.new, hg, h.gone, fun q hq => ?_, h.nodup⟩
  · have hne : x ≠ r := by
      rintro rfl
      rcases h.owned with h1 | h1
      · exact hn h1
      · omega
    exact sameInd_trans (h.frame x hx hn) (hl x (Nat.lt_of_lt_of_le hx h.grows) hne)
  · obtain ⟨h1, h2, h3⟩ := h.held q hq
    exact ⟨h1, h2, goodGenes_same (hl q (goodGenes_lt h3) (fun e => h.gone (e ▸ hq))) h3⟩

theorem cloneInd_goodGenes {m m' : Mem γ ψ φ ρ} (h : Fresh m0 m) {r c : Nat} (hr : GoodGenes n allowed m r)
    (hx : cloneInd r m = (.ok c, m')) :
    c = m.inds.length ∧ m'.inds.length = m.inds.length + 1 ∧ Fresh m0 m' ∧ GoodGenes n allowed m' c ∧
    ∀ y, y < m.inds.length → SameInd m m' y := by
  have hfr := (cloneInd_fresh (m0 := m0) (k := 0) r).ok ⟨h, Nat.zero_le _⟩ hx
  obtain ⟨rfl, h2, h3, h4⟩ := cloneInd_good (m0 := m) (G := GenesIn n allowed) (truth := fun _ _ => True)
    ⟨Fresh.refl m h.sound, fun r h1 h2 => by omega⟩ ((goodGenes_iff m r).1 hr) hx
  exact ⟨rfl, h2, hfr.1.1, (goodGenes_iff _ _).2 (h3.2 _ (Nat.le_refl _) (by omega)), h4⟩

theorem stage_carries (h0 : Sound m0) (up : HIter (Mem γ ψ φ ρ)) (pend : up.σ → List Nat)
    (h : Carries n allowed m0 up pend) (st : Stage γ ψ φ ρ) (hst : StageOk n allowed (fun _ _ => True) st) :
    Carries n allowed m0 (st.apply up) (heldBy up pend st) := by
  obtain ⟨hinit, hstep⟩ := h
  cases st with
  | clone =>
    refine ⟨hinit, ?_⟩
    intro s m r s' m' hm hp hn hx
    obtain ⟨⟨r1, s1⟩, m1, e1, hx⟩ := bind_ok (pep_ok hx)
    obtain ⟨c, m2, e2, hx⟩ := bind_ok hx
    simp only [HM.pure_apply, Prod.mk.injEq, Except.ok.injEq] at hx
    obtain ⟨⟨rfl, rfl⟩, rfl⟩ := hx
    have o := hstep s m r1 _ m1 hm hp hn e1
    obtain ⟨rfl, hl, hfr, hgood, hs⟩ := cloneInd_goodGenes o.fresh o.good e2
    refine ⟨hfr, by rw [hl]; have := o.grows; omega, ?_, Or.inr o.grows, o.fresh.inds, hgood, ?_, ?_, o.nodup⟩
    · intro x hx hnp
      exact sameInd_trans (o.frame x hx hnp) (hs x (Nat.lt_of_lt_of_le hx o.grows))
    · intro hc; have := goodGenes_lt (o.held _ hc).2.2; omega
    · intro q hq
      obtain ⟨a1, a2, a3⟩ := o.held q hq
      exact ⟨a1, a2, goodGenes_same (hs q (goodGenes_lt a3)) a3⟩
  | mutate check stopOk f =>
    refine ⟨hinit, ?_⟩
    rintro ⟨started, s⟩ m r ⟨b, s'⟩ m' hm hp hn hx
    have hx : (HM.lift (if started then .ok () else check) >>= fun _ => upstream stopOk (up.next s) >>= fun rs =>
      HM.pep479 (mutateInd f rs.1) >>= fun _ => pure (rs.1, (true, rs.2))) m = (.ok (r, (b, s')), m') := hx
    obtain ⟨_, m1, e0, hx1⟩ := bind_ok hx
    have hm1 : m1 = m := by simp only [HM.lift_apply, Prod.mk.injEq] at e0; exact e0.2.symm
    subst hm1
    clear hx
    obtain ⟨⟨r1, s1⟩, m2, e1, hx2⟩ := bind_ok hx1
    obtain ⟨_, m3, e2, hx⟩ := bind_ok hx2
    simp only [HM.pure_apply, Prod.mk.injEq, Except.ok.injEq] at hx
    obtain ⟨⟨rfl, rfl, rfl⟩, rfl⟩ := hx
    have e1 : up.next s m1 = (.ok (r1, s1), m2) := by
      cases stopOk
      · exact pep_ok e1
      · exact e1
    have e2 := pep_ok e2
    have o := hstep s m1 _ _ m2 hm hp hn e1
    obtain ⟨hl, hg⟩ := mutateInd_local h0 f hst o.fresh o.new ((goodGenes_iff _ _).1 o.good) e2
    have hfr := (mutateInd_fresh (m0 := m0) (k := 0) f _ o.new).ok ⟨o.fresh, Nat.zero_le _⟩ e2
    exact o.touch (by rw [hl.1]) (fun y _ hy => hl.2 y (by simpa using hy)) hfr.1 ((goodGenes_iff _ _).2 hg)
  | crossover skip rec =>
    refine ⟨by simpa [heldBy, Stage.apply] using hinit, ?_⟩
    rintro ⟨pending, s⟩ m r ⟨pending', s'⟩ m' hm hp hn hx
    have hx := pep_ok hx
    have hp : ∀ p ∈ pending.toList ++ pend s, m0.inds.length ≤ p ∧ GoodGenes n allowed m p := hp
    have hn : (pending.toList ++ pend s).Nodup := hn
    show Yield n allowed m0 m m' (pending.toList ++ pend s) (pending'.toList ++ pend s') r
    cases pending with
    | some b =>
      simp only [HM.pure_apply, Prod.mk.injEq, Except.ok.injEq] at hx
      obtain ⟨⟨rfl, rfl, rfl⟩, rfl⟩ := hx
      simp only [Option.toList, List.cons_append, List.nil_append, List.nodup_cons] at hn hp ⊢
      have hb := hp r (by simp)
      exact ⟨hm, Nat.le_refl _, fun _ _ _ => sameInd_refl _ _, Or.inl (by simp), hb.1, hb.2, hn.1,
        fun q hq => ⟨Or.inl (by simp [hq]), hp q (by simp [hq])⟩, hn.2⟩
    | none =>
      simp only [Option.toList, List.nil_append] at hp hn
      obtain ⟨⟨a, s1⟩, m1, e1, hx⟩ := bind_ok hx
      obtain ⟨⟨b, s2⟩, m2, e2, hx⟩ := bind_ok hx
      have oa := hstep s m a s1 m1 hm hp hn e1
      have ob := hstep s1 m1 b s2 m2 oa.fresh (fun p hp' => (oa.held p hp').2) oa.nodup e2
      have ta := goodGenes_lt oa.good
      have hne : a ≠ b := by
        rintro rfl
        rcases ob.owned with h | h
        · exact oa.gone h
        · omega
      have hsa := ob.frame a ta oa.gone
      have hga : GoodGenes n allowed m2 a := goodGenes_same hsa oa.good
      have hna : a ∉ pend s2 := fun h => by
        rcases (ob.held a h).1 with h1 | h1
        · exact oa.gone h1
        · omega
      -- memory after both have arrived
      have base : ∀ m3, Fresh m0 m3 → Local [a, b] m2 m3 → GoodGenes n allowed m3 a →
          GoodGenes n allowed m3 b → Yield n allowed m0 m m3 (pend s) (b :: pend s2) a := by
        intro m3 hf hl ga gb
        refine ⟨hf, by rw [hl.1]; exact Nat.le_trans oa.grows ob.grows, fun x hx hnp => ?_, oa.owned,
          oa.new, ga, ?_, ?_, ?_⟩
        · have hnp1 : x ∉ pend s1 := by
            intro hx1
            rcases (oa.held x hx1).1 with h | h
            · exact hnp h
            · omega
          have hxa : x ≠ a := by
            rintro rfl
            rcases oa.owned with h | h
            · exact hnp h
            · omega
          have hxb : x ≠ b := by
            rintro rfl
            rcases ob.owned with h | h
            · exact hnp1 h
            · have := oa.grows; omega
          exact sameInd_trans (sameInd_trans (oa.frame x hx hnp) (ob.frame x (Nat.lt_of_lt_of_le hx oa.grows) hnp1))
            (hl.2 x (by simp [hxa, hxb]))
        · simp only [List.mem_cons, not_or]
          exact ⟨hne, hna⟩
        · intro q hq
          simp only [List.mem_cons] at hq
          have key : ∀ q, (q ∈ pend s1 ∨ m1.inds.length ≤ q) → q ∈ pend s ∨ m.inds.length ≤ q := by
            intro q hq
            rcases hq with h | h
            · exact (oa.held q h).1
            · exact Or.inr (Nat.le_trans oa.grows h)
          rcases hq with rfl | hq
          · exact ⟨key _ ob.owned, ob.new, gb⟩
          · obtain ⟨c1, c2, c3⟩ := ob.held q hq
            refine ⟨key _ c1, c2, goodGenes_same (hl.2 q ?_) c3⟩
            simp only [List.mem_cons, List.not_mem_nil, or_false, not_or]
            exact ⟨fun e => hna (e ▸ hq), fun e => ob.gone (e ▸ hq)⟩
        · exact List.nodup_cons.2 ⟨ob.gone, ob.nodup⟩
      obtain ⟨sk, m3, e3, hx⟩ := bind_ok hx
      simp only [useRng, Prod.mk.injEq, Except.ok.injEq] at e3
      obtain ⟨rfl, rfl⟩ := e3
      have hf3 : Fresh m0 { m2 with rng := (skip m2.rng).2 } := fresh_rng ob.fresh _
      have hr : ∀ x, GoodGenes n allowed m2 x → GoodGenes n allowed { m2 with rng := (skip m2.rng).2 } x :=
        fun x hx => goodGenes_same ⟨rfl, rfl⟩ hx
      cases hsk : (skip m2.rng).1 with
      | true =>
        simp only [hsk, if_true, HM.pure_apply, Prod.mk.injEq, Except.ok.injEq] at hx
        obtain ⟨⟨rfl, rfl, rfl⟩, rfl⟩ := hx
        exact base _ hf3 ⟨rfl, fun y _ => ⟨rfl, rfl⟩⟩ (hr _ hga) (hr _ ob.good)
      | false =>
        simp only [hsk, Bool.false_eq_true, if_false] at hx
        obtain ⟨_, m4, e4, hx⟩ := bind_ok hx
        simp only [HM.pure_apply, Prod.mk.injEq, Except.ok.injEq] at hx
        obtain ⟨⟨rfl, rfl, rfl⟩, rfl⟩ := hx
        obtain ⟨hl, ga, gb⟩ := crossInds_local h0 rec hst hf3 oa.new ob.new hne ((goodGenes_iff _ _).1 (hr _ hga))
          ((goodGenes_iff _ _).1 (hr _ ob.good)) e4
        have hfr := (crossInds_fresh (m0 := m0) (k := 0) rec _ b oa.new ob.new).ok ⟨hf3, Nat.zero_le _⟩ e4
        exact base _ hfr.1 ⟨hl.1, fun y hy => hl.2 y hy⟩ ((goodGenes_iff _ _).2 ga) ((goodGenes_iff _ _).2 gb)
  | evaluate dec prob =>
    refine ⟨hinit, ?_⟩
    intro s m r s' m' hm hp hn hx
    obtain ⟨⟨r1, s1⟩, m1, e1, hx⟩ := bind_ok (pep_ok hx)
    obtain ⟨f, m2, e2, hx⟩ := bind_ok hx
    simp only [HM.pure_apply, Prod.mk.injEq, Except.ok.injEq] at hx
    obtain ⟨⟨rfl, rfl⟩, rfl⟩ := hx
    have o := hstep s m _ _ m1 hm hp hn e1
    obtain ⟨hl, hg, hfit⟩ := evaluateInd_local dec prob hst ((goodGenes_iff _ _).1 o.good) e2
    have hfr := (evaluateInd_fresh (m0 := m0) (k := 0) dec prob _ o.new).ok ⟨o.fresh, Nat.zero_le _⟩ e2
    exact o.touch (by rw [hl.1]) (fun y _ hy => hl.2 y (by simpa using hy)) hfr.1 ((goodGenes_iff _ _).2 hg)
  | robustEvaluate nan dec prob =>
    refine ⟨hinit, ?_⟩
    intro s m r s' m' hm hp hn hx
    obtain ⟨⟨r1, s1⟩, m1, e1, hx⟩ := bind_ok (pep_ok hx)
    obtain ⟨f, m2, e2, hx⟩ := bind_ok hx
    simp only [HM.pure_apply, Prod.mk.injEq, Except.ok.injEq] at hx
    obtain ⟨⟨rfl, rfl⟩, rfl⟩ := hx
    have o := hstep s m _ _ m1 hm hp hn e1
    obtain ⟨hl, hg, hfit⟩ := robustEvaluate_local nan dec prob hst.1 hst.2.1 hst.2.2 ((goodGenes_iff _ _).1 o.good) e2
    have hfr := (robustEvaluate_fresh (m0 := m0) (k := 0) nan dec prob _ o.new).ok ⟨o.fresh, Nat.zero_le _⟩ e2
    exact o.touch (by rw [hl.1]) (fun y _ hy => hl.2 y (by simpa using hy)) hfr.1 ((goodGenes_iff _ _).2 hg)

theorem stages_carries (h0 : Sound m0) (stages : List (Stage γ ψ φ ρ)) (hst : ∀ st ∈ stages, StageOk n allowed (fun _ _ => True) st) :
    ∀ (up : HIter (Mem γ ψ φ ρ)) (pend : up.σ → List Nat), Carries n allowed m0 up pend →
      ∃ pend', Carries n allowed m0 (stagesIter up stages) pend' := by
  induction stages with
  | nil => intro up pend h; exact ⟨pend, h⟩
  | cons st rest ih =>
    intro up pend h
    exact ih (fun s hs => hst s (by simp [hs])) _ _ (stage_carries h0 up pend h st (hst st (by simp)))

/-- The first clone stage, on individuals picked from a good population. -/
theorem clone_first_carries (h0 : Sound m0) (pop : List Nat) (hpop : ∀ r ∈ pop, GoodGenes n allowed m0 r)
    (choose : Mem γ ψ φ ρ → PyM Nat × ρ) :
    Carries n allowed m0 (Stage.clone.apply (selectionIter pop choose)) (fun _ => []) := by
  refine ⟨rfl, ?_⟩
  intro s m r s' m' hm hp hn hx
  obtain ⟨⟨r1, s1⟩, m1, e1, hx⟩ := bind_ok (pep_ok hx)
  obtain ⟨c, m2, e2, hx⟩ := bind_ok hx
  simp only [HM.pure_apply, Prod.mk.injEq, Except.ok.injEq] at hx
  obtain ⟨⟨rfl, rfl⟩, rfl⟩ := hx
  have hsel : r1 ∈ pop ∧ ∃ q, m1 = { m with rng := q } := by
    simp only [selectionIter] at e1
    rcases hc : choose m with ⟨x, q⟩
    rw [hc] at e1
    cases x with
    | error e => simp at e1
    | ok i =>
      cases hpi : pop[i]? with
      | none => simp [hpi] at e1
      | some y =>
        simp only [hpi, Prod.mk.injEq, Except.ok.injEq] at e1
        exact ⟨(Prod.mk.inj e1.1).1 ▸ List.mem_of_getElem? hpi, q, e1.2.symm⟩
  obtain ⟨hr1, q, rfl⟩ := hsel
  have hf1 : Fresh m0 { m with rng := q } := fresh_rng hm _
  have hgood := goodGenes_same (unchanged_same h0 hf1.unchanged (goodGenes_lt (hpop r1 hr1))) (hpop r1 hr1)
  obtain ⟨rfl, hl, hfr, hg, hs⟩ := cloneInd_goodGenes hf1 hgood e2
  exact ⟨hfr, by rw [hl]; simp, fun x hx _ => sameInd_trans ⟨rfl, rfl⟩ (hs x hx), Or.inr (Nat.le_refl _), hm.inds,
    hg, by simp, by simp, by simp⟩

/-- Pulling from a generator all of whose yields have a property that lasts as long as the yielded individual and everything
older than the generator stay as they are. -/
theorem hpull_carries (it : HIter (Mem γ ψ φ ρ)) (pend : it.σ → List Nat) (h : Carries n allowed m0 it pend)
    (P : Mem γ ψ φ ρ → Nat → Prop)
    (hP : ∀ s m r s' m', Fresh m0 m → (∀ p ∈ pend s, m0.inds.length ≤ p ∧ GoodGenes n allowed m p) → (pend s).Nodup →
      it.next s m = (.ok (r, s'), m') → P m' r)
    (hkeep : ∀ m m' r, Fresh m0 m → Fresh m0 m' → SameInd m m' r → P m r → P m' r)
    (k : Nat) : ∀ (s : it.σ) (m : Mem γ ψ φ ρ) (out : List Nat) (s' : it.σ) (m' : Mem γ ψ φ ρ), Fresh m0 m →
      (∀ p ∈ pend s, m0.inds.length ≤ p ∧ GoodGenes n allowed m p) → (pend s).Nodup → hpull it.next k s m = (.ok (out, s'), m') →
      Fresh m0 m' ∧ m.inds.length ≤ m'.inds.length ∧ out.length = k ∧ out.Nodup ∧
      (∀ x, x < m.inds.length → x ∉ pend s → SameInd m m' x) ∧
      (∀ r ∈ out, m0.inds.length ≤ r ∧ (r ∈ pend s ∨ m.inds.length ≤ r) ∧ GoodGenes n allowed m' r ∧ P m' r) := by
  induction k with
  | zero =>
    intro s m out s' m' hm hp hn hx
    simp only [hpull, HM.pure_apply, Prod.mk.injEq, Except.ok.injEq] at hx
    obtain ⟨⟨rfl, rfl⟩, rfl⟩ := hx
    exact ⟨hm, Nat.le_refl _, rfl, List.nodup_nil, fun _ _ _ => sameInd_refl _ _, by simp⟩
  | succ k ih =>
    intro s m out s' m' hm hp hn hx
    obtain ⟨⟨r, s1⟩, m1, e1, hx⟩ := bind_ok hx
    obtain ⟨⟨rs, s2⟩, m2, e2, hx⟩ := bind_ok hx
    simp only [HM.pure_apply, Prod.mk.injEq, Except.ok.injEq] at hx
    obtain ⟨⟨rfl, rfl⟩, rfl⟩ := hx
    have o := h.step s m r s1 m1 hm hp hn e1
    have hpr := hP s m r s1 m1 hm hp hn e1
    obtain ⟨g1, g2, g3, g4, g5, g6⟩ := ih s1 m1 rs s2 m2 o.fresh (fun p hp' => (o.held p hp').2) o.nodup e2
    have hs := g5 r (goodGenes_lt o.good) o.gone
    refine ⟨g1, Nat.le_trans o.grows g2, by simp [g3], List.nodup_cons.2 ⟨fun hr => ?_, g4⟩, ?_, ?_⟩
    · rcases (g6 r hr).2.1 with h1 | h1
      · exact o.gone h1
      · have := goodGenes_lt o.good; omega
    · intro x hx hnp
      refine sameInd_trans (o.frame x hx hnp) (g5 x (Nat.lt_of_lt_of_le hx o.grows) fun hx1 => ?_)
      rcases (o.held x hx1).1 with h | h
      · exact hnp h
      · omega
    · intro x hx
      simp only [List.mem_cons] at hx
      rcases hx with rfl | hx
      · exact ⟨o.new, o.owned, goodGenes_same hs o.good, hkeep _ _ _ o.fresh g1 hs hpr⟩
      · obtain ⟨c1, c2, c3, c4⟩ := g6 x hx
        refine ⟨c1, ?_, c3, c4⟩
        rcases c2 with h | h
        · exact (o.held x h).1
        · exact Or.inr (Nat.le_trans o.grows h)

end Leap
