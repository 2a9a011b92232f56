import Verif.Lemmas.Owns

/-! # Generators that never raise -/

namespace Leap
open Spec

variable {γ ψ φ ρ : Type} {m0 : Mem γ ψ φ ρ} {n : Nat} {allowed : Nat → γ → Prop} {truth : List γ → φ → Prop}

theorem bind_live {M α β : Type} {x : HM M α} {f : α → HM M β} {m m1 : M} {a : α} (h : x m = (.ok a, m1)) :
    (x >>= f) m = f a m1 := by rw [HM.bind_apply, h]

theorem pep_live {M α : Type} {x : HM M α} {m m' : M} {a : α} (h : x m = (.ok a, m')) : HM.pep479 x m = (.ok a, m') := by
  simp [HM.pep479, h]

/-- What is asked of an operator for it not to raise: mutation functions accept acceptable genomes, masks have the length
asked for, acceptable genomes decode and evaluate. -/
def Spec.StageLive (n : Nat) (allowed : Nat → γ → Prop) : Stage γ ψ φ ρ → Prop
  | .clone => True
  | .mutate check _ f => check = .ok () ∧ ∀ g s, GenesIn n allowed g → ∃ x, (f g s).result = .ok x
  | .crossover _ (.uniform mask) => ∀ s, ∃ mk, (mask s n).1 = .ok mk ∧ mk.length = n
  | .crossover _ (.nary _ _) => True
  | .evaluate dec prob => ∀ g, GenesIn n allowed g → ∃ c, decodeOf dec g = .ok c ∧ ∀ s, ∃ f, (prob.evaluate c s).1 = .ok f
  | .robustEvaluate _ _ _ => True

theorem mutateInd_live {G : List γ → Prop} (f : MutFn γ ρ) (hf : ∀ g s, G g → ∃ x, (f g s).result = .ok x)
    {m : Mem γ ψ φ ρ} {r : Nat} (hgood : GoodInd G truth m r) : ∃ m', mutateInd f r m = (.ok (), m') := by
  obtain ⟨g, fo, hg, hfit, hG, -⟩ := hgood
  obtain ⟨o, ho, ha, -⟩ := genes_lt hg
  obtain ⟨x, hx⟩ := hf g m.rng hG
  rw [mutateInd_effect f m r o g ho ha, hx]
  cases x
  · exact ⟨_, rfl⟩
  · exact ⟨_, rfl⟩

theorem evaluateInd_live {G : List γ → Prop} (dec : Dec γ ψ) (prob : Prob γ ψ φ ρ)
    (hp : ∀ g, G g → ∃ c, decodeOf dec g = .ok c ∧ ∀ s, ∃ f, (prob.evaluate c s).1 = .ok f)
    {m : Mem γ ψ φ ρ} {r : Nat} (hgood : GoodInd G truth m r) : ∃ f m', evaluateInd dec prob r m = (.ok f, m') := by
  obtain ⟨g, fo, hg, hfit, hG, -⟩ := hgood
  obtain ⟨o, ho, ha, -⟩ := genes_lt hg
  obtain ⟨c, hc, hs⟩ := hp g hG
  obtain ⟨f, hf⟩ := hs m.rng
  obtain ⟨k, hk, he⟩ := evaluateImp_effect dec prob m r o g ho ha
  rw [hc] at he
  simp only [hf] at he
  refine ⟨f, ?_⟩
  rw [evaluateInd, bind_live he]
  exact ⟨_, rfl⟩

theorem robustEvaluate_live {G : List γ → Prop} (nan : φ) (dec : Dec γ ψ) (prob : Prob γ ψ φ ρ)
    {m : Mem γ ψ φ ρ} {r : Nat} (hgood : GoodInd G truth m r) : ∃ f m', robustEvaluate nan dec prob r m = (.ok f, m') := by
  obtain ⟨g, fo, hg, hfit, hG, -⟩ := hgood
  unfold robustEvaluate
  rcases evaluateImp dec prob r m with ⟨x, m1⟩
  cases x
  · exact ⟨_, _, rfl⟩
  · exact ⟨_, _, rfl⟩

theorem cloneInd_live {G : List γ → Prop} {m : Mem γ ψ φ ρ} {r : Nat} (hgood : GoodInd G truth m r) :
    ∃ c m', cloneInd r m = (.ok c, m') := by
  obtain ⟨g, fo, hg, hfit, hG, -⟩ := hgood
  obtain ⟨o, ho, ha, -⟩ := genes_lt hg
  exact ⟨_, _, clone_effect m r o g ho ha⟩

theorem recombineInds_live (h0 : Sound m0) (rec : Recombiner ρ) {m : Mem γ ψ φ ρ} (h : Fresh m0 m) {ra rb : Nat}
    (hb : m0.inds.length ≤ rb) (hne : ra ≠ rb) {a b : List γ} (hga : genes m ra = some a)
    (hgb : genes m rb = some b) (ha : a.length = n) (hbl : b.length = n) (hc : GoodCuts n rec) {skip : ρ → Bool × ρ}
    (hl : StageLive n allowed (.crossover skip rec : Stage γ ψ φ ρ)) : ∃ m', recombineInds rec ra rb m = (.ok (), m') := by
  obtain ⟨oa, hoa, haa, hlta⟩ := genes_lt hga
  obtain ⟨ob, hob, hbb, hltb⟩ := genes_lt hgb
  have hdist : oa.genome ≠ ob.genome := other_genome h0 h hb hob hoa hne
  cases rec with
  | uniform mask =>
    obtain ⟨mk, hmk, hml⟩ := hl m.rng
    have hmin : min a.length b.length = n := by omega
    have s1 := maskSelect_length mk a (by omega)
    have s2 := maskSelect_length mk b (by omega)
    simp only [recombineInds, HM.bind_apply, getObj, hoa, hob, getArr, haa, hbb, useRng, setArr, hmin, hmk, HM.lift_apply]
    simp [boolIndex, boolAssign, hml, ha, hbl, s1, s2, List.getElem?_set_ne hdist, hbb]
  | nary k cuts =>
    obtain ⟨a', b', e, -⟩ := nary_crossover_alternates k (cuts m.rng n).1 a b (by omega) (by rw [ha]; exact hc m.rng)
    simp only [recombineInds, HM.bind_apply, getObj, hoa, hob, getArr, haa, hbb, useRng, newArr, modObj, HM.lift_apply, ha, e]
    exact ⟨_, rfl⟩

theorem crossInds_live (h0 : Sound m0) (rec : Recombiner ρ) {m : Mem γ ψ φ ρ} (h : Fresh m0 m) {ra rb : Nat}
    (ha : m0.inds.length ≤ ra) (hb : m0.inds.length ≤ rb) (hne : ra ≠ rb) (hga : GoodInd (GenesIn n allowed) truth m ra)
    (hgb : GoodInd (GenesIn n allowed) truth m rb) (hc : GoodCuts n rec) {skip : ρ → Bool × ρ}
    (hl : StageLive n allowed (.crossover skip rec : Stage γ ψ φ ρ)) : ∃ m', crossInds rec ra rb m = (.ok (), m') := by
  obtain ⟨a, fa, qa, -, Ga, -⟩ := hga
  obtain ⟨b, fb, qb, -, Gb, -⟩ := hgb
  obtain ⟨m1, e⟩ := recombineInds_live h0 rec h hb hne qa qb Ga.1 Gb.1 hc hl
  obtain ⟨⟨hll, hs⟩, a', b', hga, hgb, hex⟩ := recombineInds_local h0 rec h ha hb hne qa qb (Ga.1.trans Gb.1.symm)
    (by rw [Ga.1]; exact hc) e
  have hf1 := (recombineInds_fresh (m0 := m0) (k := 0) rec ra rb ha hb).ok ⟨h, Nat.zero_le _⟩ e
  obtain ⟨oa, hoa, haa, hlta⟩ := genes_lt hga
  obtain ⟨ob, hob, hbb, hltb⟩ := genes_lt hgb
  have h1 := hf1.1.sound.parents oa (List.mem_of_getElem? hoa)
  have h2 := hf1.1.sound.parents ob (List.mem_of_getElem? hob)
  rw [crossInds, bind_live e]
  simp only [HM.bind_apply, getObj, hoa, hob, getSet, setSet, modObj, List.getElem?_eq_getElem h1, List.getElem?_eq_getElem h2]
  rw [List.getElem?_eq_getElem (by simpa using h1)]
  simp only
  rw [List.getElem?_eq_getElem (by simpa using h2)]
  exact ⟨_, rfl⟩

/-- Every call of `next()` returns. -/
def Live (G : List γ → Prop) (truth : List γ → φ → Prop) (m0 : Mem γ ψ φ ρ) (it : HIter (Mem γ ψ φ ρ))
    (pend : it.σ → List Nat) : Prop :=
  ∀ s m, Full G truth m0 m → (∀ p ∈ pend s, m0.inds.length ≤ p ∧ p < m.inds.length) → (pend s).Nodup →
    ∃ r s' m', it.next s m = (.ok (r, s'), m')

theorem held_next {G : List γ → Prop} {m m' : Mem γ ψ φ ρ} {p p' : List Nat} {r : Nat} (hm : Full G truth m0 m)
    (hp : ∀ q ∈ p, m0.inds.length ≤ q ∧ q < m.inds.length) (o : Outcome G truth m0 m m' p p' r) :
    ∀ q ∈ p', m0.inds.length ≤ q ∧ q < m'.inds.length := fun q hq => ⟨by
  rcases (o.held q hq).1 with h | h
  · exact (hp q h).1
  · exact Nat.le_trans hm.1.inds h, (o.held q hq).2⟩

theorem stage_live (h0 : Sound m0) (up : HIter (Mem γ ψ φ ρ)) (pend : up.σ → List Nat) (ev : Bool)
    (h : Owns (GenesIn n allowed) truth m0 up pend ev) (hlive : Live (GenesIn n allowed) truth m0 up pend) (st : Stage γ ψ φ ρ)
    (hst : StageOk n allowed truth st) (hsl : StageLive n allowed st) :
    Live (GenesIn n allowed) truth m0 (st.apply up) (heldBy up pend st) := by
  cases st with
  | clone =>
    intro s m hm hp hn
    obtain ⟨r, s', m1, e1⟩ := hlive s m hm hp hn
    obtain ⟨o, -⟩ := h.step s m r s' m1 hm hp hn e1
    obtain ⟨c, m2, e2⟩ := cloneInd_live (o.full.2 r o.new o.there)
    refine ⟨c, s', m2, pep_live ?_⟩
    rw [bind_live e1]
    simp only
    rw [bind_live e2]
    rfl
  | mutate check stopOk f =>
    rintro ⟨started, s⟩ m hm hp hn
    obtain ⟨r, s', m1, e1⟩ := hlive s m hm hp hn
    obtain ⟨o, -⟩ := h.step s m r s' m1 hm hp hn e1
    obtain ⟨m2, e2⟩ := mutateInd_live f hsl.2 (o.full.2 r o.new o.there)
    refine ⟨r, (true, s'), m2, ?_⟩
    show (HM.lift (if started then .ok () else check) >>= fun _ => upstream stopOk (up.next s) >>= fun rs =>
      HM.pep479 (mutateInd f rs.1) >>= fun _ => pure (rs.1, (true, rs.2))) m = (.ok (r, (true, s')), m2)
    have hc : (HM.lift (if started then .ok () else check) : HM (Mem γ ψ φ ρ) Unit) m = (.ok (), m) := by
      rw [hsl.1]; simp
    have hu : upstream stopOk (up.next s) m = (.ok (r, s'), m1) := by
      cases stopOk
      · exact pep_live e1
      · exact e1
    rw [bind_live hc, bind_live hu, bind_live (pep_live e2)]
    rfl
  | crossover skip rec =>
    rintro ⟨pending, s⟩ m hm hp hn
    have hp : ∀ p ∈ pending.toList ++ pend s, m0.inds.length ≤ p ∧ p < m.inds.length := hp
    have hn : (pending.toList ++ pend s).Nodup := hn
    cases pending with
    | some b => exact ⟨b, (none, s), m, pep_live rfl⟩
    | none =>
      simp only [Option.toList, List.nil_append] at hp hn
      obtain ⟨a, s1, m1, e1⟩ := hlive s m hm hp hn
      obtain ⟨oa, -⟩ := h.step s m a s1 m1 hm hp hn e1
      have hp1 := held_next hm hp oa
      obtain ⟨b, s2, m2, e2⟩ := hlive s1 m1 oa.full hp1 oa.nodup
      obtain ⟨ob, -⟩ := h.step s1 m1 b s2 m2 oa.full hp1 oa.nodup e2
      have hne : a ≠ b := by
        rintro rfl
        rcases ob.owned with h | h
        · exact oa.gone h
        · have := oa.there; omega
      have hlt : a < m2.inds.length := Nat.lt_of_lt_of_le oa.there ob.grows
      have hf3 : Full (GenesIn n allowed) truth m0 { m2 with rng := (skip m2.rng).2 } :=
        ⟨fresh_rng ob.full.1 _, fun x h1 h2 => goodInd_rng _ (ob.full.2 x h1 h2)⟩
      have e3 : (useRng fun x => (.ok (skip x).1, (skip x).2) : HM (Mem γ ψ φ ρ) Bool) m2 =
          (.ok (skip m2.rng).1, { m2 with rng := (skip m2.rng).2 }) := rfl
      cases hsk : (skip m2.rng).1 with
      | true =>
        refine ⟨a, (some b, s2), { m2 with rng := (skip m2.rng).2 }, pep_live ?_⟩
        simp only
        rw [bind_live e1]
        simp only
        rw [bind_live e2]
        simp only
        rw [bind_live e3]
        simp only [hsk, if_true]
        rfl
      | false =>
        obtain ⟨m4, e4⟩ := crossInds_live h0 rec hf3.1 oa.new ob.new hne (hf3.2 _ oa.new hlt) (hf3.2 _ ob.new ob.there) hst hsl
        refine ⟨a, (some b, s2), m4, pep_live ?_⟩
        simp only
        rw [bind_live e1]
        simp only
        rw [bind_live e2]
        simp only
        rw [bind_live e3]
        simp only [hsk, Bool.false_eq_true, if_false]
        rw [bind_live e4]
        rfl
  | evaluate dec prob =>
    intro s m hm hp hn
    obtain ⟨r, s', m1, e1⟩ := hlive s m hm hp hn
    obtain ⟨o, -⟩ := h.step s m r s' m1 hm hp hn e1
    obtain ⟨f, m2, e2⟩ := evaluateInd_live dec prob hsl (o.full.2 r o.new o.there)
    refine ⟨r, s', m2, pep_live ?_⟩
    rw [bind_live e1]
    simp only
    rw [bind_live e2]
    rfl
  | robustEvaluate nan dec prob =>
    intro s m hm hp hn
    obtain ⟨r, s', m1, e1⟩ := hlive s m hm hp hn
    obtain ⟨o, -⟩ := h.step s m r s' m1 hm hp hn e1
    obtain ⟨f, m2, e2⟩ := robustEvaluate_live nan dec prob (o.full.2 r o.new o.there)
    refine ⟨r, s', m2, pep_live ?_⟩
    rw [bind_live e1]
    simp only
    rw [bind_live e2]
    rfl

theorem stages_live (h0 : Sound m0) (stages : List (Stage γ ψ φ ρ)) (hst : ∀ st ∈ stages, StageOk n allowed truth st)
    (hsl : ∀ st ∈ stages, StageLive n allowed st) :
    ∀ (up : HIter (Mem γ ψ φ ρ)) (pend : up.σ → List Nat) (ev : Bool), Owns (GenesIn n allowed) truth m0 up pend ev →
      Live (GenesIn n allowed) truth m0 up pend →
      ∃ pend' ev', Owns (GenesIn n allowed) truth m0 (stagesIter up stages) pend' ev' ∧
        Live (GenesIn n allowed) truth m0 (stagesIter up stages) pend' := by
  induction stages with
  | nil => intro up pend ev h hl; exact ⟨pend, ev, h, hl⟩
  | cons st rest ih =>
    intro up pend ev h hl
    exact ih (fun s hs => hst s (by simp [hs])) (fun s hs => hsl s (by simp [hs])) _ _ _
      (stage_owns h0 up pend ev h st (hst st (by simp))) (stage_live h0 up pend ev h hl st (hst st (by simp)) (hsl st (by simp)))

theorem clone_first_live (h0 : Sound m0) (pop : List Nat) (hpop : ∀ r ∈ pop, GoodInd (GenesIn n allowed) truth m0 r)
    (choose : Mem γ ψ φ ρ → PyM Nat × ρ) (hc : ∀ m, Unchanged m0 m → ∃ i, (choose m).1 = .ok i ∧ i < pop.length) :
    Live (GenesIn n allowed) truth m0 (Stage.clone.apply (selectionIter pop choose)) (fun _ => []) := by
  intro s m hm hp hn
  obtain ⟨i, hi, hlt⟩ := hc m hm.1.unchanged
  have e1 : (selectionIter pop choose).next s m = (.ok (pop[i], ()), { m with rng := (choose m).2 }) := by
    rcases e : choose m with ⟨x, q⟩
    rw [e] at hi
    simp only at hi
    subst hi
    simp [selectionIter, e, List.getElem?_eq_getElem hlt]
  have hmem : pop[i] ∈ pop := List.getElem_mem hlt
  obtain ⟨g, fo, hg, -⟩ := hpop _ hmem
  obtain ⟨-, -, -, hltm⟩ := genes_lt hg
  have hgood : GoodInd (GenesIn n allowed) truth { m with rng := (choose m).2 } pop[i] :=
    goodInd_rng _ (goodInd_same (unchanged_same h0 hm.1.unchanged hltm) (hpop _ hmem))
  obtain ⟨c, m2, e2⟩ := cloneInd_live hgood
  refine ⟨c, (), m2, pep_live ?_⟩
  rw [bind_live e1]
  simp only
  rw [bind_live e2]
  rfl

theorem hpull_live (it : HIter (Mem γ ψ φ ρ)) (pend : it.σ → List Nat) (ev : Bool) (h : Owns (GenesIn n allowed) truth m0 it pend ev)
    (hl : Live (GenesIn n allowed) truth m0 it pend) (k : Nat) : ∀ (s : it.σ) (m : Mem γ ψ φ ρ), Full (GenesIn n allowed) truth m0 m →
      (∀ p ∈ pend s, m0.inds.length ≤ p ∧ p < m.inds.length) → (pend s).Nodup →
      ∃ out s' m', hpull it.next k s m = (.ok (out, s'), m') := by
  induction k with
  | zero => intro s m _ _ _; exact ⟨[], s, m, rfl⟩
  | succ k ih =>
    intro s m hm hp hn
    obtain ⟨r, s1, m1, e1⟩ := hl s m hm hp hn
    obtain ⟨o, -⟩ := h.step s m r s1 m1 hm hp hn e1
    obtain ⟨out, s2, m2, e2⟩ := ih s1 m1 o.full (held_next hm hp o) o.nodup
    refine ⟨r :: out, s2, m2, ?_⟩
    rw [hpull, bind_live e1]
    simp only
    rw [bind_live e2]
    rfl

end Leap
