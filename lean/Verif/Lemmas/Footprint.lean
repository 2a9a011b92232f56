import Verif.Lemmas.Pipeline
import Verif.Props.Crossover

/-! # What each pipeline operator does to the individuals it works on, and to nobody else -/

namespace Leap
open Spec

variable {γ ψ φ ρ : Type}

/-- A genome of `n` genes whose gene at each position `i` is one of those allowed there. -/
def Spec.GenesIn (n : Nat) (allowed : Nat → γ → Prop) (g : List γ) : Prop :=
  g.length = n ∧ ∀ (i : Nat) (x : γ), g[i]? = some x → allowed i x

/-- Individual `y` is the same object with the same attributes and the same genes. -/
def Spec.SameInd (m m' : Mem γ ψ φ ρ) (y : Nat) : Prop := m'.inds[y]? = m.inds[y]? ∧ genes m' y = genes m y

/-- Individual `r` has acceptable genes, and if it has a fitness it is a true one. -/
def Spec.GoodInd (G : List γ → Prop) (truth : List γ → φ → Prop) (m : Mem γ ψ φ ρ) (r : Nat) : Prop :=
  ∃ g fo, genes m r = some g ∧ fitness m r = some fo ∧ G g ∧ ∀ f, fo = some f → truth g f

theorem sameInd_refl (m : Mem γ ψ φ ρ) (y : Nat) : SameInd m m y := ⟨rfl, rfl⟩

theorem sameInd_trans {m m1 m2 : Mem γ ψ φ ρ} {y : Nat} (h1 : SameInd m m1 y) (h2 : SameInd m1 m2 y) : SameInd m m2 y :=
  ⟨h2.1.trans h1.1, h2.2.trans h1.2⟩

theorem sameInd_fitness {m m' : Mem γ ψ φ ρ} {y : Nat} (h : SameInd m m' y) : fitness m' y = fitness m y := by
  simp [fitness, h.1]

theorem goodInd_same {G : List γ → Prop} {truth : List γ → φ → Prop} {m m' : Mem γ ψ φ ρ} {y : Nat} (h : SameInd m m' y)
    (hg : GoodInd G truth m y) : GoodInd G truth m' y := by
  obtain ⟨g, fo, h1, h2, h3, h4⟩ := hg
  exact ⟨g, fo, by rw [h.2, h1], by rw [sameInd_fitness h, h2], h3, h4⟩

theorem unchanged_same {m m' : Mem γ ψ φ ρ} (hs : Sound m) (h : Unchanged m m') {y : Nat} (hy : y < m.inds.length) :
    SameInd m m' y := by
  have h1 := h.inds y hy
  refine ⟨h1, ?_⟩
  simp only [genes, h1, List.getElem?_eq_getElem hy]
  exact h.arrays _ (hs.genome _ (List.getElem_mem hy))

theorem genes_lt {m : Mem γ ψ φ ρ} {r : Nat} {g : List γ} (h : genes m r = some g) :
    ∃ o, m.inds[r]? = some o ∧ m.arrays[o.genome]? = some g ∧ r < m.inds.length := by
  simp only [genes] at h
  cases ho : m.inds[r]? with
  | none => rw [ho] at h; simp at h
  | some o => rw [ho] at h; exact ⟨o, rfl, h, (List.getElem?_eq_some_iff.1 ho).1⟩

variable {m0 : Mem γ ψ φ ρ}

/-- A new individual shares its genome array with nobody. -/
theorem other_genome {m : Mem γ ψ φ ρ} (h0 : Sound m0) (h : Fresh m0 m) {r y : Nat} {o oy : Obj ψ φ}
    (hr : m0.inds.length ≤ r) (ho : m.inds[r]? = some o) (hy : m.inds[y]? = some oy) (hne : y ≠ r) :
    oy.genome ≠ o.genome := by
  by_cases hl : y < m0.inds.length
  · have h1 := h.unchanged.inds y hl
    rw [hy] at h1
    have h2 := h0.genome oy (List.mem_of_getElem? h1.symm)
    have h3 := (h.owned r o hr ho).1
    omega
  · exact (h.distinct y r oy o (by omega) hr hne hy ho).1

/-- Nobody outside `R` has been touched, and nobody was made. -/
def Local (R : List Nat) (m m' : Mem γ ψ φ ρ) : Prop :=
  m'.inds.length = m.inds.length ∧ ∀ y, y ∉ R → SameInd m m' y

/-- Overwriting the array of a new individual touches nobody else. -/
theorem genes_set_other {m : Mem γ ψ φ ρ} (h0 : Sound m0) (h : Fresh m0 m) {r y : Nat} {o : Obj ψ φ}
    (hr : m0.inds.length ≤ r) (ho : m.inds[r]? = some o) (hne : y ≠ r) (g : List γ) {inds' : List (Obj ψ φ)} {s : ρ}
    {sets : List (List Nat)} {u : Nat} (hi : inds'[y]? = m.inds[y]?) :
    genes ⟨m.arrays.set o.genome g, sets, inds', u, s⟩ y = genes m y := by
  simp only [genes, hi]
  cases hy : m.inds[y]? with
  | none => rfl
  | some oy =>
    simp only
    rw [List.getElem?_set_ne (other_genome h0 h hr ho hy hne).symm]

theorem mutateInd_effect (f : MutFn γ ρ) (m : Mem γ ψ φ ρ) (r : Nat) (o : Obj ψ φ) (g : List γ)
    (ho : m.inds[r]? = some o) (hg : m.arrays[o.genome]? = some g) :
    mutateInd f r m = match (f g m.rng).result with
      | .error e => (.error e, { m with arrays := m.arrays.set o.genome (f g m.rng).left, rng := (f g m.rng).rng })
      | .ok none => (.ok (), { m with
          arrays := m.arrays.set o.genome (f g m.rng).left, rng := (f g m.rng).rng,
          inds := m.inds.modify r fun x => { x with fitness := none } })
      | .ok (some g') => (.ok (), { m with
          arrays := m.arrays.set o.genome (f g m.rng).left ++ [g'], rng := (f g m.rng).rng,
          inds := (m.inds.modify r fun x => { x with genome := m.arrays.length }).modify r fun x => { x with fitness := none } }) := by
  simp only [mutateInd, HM.bind_apply, getObj, ho, getArr, hg, useRng, setArr]
  cases hres : (f g m.rng).result with
  | error e => simp [hres]
  | ok new =>
    cases new with
    | none => simp [hres, modObj]
    | some g' => simp [hres, modObj, newArr, HM.bind_apply]

theorem mutateInd_local (h0 : Sound m0) {G : List γ → Prop} {truth : List γ → φ → Prop} (f : MutFn γ ρ)
    (hf : ∀ g s, G g → match (f g s).result with
      | .error _ => True
      | .ok none => G (f g s).left
      | .ok (some g') => G g')
    {m m' : Mem γ ψ φ ρ} (h : Fresh m0 m) {r : Nat} (hr : m0.inds.length ≤ r) (hgood : GoodInd G truth m r)
    (hx : mutateInd f r m = (.ok (), m')) : Local [r] m m' ∧ GoodInd G truth m' r := by
  obtain ⟨g, fo, hg, hfit, hG, -⟩ := hgood
  obtain ⟨o, ho, ha, hlt⟩ := genes_lt hg
  have ht := h.sound.genome o (List.mem_of_getElem? ho)
  have he := mutateInd_effect f m r o g ho ha
  have hGg := hf g m.rng hG
  rw [hx] at he
  cases hres : (f g m.rng).result with
  | error e => rw [hres] at he; simp at he
  | ok new =>
    rw [hres] at he hGg
    cases new with
    | none =>
      simp only [Prod.mk.injEq, true_and] at he
      subst he
      refine ⟨⟨by simp, fun y hy => ?_⟩, ⟨(f g m.rng).left, none, ?_, ?_, hGg, by simp⟩⟩
      · have hne : y ≠ r := by simpa using hy
        have hi : (m.inds.modify r fun x => { x with fitness := none })[y]? = m.inds[y]? := by
          simp [List.getElem?_modify, hne.symm]
        exact ⟨hi, genes_set_other h0 h hr ho hne _ hi⟩
      · simp [genes, List.getElem?_modify, ho, ht]
      · simp [fitness, List.getElem?_modify, ho]
    | some g' =>
      simp only [Prod.mk.injEq, true_and] at he
      subst he
      refine ⟨⟨by simp, fun y hy => ?_⟩, ⟨g', none, ?_, ?_, hGg, by simp⟩⟩
      · have hne : y ≠ r := by simpa using hy
        have hi : ((m.inds.modify r fun x => { x with genome := m.arrays.length }).modify r fun x => { x with fitness := none })[y]? = m.inds[y]? := by
          simp [List.getElem?_modify, hne.symm]
        refine ⟨hi, ?_⟩
        rw [← genes_set_other (sets := m.sets) (u := m.nextUuid) (s := (f g m.rng).rng) h0 h hr ho hne (f g m.rng).left hi]
        simp only [genes, hi]
        cases hy : m.inds[y]? with
        | none => rfl
        | some oy =>
          simp only
          rw [List.getElem?_append_left (by simpa using h.sound.genome oy (List.mem_of_getElem? hy))]
      · simp [genes, List.getElem?_modify, ho]
      · simp [fitness, List.getElem?_modify, ho]

theorem evaluateInd_local {G : List γ → Prop} {truth : List γ → φ → Prop} (dec : Dec γ ψ) (prob : Prob γ ψ φ ρ)
    (ht : ∀ g c s f, G g → decodeOf dec g = .ok c → (prob.evaluate c s).1 = .ok f → truth g f)
    {m m' : Mem γ ψ φ ρ} {r : Nat} {f : φ} (hgood : GoodInd G truth m r)
    (hx : evaluateInd dec prob r m = (.ok f, m')) :
    Local [r] m m' ∧ GoodInd G truth m' r ∧ fitness m' r = some (some f) := by
  obtain ⟨g, fo, hg, hfit, hG, -⟩ := hgood
  obtain ⟨o, ho, ha, hlt⟩ := genes_lt hg
  obtain ⟨k, hk, he⟩ := evaluateImp_effect dec prob m r o g ho ha
  rw [evaluateInd, HM.bind_apply, he] at hx
  cases hc : decodeOf dec g with
  | error e => rw [hc] at hx; simp at hx
  | ok c =>
    rw [hc] at hx
    simp only at hx
    cases hp : (prob.evaluate c m.rng).1 with
    | error e => rw [hp] at hx; simp at hx
    | ok f' =>
      rw [hp] at hx
      simp only [HM.bind_apply, modObj, HM.pure_apply, Prod.mk.injEq, Except.ok.injEq] at hx
      obtain ⟨rfl, rfl⟩ := hx
      have hfit' : fitness (⟨m.arrays, m.sets, (m.inds.modify r k).modify r fun x => { x with fitness := some f' }, m.nextUuid,
          (prob.evaluate c m.rng).2⟩ : Mem γ ψ φ ρ) r = some (some f') := by
        simp [fitness, List.getElem?_modify, ho]
      refine ⟨⟨by simp, fun y hy => ?_⟩, ⟨g, some f', ?_, hfit', hG, ?_⟩, hfit'⟩
      · have hne : y ≠ r := by simpa using hy
        have hi : ((m.inds.modify r k).modify r fun x => { x with fitness := some f' })[y]? = m.inds[y]? := by
          simp [List.getElem?_modify, hne.symm]
        exact ⟨hi, by simp only [genes, hi]⟩
      · simp [genes, List.getElem?_modify, ho, (hk o).1, ha]
      · intro f hf; cases hf; exact ht g c m.rng _ hG hc hp

theorem robustEvaluate_local {G : List γ → Prop} {truth : List γ → φ → Prop} (nan : φ) (dec : Dec γ ψ) (prob : Prob γ ψ φ ρ)
    (ht : ∀ g c s f, G g → decodeOf dec g = .ok c → (prob.evaluate c s).1 = .ok f → truth g f)
    (ht1 : ∀ g e, G g → decodeOf dec g = .error e → truth g nan)
    (ht2 : ∀ g c s e, G g → decodeOf dec g = .ok c → (prob.evaluate c s).1 = .error e → truth g nan)
    {m m' : Mem γ ψ φ ρ} {r : Nat} {f : φ} (hgood : GoodInd G truth m r)
    (hx : Leap.robustEvaluate nan dec prob r m = (.ok f, m')) :
    Local [r] m m' ∧ GoodInd G truth m' r ∧ fitness m' r = some (some f) := by
  obtain ⟨g, fo, hg, hfit, hG, -⟩ := hgood
  obtain ⟨o, ho, ha, hlt⟩ := genes_lt hg
  obtain ⟨k, hk, he⟩ := evaluateImp_effect dec prob m r o g ho ha
  have fin : ∀ (inds' : List (Obj ψ φ)) (o' : Obj ψ φ) (s : ρ), inds'.length = m.inds.length → (∀ y, y ≠ r → inds'[y]? = m.inds[y]?) →
      inds'[r]? = some o' → o'.genome = o.genome → o'.fitness = some f → truth g f →
      Local [r] m (⟨m.arrays, m.sets, inds', m.nextUuid, s⟩ : Mem γ ψ φ ρ) ∧
      GoodInd G truth (⟨m.arrays, m.sets, inds', m.nextUuid, s⟩ : Mem γ ψ φ ρ) r ∧
      fitness (⟨m.arrays, m.sets, inds', m.nextUuid, s⟩ : Mem γ ψ φ ρ) r = some (some f) := by
    intro inds' o' s hl hother hr hgen hfi htr
    have hfit' : fitness (⟨m.arrays, m.sets, inds', m.nextUuid, s⟩ : Mem γ ψ φ ρ) r = some (some f) := by
      simp [fitness, hr, hfi]
    refine ⟨⟨hl, fun y hy => ?_⟩, ⟨g, some f, ?_, hfit', hG, ?_⟩, hfit'⟩
    · have hi := hother y (by simpa using hy)
      exact ⟨hi, by simp only [genes, hi]⟩
    · simp [genes, hr, hgen, ha]
    · rintro _ ⟨⟩; exact htr
  rw [Leap.robustEvaluate, he] at hx
  cases hc : decodeOf dec g with
  | error e =>
    rw [hc] at hx
    simp only [Prod.mk.injEq, Except.ok.injEq] at hx
    obtain ⟨rfl, rfl⟩ := hx
    exact fin _ { o with fitness := some nan, exception := some e, viable := some false } _ (by simp)
      (fun y hy => by simp [List.getElem?_modify, hy.symm]) (by simp [List.getElem?_modify, ho]) rfl rfl (ht1 g e hG hc)
  | ok c =>
    rw [hc] at hx
    simp only at hx
    cases hp : (prob.evaluate c m.rng).1 with
    | error e =>
      rw [hp] at hx
      simp only [Prod.mk.injEq, Except.ok.injEq] at hx
      obtain ⟨rfl, rfl⟩ := hx
      exact fin _ { k o with fitness := some nan, exception := some e, viable := some false } _ (by simp)
        (fun y hy => by simp [List.getElem?_modify, hy.symm]) (by simp [List.getElem?_modify, ho]) (hk o).1 rfl (ht2 g c m.rng e hG hc hp)
    | ok f' =>
      rw [hp] at hx
      simp only [Prod.mk.injEq, Except.ok.injEq] at hx
      obtain ⟨rfl, rfl⟩ := hx
      exact fin _ { k o with fitness := some _, viable := some true } _ (by simp)
        (fun y hy => by simp [List.getElem?_modify, hy.symm]) (by simp [List.getElem?_modify, ho]) (hk o).1 rfl (ht g c m.rng f' hG hc hp)

/-- At every position the two children hold the two parents' genes of that position, straight or exchanged. -/
def Spec.Exchanged (a b a' b' : List γ) : Prop :=
  a'.length = a.length ∧ b'.length = b.length ∧
  ∀ i : Nat, (a'[i]? = a[i]? ∧ b'[i]? = b[i]?) ∨ (a'[i]? = b[i]? ∧ b'[i]? = a[i]?)

theorem exchanged_inBox {n : Nat} {allowed : Nat → γ → Prop} {a b a' b' : List γ} (h : Exchanged a b a' b')
    (ha : GenesIn n allowed a) (hb : GenesIn n allowed b) : GenesIn n allowed a' ∧ GenesIn n allowed b' := by
  refine ⟨⟨h.1.trans ha.1, fun i x hx => ?_⟩, ⟨h.2.1.trans hb.1, fun i x hx => ?_⟩⟩
  · rcases h.2.2 i with ⟨h1, -⟩ | ⟨h1, -⟩
    · exact ha.2 i x (h1 ▸ hx)
    · exact hb.2 i x (h1 ▸ hx)
  · rcases h.2.2 i with ⟨-, h1⟩ | ⟨-, h1⟩
    · exact hb.2 i x (h1 ▸ hx)
    · exact ha.2 i x (h1 ▸ hx)

/-- The cut points a crossover operator draws are ones numpy can return. Nothing is asked of a mask. -/
def Spec.GoodCuts (n : Nat) : Recombiner ρ → Prop
  | .uniform _ => True
  | .nary k cuts => ∀ s, ValidCuts k n (cuts s n).1

theorem nary_exchanged {k : Nat} {xs : List Nat} {a b : List γ} (hab : a.length = b.length) (hv : ValidCuts k a.length xs)
    {p : List γ × List γ} (h : naryRecombine k xs a b = .ok p) : Exchanged a b p.1 p.2 := by
  obtain ⟨a', b', e, h1, h2, h3⟩ := nary_crossover_alternates k xs a b hab hv
  rw [h] at e
  cases e
  refine ⟨h1, h2, fun i => ?_⟩
  by_cases hi : i < a.length
  · rcases Nat.mod_two_eq_zero_or_one (xs.countP fun c => decide (c ≤ i)) with hz | hz
    · exact Or.inl ((h3 i hi).1 hz)
    · exact Or.inr ((h3 i hi).2 hz)
  · left
    constructor
    · rw [List.getElem?_eq_none (by simp only [h1]; omega), List.getElem?_eq_none (by omega)]
    · rw [List.getElem?_eq_none (by simp only [h2]; omega), List.getElem?_eq_none (by omega)]

theorem boolIndex_ok {α : Type} {l : List α} {mk : List Bool} {t : List α} (h : boolIndex l mk = .ok t) :
    mk.length = l.length ∧ t = maskSelect mk l := by
  unfold boolIndex at h
  split at h
  · exact ⟨by assumption, by simpa using h.symm⟩
  · cases h

theorem boolAssign_ok {α : Type} {l : List α} {mk : List Bool} {v t : List α} (h : boolAssign l mk v = .ok t) :
    t = maskStore mk l v := by
  unfold boolAssign at h
  split at h
  · split at h
    · simpa using h.symm
    · cases h
  · cases h

theorem mask_exchanged {mk : List Bool} {a b : List γ} (ha : mk.length = a.length) (hb : mk.length = b.length) :
    Exchanged a b (maskStore mk a (maskSelect mk b)) (maskStore mk b (maskSelect mk a)) := by
  refine ⟨maskStore_length _ _ _, maskStore_length _ _ _, fun i => ?_⟩
  cases hm : mk[i]? with
  | none =>
    have hi := List.getElem?_eq_none_iff.1 hm
    left
    constructor
    · rw [List.getElem?_eq_none (by rw [maskStore_length]; omega), List.getElem?_eq_none (by omega)]
    · rw [List.getElem?_eq_none (by rw [maskStore_length]; omega), List.getElem?_eq_none (by omega)]
  | some x =>
    have h1 := maskStore_select_get mk a b ha hb i x hm
    have h2 := maskStore_select_get mk b a hb ha i x hm
    cases x
    · exact Or.inl ⟨by simpa using h1, by simpa using h2⟩
    · exact Or.inr ⟨by simpa using h1, by simpa using h2⟩

theorem recombineInds_local (h0 : Sound m0) (rec : Recombiner ρ) {m m' : Mem γ ψ φ ρ} (h : Fresh m0 m) {ra rb : Nat}
    (ha : m0.inds.length ≤ ra) (hb : m0.inds.length ≤ rb) (hne : ra ≠ rb) {a b : List γ} (hga : genes m ra = some a)
    (hgb : genes m rb = some b) (hab : a.length = b.length) (hc : GoodCuts a.length rec)
    (hx : recombineInds rec ra rb m = (.ok (), m')) :
    Local [ra, rb] m m' ∧ ∃ a' b', genes m' ra = some a' ∧ genes m' rb = some b' ∧ Exchanged a b a' b' := by
  obtain ⟨oa, hoa, haa, hlta⟩ := genes_lt hga
  obtain ⟨ob, hob, hbb, hltb⟩ := genes_lt hgb
  have hta := h.sound.genome oa (List.mem_of_getElem? hoa)
  have htb := h.sound.genome ob (List.mem_of_getElem? hob)
  have hdist : oa.genome ≠ ob.genome := other_genome h0 h hb hob hoa hne
  cases rec with
  | uniform mask =>
    simp only [recombineInds, HM.bind_apply, getObj, hoa, hob, getArr, haa, hbb, useRng, setArr] at hx
    cases hmk : (mask m.rng (min a.length b.length)).1 with
    | error e => rw [hmk] at hx; simp at hx
    | ok mk =>
      rw [hmk] at hx
      simp only [HM.lift_apply] at hx
      cases h1 : boolIndex a mk with
      | error e => rw [h1] at hx; simp at hx
      | ok tmp =>
        rw [h1] at hx
        simp only at hx
        cases h2 : boolIndex b mk with
        | error e => rw [h2] at hx; simp at hx
        | ok fromB =>
          rw [h2] at hx
          simp only at hx
          cases h3 : boolAssign a mk fromB with
          | error e => rw [h3] at hx; simp at hx
          | ok a' =>
            rw [h3] at hx
            simp only [List.getElem?_set_ne hdist, hbb] at hx
            cases h4 : boolAssign b mk tmp with
            | error e => rw [h4] at hx; simp at hx
            | ok b' =>
              rw [h4] at hx
              simp only [Prod.mk.injEq, true_and] at hx
              subst hx
              obtain ⟨q1, rfl⟩ := boolIndex_ok h1
              obtain ⟨q2, rfl⟩ := boolIndex_ok h2
              have q3 := boolAssign_ok h3
              have q4 := boolAssign_ok h4
              subst q3 q4
              refine ⟨⟨rfl, fun y hy => ⟨rfl, ?_⟩⟩, _, _, ?_, ?_, mask_exchanged q1 q2⟩
              · have hya : y ≠ ra := fun e => hy (by simp [e])
                have hyb : y ≠ rb := fun e => hy (by simp [e])
                simp only [genes]
                cases hy : m.inds[y]? with
                | none => rfl
                | some oy =>
                  simp only
                  rw [List.getElem?_set_ne (other_genome h0 h hb hob hy hyb).symm,
                    List.getElem?_set_ne (other_genome h0 h ha hoa hy hya).symm]
              · simp only [genes, hoa]
                rw [List.getElem?_set_ne hdist.symm, List.getElem?_set_self hta]
              · simp only [genes, hob]
                rw [List.getElem?_set_self (by simpa using htb)]
  | nary k cuts =>
    simp only [recombineInds, HM.bind_apply, getObj, hoa, hob, getArr, haa, hbb, useRng, newArr, modObj, HM.lift_apply] at hx
    cases h1 : naryRecombine k (cuts m.rng a.length).1 a b with
    | error e => rw [h1] at hx; simp at hx
    | ok p =>
      rw [h1] at hx
      simp only [Prod.mk.injEq, true_and] at hx
      subst hx
      refine ⟨⟨by simp, fun y hy => ?_⟩, p.1, p.2, ?_, ?_, nary_exchanged hab (hc _) h1⟩
      · have hya : ra ≠ y := fun e => hy (by simp [e])
        have hyb : rb ≠ y := fun e => hy (by simp [e])
        have hi : ((m.inds.modify ra fun x => { x with genome := m.arrays.length }).modify rb
            fun x => { x with genome := (m.arrays ++ [p.1]).length })[y]? = m.inds[y]? := by
          simp [List.getElem?_modify, hya, hyb]
        refine ⟨hi, ?_⟩
        simp only [genes, hi]
        cases hy : m.inds[y]? with
        | none => rfl
        | some oy =>
          have := h.sound.genome oy (List.mem_of_getElem? hy)
          simp only
          rw [List.getElem?_append_left (by simp; omega), List.getElem?_append_left this]
      · simp [genes, List.getElem?_modify, hoa, hne.symm, List.getElem?_append]
      · simp [genes, List.getElem?_modify, hob, hne, List.getElem?_append]

theorem crossInds_local (h0 : Sound m0) {n : Nat} {allowed : Nat → γ → Prop} {truth : List γ → φ → Prop} (rec : Recombiner ρ)
    (hc : GoodCuts n rec) {m m' : Mem γ ψ φ ρ} (h : Fresh m0 m) {ra rb : Nat}
    (ha : m0.inds.length ≤ ra) (hb : m0.inds.length ≤ rb) (hne : ra ≠ rb) (hga : GoodInd (GenesIn n allowed) truth m ra)
    (hgb : GoodInd (GenesIn n allowed) truth m rb) (hx : crossInds rec ra rb m = (.ok (), m')) :
    Local [ra, rb] m m' ∧ GoodInd (GenesIn n allowed) truth m' ra ∧ GoodInd (GenesIn n allowed) truth m' rb := by
  obtain ⟨a, fa, qa, -, Ga, -⟩ := hga
  obtain ⟨b, fb, qb, -, Gb, -⟩ := hgb
  rw [crossInds, HM.bind_apply] at hx
  rcases e : recombineInds rec ra rb m with ⟨x, m1⟩
  rw [e] at hx
  cases x with
  | error err => simp at hx
  | ok u =>
    obtain ⟨⟨hl, hs⟩, a', b', hga, hgb, hex⟩ := recombineInds_local h0 rec h ha hb hne qa qb (Ga.1.trans Gb.1.symm)
      (by rw [Ga.1]; exact hc) e
    obtain ⟨Ga', Gb'⟩ := exchanged_inBox hex Ga Gb
    obtain ⟨oa, hoa, haa, hlta⟩ := genes_lt hga
    obtain ⟨ob, hob, hbb, hltb⟩ := genes_lt hgb
    have fin : ∃ sets', m' = ⟨m1.arrays, sets', (m1.inds.modify ra (fun x => { x with fitness := none })).modify rb
        (fun x => { x with fitness := none }), m1.nextUuid, m1.rng⟩ := by
      simp only [HM.bind_apply, getObj, hoa, hob, getSet, setSet, modObj] at hx
      cases h1 : m1.sets[ob.parents]? with
      | none => rw [h1] at hx; simp at hx
      | some sb =>
        rw [h1] at hx
        simp only at hx
        cases h2 : m1.sets[oa.parents]? with
        | none => rw [h2] at hx; simp at hx
        | some sa =>
          rw [h2] at hx
          simp only at hx
          cases h3 : (m1.sets.set oa.parents (setUnion sa sb))[oa.parents]? with
          | none => rw [h3] at hx; simp at hx
          | some sa' =>
            rw [h3] at hx
            simp only at hx
            cases h4 : (m1.sets.set oa.parents (setUnion sa sb))[ob.parents]? with
            | none => rw [h4] at hx; simp at hx
            | some sb' =>
              rw [h4] at hx
              simp only [Prod.mk.injEq, true_and] at hx
              exact ⟨_, hx.symm⟩
    obtain ⟨sets', rfl⟩ := fin
    refine ⟨⟨by simpa using hl, fun y hy => ?_⟩, ⟨a', none, ?_, ?_, Ga', by simp⟩, ⟨b', none, ?_, ?_, Gb', by simp⟩⟩
    · have hya : ra ≠ y := fun e => hy (by simp [e])
      have hyb : rb ≠ y := fun e => hy (by simp [e])
      have hi : ((m1.inds.modify ra fun x => { x with fitness := none }).modify rb fun x => { x with fitness := none })[y]? =
          m1.inds[y]? := by simp [List.getElem?_modify, hya, hyb]
      refine ⟨hi.trans (hs y hy).1, ?_⟩
      rw [← (hs y hy).2]
      simp only [genes, hi]
    · simp [genes, List.getElem?_modify, hoa, hne.symm, haa]
    · simp [fitness, List.getElem?_modify, hoa, hne.symm]
    · simp [genes, List.getElem?_modify, hob, hne, hbb]
    · simp [fitness, List.getElem?_modify, hob, hne]

end Leap
