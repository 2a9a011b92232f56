import Verif.Props.ValueSpec
import Verif.Lemmas.Owns

/-!
# Programs over memory do what programs over values do

Used in proofs only. `Ref x y m Q`: from memory `m`, the program `x` over memory does what `y` does over values, and the results and the memory afterwards are
related by `Q`. `Tidy m own rest`: the individuals `own` and `rest` are in memory, and those of `own` share nothing with each other or with `rest`, so that they
can be written to.
-/

namespace Leap

open Spec

section
variable {γ ψ φ ρ α β α' β' : Type}

/-- The part of the memory that is left over values. -/
def luck (m : Mem γ ψ φ ρ) : Luck ρ := ⟨m.nextUuid, m.rng⟩

/-- `x` from `m` does what `y` does, with results related by `Q`. -/
def Ref (x : HM (Mem γ ψ φ ρ) α) (y : HM (Luck ρ) β) (m : Mem γ ψ φ ρ) (Q : α → β → Mem γ ψ φ ρ → Prop) : Prop :=
  match x m, y (luck m) with
  | (.ok a, m1), (.ok b, w) => Q a b m1 ∧ w = luck m1
  | (.error e, m1), (.error e', w) => e = e' ∧ w = luck m1
  | _, _ => False

theorem ref_mono {x : HM (Mem γ ψ φ ρ) α} {y : HM (Luck ρ) β} {m : Mem γ ψ φ ρ} {Q R : α → β → Mem γ ψ φ ρ → Prop} (h : Ref x y m Q)
    (hq : ∀ a b m1, Q a b m1 → R a b m1) : Ref x y m R := by
  unfold Ref at *
  rcases ex : x m with ⟨(e | a), m1⟩ <;> rcases ey : y (luck m) with ⟨(e' | b), w⟩ <;> rw [ex, ey] at h <;> simp only at h ⊢
  · exact h
  · exact ⟨hq _ _ _ h.1, h.2⟩

theorem ref_pure {a : α} {b : β} {m : Mem γ ψ φ ρ} {Q : α → β → Mem γ ψ φ ρ → Prop} (h : Q a b m) : Ref (pure a) (pure b) m Q := ⟨h, rfl⟩

theorem ref_bind {x : HM (Mem γ ψ φ ρ) α} {y : HM (Luck ρ) β} {f : α → HM (Mem γ ψ φ ρ) α'} {g : β → HM (Luck ρ) β'} {m : Mem γ ψ φ ρ}
    {Q : α → β → Mem γ ψ φ ρ → Prop} {R : α' → β' → Mem γ ψ φ ρ → Prop} (hx : Ref x y m Q) (hf : ∀ a b m1, Q a b m1 → Ref (f a) (g b) m1 R) :
    Ref (x >>= f) (y >>= g) m R := by
  unfold Ref at hx ⊢
  rw [HM.bind_apply, HM.bind_apply]
  rcases ex : x m with ⟨(e | a), m1⟩ <;> rcases ey : y (luck m) with ⟨(e' | b), w⟩ <;> rw [ex, ey] at hx <;> simp only at hx ⊢
  · exact hx
  · rw [hx.2]; exact hf a b m1 hx.1

theorem ref_pep {x : HM (Mem γ ψ φ ρ) α} {y : HM (Luck ρ) β} {m : Mem γ ψ φ ρ} {Q : α → β → Mem γ ψ φ ρ → Prop} (h : Ref x y m Q) :
    Ref (HM.pep479 x) (HM.pep479 y) m Q := by
  unfold Ref at h ⊢
  unfold HM.pep479
  rcases ex : x m with ⟨(e | a), m1⟩ <;> rcases ey : y (luck m) with ⟨(e' | b), w⟩ <;> rw [ex, ey] at h <;> simp only at h ⊢
  · obtain ⟨rfl, rfl⟩ := h
    cases e <;> exact ⟨rfl, rfl⟩
  · exact h

theorem ref_lift {r : PyM α} {m : Mem γ ψ φ ρ} : Ref (HM.lift r) (HM.lift r) m fun a b m1 => a = b ∧ m1 = m := by
  unfold Ref
  cases r <;> simp [HM.lift]

theorem ref_rng {f : ρ → PyM α × ρ} {m : Mem γ ψ φ ρ} : Ref (useRng f) (draw f) m fun a b m1 => a = b ∧ ∃ s, m1 = { m with rng := s } := by
  unfold Ref useRng draw luck
  rcases e : f m.rng with ⟨(x | a), s⟩
  · exact ⟨rfl, rfl⟩
  · exact ⟨⟨rfl, s, rfl⟩, rfl⟩

theorem ref_uuid {m : Mem γ ψ φ ρ} : Ref freshUuid newUuid m fun a b m1 => a = b ∧ m1 = { m with nextUuid := m.nextUuid + 1 } := by
  unfold Ref freshUuid newUuid luck
  exact ⟨⟨rfl, rfl⟩, rfl⟩

/-- A step in memory of which nothing is left over values. -/
theorem ref_step {x : HM (Mem γ ψ φ ρ) α} {f : α → HM (Mem γ ψ φ ρ) α'} {y : HM (Luck ρ) β'} {m m1 : Mem γ ψ φ ρ} {a : α}
    {Q : α' → β' → Mem γ ψ φ ρ → Prop} (hx : x m = (.ok a, m1)) (hl : luck m1 = luck m) (h : Ref (f a) y m1 Q) : Ref (x >>= f) y m Q := by
  unfold Ref at h ⊢
  rw [HM.bind_apply, hx]
  simpa [hl] using h

/-! ### Who is in memory -/

/-- An individual in memory: where it is, its attributes, and the contents of its array and its set. -/
structure Entry (γ ψ φ : Type) where
  addr : Nat
  obj : Obj ψ φ
  genes : List γ
  parents : List Nat

/-- The value. -/
def Entry.val (e : Entry γ ψ φ) : Val γ φ := ⟨e.genes, e.obj.fitness, e.obj.uuid, e.parents, e.obj.problem, e.obj.viable, e.obj.exception⟩

/-- It is there. -/
def Entry.In (m : Mem γ ψ φ ρ) (e : Entry γ ψ φ) : Prop :=
  m.inds[e.addr]? = some e.obj ∧ m.arrays[e.obj.genome]? = some e.genes ∧ m.sets[e.obj.parents]? = some e.parents

/-- Two individuals that share nothing. -/
def Entry.Apart (e e' : Entry γ ψ φ) : Prop := e.addr ≠ e'.addr ∧ e.obj.genome ≠ e'.obj.genome ∧ e.obj.parents ≠ e'.obj.parents

theorem Entry.Apart.symm {e e' : Entry γ ψ φ} (h : e.Apart e') : e'.Apart e := ⟨h.1.symm, h.2.1.symm, h.2.2.symm⟩

/-- Everybody is in memory, and nobody of `own` shares anything. -/
def Tidy (m : Mem γ ψ φ ρ) (own rest : List (Entry γ ψ φ)) : Prop :=
  (∀ e ∈ own, e.In m) ∧ (∀ e ∈ rest, e.In m) ∧ own.Pairwise Entry.Apart ∧ ∀ e ∈ own, ∀ e' ∈ rest, e.Apart e'

theorem Entry.In.valueAt {m : Mem γ ψ φ ρ} {e : Entry γ ψ φ} (h : e.In m) : valueAt m e.addr = some e.val := by
  simp [Spec.valueAt, h.1, h.2.1, h.2.2, Entry.val]

theorem tidy_perm {m : Mem γ ψ φ ρ} {own own' rest : List (Entry γ ψ φ)} (h : Tidy m own rest) (p : own.Perm own') : Tidy m own' rest :=
  ⟨fun e he => h.1 e (p.mem_iff.mpr he), h.2.1, (p.pairwise_iff fun a => a.symm).mp h.2.2.1, fun e he => h.2.2.2 e (p.mem_iff.mpr he)⟩

theorem tidy_sub {m : Mem γ ψ φ ρ} {own own' rest : List (Entry γ ψ φ)} (h : Tidy m own rest) (p : own'.Sublist own) : Tidy m own' rest :=
  ⟨fun e he => h.1 e (p.subset he), h.2.1, h.2.2.1.sublist p, fun e he => h.2.2.2 e (p.subset he)⟩

theorem tidy_tail {m : Mem γ ψ φ ρ} {e : Entry γ ψ φ} {own rest : List (Entry γ ψ φ)} (h : Tidy m (e :: own) rest) : Tidy m own rest :=
  tidy_sub h (List.sublist_cons_self e own)

theorem tidy_rest {m : Mem γ ψ φ ρ} {own rest rest' : List (Entry γ ψ φ)} (h : Tidy m own rest) (hs : ∀ e ∈ rest', e ∈ rest) : Tidy m own rest' :=
  ⟨h.1, fun e he => h.2.1 e (hs e he), h.2.2.1, fun e he e' he' => h.2.2.2 e he e' (hs e' he')⟩

/-- Those who are no longer written to. -/
theorem tidy_retire {m : Mem γ ψ φ ρ} {own own' rest : List (Entry γ ψ φ)} (h : Tidy m (own' ++ own) rest) : Tidy m own (rest ++ own') := by
  obtain ⟨h1, h2, h3, h4⟩ := h
  rw [List.pairwise_append] at h3
  refine ⟨fun e he => h1 e (by simp [he]), ?_, h3.2.1, ?_⟩
  · intro e he
    rcases List.mem_append.mp he with he | he
    · exact h2 e he
    · exact h1 e (by simp [he])
  · intro e he e' he'
    rcases List.mem_append.mp he' with he' | he'
    · exact h4 e (by simp [he]) e' he'
    · exact (h3.2.2 e' he' e he).symm

/-- One individual is changed, by writing to itself, its array and its set, or by giving it a new array; everybody else stays. -/
theorem tidy_change {m m1 : Mem γ ψ φ ρ} {e e1 : Entry γ ψ φ} {own rest : List (Entry γ ψ φ)} (h : Tidy m (e :: own) rest)
    (hin : e1.In m1) (ha : e1.addr = e.addr) (hg : e1.obj.genome = e.obj.genome ∨ m.arrays.length ≤ e1.obj.genome) (hp : e1.obj.parents = e.obj.parents)
    (hi : ∀ r, r ≠ e.addr → r < m.inds.length → m1.inds[r]? = m.inds[r]?) (har : ∀ a, a ≠ e.obj.genome → a < m.arrays.length → m1.arrays[a]? = m.arrays[a]?)
    (hs : ∀ a, a ≠ e.obj.parents → a < m.sets.length → m1.sets[a]? = m.sets[a]?) : Tidy m1 (e1 :: own) rest := by
  obtain ⟨h1, h2, h3, h4⟩ := h
  rw [List.pairwise_cons] at h3
  have lt : ∀ {β : Type} {l : List β} {i : Nat} {x : β}, l[i]? = some x → i < l.length := fun h => (List.getElem?_eq_some_iff.mp h).1
  have stays : ∀ x : Entry γ ψ φ, x.In m → e.Apart x → x.In m1 := by
    intro x hx hap
    refine ⟨?_, ?_, ?_⟩
    · rw [hi _ hap.1.symm (lt hx.1)]; exact hx.1
    · rw [har _ hap.2.1.symm (lt hx.2.1)]; exact hx.2.1
    · rw [hs _ hap.2.2.symm (lt hx.2.2)]; exact hx.2.2
  have apart : ∀ x : Entry γ ψ φ, x.In m → e.Apart x → e1.Apart x := by
    intro x hx hap
    refine ⟨by rw [ha]; exact hap.1, ?_, by rw [hp]; exact hap.2.2⟩
    rcases hg with hg | hg
    · rw [hg]; exact hap.2.1
    · have := lt hx.2.1; omega
  refine ⟨?_, fun x hx => stays x (h2 x hx) (h4 e (by simp) x hx), ?_, ?_⟩
  · intro x hx
    rcases List.mem_cons.mp hx with rfl | hx
    · exact hin
    · exact stays x (h1 x (by simp [hx])) (h3.1 x hx)
  · rw [List.pairwise_cons]
    exact ⟨fun x hx => apart x (h1 x (by simp [hx])) (h3.1 x hx), h3.2⟩
  · intro x hx y hy
    rcases List.mem_cons.mp hx with rfl | hx
    · exact apart y (h2 y hy) (h4 e (by simp) y hy)
    · exact h4 x (by simp [hx]) y hy

/-- A new individual with its own array and set. -/
theorem tidy_new {m : Mem γ ψ φ ρ} {own rest : List (Entry γ ψ φ)} (h : Tidy m own rest) (o : Obj ψ φ) (g : List γ) (p : List Nat)
    (hg : o.genome = m.arrays.length) (hp : o.parents = m.sets.length) (u : Nat) (s : ρ) :
    Tidy ⟨m.arrays ++ [g], m.sets ++ [p], m.inds ++ [o], u, s⟩ (⟨m.inds.length, o, g, p⟩ :: own) rest := by
  obtain ⟨h1, h2, h3, h4⟩ := h
  have lt : ∀ {β : Type} {l : List β} {i : Nat} {x : β}, l[i]? = some x → i < l.length := fun h => (List.getElem?_eq_some_iff.mp h).1
  have stays : ∀ x : Entry γ ψ φ, x.In m → x.In (⟨m.arrays ++ [g], m.sets ++ [p], m.inds ++ [o], u, s⟩ : Mem γ ψ φ ρ) := by
    intro x hx
    refine ⟨?_, ?_, ?_⟩ <;> simp only
    · rw [List.getElem?_append_left (lt hx.1)]; exact hx.1
    · rw [List.getElem?_append_left (lt hx.2.1)]; exact hx.2.1
    · rw [List.getElem?_append_left (lt hx.2.2)]; exact hx.2.2
  have apart : ∀ x : Entry γ ψ φ, x.In m → (⟨m.inds.length, o, g, p⟩ : Entry γ ψ φ).Apart x := by
    intro x hx
    have a1 := lt hx.1
    have a2 := lt hx.2.1
    have a3 := lt hx.2.2
    refine ⟨?_, ?_, ?_⟩ <;> simp only <;> omega
  refine ⟨?_, fun x hx => stays x (h2 x hx), ?_, ?_⟩
  · intro x hx
    rcases List.mem_cons.mp hx with rfl | hx
    · refine ⟨?_, ?_, ?_⟩ <;> simp [hg, hp]
    · exact stays x (h1 x hx)
  · rw [List.pairwise_cons]
    exact ⟨fun x hx => apart x (h1 x hx), h3⟩
  · intro x hx y hy
    rcases List.mem_cons.mp hx with rfl | hx
    · exact apart y (h2 y hy)
    · exact h4 x hx y hy

theorem tidy_setArr {m : Mem γ ψ φ ρ} {e : Entry γ ψ φ} {own rest : List (Entry γ ψ φ)} (h : Tidy m (e :: own) rest) (g : List γ) :
    Tidy { m with arrays := m.arrays.set e.obj.genome g } ({ e with genes := g } :: own) rest := by
  obtain ⟨i1, i2, i3⟩ := h.1 e (by simp)
  have hlt := (List.getElem?_eq_some_iff.mp i2).1
  exact tidy_change h ⟨i1, by simp [hlt], i3⟩ rfl (.inl rfl) rfl (fun _ _ _ => rfl) (fun a ha _ => by simp [List.getElem?_set_ne (Ne.symm ha)]) (fun _ _ _ => rfl)

theorem tidy_setSet {m : Mem γ ψ φ ρ} {e : Entry γ ψ φ} {own rest : List (Entry γ ψ φ)} (h : Tidy m (e :: own) rest) (p : List Nat) :
    Tidy { m with sets := m.sets.set e.obj.parents p } ({ e with parents := p } :: own) rest := by
  obtain ⟨i1, i2, i3⟩ := h.1 e (by simp)
  have hlt := (List.getElem?_eq_some_iff.mp i3).1
  exact tidy_change h ⟨i1, i2, by simp [hlt]⟩ rfl (.inl rfl) rfl (fun _ _ _ => rfl) (fun _ _ _ => rfl) (fun a ha _ => by simp [List.getElem?_set_ne (Ne.symm ha)])

theorem tidy_mod {m : Mem γ ψ φ ρ} {e : Entry γ ψ φ} {own rest : List (Entry γ ψ φ)} (h : Tidy m (e :: own) rest) (f : Obj ψ φ → Obj ψ φ)
    (hg : (f e.obj).genome = e.obj.genome) (hp : (f e.obj).parents = e.obj.parents) :
    Tidy { m with inds := m.inds.modify e.addr f } ({ e with obj := f e.obj } :: own) rest := by
  obtain ⟨i1, i2, i3⟩ := h.1 e (by simp)
  exact tidy_change h ⟨by simp [i1], by rw [hg]; exact i2, by rw [hp]; exact i3⟩ rfl (.inl hg) hp
    (fun r hr _ => by simp [List.getElem?_modify, Ne.symm hr]) (fun _ _ _ => rfl) (fun _ _ _ => rfl)

theorem tidy_newArr {m : Mem γ ψ φ ρ} {e : Entry γ ψ φ} {own rest : List (Entry γ ψ φ)} (h : Tidy m (e :: own) rest) (g : List γ) :
    Tidy { m with arrays := m.arrays ++ [g], inds := m.inds.modify e.addr fun x => { x with genome := m.arrays.length } }
      ({ e with obj := { e.obj with genome := m.arrays.length }, genes := g } :: own) rest := by
  obtain ⟨i1, i2, i3⟩ := h.1 e (by simp)
  exact tidy_change h ⟨by simp [i1], by simp, i3⟩ rfl (.inr (Nat.le_refl _)) rfl
    (fun r hr _ => by simp [List.getElem?_modify, Ne.symm hr]) (fun a _ hl => List.getElem?_append_left hl) (fun _ _ _ => rfl)

theorem getObj_in {m : Mem γ ψ φ ρ} {e : Entry γ ψ φ} (h : e.In m) : getObj e.addr m = (.ok e.obj, m) := by simp [getObj, h.1]

theorem getArr_in {m : Mem γ ψ φ ρ} {e : Entry γ ψ φ} (h : e.In m) : getArr e.obj.genome m = (.ok e.genes, m) := by simp [getArr, h.2.1]

theorem getSet_in {m : Mem γ ψ φ ρ} {e : Entry γ ψ φ} (h : e.In m) : getSet e.obj.parents m = (.ok e.parents, m) := by simp [getSet, h.2.2]

/-! ### Operators -/

/-- The result of an operator that makes or changes one individual. -/
abbrev OneOf (own rest : List (Entry γ ψ φ)) (r : Nat) (v : Val γ φ) (m : Mem γ ψ φ ρ) : Prop :=
  ∃ e1 : Entry γ ψ φ, e1.addr = r ∧ e1.val = v ∧ Tidy m (e1 :: own) rest

theorem modify_last {α : Type} (l : List α) (x : α) (f : α → α) : (l ++ [x]).modify l.length f = l ++ [f x] := by
  induction l with
  | nil => rfl
  | cons y l ih => simpa using ih

theorem ref_clone {m : Mem γ ψ φ ρ} {e : Entry γ ψ φ} {own rest : List (Entry γ ψ φ)} (he : e.In m) (h : Tidy m own rest) :
    Ref (cloneInd e.addr) (cloned e.val) m (OneOf own rest) := by
  have hc : cloneInd e.addr m = (.ok m.inds.length,
      ⟨m.arrays ++ [e.genes], m.sets ++ [[e.obj.uuid]],
        m.inds ++ [{ e.obj with genome := m.arrays.length, fitness := none, uuid := m.nextUuid, parents := m.sets.length }], m.nextUuid + 1, m.rng⟩) := by
    simp [cloneInd, HM.bind_apply, getObj_in he, newObj, getArr, he.2.1, newArr, modObj, freshUuid, newSet, modify_last]
  unfold Ref
  rw [hc]
  refine ⟨⟨_, rfl, rfl, tidy_new h _ _ _ rfl rfl _ _⟩, rfl⟩

theorem evaluateImp_values (dec : Dec γ ψ) (prob : Prob γ ψ φ ρ) {m : Mem γ ψ φ ρ} {e : Entry γ ψ φ} {own rest : List (Entry γ ψ φ)} (h : Tidy m (e :: own) rest) :
    ∃ (e1 : Entry γ ψ φ) (m1 : Mem γ ψ φ ρ), e1.addr = e.addr ∧ e1.val = e.val ∧ Tidy m1 (e1 :: own) rest ∧
      evaluateImp dec prob e.addr m = ((scoreOf dec prob e.genes (luck m)).1, m1) ∧ luck m1 = (scoreOf dec prob e.genes (luck m)).2 := by
  have he := h.1 e (by simp)
  cases dec with
  | identity =>
    have := tidy_mod h (fun x => { x with phenome := some (.alias e.obj.genome) }) rfl rfl
    refine ⟨{ e with obj := { e.obj with phenome := some (.alias e.obj.genome) } }, { m with inds := m.inds.modify e.addr fun x => { x with phenome := some (.alias e.obj.genome) }, rng := (prob.evaluate (.raw e.genes) m.rng).2 }, rfl, rfl, this, ?_, rfl⟩
    simp [evaluateImp, decodeInd, phenomeOf, contentOf, HM.bind_apply, getObj, he.1, modObj, getArr, he.2.1, useRng, scoreOf, draw, luck]
  | fn f =>
    cases hf : f e.genes with
    | error x =>
      refine ⟨e, m, rfl, rfl, h, ?_, ?_⟩
      · simp [evaluateImp, decodeInd, HM.bind_apply, getObj, he.1, getArr, he.2.1, hf, scoreOf]
      · simp [scoreOf, HM.bind_apply, hf]
    | ok p =>
      have := tidy_mod h (fun x => { x with phenome := some (.decoded p) }) rfl rfl
      refine ⟨{ e with obj := { e.obj with phenome := some (.decoded p) } }, { m with inds := m.inds.modify e.addr fun x => { x with phenome := some (.decoded p) }, rng := (prob.evaluate (.value p) m.rng).2 }, rfl, rfl, this, ?_, ?_⟩
      · simp [evaluateImp, decodeInd, phenomeOf, contentOf, HM.bind_apply, getObj, he.1, modObj, getArr, he.2.1, hf, useRng, scoreOf, draw, luck]
      · simp [scoreOf, HM.bind_apply, hf, draw, luck]

theorem ref_evaluate (dec : Dec γ ψ) (prob : Prob γ ψ φ ρ) {m : Mem γ ψ φ ρ} {e : Entry γ ψ φ} {own rest : List (Entry γ ψ φ)} (h : Tidy m (e :: own) rest) :
    Ref (evaluateInd dec prob e.addr) (scored dec prob e.val) m fun _ => OneOf own rest e.addr := by
  obtain ⟨e1, m1, ha, hv, ht, hx, hl⟩ := evaluateImp_values dec prob h
  have hg : e.val.genes = e.genes := rfl
  unfold Ref evaluateInd scored
  rw [HM.bind_apply, HM.bind_apply, hx, hg]
  rcases hs : scoreOf dec prob e.genes (luck m) with ⟨(x | f), w⟩
  · rw [hs] at hl; exact ⟨rfl, hl.symm⟩
  · rw [hs] at hl
    have := tidy_mod ht (fun x => { x with fitness := some f }) rfl rfl
    rw [ha] at this
    refine ⟨⟨_, ?_, ?_, this⟩, hl.symm⟩
    · rfl
    simp only [Entry.val, Val.mk.injEq] at hv ⊢
    simp [hv]

theorem ref_robust (nan : φ) (dec : Dec γ ψ) (prob : Prob γ ψ φ ρ) {m : Mem γ ψ φ ρ} {e : Entry γ ψ φ} {own rest : List (Entry γ ψ φ)}
    (h : Tidy m (e :: own) rest) : Ref (robustEvaluate nan dec prob e.addr) (scoredAnyway nan dec prob e.val) m fun _ => OneOf own rest e.addr := by
  obtain ⟨e1, m1, ha, hv, ht, hx, hl⟩ := evaluateImp_values dec prob h
  have hg : e.val.genes = e.genes := rfl
  unfold Ref robustEvaluate scoredAnyway
  rw [hx, hg]
  rcases hs : scoreOf dec prob e.genes (luck m) with ⟨(x | f), w⟩
  · rw [hs] at hl
    have := tidy_mod ht (fun y => { y with fitness := some nan, exception := some x, viable := some false }) rfl rfl
    rw [ha] at this
    refine ⟨⟨_, ?_, ?_, this⟩, hl.symm⟩
    · rfl
    simp only [Entry.val, Val.mk.injEq] at hv ⊢
    simp [hv]
  · rw [hs] at hl
    have := tidy_mod ht (fun y => { y with fitness := some f, viable := some true }) rfl rfl
    rw [ha] at this
    refine ⟨⟨_, ?_, ?_, this⟩, hl.symm⟩
    · rfl
    simp only [Entry.val, Val.mk.injEq] at hv ⊢
    simp [hv]

theorem ref_mutate (f : MutFn γ ρ) {m : Mem γ ψ φ ρ} {e : Entry γ ψ φ} {own rest : List (Entry γ ψ φ)} (h : Tidy m (e :: own) rest) :
    Ref (mutateInd f e.addr) (mutatedVal f e.val) m fun _ => OneOf own rest e.addr := by
  have he := h.1 e (by simp)
  unfold mutateInd mutatedVal
  refine ref_step (getObj_in he) rfl (ref_step (getArr_in he) rfl (ref_bind ref_rng ?_))
  rintro res _ m1 ⟨rfl, s, rfl⟩
  have h1 := tidy_setArr h res.left
  refine ref_step (m1 := { m with arrays := m.arrays.set e.obj.genome res.left, rng := s }) rfl rfl (ref_bind ref_lift ?_)
  rintro new _ m2 ⟨rfl, rfl⟩
  cases new with
  | none =>
    have h2 := tidy_mod h1 (fun x => { x with fitness := none }) rfl rfl
    exact ⟨⟨_, by rfl, by rfl, h2⟩, rfl⟩
  | some g =>
    have h2 := tidy_mod (tidy_newArr h1 g) (fun x => { x with fitness := none }) rfl rfl
    exact ⟨⟨_, by rfl, by rfl, h2⟩, rfl⟩

theorem tidy_swap {m : Mem γ ψ φ ρ} {a b : Entry γ ψ φ} {own rest : List (Entry γ ψ φ)} (h : Tidy m (a :: b :: own) rest) : Tidy m (b :: a :: own) rest :=
  tidy_perm h (List.Perm.swap b a own)

/-- What recombination leaves of the attributes. -/
def Entry.Kept (e e1 : Entry γ ψ φ) (g : List γ) : Prop := e1.addr = e.addr ∧ e1.val = { e.val with genes := g }

theorem ref_recombine (rec : Recombiner ρ) {m : Mem γ ψ φ ρ} {a b : Entry γ ψ φ} {own rest : List (Entry γ ψ φ)} (h : Tidy m (a :: b :: own) rest) :
    Ref (recombineInds rec a.addr b.addr) (recombined rec a.genes b.genes) m fun _ g m1 =>
      ∃ a1 b1 : Entry γ ψ φ, a.Kept a1 g.1 ∧ b.Kept b1 g.2 ∧ Tidy m1 (a1 :: b1 :: own) rest := by
  have ha := h.1 a (by simp)
  have hb := h.1 b (by simp)
  have hab := (List.pairwise_cons.mp h.2.2.1).1 b (by simp)
  unfold recombineInds
  refine ref_step (getObj_in ha) rfl (ref_step (getObj_in hb) rfl (ref_step (getArr_in ha) rfl (ref_step (getArr_in hb) rfl ?_)))
  cases rec with
  | uniform mask =>
    simp only [recombined]
    refine ref_bind ref_rng ?_
    rintro mk _ m1 ⟨rfl, s, rfl⟩
    refine ref_bind ref_lift ?_
    rintro fa _ m1 ⟨rfl, rfl⟩
    refine ref_bind ref_lift ?_
    rintro fb _ m1 ⟨rfl, rfl⟩
    refine ref_bind ref_lift ?_
    rintro a' _ m1 ⟨rfl, rfl⟩
    have h1 := tidy_swap (tidy_setArr h a')
    have hb1 := h1.1 b (by simp)
    refine ref_step (m1 := { m with arrays := m.arrays.set a.obj.genome a', rng := s }) rfl rfl (ref_step (a := b.genes) (m1 := { m with arrays := m.arrays.set a.obj.genome a', rng := s }) ?_ rfl (ref_bind ref_lift ?_))
    · have := hb1.2.1
      simp only at this
      simp [getArr, this]
    · rintro b' _ m1 ⟨rfl, rfl⟩
      exact ⟨⟨_, _, ⟨by rfl, by rfl⟩, ⟨by rfl, by rfl⟩, tidy_swap (tidy_setArr h1 b')⟩, rfl⟩
  | nary k cuts =>
    simp only [recombined]
    refine ref_bind ref_rng ?_
    rintro xs _ m1 ⟨rfl, s, rfl⟩
    have : (HM.lift (naryRecombine k xs a.genes b.genes) : HM (Luck ρ) (List γ × List γ)) = HM.lift (naryRecombine k xs a.genes b.genes) >>= pure := by
      funext w
      cases naryRecombine k xs a.genes b.genes <;> rfl
    rw [this]
    refine ref_bind ref_lift ?_
    rintro ⟨g1, g2⟩ _ m1 ⟨rfl, rfl⟩
    have h1 := tidy_newArr h g1
    have h2 := tidy_newArr (tidy_swap h1) g2
    exact ⟨⟨_, _, ⟨by rfl, by rfl⟩, ⟨by rfl, by rfl⟩, tidy_swap h2⟩, rfl⟩

theorem ref_cross (rec : Recombiner ρ) {m : Mem γ ψ φ ρ} {a b : Entry γ ψ φ} {own rest : List (Entry γ ψ φ)} (h : Tidy m (a :: b :: own) rest) :
    Ref (crossInds rec a.addr b.addr) (crossed rec a.val b.val) m fun _ v m1 =>
      ∃ a1 b1 : Entry γ ψ φ, a1.addr = a.addr ∧ b1.addr = b.addr ∧ a1.val = v.1 ∧ b1.val = v.2 ∧ Tidy m1 (a1 :: b1 :: own) rest := by
  unfold crossInds crossed
  refine ref_bind (ref_recombine rec h) ?_
  rintro _ ⟨ga, gb⟩ m1 ⟨a1, b1, ⟨aa, av⟩, ⟨ba, bv⟩, h1⟩
  rw [← aa, ← ba]
  have ha := h1.1 a1 (by simp)
  have hb := h1.1 b1 (by simp)
  have hab := (List.pairwise_cons.mp h1.2.2.1).1 b1 (by simp)
  refine ref_step (getObj_in ha) rfl (ref_step (getObj_in hb) rfl (ref_step (getSet_in hb) rfl (ref_step (getSet_in ha) rfl ?_)))
  have h2 := tidy_setSet h1 (setUnion a1.parents b1.parents)
  have ha2 := h2.1 _ List.mem_cons_self
  have hb2 := h2.1 b1 (by simp)
  refine ref_step rfl rfl (ref_step (a := setUnion a1.parents b1.parents) ?_ rfl (ref_step (a := b1.parents) (getSet_in hb2) rfl ?_))
  · exact getSet_in ha2
  · have h3 := tidy_setSet (tidy_swap h2) (setUnion b1.parents (setUnion a1.parents b1.parents))
    have h4 := tidy_mod (tidy_swap h3) (fun x => { x with fitness := none }) rfl rfl
    have h5 := tidy_mod (tidy_swap h4) (fun x => { x with fitness := none }) rfl rfl
    have pa : a1.parents = a.parents := congrArg Val.parents av
    have pb : b1.parents = b.parents := congrArg Val.parents bv
    refine ⟨⟨_, _, by rfl, by rfl, ?_, ?_, tidy_swap h5⟩, rfl⟩
    · have hv := av
      simp only [Entry.val, Val.mk.injEq] at hv ⊢
      simp [hv, pa, pb]
    · have hv := bv
      simp only [Entry.val, Val.mk.injEq] at hv ⊢
      simp [hv, pa, pb]

/-! ### Pipelines -/

/-- The individuals a generator holds back do not matter to others, and each `next()` gives an individual that shares nothing. -/
def Sim (rest : List (Entry γ ψ φ)) (it : HIter (Mem γ ψ φ ρ)) (vit : VIter γ φ ρ) (held : it.σ → vit.σ → List (Entry γ ψ φ) → Prop) : Prop :=
  held it.init vit.init [] ∧ ∀ s t L own m, held s t L → Tidy m (L ++ own) rest →
    Ref (it.next s) (vit.next t) m fun x y m1 => ∃ (e : Entry γ ψ φ) (L1 : List (Entry γ ψ φ)), e.addr = x.1 ∧ e.val = y.1 ∧ held x.2 y.2 L1 ∧ Tidy m1 (e :: (L1 ++ own)) rest

theorem sim_select (rest pop : List (Entry γ ψ φ)) (hp : ∀ e ∈ pop, e ∈ rest) (choose : Mem γ ψ φ ρ → PyM Nat × ρ) (pick : ρ → PyM Nat × ρ)
    (hc : ∀ m : Mem γ ψ φ ρ, (∀ e ∈ pop, e.In m) → choose m = pick m.rng) :
    Sim rest ((Stage.clone : Stage γ ψ φ ρ).apply (selectionIter (pop.map Entry.addr) choose)) (through (selected (pop.map Entry.val) pick) (Stage.clone : Stage γ ψ φ ρ))
      (fun _ _ L => L = []) := by
  refine ⟨rfl, ?_⟩
  rintro s t L own m rfl h
  refine ref_pep (ref_bind (Q := fun x y m1 => ∃ e ∈ pop, e.addr = x.1 ∧ e.val = y.1 ∧ Tidy m1 own rest) ?_ ?_)
  · have hm := hc m fun e he => h.2.1 e (hp e he)
    unfold Ref
    simp only [selectionIter, selected, draw, HM.bind_apply, luck, hm, List.getElem?_map]
    rcases pick m.rng with ⟨(x | i), s'⟩
    · exact ⟨rfl, rfl⟩
    · simp only []
      cases hi : pop[i]? with
      | none => exact ⟨rfl, rfl⟩
      | some e => exact ⟨⟨e, List.mem_of_getElem? hi, rfl, rfl, h⟩, rfl⟩
  · rintro ⟨r, s'⟩ ⟨v, t'⟩ m1 ⟨e, he, rfl, rfl, h1⟩
    refine ref_bind (ref_clone (h1.2.1 e (hp e he)) h1) ?_
    rintro c v m2 ⟨e1, rfl, rfl, h2⟩
    exact ref_pure ⟨e1, [], rfl, rfl, rfl, h2⟩

theorem sim_stage {rest : List (Entry γ ψ φ)} {it : HIter (Mem γ ψ φ ρ)} {vit : VIter γ φ ρ} {held : it.σ → vit.σ → List (Entry γ ψ φ) → Prop}
    (h : Sim rest it vit held) (st : Stage γ ψ φ ρ) : ∃ held1, Sim rest (st.apply it) (through vit st) held1 := by
  cases st with
  | clone =>
    refine ⟨held, h.1, fun s t L own m hh ht => ref_pep (ref_bind (h.2 s t L own m hh ht) ?_)⟩
    rintro ⟨r, s'⟩ ⟨v, t'⟩ m1 ⟨e, L1, rfl, rfl, h1, ht1⟩
    refine ref_bind (ref_clone (ht1.1 e (by simp)) (tidy_tail ht1)) ?_
    rintro c v m2 ⟨e1, rfl, rfl, h2⟩
    exact ref_pure ⟨e1, L1, rfl, rfl, h1, h2⟩
  | mutate check stopOk f =>
    refine ⟨fun s t L => s.1 = t.1 ∧ held s.2 t.2 L, ⟨rfl, h.1⟩, ?_⟩
    rintro ⟨b, s⟩ ⟨b', t⟩ L own m ⟨rfl, hh⟩ ht
    refine ref_bind ref_lift ?_
    rintro _ _ m1 ⟨_, rfl⟩
    refine ref_bind (Q := fun (x : Nat × it.σ) (y : Val γ φ × vit.σ) m1 => ∃ (e : Entry γ ψ φ) (L1 : List (Entry γ ψ φ)), e.addr = x.1 ∧ e.val = y.1 ∧ held x.2 y.2 L1 ∧ Tidy m1 (e :: (L1 ++ own)) rest) ?_ ?_
    · unfold upstream endOf
      cases stopOk
      · exact ref_pep (h.2 s t L own _ hh ht)
      · exact h.2 s t L own _ hh ht
    · rintro ⟨r, s'⟩ ⟨v, t'⟩ m1 ⟨e, L1, rfl, rfl, h1, ht1⟩
      refine ref_bind (ref_pep (ref_mutate f ht1)) ?_
      rintro _ v m2 ⟨e1, ea, rfl, h2⟩
      exact ref_pure ⟨e1, L1, ea, rfl, ⟨rfl, h1⟩, h2⟩
  | crossover skip rec =>
    refine ⟨fun s t L => ∃ L0, held s.2 t.2 L0 ∧ ((s.1 = none ∧ t.1 = none ∧ L = L0) ∨ ∃ e : Entry γ ψ φ, s.1 = some e.addr ∧ t.1 = some e.val ∧ L = e :: L0),
      ⟨[], h.1, .inl ⟨rfl, rfl, rfl⟩⟩, ?_⟩
    rintro ⟨p, s⟩ ⟨p', t⟩ L own m ⟨L0, hh, hp⟩ ht
    refine ref_pep ?_
    rcases hp with ⟨rfl, rfl, rfl⟩ | ⟨e, rfl, rfl, rfl⟩
    · refine ref_bind (h.2 s t L own m hh ht) ?_
      rintro ⟨r, s'⟩ ⟨v, t'⟩ m1 ⟨a, L1, rfl, rfl, h1, ht1⟩
      have ht1' : Tidy m1 (L1 ++ (a :: own)) rest := tidy_perm ht1 List.perm_middle.symm
      refine ref_bind (h.2 s' t' L1 (a :: own) m1 h1 ht1') ?_
      rintro ⟨r, s'⟩ ⟨v, t'⟩ m2 ⟨b, L2, rfl, rfl, h2, ht2⟩
      have ht2' : Tidy m2 (a :: b :: (L2 ++ own)) rest := tidy_perm ht2 ((List.Perm.cons b List.perm_middle).trans (List.Perm.swap a b _))
      refine ref_bind ref_rng ?_
      rintro sk _ m3 ⟨rfl, x, rfl⟩
      cases sk
      · refine ref_bind (ref_cross rec (m := { m2 with rng := x }) ht2') ?_
        rintro _ ⟨va, vb⟩ m4 ⟨a1, b1, aa, ba, rfl, rfl, ht3⟩
        exact ref_pure ⟨a1, b1 :: L2, aa, rfl, ⟨L2, h2, .inr ⟨b1, by rw [ba], rfl, rfl⟩⟩, ht3⟩
      · exact ref_pure ⟨a, b :: L2, rfl, rfl, ⟨L2, h2, .inr ⟨b, rfl, rfl, rfl⟩⟩, ht2'⟩
    · exact ref_pure ⟨e, L0, rfl, rfl, ⟨L0, hh, .inl ⟨rfl, rfl, rfl⟩⟩, ht⟩
  | evaluate dec prob =>
    refine ⟨held, h.1, fun s t L own m hh ht => ref_pep (ref_bind (h.2 s t L own m hh ht) ?_)⟩
    rintro ⟨r, s'⟩ ⟨v, t'⟩ m1 ⟨e, L1, rfl, rfl, h1, ht1⟩
    refine ref_bind (ref_evaluate dec prob ht1) ?_
    rintro _ v m2 ⟨e1, ea, rfl, h2⟩
    exact ref_pure ⟨e1, L1, ea, rfl, h1, h2⟩
  | robustEvaluate nan dec prob =>
    refine ⟨held, h.1, fun s t L own m hh ht => ref_pep (ref_bind (h.2 s t L own m hh ht) ?_)⟩
    rintro ⟨r, s'⟩ ⟨v, t'⟩ m1 ⟨e, L1, rfl, rfl, h1, ht1⟩
    refine ref_bind (ref_robust nan dec prob ht1) ?_
    rintro _ v m2 ⟨e1, ea, rfl, h2⟩
    exact ref_pure ⟨e1, L1, ea, rfl, h1, h2⟩

theorem sim_stages {rest : List (Entry γ ψ φ)} (stages : List (Stage γ ψ φ ρ)) : ∀ {it : HIter (Mem γ ψ φ ρ)} {vit : VIter γ φ ρ}
    {held : it.σ → vit.σ → List (Entry γ ψ φ) → Prop}, Sim rest it vit held → ∃ held1, Sim rest (stagesIter it stages) (chained vit stages) held1 := by
  induction stages with
  | nil => exact fun h => ⟨_, h⟩
  | cons st stages ih =>
    intro it vit held h
    obtain ⟨h1, hs⟩ := sim_stage h st
    exact ih hs

/-- The result of an operator that makes or changes several individuals. -/
abbrev AllOf (own rest : List (Entry γ ψ φ)) (rs : List Nat) (vs : List (Val γ φ)) (m : Mem γ ψ φ ρ) : Prop :=
  ∃ E : List (Entry γ ψ φ), E.map Entry.addr = rs ∧ E.map Entry.val = vs ∧ Tidy m (E ++ own) rest

theorem ref_hpull {rest : List (Entry γ ψ φ)} {it : HIter (Mem γ ψ φ ρ)} {vit : VIter γ φ ρ} {held : it.σ → vit.σ → List (Entry γ ψ φ) → Prop}
    (h : Sim rest it vit held) (n : Nat) : ∀ (s : it.σ) (t : vit.σ) (L own : List (Entry γ ψ φ)) (m : Mem γ ψ φ ρ), held s t L → Tidy m (L ++ own) rest →
      Ref (hpull it.next n s) (hpull vit.next n t) m fun x y m1 => AllOf own rest x.1 y.1 m1 := by
  induction n with
  | zero =>
    intro s t L own m _ ht
    exact ref_pure ⟨[], rfl, rfl, tidy_sub ht (List.sublist_append_right L own)⟩
  | succ n ih =>
    intro s t L own m hh ht
    unfold hpull
    refine ref_bind (h.2 s t L own m hh ht) ?_
    rintro ⟨r, s'⟩ ⟨v, t'⟩ m1 ⟨e, L1, rfl, rfl, h1, ht1⟩
    refine ref_bind (ih s' t' L1 (e :: own) m1 h1 (tidy_perm ht1 List.perm_middle.symm)) ?_
    rintro ⟨rs, s2⟩ ⟨vs, t2⟩ m2 ⟨E, ha, hv, ht2⟩
    exact ref_pure ⟨e :: E, by simpa using ha, by simpa using hv, tidy_perm ht2 List.perm_middle⟩

theorem ref_runPipeline {own rest : List (Entry γ ψ φ)} {m : Mem γ ψ φ ρ} (pop : List (Entry γ ψ φ)) (hp : ∀ e ∈ pop, e ∈ rest) (choose : Mem γ ψ φ ρ → PyM Nat × ρ)
    (pick : ρ → PyM Nat × ρ) (hc : ∀ m : Mem γ ψ φ ρ, (∀ e ∈ pop, e.In m) → choose m = pick m.rng) (stages : List (Stage γ ψ φ ρ)) (size : Nat) (ht : Tidy m own rest) :
    Ref (runPipeline (pop.map Entry.addr) choose stages size) (offspringOf (pop.map Entry.val) pick stages size) m (AllOf own rest) := by
  obtain ⟨held, hs⟩ := sim_stages (rest := rest) stages (sim_select rest pop hp choose pick hc)
  unfold runPipeline offspringOf
  refine ref_bind (ref_hpull hs size _ _ [] own m hs.1 ht) ?_
  rintro ⟨rs, s2⟩ ⟨vs, t2⟩ m2 hx
  exact ref_pure hx

/-! ### Making and sending individuals -/

theorem ref_create (initGenome : ρ → PyM (List γ) × ρ) (problem n : Nat) : ∀ {m : Mem γ ψ φ ρ} {own rest : List (Entry γ ψ φ)}, Tidy m own rest →
    Ref (createPopulation initGenome problem n) (newborns initGenome problem n) m (AllOf own rest) := by
  induction n with
  | zero => exact fun h => ref_pure ⟨[], rfl, rfl, h⟩
  | succ n ih =>
    intro m own rest h
    unfold createPopulation newborns
    refine ref_bind ref_rng ?_
    rintro g _ m1 ⟨rfl, s, rfl⟩
    refine ref_step (m1 := { m with arrays := m.arrays ++ [g], rng := s }) rfl rfl ?_
    refine ref_bind (Q := fun r u m1 => ∃ e : Entry γ ψ φ, e.addr = r ∧ e.val = ⟨g, none, u, [], problem, none, none⟩ ∧ Tidy m1 (e :: own) rest) ?_ ?_
    · refine ⟨⟨_, ?_, ?_, tidy_new h ⟨m.arrays.length, none, none, m.nextUuid, m.sets.length, problem, none, none⟩ g [] rfl rfl _ s⟩, rfl⟩ <;> rfl
    · rintro r u m1 ⟨e, rfl, hv, ht⟩
      refine ref_bind (ih ht) ?_
      rintro rs vs m2 ⟨E, ha, hvs, ht2⟩
      exact ref_pure ⟨e :: E, by simpa using ha, by simp [hv, hvs], tidy_perm ht2 List.perm_middle⟩

theorem ref_evaluateAll (dec : Dec γ ψ) (prob : Prob γ ψ φ ρ) (pop : List (Entry γ ψ φ)) : ∀ {m : Mem γ ψ φ ρ} {own rest : List (Entry γ ψ φ)}, Tidy m (pop ++ own) rest →
    Ref (evaluatePopulation dec prob (pop.map Entry.addr)) (allScored dec prob (pop.map Entry.val)) m fun _ => AllOf own rest (pop.map Entry.addr) := by
  induction pop with
  | nil => exact fun h => ref_pure ⟨[], rfl, rfl, h⟩
  | cons e pop ih =>
    intro m own rest h
    refine ref_bind (ref_evaluate dec prob h) ?_
    rintro _ v m1 ⟨e1, ea, rfl, h1⟩
    have key : Ref (evaluatePopulation dec prob (pop.map Entry.addr)) (allScored dec prob (pop.map Entry.val) >>= fun vs => pure (e1.val :: vs)) m1
        fun _ => AllOf own rest ((e :: pop).map Entry.addr) := by
      have e0 : (evaluatePopulation dec prob (pop.map Entry.addr) : HM (Mem γ ψ φ ρ) Unit) = evaluatePopulation dec prob (pop.map Entry.addr) >>= pure := by
        funext m
        rw [HM.bind_apply]
        rcases evaluatePopulation dec prob (pop.map Entry.addr) m with ⟨(x | x), m2⟩ <;> rfl
      rw [e0]
      refine ref_bind (ih (own := e1 :: own) (tidy_perm h1 List.perm_middle.symm)) ?_
      rintro _ vs m2 ⟨E, ha, rfl, ht⟩
      exact ref_pure ⟨e1 :: E, by simp [ea, ha], rfl, tidy_perm ht List.perm_middle⟩
    exact key

/-- Sending individuals to workers is not seen: copied or not, the worker has an individual with the same value. -/
theorem submitAll_values (copied : Nat → Bool) (l : List (Entry γ ψ φ)) : ∀ {m : Mem γ ψ φ ρ} {own rest : List (Entry γ ψ φ)}, Tidy m (l ++ own) rest →
    ∃ (E : List (Entry γ ψ φ)) (m1 : Mem γ ψ φ ρ), submitAll copied (l.map Entry.addr) m = (.ok (E.map Entry.addr), m1) ∧ luck m1 = luck m ∧
      E.map Entry.val = l.map Entry.val ∧ Tidy m1 (E ++ own) rest := by
  induction l with
  | nil => exact fun {m own rest} h => ⟨[], m, rfl, rfl, rfl, h⟩
  | cons e l ih =>
    intro m own rest h
    have he := h.1 e (by simp)
    have one : ∃ (e1 : Entry γ ψ φ) (m1 : Mem γ ψ φ ρ), submitInd (copied e.addr) e.addr m = (.ok e1.addr, m1) ∧ luck m1 = luck m ∧ e1.val = e.val ∧
        Tidy m1 (e1 :: (l ++ own)) rest := by
      unfold submitInd
      cases copied e.addr with
      | false => exact ⟨e, m, rfl, rfl, rfl, h⟩
      | true =>
        have := tidy_new (tidy_tail h) { e.obj with genome := m.arrays.length, parents := m.sets.length, phenome := none } e.genes e.parents rfl rfl m.nextUuid m.rng
        refine ⟨_, _, ?_, ?_, ?_, this⟩
        · simp [HM.bind_apply, getObj, he.1, getArr, he.2.1, newArr, getSet, he.2.2, newSet, newObj]
        · rfl
        · rfl
    obtain ⟨e1, m1, hx, hl, hv, h1⟩ := one
    obtain ⟨E, m2, hx2, hl2, hv2, h2⟩ := ih (own := e1 :: own) (tidy_perm h1 List.perm_middle.symm)
    refine ⟨e1 :: E, m2, ?_, hl2.trans hl, by simp [hv, hv2], tidy_perm h2 List.perm_middle⟩
    simp [submitAll, HM.bind_apply, hx, hx2]

end

end Leap
