import Verif.Model.Pipeline
import Verif.Spec.Memory
import Verif.Props.Individual

/-! # Pipelines only touch what they made themselves: the frame invariant -/

namespace Leap
open Spec

variable {γ ψ φ ρ : Type}

/-- Everything of `m0` is unchanged, and whatever is new refers only to new arrays and sets. -/
structure Fresh (m0 m : Mem γ ψ φ ρ) : Prop where
  unchanged : Unchanged m0 m
  sound : Sound m
  inds : m0.inds.length ≤ m.inds.length
  arrays : m0.arrays.length ≤ m.arrays.length
  sets : m0.sets.length ≤ m.sets.length
  owned : ∀ (r : Nat) (o : Obj ψ φ), m0.inds.length ≤ r → m.inds[r]? = some o →
    m0.arrays.length ≤ o.genome ∧ m0.sets.length ≤ o.parents
  distinct : ∀ (r r' : Nat) (o o' : Obj ψ φ), m0.inds.length ≤ r → m0.inds.length ≤ r' → r ≠ r' →
    m.inds[r]? = some o → m.inds[r']? = some o' → o.genome ≠ o'.genome ∧ o.parents ≠ o'.parents

theorem Fresh.refl (m : Mem γ ψ φ ρ) (h : Sound m) : Fresh m m :=
  ⟨⟨fun _ _ => rfl, fun _ _ => rfl, fun _ _ => rfl⟩, h, Nat.le_refl _, Nat.le_refl _, Nat.le_refl _, by
    intro r o hr ho
    have := (List.getElem?_eq_some_iff.1 ho).1
    omega, by
    intro r r' o o' hr hr' hne ho ho'
    have := (List.getElem?_eq_some_iff.1 ho).1
    omega⟩

/-- Fresh, with at least `k` individuals. -/
def FreshAt (m0 : Mem γ ψ φ ρ) (k : Nat) (m : Mem γ ψ φ ρ) : Prop := Fresh m0 m ∧ k ≤ m.inds.length

variable {m0 : Mem γ ψ φ ρ} {k : Nat}

theorem useRng_fresh {α : Type} (f : ρ → PyM α × ρ) :
    Ensures (FreshAt m0 k) (useRng f) (fun _ => FreshAt m0 k) (Fresh m0) := by
  intro m hm
  have h : Fresh m0 { m with rng := (f m.rng).2 } :=
    ⟨⟨hm.1.unchanged.1, hm.1.unchanged.2, hm.1.unchanged.3⟩, ⟨hm.1.sound.1, hm.1.sound.2, hm.1.sound.3⟩,
     hm.1.inds, hm.1.arrays, hm.1.sets, hm.1.owned, hm.1.distinct⟩
  simp only [useRng]
  cases (f m.rng).1 with
  | error e => exact h
  | ok a => exact ⟨h, hm.2⟩

theorem getObj_fresh (r : Nat) (hr : m0.inds.length ≤ r) :
    Ensures (FreshAt m0 k) (getObj r) (fun o m => FreshAt m0 k m ∧ m.inds[r]? = some o ∧
      m0.arrays.length ≤ o.genome ∧ m0.sets.length ≤ o.parents) (Fresh m0) := by
  intro m hm
  simp only [getObj]
  cases h : m.inds[r]? with
  | none => exact hm.1
  | some o => exact ⟨hm, h, hm.1.owned r o hr h⟩

theorem getArr_fresh (a : Nat) : Ensures (FreshAt m0 k) (getArr a) (fun _ => FreshAt m0 k) (Fresh m0) := by
  intro m hm
  simp only [getArr]
  cases m.arrays[a]? with
  | none => exact hm.1
  | some o => exact hm

theorem getSet_fresh (a : Nat) : Ensures (FreshAt m0 k) (getSet a) (fun _ => FreshAt m0 k) (Fresh m0) := by
  intro m hm
  simp only [getSet]
  cases m.sets[a]? with
  | none => exact hm.1
  | some o => exact hm

theorem lift_fresh {α : Type} (x : PyM α) :
    Ensures (FreshAt m0 k) (HM.lift x) (fun _ => FreshAt m0 k) (Fresh m0) :=
  Ensures.lift (fun _ h => h.1) (fun _ _ _ h => h)

theorem setArr_fresh (a : Nat) (g : List γ) (ha : m0.arrays.length ≤ a) :
    Ensures (FreshAt m0 k) (setArr a g) (fun _ => FreshAt m0 k) (Fresh m0) := by
  intro m hm
  refine ⟨⟨⟨hm.1.unchanged.1, ?_, hm.1.unchanged.3⟩, ⟨?_, hm.1.sound.2, hm.1.sound.3⟩,
     hm.1.inds, by simpa using hm.1.arrays, hm.1.sets, hm.1.owned, hm.1.distinct⟩, hm.2⟩
  · intro i hi
    rw [← hm.1.unchanged.arrays i hi]
    simp [List.getElem?_set_ne (show a ≠ i by omega)]
  · intro o ho; simpa using hm.1.sound.genome o ho

theorem setSet_fresh (a : Nat) (g : List Nat) (ha : m0.sets.length ≤ a) :
    Ensures (FreshAt m0 k) (setSet a g) (fun _ => FreshAt m0 k) (Fresh m0) := by
  intro m hm
  refine ⟨⟨⟨hm.1.unchanged.1, hm.1.unchanged.2, ?_⟩, ⟨hm.1.sound.1, ?_, hm.1.sound.3⟩,
     hm.1.inds, hm.1.arrays, by simpa using hm.1.sets, hm.1.owned, hm.1.distinct⟩, hm.2⟩
  · intro i hi
    rw [← hm.1.unchanged.sets i hi]
    simp [List.getElem?_set_ne (show a ≠ i by omega)]
  · intro o ho; simpa using hm.1.sound.parents o ho

theorem newArr_fresh (g : List γ) :
    Ensures (FreshAt m0 k) (newArr g) (fun a m => FreshAt m0 k m ∧ m0.arrays.length ≤ a ∧ a < m.arrays.length ∧
      ∀ o ∈ m.inds, o.genome ≠ a) (Fresh m0) := by
  intro m hm
  refine ⟨⟨⟨⟨hm.1.unchanged.1, ?_, hm.1.unchanged.3⟩, ⟨?_, hm.1.sound.2, hm.1.sound.3⟩,
     hm.1.inds, ?_, hm.1.sets, hm.1.owned, hm.1.distinct⟩, hm.2⟩, hm.1.arrays, by simp, ?_⟩
  · intro i hi
    rw [← hm.1.unchanged.arrays i hi]
    simp [List.getElem?_append_left (Nat.lt_of_lt_of_le hi hm.1.arrays)]
  · intro o ho; have := hm.1.sound.genome o ho; simp; omega
  · have := hm.1.arrays; simp; omega
  · intro o ho; have := hm.1.sound.genome o ho; omega

theorem mem_modify {α : Type} {l : List α} {r : Nat} {f : α → α} {x : α} (h : x ∈ l.modify r f) :
    x ∈ l ∨ ∃ y ∈ l, x = f y := by
  obtain ⟨i, hi⟩ := List.mem_iff_getElem?.1 h
  rw [List.getElem?_modify] at hi
  cases hl : l[i]? with
  | none => rw [hl] at hi; simp at hi
  | some y =>
    rw [hl] at hi
    have hy := List.mem_of_getElem? hl
    by_cases hr : r = i
    · right; exact ⟨y, hy, by simpa [hr] using hi.symm⟩
    · left; have : x = y := by simpa [hr] using hi.symm
      rw [this]; exact hy

/-- Changing attributes of a new individual other than its identity. -/
theorem modObj_fresh (r : Nat) (hr : m0.inds.length ≤ r) (f : Obj ψ φ → Obj ψ φ)
    (hu : ∀ x, (f x).uuid = x.uuid) (C : Mem γ ψ φ ρ → Prop)
    (hg : ∀ m, C m → ∀ x, (f x).genome = x.genome ∨ (m0.arrays.length ≤ (f x).genome ∧ (f x).genome < m.arrays.length ∧
      ∀ o ∈ m.inds, o.genome ≠ (f x).genome))
    (hp : ∀ x, (f x).parents = x.parents) :
    Ensures (fun m => FreshAt m0 k m ∧ C m) (modObj r f) (fun _ => FreshAt m0 k) (Fresh m0) := by
  intro m hm
  obtain ⟨hm, hC⟩ := hm
  refine ⟨⟨⟨?_, hm.1.unchanged.2, hm.1.unchanged.3⟩, ⟨?_, ?_, ?_⟩,
     by simpa using hm.1.inds, hm.1.arrays, hm.1.sets, ?_, ?_⟩, by simpa using hm.2⟩
  · intro i hi
    rw [← hm.1.unchanged.inds i hi]
    simp [List.getElem?_modify, show r ≠ i by omega]
  · intro o ho
    rcases mem_modify ho with h | ⟨y, hy, rfl⟩
    · exact hm.1.sound.genome o h
    · rcases hg m hC y with h | h
      · rw [h]; exact hm.1.sound.genome y hy
      · exact h.2.1
  · intro o ho
    rcases mem_modify ho with h | ⟨y, hy, rfl⟩
    · exact hm.1.sound.parents o h
    · rw [hp]; exact hm.1.sound.parents y hy
  · intro o ho
    rcases mem_modify ho with h | ⟨y, hy, rfl⟩
    · exact hm.1.sound.uuid o h
    · rw [hu]; exact hm.1.sound.uuid y hy
  · intro i o hi ho
    simp only [List.getElem?_modify] at ho
    cases hl : m.inds[i]? with
    | none => rw [hl] at ho; simp at ho
    | some y =>
      rw [hl] at ho
      have hy := hm.1.owned i y hi hl
      by_cases h : r = i
      · have : o = f y := by simpa [h] using ho.symm
        subst this
        refine ⟨?_, by rw [hp]; exact hy.2⟩
        rcases hg m hC y with h | h
        · rw [h]; exact hy.1
        · exact h.1
      · have : o = y := by simpa [h] using ho.symm
        subst this; exact hy
  · intro i j o o' hi hj hne ho ho'
    simp only [List.getElem?_modify] at ho ho'
    cases hl : m.inds[i]? with
    | none => rw [hl] at ho; simp at ho
    | some y =>
      cases hl' : m.inds[j]? with
      | none => rw [hl'] at ho'; simp at ho'
      | some y' =>
        rw [hl] at ho
        rw [hl'] at ho'
        have hd := hm.1.distinct i j y y' hi hj hne hl hl'
        have hy := List.mem_of_getElem? hl
        have hy' := List.mem_of_getElem? hl'
        by_cases h : r = i
        · have h' : r ≠ j := by omega
          have e1 : o = f y := by simpa [h] using ho.symm
          have e2 : o' = y' := by simpa [h'] using ho'.symm
          subst e1 e2
          refine ⟨?_, by rw [hp]; exact hd.2⟩
          rcases hg m hC y with hx | hx
          · rw [hx]; exact hd.1
          · exact (hx.2.2 _ hy').symm
        · have e1 : o = y := by simpa [h] using ho.symm
          by_cases h' : r = j
          · have e2 : o' = f y' := by simpa [h'] using ho'.symm
            subst e1 e2
            refine ⟨?_, by rw [hp]; exact hd.2⟩
            rcases hg m hC y' with hx | hx
            · rw [hx]; exact hd.1
            · exact hx.2.2 _ hy
          · have e2 : o' = y' := by simpa [h'] using ho'.symm
            subst e1 e2
            exact hd

theorem modObj_attr_fresh (r : Nat) (hr : m0.inds.length ≤ r) (f : Obj ψ φ → Obj ψ φ)
    (hu : ∀ x, (f x).uuid = x.uuid) (hg : ∀ x, (f x).genome = x.genome) (hp : ∀ x, (f x).parents = x.parents) :
    Ensures (FreshAt m0 k) (modObj r f) (fun _ => FreshAt m0 k) (Fresh m0) :=
  (modObj_fresh r hr f hu (fun _ => True) (fun _ _ x => Or.inl (hg x)) hp).mono (fun _ h => ⟨h, trivial⟩)
    (fun _ _ h => h) (fun _ h => h)

theorem newGenome_fresh (r : Nat) (hr : m0.inds.length ≤ r) (g : List γ) :
    Ensures (FreshAt m0 k) (newArr g >>= fun a => modObj r fun x => { x with genome := a })
      (fun _ => FreshAt m0 k) (Fresh m0) := by
  refine (newArr_fresh g).seq fun a => ?_
  exact modObj_fresh r hr (fun x => { x with genome := a }) (fun _ => rfl) (fun m => m0.arrays.length ≤ a ∧ a < m.arrays.length ∧ ∀ o ∈ m.inds, o.genome ≠ a)
    (fun m h x => Or.inr h) (fun _ => rfl)

theorem mutateInd_fresh (f : MutFn γ ρ) (r : Nat) (hr : m0.inds.length ≤ r) :
    Ensures (FreshAt m0 k) (mutateInd f r) (fun _ => FreshAt m0 k) (Fresh m0) := by
  have hfit : Ensures (FreshAt m0 k) (modObj r fun x => { x with fitness := none }) (fun _ => FreshAt m0 k) (Fresh m0) :=
    modObj_attr_fresh r hr _ (fun _ => rfl) (fun _ => rfl) (fun _ => rfl)
  unfold mutateInd
  refine (getObj_fresh r hr).seq fun o => ?_
  intro m hm
  obtain ⟨hm, -, ho, -⟩ := hm
  revert m
  refine (getArr_fresh o.genome).seq fun g => ?_
  refine (useRng_fresh _).seq fun res => ?_
  refine (setArr_fresh o.genome _ ho).seq fun _ => ?_
  refine (lift_fresh _).seq fun new => ?_
  cases new with
  | none => exact hfit
  | some g' =>
    intro m hm
    have := (newGenome_fresh (k := k) r hr g').seq (fun _ => hfit) m hm
    simpa [HM.bind_apply, newArr, modObj] using this

/-- Forget what was learnt about the value. -/
theorem Ensures.withPure {M α β : Type} {P : M → Prop} {E : M → Prop} {x : HM M α} {f : α → HM M β}
    {Q : α → M → Prop} {R : β → M → Prop} {C : α → Prop}
    (hx : Ensures P x (fun a m => Q a m ∧ C a) E) (hf : ∀ a, C a → Ensures (Q a) (f a) R E) :
    Ensures P (x >>= f) R E :=
  hx.seq fun a m hm => hf a hm.2 m hm.1

theorem getObj_fresh' (r : Nat) (hr : m0.inds.length ≤ r) :
    Ensures (FreshAt m0 k) (getObj r) (fun o m => FreshAt m0 k m ∧
      (m0.arrays.length ≤ o.genome ∧ m0.sets.length ≤ o.parents)) (Fresh m0) :=
  (getObj_fresh r hr).mono (fun _ h => h) (fun _ _ h => ⟨h.1, h.2.2⟩) (fun _ h => h)

theorem recombineInds_fresh (rec : Recombiner ρ) (ra rb : Nat) (ha : m0.inds.length ≤ ra)
    (hb : m0.inds.length ≤ rb) :
    Ensures (FreshAt m0 k) (recombineInds rec ra rb) (fun _ => FreshAt m0 k) (Fresh m0) := by
  unfold recombineInds
  refine (getObj_fresh' ra ha).withPure fun oa hoa => ?_
  refine (getObj_fresh' rb hb).withPure fun ob hob => ?_
  refine (getArr_fresh _).seq fun a => ?_
  refine (getArr_fresh _).seq fun b => ?_
  cases rec with
  | uniform mask =>
    refine (useRng_fresh _).seq fun mk => ?_
    refine (lift_fresh _).seq fun tmp => ?_
    refine (lift_fresh _).seq fun fromB => ?_
    refine (lift_fresh _).seq fun a' => ?_
    refine (setArr_fresh _ _ hoa.1).seq fun _ => ?_
    refine (getArr_fresh _).seq fun b1 => ?_
    refine (lift_fresh _).seq fun b' => ?_
    exact setArr_fresh _ _ hob.1
  | nary n cuts =>
    refine (useRng_fresh _).seq fun xs => ?_
    refine (lift_fresh _).seq fun gs => ?_
    have h1 := newGenome_fresh (m0 := m0) (k := k) ra ha gs.1
    have h2 := newGenome_fresh (m0 := m0) (k := k) rb hb gs.2
    exact h1.seq fun _ => h2

theorem crossInds_fresh (rec : Recombiner ρ) (ra rb : Nat) (ha : m0.inds.length ≤ ra)
    (hb : m0.inds.length ≤ rb) :
    Ensures (FreshAt m0 k) (crossInds rec ra rb) (fun _ => FreshAt m0 k) (Fresh m0) := by
  unfold crossInds
  refine (recombineInds_fresh rec ra rb ha hb).seq fun _ => ?_
  refine (getObj_fresh' ra ha).withPure fun oa hoa => ?_
  refine (getObj_fresh' rb hb).withPure fun ob hob => ?_
  refine (getSet_fresh _).seq fun _ => ?_
  refine (getSet_fresh _).seq fun _ => ?_
  refine (setSet_fresh _ _ hoa.2).seq fun _ => ?_
  refine (getSet_fresh _).seq fun _ => ?_
  refine (getSet_fresh _).seq fun _ => ?_
  refine (setSet_fresh _ _ hob.2).seq fun _ => ?_
  refine (modObj_attr_fresh ra ha (fun x => { x with fitness := none }) (fun _ => rfl) (fun _ => rfl) (fun _ => rfl)).seq fun _ => ?_
  exact modObj_attr_fresh rb hb _ (fun _ => rfl) (fun _ => rfl) (fun _ => rfl)

theorem evaluateImp_fresh (dec : Dec γ ψ) (prob : Prob γ ψ φ ρ) (r : Nat) (hr : m0.inds.length ≤ r) :
    Ensures (FreshAt m0 k) (evaluateImp dec prob r) (fun _ => FreshAt m0 k) (FreshAt m0 k) := by
  intro m hm
  cases ho : m.inds[r]? with
  | none =>
    have : evaluateImp dec prob r m = (.error .attributeError, m) := by
      simp [evaluateImp, HM.bind_apply, decodeInd, getObj, ho]
    rw [this]; exact hm
  | some o =>
    have hlt := hm.1.sound.genome o (List.mem_of_getElem? ho)
    have hg : m.arrays[o.genome]? = some m.arrays[o.genome] := List.getElem?_eq_getElem hlt
    obtain ⟨f, hf, he⟩ := evaluateImp_effect dec prob m r o _ ho hg
    rw [he]
    cases decodeOf dec m.arrays[o.genome] with
    | error e => exact hm
    | ok c =>
      have h1 : FreshAt m0 k { m with inds := m.inds.modify r f } :=
        modObj_attr_fresh (k := k) r hr f (fun x => (hf x).2.2.1) (fun x => (hf x).1) (fun x => (hf x).2.2.2.1) m hm
      have h2 : FreshAt m0 k { m with inds := m.inds.modify r f, rng := (prob.evaluate c m.rng).2 } :=
        ⟨⟨⟨h1.1.unchanged.1, h1.1.unchanged.2, h1.1.unchanged.3⟩, ⟨h1.1.sound.1, h1.1.sound.2, h1.1.sound.3⟩,
          h1.1.inds, h1.1.arrays, h1.1.sets, h1.1.owned, h1.1.distinct⟩, h1.2⟩
      cases hp : (prob.evaluate c m.rng).1 <;> simpa [hp] using h2

theorem evaluateInd_fresh (dec : Dec γ ψ) (prob : Prob γ ψ φ ρ) (r : Nat) (hr : m0.inds.length ≤ r) :
    Ensures (FreshAt m0 k) (evaluateInd dec prob r) (fun _ => FreshAt m0 k) (Fresh m0) := by
  unfold evaluateInd
  refine ((evaluateImp_fresh dec prob r hr).mono (fun _ h => h) (fun _ _ h => h) (fun _ h => h.1)).seq fun f => ?_
  refine (modObj_attr_fresh r hr (fun x => { x with fitness := some f }) (fun _ => rfl) (fun _ => rfl) (fun _ => rfl)).seq fun _ => ?_
  exact Ensures.ret fun _ h => h

theorem robustEvaluate_fresh (nan : φ) (dec : Dec γ ψ) (prob : Prob γ ψ φ ρ) (r : Nat)
    (hr : m0.inds.length ≤ r) :
    Ensures (FreshAt m0 k) (robustEvaluate nan dec prob r) (fun _ => FreshAt m0 k) (Fresh m0) := by
  intro m hm
  have h := evaluateImp_fresh (k := k) dec prob r hr m hm
  simp only [robustEvaluate]
  rcases e : evaluateImp dec prob r m with ⟨x, m1⟩
  rw [e] at h
  cases x with
  | error err =>
    exact modObj_attr_fresh (k := k) r hr (fun x => { x with fitness := some nan, exception := some err, viable := some false })
      (fun _ => rfl) (fun _ => rfl) (fun _ => rfl) m1 h
  | ok f =>
    exact modObj_attr_fresh (k := k) r hr (fun x => { x with fitness := some f, viable := some true })
      (fun _ => rfl) (fun _ => rfl) (fun _ => rfl) m1 h

/-- Cloning anything gives a new individual, numbered after all existing ones. -/
theorem cloneInd_fresh (r : Nat) :
    Ensures (FreshAt m0 k) (cloneInd r)
      (fun c m => FreshAt m0 (c + 1) m ∧ k ≤ c ∧ m0.inds.length ≤ c) (Fresh m0) := by
  intro m hm
  cases ho : m.inds[r]? with
  | none =>
    have : cloneInd r m = (.error .attributeError, m) := by simp [cloneInd, HM.bind_apply, getObj, ho]
    rw [this]; exact hm.1
  | some o =>
    obtain ⟨c, m', oc, h1, h2, h3, h4, h5, -, -, -, -, -, -, -, -⟩ := clone_spec m hm.1.sound r o ho
    have hlt := hm.1.sound.genome o (List.mem_of_getElem? ho)
    have he := clone_effect m r o _ ho (List.getElem?_eq_getElem hlt)
    rw [h1] at he
    rw [h1]
    simp only [Prod.mk.injEq, Except.ok.injEq] at he
    obtain ⟨rfl, rfl⟩ := he
    refine ⟨⟨⟨⟨?_, ?_, ?_⟩, h3, ?_, ?_, ?_, ?_, ?_⟩, by simp⟩, hm.2, hm.1.inds⟩
    · intro i hi; rw [← hm.1.unchanged.inds i hi, h2.inds i (Nat.lt_of_lt_of_le hi hm.1.inds)]
    · intro i hi; rw [← hm.1.unchanged.arrays i hi, h2.arrays i (Nat.lt_of_lt_of_le hi hm.1.arrays)]
    · intro i hi; rw [← hm.1.unchanged.sets i hi, h2.sets i (Nat.lt_of_lt_of_le hi hm.1.sets)]
    · have := hm.1.inds; simp; omega
    · have := hm.1.arrays; simp; omega
    · have := hm.1.sets; simp; omega
    · intro i o' hi ho'
      by_cases hlt2 : i < m.inds.length
      · rw [h2.inds i hlt2] at ho'
        exact hm.1.owned i o' hi ho'
      · have : i = m.inds.length := by
          have := (List.getElem?_eq_some_iff.1 ho').1
          simp at this; omega
        subst this
        rw [h5] at ho'
        cases ho'
        simp only [getElem?_append_last, Option.some.injEq] at h5
        subst h5
        exact ⟨hm.1.arrays, hm.1.sets⟩
    · have hnew : ∀ (i j : Nat) (o1 o2 : Obj ψ φ), m0.inds.length ≤ i → i < m.inds.length → m.inds.length ≤ j →
          (m.inds ++ [{ o with genome := m.arrays.length, fitness := none, uuid := m.nextUuid, parents := m.sets.length }])[i]? = some o1 →
          (m.inds ++ [{ o with genome := m.arrays.length, fitness := none, uuid := m.nextUuid, parents := m.sets.length }])[j]? = some o2 →
          o1.genome ≠ o2.genome ∧ o1.parents ≠ o2.parents := by
        intro i j o1 o2 _ hi hj h1' h2'
        rw [List.getElem?_append_left hi] at h1'
        have hj' : j = m.inds.length := by
          have := (List.getElem?_eq_some_iff.1 h2').1
          simp at this; omega
        subst hj'
        rw [getElem?_append_last] at h2'
        cases h2'
        have q1 := hm.1.sound.genome o1 (List.mem_of_getElem? h1')
        have q2 := hm.1.sound.parents o1 (List.mem_of_getElem? h1')
        constructor <;> simp only [] <;> omega
      intro i j o1 o2 hi hj hne h1' h2'
      by_cases hi2 : i < m.inds.length
      · by_cases hj2 : j < m.inds.length
        · rw [h2.inds i hi2] at h1'
          rw [h2.inds j hj2] at h2'
          exact hm.1.distinct i j o1 o2 hi hj hne h1' h2'
        · exact hnew i j o1 o2 hi hi2 (by omega) h1' h2'
      · by_cases hj2 : j < m.inds.length
        · have := hnew j i o2 o1 hj hj2 (by omega) h2' h1'
          exact ⟨this.1.symm, this.2.symm⟩
        · exfalso
          have a1 := (List.getElem?_eq_some_iff.1 h1').1
          have a2 := (List.getElem?_eq_some_iff.1 h2').1
          simp at a1 a2
          omega

/-- An iterator that yields only new individuals, each numbered higher than all before it, and changes nothing
old. `I s lo n` is its private invariant: in state `s`, with `n` individuals in memory, everything it will
yield is numbered `lo` or higher. -/
def YieldsNew (m0 : Mem γ ψ φ ρ) (it : HIter (Mem γ ψ φ ρ)) (I : it.σ → Nat → Nat → Prop) : Prop :=
  (∀ s lo n n', I s lo n → n ≤ n' → I s lo n') ∧
  (∀ s lo n, I s lo n → lo ≤ n) ∧
  (∀ n, m0.inds.length ≤ n → I it.init m0.inds.length n) ∧
  (∀ s lo k, m0.inds.length ≤ lo →
    Ensures (fun m => FreshAt m0 k m ∧ I s lo m.inds.length) (it.next s)
      (fun rs m => FreshAt m0 k m ∧ lo ≤ rs.1 ∧ I rs.2 (rs.1 + 1) m.inds.length) (Fresh m0))

/-- A step on the yielded individual that keeps the frame keeps the iterator's invariant. -/
theorem keep_invariant {α : Type} {I : Nat → Prop} (hmono : ∀ n n', I n → n ≤ n' → I n') {x : HM (Mem γ ψ φ ρ) α}
    (hx : ∀ k, Ensures (FreshAt m0 k) x (fun _ => FreshAt m0 k) (Fresh m0)) :
    Ensures (fun m => FreshAt m0 k m ∧ I m.inds.length) x (fun _ m => FreshAt m0 k m ∧ I m.inds.length) (Fresh m0) := by
  intro m hm
  have h := hx m.inds.length m ⟨hm.1.1, Nat.le_refl _⟩
  rcases e : x m with ⟨r, m1⟩
  rw [e] at h
  cases r with
  | error err => exact h
  | ok a => exact ⟨⟨h.1, Nat.le_trans hm.1.2 h.2⟩, hmono _ _ hm.2 h.2⟩

/-- The first clone stage after a selection operator. -/
theorem clone_first (src : HIter (Mem γ ψ φ ρ))
    (hsrc : ∀ s k, Ensures (FreshAt m0 k) (src.next s) (fun _ => FreshAt m0 k) (Fresh m0)) :
    YieldsNew m0 (Stage.clone.apply src) (fun _ lo n => lo ≤ n) := by
  refine ⟨fun _ _ _ _ h1 h2 => Nat.le_trans h1 h2, fun _ _ _ h => h, fun _ h => h, ?_⟩
  intro s lo k hlo
  refine Ensures.pep ?_
  rintro m ⟨h1, h2⟩
  refine ((hsrc s (max k lo)).seq fun rs => ?_) m ⟨h1.1, Nat.max_le.2 ⟨h1.2, h2⟩⟩
  refine (cloneInd_fresh rs.1).seq fun c => ?_
  exact Ensures.ret fun m h => ⟨⟨h.1.1, by have := h.1.2; have := h.2.1; omega⟩, by have := h.2.1; omega, h.1.2⟩

/-- A step on the individual just received, which is then passed on. -/
theorem pass_on {α τ : Type} {I : Nat → Nat → Prop} {J : τ → Nat → Nat → Prop} (hmono : ∀ lo n n', I lo n → n ≤ n' → I lo n')
    (lo r : Nat) (t : τ) (hlo : m0.inds.length ≤ lo) (hJ : ∀ n, I (r + 1) n → J t (r + 1) n) (x : HM (Mem γ ψ φ ρ) α)
    (hx : m0.inds.length ≤ r → ∀ k, Ensures (FreshAt m0 k) x (fun _ => FreshAt m0 k) (Fresh m0)) :
    Ensures (fun m => FreshAt m0 k m ∧ lo ≤ r ∧ I (r + 1) m.inds.length) (x >>= fun _ => pure (r, t))
      (fun rs m => FreshAt m0 k m ∧ lo ≤ rs.1 ∧ J rs.2 (rs.1 + 1) m.inds.length) (Fresh m0) := by
  intro m hm
  obtain ⟨h1, h2, h3⟩ := hm
  refine ((keep_invariant (I := I (r + 1)) (hmono (r + 1)) (hx (Nat.le_trans hlo h2))).seq fun _ => ?_) m ⟨h1, h3⟩
  exact Ensures.ret fun m' h => ⟨h.1, h2, hJ _ h.2⟩

/-- One more operator. -/
theorem stage_yieldsNew (up : HIter (Mem γ ψ φ ρ)) (I : up.σ → Nat → Nat → Prop) (h : YieldsNew m0 up I)
    (st : Stage γ ψ φ ρ) : ∃ J, YieldsNew m0 (st.apply up) J := by
  obtain ⟨hmono, hbound, hinit, hstep⟩ := h
  cases st with
  | clone =>
    refine ⟨fun s lo n => lo ≤ n ∧ ∃ lo', m0.inds.length ≤ lo' ∧ I s lo' n, ?_, fun _ _ _ h => h.1, ?_, ?_⟩
    · rintro s lo n n' ⟨h1, lo', h2, h3⟩ hn
      exact ⟨Nat.le_trans h1 hn, lo', h2, hmono _ _ _ _ h3 hn⟩
    · intro n hn; exact ⟨hn, _, Nat.le_refl _, hinit n hn⟩
    · intro s lo k hlo
      refine Ensures.pep ?_
      rintro m ⟨h1, h2, lo', h3, h4⟩
      refine ((hstep s lo' (max k lo) h3).seq fun rs => ?_) m ⟨⟨h1.1, Nat.max_le.2 ⟨h1.2, h2⟩⟩, h4⟩
      rintro m1 ⟨g1, g2, g3⟩
      have hc := cloneInd_fresh (m0 := m0) rs.1 m1 ⟨g1.1, Nat.le_refl _⟩
      refine Ensures.seq (P := fun x => x = m1) (Q := fun c m => (FreshAt m0 (c + 1) m ∧ m1.inds.length ≤ c ∧
        m0.inds.length ≤ c)) (fun x hx => by subst hx; exact hc) (fun c => ?_) m1 rfl
      refine Ensures.ret fun m2 hc => ?_
      · obtain ⟨⟨d1, d2⟩, d3, d4⟩ := hc
        have := g1.2
        exact ⟨⟨d1, by omega⟩, by show lo ≤ c; omega, d2, _, Nat.le_trans h3 (by omega : lo' ≤ rs.1 + 1),
          hmono _ _ _ _ g3 (by omega)⟩
  | mutate check stopOk f =>
    refine ⟨fun s => I s.2, fun s => hmono s.2, fun s => hbound s.2, hinit, ?_⟩
    rintro ⟨started, s⟩ lo k hlo
    have hl : ∀ x : PyM Unit, Ensures (fun m => FreshAt m0 k m ∧ I s lo m.inds.length) (HM.lift x)
        (fun _ m => FreshAt m0 k m ∧ I s lo m.inds.length) (Fresh m0) :=
      fun x => Ensures.lift (fun _ h => h.1.1) (fun _ _ _ h => h)
    refine (hl _).seq fun _ => ?_
    have hup : Ensures (fun m => FreshAt m0 k m ∧ I s lo m.inds.length) (upstream stopOk (up.next s))
        (fun rs m => FreshAt m0 k m ∧ lo ≤ rs.1 ∧ I rs.2 (rs.1 + 1) m.inds.length) (Fresh m0) := by
      cases stopOk
      · exact Ensures.pep (hstep s lo k hlo)
      · exact hstep s lo k hlo
    refine hup.seq fun rs => ?_
    exact pass_on (J := fun t : Bool × up.σ => I t.2) (hmono rs.2) lo rs.1 (true, rs.2) hlo (fun _ h => h) _
      (fun hr k => Ensures.pep (mutateInd_fresh f rs.1 hr))
  | crossover skip rec =>
    refine ⟨fun s lo n => match s.1 with
      | some b => lo ≤ b ∧ I s.2 (b + 1) n
      | none => I s.2 lo n, ?_, ?_, hinit, ?_⟩
    · rintro ⟨p, s⟩ lo n n' h hn
      cases p with
      | none => exact hmono _ _ _ _ h hn
      | some b => exact ⟨h.1, hmono _ _ _ _ h.2 hn⟩
    · rintro ⟨p, s⟩ lo n h
      cases p with
      | none => exact hbound _ _ _ h
      | some b => have h1 := h.1; have h2 := hbound _ _ _ h.2; omega
    · rintro ⟨p, s⟩ lo k hlo
      refine Ensures.pep ?_
      cases p with
      | some b => exact Ensures.ret fun m h => ⟨h.1, h.2.1, h.2.2⟩
      | none =>
        refine (hstep s lo k hlo).seq fun a => ?_
        intro m hm
        obtain ⟨h1, h2, h3⟩ := hm
        have hla : m0.inds.length ≤ a.1 + 1 := by omega
        refine ((hstep a.2 (a.1 + 1) k hla).seq fun b => ?_) m ⟨h1, h3⟩
        intro m hm
        obtain ⟨g1, g2, g3⟩ := hm
        have hk : ∀ x : HM (Mem γ ψ φ ρ) Unit,
            (∀ k, Ensures (FreshAt m0 k) x (fun _ => FreshAt m0 k) (Fresh m0)) →
            Ensures (fun m => FreshAt m0 k m ∧ I b.2 (b.1 + 1) m.inds.length) x
              (fun _ m => FreshAt m0 k m ∧ I b.2 (b.1 + 1) m.inds.length) (Fresh m0) :=
          fun x hx => keep_invariant (I := I b.2 (b.1 + 1)) (hmono b.2 (b.1 + 1)) hx
        refine ((keep_invariant (I := I b.2 (b.1 + 1)) (hmono b.2 (b.1 + 1))
          (fun k => useRng_fresh (k := k) fun x => (.ok (skip x).1, (skip x).2))).seq fun sk => ?_) m ⟨g1, g3⟩
        cases sk with
        | true => exact Ensures.ret fun m h => ⟨h.1, h2, ⟨g2, h.2⟩⟩
        | false =>
          refine (hk _ fun k => crossInds_fresh rec a.1 b.1 (by omega) (by omega)).seq fun _ => ?_
          exact Ensures.ret fun m h => ⟨h.1, h2, ⟨g2, h.2⟩⟩
  | evaluate dec prob =>
    refine ⟨I, hmono, hbound, hinit, ?_⟩
    intro s lo k hlo
    refine Ensures.pep ?_
    refine (hstep s lo k hlo).seq fun rs => ?_
    exact pass_on (J := I) (hmono rs.2) lo rs.1 rs.2 hlo (fun _ h => h) _
      (fun hr k => evaluateInd_fresh dec prob rs.1 hr)
  | robustEvaluate nan dec prob =>
    refine ⟨I, hmono, hbound, hinit, ?_⟩
    intro s lo k hlo
    refine Ensures.pep ?_
    refine (hstep s lo k hlo).seq fun rs => ?_
    exact pass_on (J := I) (hmono rs.2) lo rs.1 rs.2 hlo (fun _ h => h) _
      (fun hr k => robustEvaluate_fresh nan dec prob rs.1 hr)

theorem stages_yieldsNew (stages : List (Stage γ ψ φ ρ)) (up : HIter (Mem γ ψ φ ρ)) (I : up.σ → Nat → Nat → Prop)
    (h : YieldsNew m0 up I) : ∃ J, YieldsNew m0 (stagesIter up stages) J := by
  induction stages generalizing up with
  | nil => exact ⟨I, h⟩
  | cons st rest ih =>
    obtain ⟨J, hJ⟩ := stage_yieldsNew up I h st
    exact ih _ J hJ

theorem hpull_yieldsNew (it : HIter (Mem γ ψ φ ρ)) (I : it.σ → Nat → Nat → Prop) (h : YieldsNew m0 it I)
    (n : Nat) (s : it.σ) (lo k : Nat) (hlo : m0.inds.length ≤ lo) :
    Ensures (fun m => FreshAt m0 k m ∧ I s lo m.inds.length) (hpull it.next n s)
      (fun os m => FreshAt m0 k m ∧ os.1.length = n ∧ os.1.Pairwise (· < ·) ∧
        ∀ r ∈ os.1, lo ≤ r ∧ r < m.inds.length) (Fresh m0) := by
  induction n generalizing s lo k with
  | zero => exact Ensures.ret fun m hm => ⟨hm.1, rfl, List.Pairwise.nil, by simp⟩
  | succ n ih =>
    have hbound := h.2.1
    have hstep := h.2.2.2
    refine (hstep s lo k hlo).seq fun rs => ?_
    rintro m1 ⟨g1, g2, g3⟩
    have hb := hbound _ _ _ g3
    refine ((ih rs.2 (rs.1 + 1) (max k (rs.1 + 1)) (by omega)).seq fun os => ?_) m1
      ⟨⟨g1.1, Nat.max_le.2 ⟨g1.2, hb⟩⟩, g3⟩
    refine Ensures.ret fun m2 hm2 => ?_
    obtain ⟨⟨d0, d1⟩, d2, d3, d4⟩ := hm2
    refine ⟨⟨d0, by omega⟩, by simp [d2], List.pairwise_cons.2 ⟨fun x hx => by have := (d4 x hx).1; omega, d3⟩, ?_⟩
    intro r hr
    simp only [List.mem_cons] at hr
    rcases hr with rfl | hr
    · exact ⟨g2, by omega⟩
    · have := d4 r hr; exact ⟨by omega, this.2⟩

end Leap
