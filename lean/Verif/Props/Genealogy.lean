import Verif.Props.EvoRun
import Verif.Props.IslandRun
import Verif.Props.PersistRun

/-!
# C111: family trees of whole runs

Every individual has a `uuid` and a set `parents` of identities (leap_ec/individual.py:52-75, 144-151); crossover unites the sets of the two children
(leap_ec/ops.py:395-400).
-/

namespace Leap
open Spec

variable {γ ψ φ ρ : Type}

/-- The identity of individual `r`. -/
def Spec.identity (m : Mem γ ψ φ ρ) (r : Nat) : Option Nat := (m.inds[r]?).map Obj.uuid

/-! ### What does not concern the tree -/

def heads (m : Mem γ ψ φ ρ) : List (Nat × Nat) := m.inds.map fun o => (o.uuid, o.parents)

def SameTree (m m' : Mem γ ψ φ ρ) : Prop := heads m' = heads m ∧ m'.sets = m.sets ∧ m'.nextUuid = m.nextUuid

theorem SameTree.rfl' (m : Mem γ ψ φ ρ) : SameTree m m := ⟨rfl, rfl, rfl⟩

theorem SameTree.trans {m m1 m2 : Mem γ ψ φ ρ} (h : SameTree m m1) (h' : SameTree m1 m2) : SameTree m m2 :=
  ⟨h'.1.trans h.1, h'.2.1.trans h.2.1, h'.2.2.trans h.2.2⟩

def KeepsTree {α : Type} (x : HM (Mem γ ψ φ ρ) α) : Prop := ∀ m, SameTree m (x m).2

theorem keeps_bind {α β : Type} {x : HM (Mem γ ψ φ ρ) α} {f : α → HM (Mem γ ψ φ ρ) β} (hx : KeepsTree x) (hf : ∀ a, KeepsTree (f a)) :
    KeepsTree (x >>= f) := by
  intro m
  have h := hx m
  rw [HM.bind_apply]
  rcases e : x m with ⟨r, m1⟩
  rw [e] at h
  cases r with
  | error e => exact h
  | ok a => exact h.trans (hf a m1)

theorem keeps_pure {α : Type} (a : α) : KeepsTree (pure a : HM (Mem γ ψ φ ρ) α) := fun m => .rfl' m
theorem keeps_lift {α : Type} (x : PyM α) : KeepsTree (HM.lift x : HM (Mem γ ψ φ ρ) α) := fun m => .rfl' m
theorem keeps_getObj (r : Nat) : KeepsTree (getObj r : HM (Mem γ ψ φ ρ) _) := by
  intro m; unfold getObj; split <;> exact .rfl' m
theorem keeps_getArr (r : Nat) : KeepsTree (getArr r : HM (Mem γ ψ φ ρ) _) := by
  intro m; unfold getArr; split <;> exact .rfl' m
theorem keeps_newArr (g : List γ) : KeepsTree (newArr g : HM (Mem γ ψ φ ρ) _) := fun _ => ⟨rfl, rfl, rfl⟩
theorem keeps_setArr (a : Nat) (g : List γ) : KeepsTree (setArr a g : HM (Mem γ ψ φ ρ) _) := fun _ => ⟨rfl, rfl, rfl⟩
theorem keeps_useRng {α : Type} (f : ρ → PyM α × ρ) : KeepsTree (useRng f : HM (Mem γ ψ φ ρ) α) := fun _ => ⟨rfl, rfl, rfl⟩

theorem heads_modify (l : List (Obj ψ φ)) (r : Nat) (f : Obj ψ φ → Obj ψ φ) (hf : ∀ x, (f x).uuid = x.uuid ∧ (f x).parents = x.parents) :
    (l.modify r f).map (fun o => (o.uuid, o.parents)) = l.map fun o => (o.uuid, o.parents) := by
  induction l generalizing r with
  | nil => cases r <;> rfl
  | cons a l ih =>
    cases r with
    | zero => simp [hf a]
    | succ r => simpa using ih r

theorem keeps_modObj (r : Nat) (f : Obj ψ φ → Obj ψ φ) (hf : ∀ x, (f x).uuid = x.uuid ∧ (f x).parents = x.parents) :
    KeepsTree (modObj r f : HM (Mem γ ψ φ ρ) _) := fun m => ⟨heads_modify m.inds r f hf, rfl, rfl⟩

theorem keeps_mutateInd (f : MutFn γ ρ) (r : Nat) : KeepsTree (mutateInd f r : HM (Mem γ ψ φ ρ) _) := by
  refine keeps_bind (keeps_getObj r) fun o => keeps_bind (keeps_getArr _) fun g => keeps_bind (keeps_useRng _) fun res => keeps_bind (keeps_setArr _ _) fun _ =>
    keeps_bind (keeps_lift _) fun new => ?_
  cases new with
  | none => exact keeps_modObj _ _ fun x => ⟨rfl, rfl⟩
  | some g' => exact keeps_bind (keeps_newArr _) fun a => keeps_bind (keeps_modObj _ _ fun x => ⟨rfl, rfl⟩) fun _ => keeps_modObj _ _ fun x => ⟨rfl, rfl⟩

theorem keeps_recombineInds (rec : Recombiner ρ) (ra rb : Nat) : KeepsTree (recombineInds rec ra rb : HM (Mem γ ψ φ ρ) _) := by
  refine keeps_bind (keeps_getObj _) fun oa => keeps_bind (keeps_getObj _) fun ob => keeps_bind (keeps_getArr _) fun a => keeps_bind (keeps_getArr _) fun b => ?_
  cases rec with
  | uniform mask =>
    exact keeps_bind (keeps_useRng _) fun mk => keeps_bind (keeps_lift _) fun _ => keeps_bind (keeps_lift _) fun _ => keeps_bind (keeps_lift _) fun _ =>
      keeps_bind (keeps_setArr _ _) fun _ => keeps_bind (keeps_getArr _) fun _ => keeps_bind (keeps_lift _) fun _ => keeps_setArr _ _
  | nary k cuts =>
    exact keeps_bind (keeps_useRng _) fun xs => keeps_bind (keeps_lift _) fun g => keeps_bind (keeps_newArr _) fun a1 =>
      keeps_bind (keeps_modObj _ _ fun x => ⟨rfl, rfl⟩) fun _ => keeps_bind (keeps_newArr _) fun a2 => keeps_modObj _ _ fun x => ⟨rfl, rfl⟩

theorem keeps_decodeInd (dec : Dec γ ψ) (r : Nat) : KeepsTree (decodeInd dec r : HM (Mem γ ψ φ ρ) _) := by
  refine keeps_bind (keeps_getObj r) fun o => ?_
  cases dec with
  | identity => exact keeps_bind (keeps_modObj _ _ fun x => ⟨rfl, rfl⟩) fun _ => keeps_pure _
  | fn f => exact keeps_bind (keeps_getArr _) fun g => keeps_bind (keeps_lift _) fun v => keeps_bind (keeps_modObj _ _ fun x => ⟨rfl, rfl⟩) fun _ => keeps_pure _

theorem keeps_evaluateImp (dec : Dec γ ψ) (prob : Prob γ ψ φ ρ) (r : Nat) : KeepsTree (evaluateImp dec prob r : HM (Mem γ ψ φ ρ) _) := by
  refine keeps_bind (keeps_decodeInd dec r) fun _ => keeps_bind (keeps_bind (keeps_getObj r) fun o => ?_) fun p => keeps_bind ?_ fun c => keeps_useRng _
  · cases o.phenome with
    | none => exact keeps_decodeInd dec r
    | some p => exact keeps_pure _
  · rcases p with a | v
    · exact keeps_bind (keeps_getArr a) fun g => keeps_pure _
    · exact keeps_pure _

theorem keeps_evaluateInd (dec : Dec γ ψ) (prob : Prob γ ψ φ ρ) (r : Nat) : KeepsTree (evaluateInd dec prob r : HM (Mem γ ψ φ ρ) _) :=
  keeps_bind (keeps_evaluateImp dec prob r) fun _ => keeps_bind (keeps_modObj _ _ fun x => ⟨rfl, rfl⟩) fun _ => keeps_pure _

theorem keeps_robustEvaluate (nan : φ) (dec : Dec γ ψ) (prob : Prob γ ψ φ ρ) (r : Nat) : KeepsTree (robustEvaluate nan dec prob r : HM (Mem γ ψ φ ρ) _) := by
  intro m
  have h := keeps_evaluateImp dec prob r m
  unfold robustEvaluate
  rcases e : evaluateImp dec prob r m with ⟨x, m1⟩
  rw [e] at h
  cases x with
  | ok f => exact h.trans ⟨heads_modify m1.inds r _ fun x => ⟨rfl, rfl⟩, rfl, rfl⟩
  | error f => exact h.trans ⟨heads_modify m1.inds r _ fun x => ⟨rfl, rfl⟩, rfl, rfl⟩

theorem keeps_evaluatePopulation (dec : Dec γ ψ) (prob : Prob γ ψ φ ρ) : ∀ rs, KeepsTree (evaluatePopulation dec prob rs : HM (Mem γ ψ φ ρ) _)
  | [] => keeps_pure _
  | r :: rs => keeps_bind (keeps_evaluateInd dec prob r) fun _ => keeps_evaluatePopulation dec prob rs

theorem KeepsTree.ok {α : Type} {x : HM (Mem γ ψ φ ρ) α} (h : KeepsTree x) {m m' : Mem γ ψ φ ρ} {a : α} (e : x m = (.ok a, m')) : SameTree m m' := by
  have := h m
  rwa [e] at this

/-! ### The tree since some moment -/

/-- The individuals made since `m0` are numbered in order, with a set of parents each, and `Q i ps` holds of the parents `ps` of the `i`-th of them. -/
structure Pedigree (m0 m : Mem γ ψ φ ρ) (Q : Nat → List Nat → Prop) (j : Nat) : Prop where
  heads : heads m = heads m0 ++ (List.range j).map fun i => (m0.nextUuid + i, m0.sets.length + i)
  uuid : m.nextUuid = m0.nextUuid + j
  length : m.sets.length = m0.sets.length + j
  old : ∀ s < m0.sets.length, m.sets[s]? = m0.sets[s]?
  new : ∀ i < j, ∃ ps, m.sets[m0.sets.length + i]? = some ps ∧ Q i ps

theorem pedigree_refl (m : Mem γ ψ φ ρ) (Q : Nat → List Nat → Prop) : Pedigree m m Q 0 := ⟨by simp, by simp, by simp, fun _ _ => rfl, by simp⟩

theorem pedigree_same {m0 m m' : Mem γ ψ φ ρ} {Q : Nat → List Nat → Prop} {j : Nat} (h : Pedigree m0 m Q j) (hs : SameTree m m') : Pedigree m0 m' Q j :=
  ⟨hs.1.trans h.heads, hs.2.2.trans h.uuid, by rw [hs.2.1]; exact h.length, by rw [hs.2.1]; exact h.old, by rw [hs.2.1]; exact h.new⟩

theorem pedigree_inds {m0 m : Mem γ ψ φ ρ} {Q : Nat → List Nat → Prop} {j : Nat} (h : Pedigree m0 m Q j) : m.inds.length = m0.inds.length + j := by
  have := congrArg List.length h.heads
  simpa [Leap.heads] using this

theorem pedigree_at {m0 m : Mem γ ψ φ ρ} {Q : Nat → List Nat → Prop} {j r : Nat} (h : Pedigree m0 m Q j) {o : Obj ψ φ} (ho : m.inds[r]? = some o)
    (hr : m0.inds.length ≤ r) : ∃ i < j, r = m0.inds.length + i ∧ o.uuid = m0.nextUuid + i ∧ o.parents = m0.sets.length + i := by
  have hl := (List.getElem?_eq_some_iff.1 ho).1
  rw [pedigree_inds h] at hl
  refine ⟨r - m0.inds.length, by omega, by omega, ?_⟩
  have hh : (Leap.heads m)[r]? = some (o.uuid, o.parents) := by simp [Leap.heads, ho]
  rw [h.heads, List.getElem?_append_right (by simpa [Leap.heads] using hr)] at hh
  simp only [Leap.heads, List.length_map, List.getElem?_map, List.getElem?_range (show r - m0.inds.length < j by omega), Option.map_some, Option.some.injEq,
    Prod.mk.injEq] at hh
  exact ⟨hh.1.symm, hh.2.symm⟩

theorem pedigree_clone {m0 m m' : Mem γ ψ φ ρ} {Q : Nat → List Nat → Prop} {j r c : Nat} (h : Pedigree m0 m Q j)
    (hq : ∀ o, m.inds[r]? = some o → Q j [o.uuid]) (e : cloneInd r m = (.ok c, m')) :
    Pedigree m0 m' Q (j + 1) ∧ c = m0.inds.length + j := by
  have hobj : ∃ o, m.inds[r]? = some o := by
    cases ho : m.inds[r]? with
    | some o => exact ⟨o, rfl⟩
    | none => simp [cloneInd, HM.bind_apply, getObj, ho] at e
  obtain ⟨o, ho⟩ := hobj
  have harr : ∃ g, m.arrays[o.genome]? = some g := by
    cases hg : m.arrays[o.genome]? with
    | some o => exact ⟨o, rfl⟩
    | none => simp [cloneInd, HM.bind_apply, getObj, ho, newObj, getArr, hg] at e
  obtain ⟨g, hg⟩ := harr
  rw [clone_effect m r o g ho hg] at e
  simp only [Prod.mk.injEq, Except.ok.injEq] at e
  obtain ⟨rfl, rfl⟩ := e
  refine ⟨⟨?_, ?_, ?_, fun s hs => ?_, fun i hi => ?_⟩, pedigree_inds h⟩
  · have := h.heads
    simp only [Leap.heads] at this
    simp only [Leap.heads, List.map_append, List.map_cons, List.map_nil, this, List.range_succ, h.uuid, h.length, List.append_assoc]
  · simp [h.uuid, Nat.add_assoc]
  · simp [h.length, Nat.add_assoc]
  · simp only
    rw [List.getElem?_append_left (by have := h.length; omega)]
    exact h.old s hs
  · simp only
    rcases Nat.lt_or_ge i j with hij | hij
    · rw [List.getElem?_append_left (by have := h.length; omega)]
      exact h.new i hij
    · have : i = j := by omega
      subst this
      rw [← h.length]
      exact ⟨_, by simp, hq o ho⟩

theorem getSet_ok {m m' : Mem γ ψ φ ρ} {a : Nat} {s : List Nat} (h : getSet a m = (.ok s, m')) : m' = m ∧ m.sets[a]? = some s := by
  unfold getSet at h
  split at h
  · rename_i g hg
    simp only [Prod.mk.injEq, Except.ok.injEq] at h
    exact ⟨h.2.symm, by rw [hg, h.1]⟩
  · simp at h

theorem getObj_ok {m m' : Mem γ ψ φ ρ} {a : Nat} {s : Obj ψ φ} (h : getObj a m = (.ok s, m')) : m' = m ∧ m.inds[a]? = some s := by
  unfold getObj at h
  split at h
  · rename_i g hg
    simp only [Prod.mk.injEq, Except.ok.injEq] at h
    exact ⟨h.2.symm, by rw [hg, h.1]⟩
  · simp at h

/-- Changing the set of one of the new individuals. -/
theorem pedigree_setSet {m0 m : Mem γ ψ φ ρ} {Q : Nat → List Nat → Prop} {j i : Nat} (h : Pedigree m0 m Q j) (ps : List Nat) (hq : Q i ps) :
    Pedigree m0 { m with sets := m.sets.set (m0.sets.length + i) ps } Q j := by
  refine ⟨h.heads, h.uuid, by simpa using h.length, fun s hs => ?_, fun k hk => ?_⟩
  · simp only
    rw [List.getElem?_set_ne (by omega)]
    exact h.old s hs
  · simp only
    by_cases hki : k = i
    · subst hki
      exact ⟨ps, by rw [List.getElem?_set_self (by have := h.length; omega)], hq⟩
    · rw [List.getElem?_set_ne (by omega)]
      exact h.new k hk

/-- Crossover of two of the new individuals. -/
theorem pedigree_cross {m0 m m' : Mem γ ψ φ ρ} {Q : Nat → List Nat → Prop} {j ra rb : Nat} (h : Pedigree m0 m Q j)
    (hq : ∀ i k ps qs, Q i ps → Q k qs → m0.inds.length + i = ra ∧ m0.inds.length + k = rb ∨ m0.inds.length + i = rb ∧ m0.inds.length + k = ra → Q i (setUnion ps qs))
    (rec : Recombiner ρ) (ha : m0.inds.length ≤ ra) (hb : m0.inds.length ≤ rb)
    (e : crossInds rec ra rb m = (.ok (), m')) : Pedigree m0 m' Q j := by
  unfold crossInds at e
  obtain ⟨_, m1, g1, f1⟩ := bind_ok e
  have h1 := pedigree_same h ((keeps_recombineInds rec ra rb).ok g1)
  obtain ⟨oa, _, g2, f2⟩ := bind_ok f1
  obtain ⟨rfl, hoa⟩ := getObj_ok g2
  obtain ⟨ob, _, g3, f3⟩ := bind_ok f2
  obtain ⟨rfl, hob⟩ := getObj_ok g3
  obtain ⟨sb, _, g4, f4⟩ := bind_ok f3
  obtain ⟨rfl, hsb⟩ := getSet_ok g4
  obtain ⟨sa, _, g5, f5⟩ := bind_ok f4
  obtain ⟨rfl, hsa⟩ := getSet_ok g5
  obtain ⟨ia, hia, ra', -, hpa⟩ := pedigree_at h1 hoa ha
  obtain ⟨ib, hib, rb', -, hpb⟩ := pedigree_at h1 hob hb
  obtain ⟨_, m2, g6, f6⟩ := bind_ok f5
  simp only [setSet, Prod.mk.injEq, true_and] at g6
  obtain ⟨psa, hpsa, qa⟩ := h1.new ia hia
  obtain ⟨psb, hpsb, qb⟩ := h1.new ib hib
  rw [hpa] at hsa g6
  rw [hpb] at hsb
  rw [hpsa] at hsa
  rw [hpsb] at hsb
  have xa : psa = sa := Option.some.inj hsa
  have xb : psb = sb := Option.some.inj hsb
  subst xa
  subst xb
  subst g6
  have h2 := pedigree_setSet (i := ia) h1 (setUnion psa psb) (hq ia ib psa psb qa qb (Or.inl ⟨ra'.symm, rb'.symm⟩))
  obtain ⟨sa', _, k1, l1⟩ := bind_ok f6
  obtain ⟨rfl, hsa'⟩ := getSet_ok k1
  obtain ⟨sb', _, k2, l2⟩ := bind_ok l1
  obtain ⟨rfl, hsb'⟩ := getSet_ok k2
  obtain ⟨psa', hpsa', qa'⟩ := h2.new ia hia
  obtain ⟨psb', hpsb', qb'⟩ := h2.new ib hib
  rw [hpa, hpsa'] at hsa'
  rw [hpb, hpsb'] at hsb'
  have ya : psa' = sa' := Option.some.inj hsa'
  have yb : psb' = sb' := Option.some.inj hsb'
  subst ya
  subst yb
  obtain ⟨_, m3, g7, f7⟩ := bind_ok l2
  simp only [setSet, Prod.mk.injEq, true_and] at g7
  rw [hpb] at g7
  subst g7
  have h3 := pedigree_setSet (i := ib) h2 (setUnion psb' psa') (hq ib ia psb' psa' qb' qa' (Or.inr ⟨rb'.symm, ra'.symm⟩))
  obtain ⟨_, m4, g8, f8⟩ := bind_ok f7
  exact pedigree_same (pedigree_same h3 ((keeps_modObj ra (fun x => { x with fitness := none }) fun x => ⟨rfl, rfl⟩).ok g8))
    ((keeps_modObj rb (fun x => { x with fitness := none }) fun x => ⟨rfl, rfl⟩).ok f8)

theorem same_lineage {m m' : Mem γ ψ φ ρ} (h : SameTree m m') (r : Nat) : lineage m' r = lineage m r ∧ identity m' r = identity m r := by
  have h1 : (heads m')[r]? = (heads m)[r]? := by rw [h.1]
  simp only [heads, List.getElem?_map] at h1
  unfold lineage identity
  rcases e : m.inds[r]? with _ | o <;> rcases e' : m'.inds[r]? with _ | o' <;> simp only [e, e', Option.map_some, Option.map_none, reduceCtorEq,
    Option.some.injEq, Prod.mk.injEq] at h1 ⊢
  · simp
  · exact ⟨by rw [h.2.1, h1.2], h1.1⟩

theorem pedigree_lineage {m0 m : Mem γ ψ φ ρ} {Q : Nat → List Nat → Prop} {j i : Nat} (h : Pedigree m0 m Q j) (hi : i < j) :
    (∃ ps, lineage m (m0.inds.length + i) = some ps ∧ Q i ps) ∧ lineage m (m0.inds.length + i) = m.sets[m0.sets.length + i]? ∧
    identity m (m0.inds.length + i) = some (m0.nextUuid + i) := by
  have hl : m0.inds.length + i < m.inds.length := by rw [pedigree_inds h]; omega
  obtain ⟨k, hk, e1, e2, e3⟩ := pedigree_at h (List.getElem?_eq_getElem hl) (by omega)
  have : k = i := by omega
  subst this
  obtain ⟨ps, hps, q⟩ := h.new k hk
  have e : lineage m (m0.inds.length + k) = m.sets[m0.sets.length + k]? := by
    unfold lineage
    rw [List.getElem?_eq_getElem hl]
    simp only [e3]
  exact ⟨⟨ps, e.trans hps, q⟩, e, by simp [identity, List.getElem?_eq_getElem hl, e2]⟩

/-- Every individual has a set of parents. -/
def Tied (m : Mem γ ψ φ ρ) : Prop := ∀ o ∈ m.inds, o.parents < m.sets.length

theorem pedigree_tied {m0 m : Mem γ ψ φ ρ} {Q : Nat → List Nat → Prop} {j : Nat} (h0 : Tied m0) (h : Pedigree m0 m Q j) : Tied m := by
  intro o ho
  have : (o.uuid, o.parents) ∈ heads m := List.mem_map.2 ⟨o, ho, rfl⟩
  rw [h.heads, List.mem_append] at this
  rw [h.length]
  rcases this with h1 | h1
  · obtain ⟨o', h2, h3⟩ := List.mem_map.1 h1
    have := h0 o' h2
    simp only [Prod.mk.injEq] at h3
    omega
  · obtain ⟨i, h2, h3⟩ := List.mem_map.1 h1
    simp only [Prod.mk.injEq, List.mem_range] at h2 h3
    omega

theorem pedigree_old {m0 m : Mem γ ψ φ ρ} {Q : Nat → List Nat → Prop} {j r : Nat} (h0 : Tied m0) (h : Pedigree m0 m Q j) (hr : r < m0.inds.length) :
    lineage m r = lineage m0 r ∧ identity m r = identity m0 r := by
  have hl : r < m.inds.length := by rw [pedigree_inds h]; omega
  have h1 : (heads m)[r]? = (heads m0)[r]? := by
    rw [h.heads, List.getElem?_append_left (by simpa [heads] using hr)]
  simp only [heads, List.getElem?_map, List.getElem?_eq_getElem hl, List.getElem?_eq_getElem hr, Option.map_some, Option.some.injEq, Prod.mk.injEq] at h1
  unfold lineage identity
  simp only [List.getElem?_eq_getElem hl, List.getElem?_eq_getElem hr, Option.map_some, h1.1, h1.2]
  exact ⟨h.old _ (h0 _ (List.getElem_mem hr)), trivial⟩

theorem pedigree_change {m0 m : Mem γ ψ φ ρ} {Q Q' : Nat → List Nat → Prop} {j : Nat} (h : Pedigree m0 m Q j)
    (hq : ∀ i < j, ∀ ps, lineage m (m0.inds.length + i) = some ps → Q i ps → Q' i ps) : Pedigree m0 m Q' j := by
  refine ⟨h.heads, h.uuid, h.length, h.old, fun i hi => ?_⟩
  obtain ⟨⟨ps, e, q⟩, e', -⟩ := pedigree_lineage h hi
  exact ⟨ps, e'.symm.trans e, hq i hi ps e q⟩

/-- One tree after the other. -/
theorem pedigree_comp {m0 m1 m2 : Mem γ ψ φ ρ} {Q Q' : Nat → List Nat → Prop} {j k : Nat} (h : Pedigree m0 m1 Q j) (h' : Pedigree m1 m2 Q' k)
    (hq : ∀ i < k, ∀ ps, Q' i ps → Q (j + i) ps) : Pedigree m0 m2 Q (j + k) := by
  refine ⟨?_, by rw [h'.uuid, h.uuid]; omega, by rw [h'.length, h.length]; omega, fun s hs => ?_, fun i hi => ?_⟩
  · rw [h'.heads, h.heads, h.uuid, h.length, List.append_assoc, List.range_add, List.map_append, List.map_map]
    congr 2
    exact List.map_congr_left fun i _ => by simp [Nat.add_assoc]
  · rw [h'.old s (by rw [h.length]; omega), h.old s hs]
  · rcases Nat.lt_or_ge i j with hij | hij
    · obtain ⟨ps, e, q⟩ := h.new i hij
      exact ⟨ps, by rw [h'.old _ (by rw [h.length]; omega), e], q⟩
    · obtain ⟨ps, e, q⟩ := h'.new (i - j) (by omega)
      refine ⟨ps, ?_, ?_⟩
      · rw [← e, h.length]
        congr 1
        omega
      · have := hq (i - j) (by omega) ps q
        rwa [show j + (i - j) = i by omega] at this

/-! ### Families of at most so many parents -/

/-- `ps` are distinct, at least one and at most `2 ^ k`, and come from `U`. -/
def Spec.Family (U : Nat → Prop) (k : Nat) (ps : List Nat) : Prop := ps ≠ [] ∧ ps.Nodup ∧ ps.length ≤ 2 ^ k ∧ ∀ u ∈ ps, U u

theorem mem_setUnion (a b : List Nat) (x : Nat) : x ∈ setUnion a b ↔ x ∈ a ∨ x ∈ b := by
  simp only [setUnion, List.mem_append, List.mem_filter, Bool.not_eq_true', List.contains_eq_mem, decide_eq_false_iff_not]
  tauto

theorem nodup_setUnion {a b : List Nat} (ha : a.Nodup) (hb : b.Nodup) : (setUnion a b).Nodup := by
  unfold setUnion
  rw [List.nodup_append]
  refine ⟨ha, hb.filter _, ?_⟩
  rintro x hx y hy rfl
  simp [List.mem_filter, hx] at hy

/-- The lineages after a crossover: the two children have the parents of both, nobody else is affected. -/
theorem cross_lineage {m0 m m' : Mem γ ψ φ ρ} {Q : Nat → List Nat → Prop} {j a b : Nat} (h0 : Tied m0) (h : Pedigree m0 m Q j)
    (rec : Recombiner ρ) (ha : m0.inds.length ≤ a) (hb : m0.inds.length ≤ b) (hal : a < m.inds.length) (hbl : b < m.inds.length)
    (e : crossInds rec a b m = (.ok (), m')) (A B : List Nat) (hA : lineage m a = some A) (hB : lineage m b = some B) (nA : A.Nodup) (nB : B.Nodup) :
    (∃ A' B', lineage m' a = some A' ∧ lineage m' b = some B' ∧ A'.Nodup ∧ B'.Nodup ∧ (A ≠ [] → B ≠ [] → A' ≠ [] ∧ B' ≠ []) ∧
      (∀ u ∈ A', u ∈ A ∨ u ∈ B) ∧ (∀ u ∈ B', u ∈ A ∨ u ∈ B)) ∧
    (∀ x, x < m.inds.length → x ≠ a → x ≠ b → lineage m' x = lineage m x) ∧ m'.inds.length = m.inds.length := by
  let Q' : Nat → List Nat → Prop := fun i ps =>
    (m0.inds.length + i ≠ a → m0.inds.length + i ≠ b → lineage m (m0.inds.length + i) = some ps) ∧
    (m0.inds.length + i = a ∨ m0.inds.length + i = b → ps.Nodup ∧ (A ≠ [] → B ≠ [] → ps ≠ []) ∧ ∀ u ∈ ps, u ∈ A ∨ u ∈ B)
  have h1 : Pedigree m0 m Q' j := by
    refine pedigree_change h fun i hi ps hps _ => ⟨fun _ _ => hps, ?_⟩
    rintro (rfl | rfl)
    · rw [hps] at hA; cases hA; exact ⟨nA, fun h _ => h, fun u hu => Or.inl hu⟩
    · rw [hps] at hB; cases hB; exact ⟨nB, fun _ h => h, fun u hu => Or.inr hu⟩
  have h2 : Pedigree m0 m' Q' j := by
    refine pedigree_cross h1 (fun i k ps qs hp hq hik => ⟨fun n1 n2 => ?_, fun _ => ?_⟩) rec ha hb e
    · rcases hik with h | h
      · exact absurd h.1 n1
      · exact absurd h.1 n2
    · have p1 := hp.2 (by tauto)
      have p2 := hq.2 (by tauto)
      refine ⟨nodup_setUnion p1.1 p2.1, fun ea eb => ?_, fun u hu => ?_⟩
      · have := p1.2.1 ea eb
        simp [setUnion, this]
      · rcases (mem_setUnion _ _ _).1 hu with h | h
        · exact p1.2.2 u h
        · exact p2.2.2 u h
  have hj := pedigree_inds h1
  refine ⟨?_, fun x hx hxa hxb => ?_, by rw [pedigree_inds h2, hj]⟩
  · obtain ⟨⟨A', ea, qa⟩, -⟩ := pedigree_lineage h2 (i := a - m0.inds.length) (by omega)
    obtain ⟨⟨B', eb, qb⟩, -⟩ := pedigree_lineage h2 (i := b - m0.inds.length) (by omega)
    have xa : m0.inds.length + (a - m0.inds.length) = a := by omega
    have xb : m0.inds.length + (b - m0.inds.length) = b := by omega
    rw [xa] at ea
    rw [xb] at eb
    have qa := qa.2 (Or.inl xa)
    have qb := qb.2 (Or.inr xb)
    exact ⟨A', B', ea, eb, qa.1, qb.1, fun h1 h2 => ⟨qa.2.1 h1 h2, qb.2.1 h1 h2⟩, qa.2.2, qb.2.2⟩
  · rcases Nat.lt_or_ge x m0.inds.length with hx0 | hx0
    · rw [(pedigree_old h0 h2 hx0).1, (pedigree_old h0 h1 hx0).1]
    · obtain ⟨⟨ps, e, q⟩, -⟩ := pedigree_lineage h2 (i := x - m0.inds.length) (by omega)
      have xx : m0.inds.length + (x - m0.inds.length) = x := by omega
      rw [xx] at e
      have := q.1 (by omega) (by omega)
      rw [xx] at this
      rw [e, this]

/-! ### Iterators -/

/-- An iterator that hands out new individuals, each once, with at most `2 ^ k` parents from `U`. `pend` lists the individuals it holds, of which `inv` is
known. -/
structure Breeds (m0 : Mem γ ψ φ ρ) (U : Nat → Prop) (k : Nat) (it : HIter (Mem γ ψ φ ρ)) (pend : it.σ → List Nat) (inv : it.σ → Mem γ ψ φ ρ → Prop) : Prop where
  start : pend it.init = []
  startInv : ∀ m, inv it.init m
  frame : ∀ s m m', (∀ p ∈ pend s, lineage m' p = lineage m p) → inv s m → inv s m'
  step : ∀ s m j r s' m', Pedigree m0 m (fun _ ps => ∃ k, Family U k ps) j → inv s m → (pend s).Nodup → (∀ p ∈ pend s, m0.inds.length ≤ p ∧ p < m.inds.length) →
    it.next s m = (.ok (r, s'), m') →
    ∃ j', Pedigree m0 m' (fun _ ps => ∃ k, Family U k ps) j' ∧ m.inds.length ≤ m'.inds.length ∧ inv s' m' ∧
      (∀ x, x < m.inds.length → x ∉ pend s → lineage m' x = lineage m x) ∧
      (r ∈ pend s ∨ m.inds.length ≤ r) ∧ r < m'.inds.length ∧ (∃ ps, lineage m' r = some ps ∧ Family U k ps) ∧ r ∉ pend s' ∧ (pend s').Nodup ∧
      ∀ p ∈ pend s', (p ∈ pend s ∨ m.inds.length ≤ p) ∧ p < m'.inds.length

theorem selection_step {pop : List Nat} {choose : Mem γ ψ φ ρ → PyM Nat × ρ} {s s' : (selectionIter pop choose).σ} {m m' : Mem γ ψ φ ρ} {r : Nat}
    (h : (selectionIter pop choose).next s m = (.ok (r, s'), m')) : r ∈ pop ∧ SameTree m m' := by
  simp only [selectionIter] at h
  rcases e : choose m with ⟨x, s1⟩
  rw [e] at h
  cases x with
  | error err => simp at h
  | ok i =>
    simp only at h
    rcases e2 : pop[i]? with _ | q
    · simp [e2] at h
    · simp only [e2, Prod.mk.injEq, Except.ok.injEq] at h
      obtain ⟨⟨rfl, -⟩, rfl⟩ := h
      exact ⟨List.mem_of_getElem? e2, rfl, rfl, rfl⟩

/-- `clone` after selection. -/
theorem clone_breeds {m0 : Mem γ ψ φ ρ} (h0 : Tied m0) (U : Nat → Prop) (pop : List Nat) (hpop : ∀ p ∈ pop, p < m0.inds.length) (hU : ∀ p ∈ pop, ∀ u, identity m0 p = some u → U u)
    (choose : Mem γ ψ φ ρ → PyM Nat × ρ) :
    Breeds m0 U 0 (Stage.clone.apply (selectionIter pop choose)) (fun _ => []) (fun _ _ => True) := by
  refine ⟨rfl, fun _ => trivial, fun _ _ _ _ _ => trivial, ?_⟩
  intro s m j r s' m' hm _ _ _ h
  obtain ⟨⟨p, s1⟩, m1, e1, h⟩ := bind_ok (pep_ok h)
  obtain ⟨c, m2, e2, h⟩ := bind_ok h
  simp only [HM.pure_apply, Prod.mk.injEq, Except.ok.injEq] at h
  obtain ⟨⟨rfl, rfl⟩, rfl⟩ := h
  obtain ⟨hp, st⟩ := selection_step e1
  have hm1 := pedigree_same hm st
  have hlen : m1.inds.length = m.inds.length := by rw [pedigree_inds hm1, pedigree_inds hm]
  have hu : ∀ o, m1.inds[p]? = some o → U o.uuid := by
    intro o ho
    refine hU p hp _ ?_
    rw [← (pedigree_old h0 hm1 (hpop p hp)).2]
    simp [identity, ho]
  have hcl : Pedigree m0 m2 (fun i ps => (i < j → lineage m1 (m0.inds.length + i) = some ps) ∧ (i = j → Family U 0 ps) ∧ ∃ k, Family U k ps) (j + 1) ∧ r = m0.inds.length + j := by
    refine pedigree_clone (pedigree_change hm1 fun i hi ps hps q => ⟨fun _ => hps, fun h => absurd h (by omega), q⟩) (fun o ho => ?_) e2
    have : Family U 0 [o.uuid] := ⟨by simp, by simp, by simp, by simpa using hu o ho⟩
    exact ⟨fun h => absurd h (by omega), fun _ => this, 0, this⟩
  obtain ⟨hp2, rfl⟩ := hcl
  have l2 := pedigree_inds hp2
  have l1 := pedigree_inds hm1
  obtain ⟨⟨ps, e, q⟩, -⟩ := pedigree_lineage hp2 (i := j) (by omega)
  refine ⟨j + 1, pedigree_change hp2 fun i _ ps _ q => q.2.2, by omega, trivial, fun x hx _ => ?_, Or.inr (by omega), by omega, ⟨ps, e, q.2.1 rfl⟩, by simp, by simp, by simp⟩
  rw [← (same_lineage st x).1]
  rcases Nat.lt_or_ge x m0.inds.length with hx0 | hx0
  · rw [(pedigree_old h0 hp2 hx0).1, (pedigree_old h0 hm1 hx0).1]
  · obtain ⟨⟨ps, e, q⟩, -⟩ := pedigree_lineage hp2 (i := x - m0.inds.length) (by omega)
    have xx : m0.inds.length + (x - m0.inds.length) = x := by omega
    rw [xx] at e q
    rw [e, q.1 (by omega)]

/-- The crossover operators of a chain. -/
def Spec.crossovers (stages : List (Stage γ ψ φ ρ)) : Nat := stages.countP fun st => match st with | .crossover _ _ => true | _ => false

theorem family_mono {U : Nat → Prop} {k l : Nat} (h : k ≤ l) {ps : List Nat} (hf : Family U k ps) : Family U l ps :=
  ⟨hf.1, hf.2.1, hf.2.2.1.trans (Nat.pow_le_pow_right (by omega) h), hf.2.2.2⟩

/-- An operator that works on an individual without touching the tree. -/
theorem quiet_step {m0 : Mem γ ψ φ ρ} {U : Nat → Prop} {k : Nat} {up : HIter (Mem γ ψ φ ρ)} {pend : up.σ → List Nat} {inv : up.σ → Mem γ ψ φ ρ → Prop}
    (h : Breeds m0 U k up pend inv) {s : up.σ} {m m1 m2 : Mem γ ψ φ ρ} {j r : Nat} {s' : up.σ}
    (hm : Pedigree m0 m (fun _ ps => ∃ k, Family U k ps) j) (hi : inv s m) (hn : (pend s).Nodup) (hp : ∀ p ∈ pend s, m0.inds.length ≤ p ∧ p < m.inds.length)
    (e1 : up.next s m = (.ok (r, s'), m1)) (st : SameTree m1 m2) :
    ∃ j', Pedigree m0 m2 (fun _ ps => ∃ k, Family U k ps) j' ∧ m.inds.length ≤ m2.inds.length ∧ inv s' m2 ∧
      (∀ x, x < m.inds.length → x ∉ pend s → lineage m2 x = lineage m x) ∧
      (r ∈ pend s ∨ m.inds.length ≤ r) ∧ r < m2.inds.length ∧ (∃ ps, lineage m2 r = some ps ∧ Family U k ps) ∧ r ∉ pend s' ∧ (pend s').Nodup ∧
      ∀ p ∈ pend s', (p ∈ pend s ∨ m.inds.length ≤ p) ∧ p < m2.inds.length := by
  obtain ⟨j', a1, a2, a3, a4, a5, a6, a7, a8, a9, a10⟩ := h.step s m j r s' m1 hm hi hn hp e1
  have b1 := pedigree_same a1 st
  have hl : m2.inds.length = m1.inds.length := by rw [pedigree_inds b1, pedigree_inds a1]
  refine ⟨j', b1, by omega, h.frame _ _ _ (fun p _ => (same_lineage st p).1) a3, fun x hx hxp => ?_, a5, by omega, ?_, a8, a9, fun p hp => ⟨(a10 p hp).1, ?_⟩⟩
  · rw [(same_lineage st x).1]; exact a4 x hx hxp
  · rw [(same_lineage st r).1]; exact a7
  · rw [hl]; exact (a10 p hp).2

def stageLevel : Stage γ ψ φ ρ → Nat → Nat
  | .crossover _ _, k => k + 1
  | _, k => k

/-- What is known of the individuals held by an operator and upstream. -/
def stageInv (U : Nat → Prop) (k : Nat) (up : HIter (Mem γ ψ φ ρ)) (inv : up.σ → Mem γ ψ φ ρ → Prop) : (st : Stage γ ψ φ ρ) → (st.apply up).σ → Mem γ ψ φ ρ → Prop
  | .clone => inv
  | .mutate _ _ _ => fun (s : Bool × up.σ) m => inv s.2 m
  | .crossover _ _ => fun (s : Option Nat × up.σ) m => inv s.2 m ∧ ∀ b, s.1 = some b → ∃ ps, lineage m b = some ps ∧ Family U (k + 1) ps
  | .evaluate _ _ => inv
  | .robustEvaluate _ _ _ => inv

theorem stage_breeds {m0 : Mem γ ψ φ ρ} (h0 : Tied m0) (U : Nat → Prop) (k : Nat) (up : HIter (Mem γ ψ φ ρ)) (pend : up.σ → List Nat) (inv : up.σ → Mem γ ψ φ ρ → Prop)
    (h : Breeds m0 U k up pend inv) (st : Stage γ ψ φ ρ) (hst : notClone st = true) :
    Breeds m0 U (stageLevel st k) (st.apply up) (heldBy up pend st) (stageInv U k up inv st) := by
  cases st with
  | clone => cases hst
  | mutate check stopOk f =>
    refine ⟨h.start, h.startInv, fun s m m' => h.frame s.2 m m', ?_⟩
    rintro ⟨b, s⟩ m j r ⟨b', s'⟩ m' hm hi hn hp hx
    obtain ⟨_, m1, e1, hx1⟩ := bind_ok hx
    have hm1 : m1 = m := (congrArg Prod.snd e1).symm
    rw [hm1] at hx1
    obtain ⟨⟨r1, s1⟩, m2, e2, hx2⟩ := bind_ok hx1
    have e2 : up.next s m = (.ok (r1, s1), m2) := by
      unfold upstream at e2
      split at e2
      · exact e2
      · exact pep_ok e2
    obtain ⟨_, m3, e3, hx3⟩ := bind_ok hx2
    simp only [HM.pure_apply, Prod.mk.injEq, Except.ok.injEq] at hx3
    obtain ⟨⟨rfl, -, rfl⟩, rfl⟩ := hx3
    exact quiet_step h hm hi hn hp e2 ((keeps_mutateInd f _).ok (pep_ok e3))
  | evaluate dec prob =>
    refine ⟨h.start, h.startInv, h.frame, ?_⟩
    intro s m j r s' m' hm hi hn hp hx
    obtain ⟨⟨r1, s1⟩, m1, e1, hx⟩ := bind_ok (pep_ok hx)
    obtain ⟨_, m2, e2, hx⟩ := bind_ok hx
    simp only [HM.pure_apply, Prod.mk.injEq, Except.ok.injEq] at hx
    obtain ⟨⟨rfl, rfl⟩, rfl⟩ := hx
    exact quiet_step h hm hi hn hp e1 ((keeps_evaluateInd dec prob _).ok e2)
  | robustEvaluate nan dec prob =>
    refine ⟨h.start, h.startInv, h.frame, ?_⟩
    intro s m j r s' m' hm hi hn hp hx
    obtain ⟨⟨r1, s1⟩, m1, e1, hx⟩ := bind_ok (pep_ok hx)
    obtain ⟨_, m2, e2, hx⟩ := bind_ok hx
    simp only [HM.pure_apply, Prod.mk.injEq, Except.ok.injEq] at hx
    obtain ⟨⟨rfl, rfl⟩, rfl⟩ := hx
    exact quiet_step h hm hi hn hp e1 ((keeps_robustEvaluate nan dec prob _).ok e2)
  | crossover skip rec =>
    refine ⟨by simpa [heldBy, Stage.apply] using h.start, fun m => ⟨h.startInv m, by simp [Stage.apply]⟩, ?_, ?_⟩
    · rintro ⟨b, s⟩ m m' hl ⟨i1, i2⟩
      refine ⟨h.frame s m m' (fun p hp => hl p (List.mem_append_right _ hp)) i1, fun c hc => ?_⟩
      rw [hl c (List.mem_append_left _ (by simp_all))]
      exact i2 c hc
    · rintro ⟨b, s⟩ m j r ⟨b', s'⟩ m' hm ⟨i1, i2⟩ hn hp hx
      have hx := pep_ok hx
      cases b with
      | some b =>
        simp only [HM.pure_apply, Prod.mk.injEq, Except.ok.injEq] at hx
        obtain ⟨⟨rfl, rfl, rfl⟩, rfl⟩ := hx
        simp only [heldBy, Option.toList_some, List.cons_append, List.nil_append, List.nodup_cons, List.mem_cons, Option.toList_none] at hn hp ⊢
        refine ⟨j, hm, le_refl _, ⟨i1, by simp⟩, fun _ _ _ => trivial, by simp, (hp _ (by simp)).2, i2 _ rfl, hn.1, hn.2, fun p h => ⟨Or.inl (Or.inr h), (hp p (Or.inr h)).2⟩⟩
      | none =>
        simp only [heldBy, Option.toList_none, List.nil_append] at hn hp ⊢
        obtain ⟨⟨a, s1⟩, m1, e1, hx⟩ := bind_ok hx
        obtain ⟨⟨b, s2⟩, m2, e2, hx⟩ := bind_ok hx
        obtain ⟨j1, a1, a2, a3, a4, a5, a6, ⟨A, hA, fA⟩, a8, a9, a10⟩ := h.step _ _ _ _ _ _ hm i1 hn hp e1
        have hp1 : ∀ p ∈ pend s1, m0.inds.length ≤ p ∧ p < m1.inds.length := by
          intro p h
          refine ⟨?_, (a10 p h).2⟩
          rcases (a10 p h).1 with h | h
          · exact (hp p h).1
          · have := pedigree_inds hm
            omega
        obtain ⟨j2, b1, b2, b3, b4, b5, b6, ⟨B, hB, fB⟩, b8, b9, b10⟩ := h.step _ _ _ _ _ _ a1 a3 a9 hp1 e2
        have l0 := pedigree_inds hm
        have l1 := pedigree_inds a1
        have ha0 : m0.inds.length ≤ a := by
          rcases a5 with h | h
          · exact (hp a h).1
          · omega
        have hb0 : m0.inds.length ≤ b := by
          rcases b5 with h | h
          · exact (hp1 b h).1
          · omega
        have hab : a ≠ b := by
          rintro rfl
          rcases b5 with h | h
          · exact a8 h
          · omega
        have ha2 : a ∉ pend s2 := by
          intro h
          rcases (b10 a h).1 with h | h
          · exact a8 h
          · omega
        have hA2 : lineage m2 a = some A := by rw [b4 a a6 a8]; exact hA
        have hbnew : b ∈ pend s ∨ m.inds.length ≤ b := by
          rcases b5 with h | h
          · exact (a10 b h).1
          · exact Or.inr (by omega)
        have hpnew : ∀ p ∈ pend s2, (p ∈ pend s ∨ m.inds.length ≤ p) ∧ p < m2.inds.length := by
          intro p h
          refine ⟨?_, (b10 p h).2⟩
          rcases (b10 p h).1 with h | h
          · exact (a10 p h).1
          · exact Or.inr (by omega)
        have hold : ∀ x, x < m.inds.length → x ∉ pend s → lineage m2 x = lineage m x := by
          intro x hx hxp
          rw [b4 x (by omega) ?_, a4 x hx hxp]
          intro h
          rcases (a10 x h).1 with h | h
          · exact hxp h
          · omega
        obtain ⟨sk, m3, e3, hx⟩ := bind_ok hx
        have s3 := (keeps_useRng _).ok e3
        have c1 := pedigree_same b1 s3
        have l3 : m3.inds.length = m2.inds.length := by rw [pedigree_inds c1, pedigree_inds b1]
        have c3 : inv s2 m3 := h.frame _ _ _ (fun p _ => (same_lineage s3 p).1) b3
        have hA3 : lineage m3 a = some A := by rw [(same_lineage s3 a).1]; exact hA2
        have hB3 : lineage m3 b = some B := by rw [(same_lineage s3 b).1]; exact hB
        have hx3 : ∀ x, x < m.inds.length → x ∉ pend s → lineage m3 x = lineage m x := by
          intro x hx hxp
          rw [(same_lineage s3 x).1]
          exact hold x hx hxp
        cases sk with
        | true =>
          simp only [if_true, HM.pure_apply, Prod.mk.injEq, Except.ok.injEq] at hx
          obtain ⟨⟨rfl, rfl, rfl⟩, rfl⟩ := hx
          simp only [Option.toList_some, List.cons_append, List.nil_append, List.nodup_cons, List.mem_cons, not_or]
          refine ⟨j2, c1, by omega, ⟨c3, ?_⟩, hx3, a5, by omega, ⟨A, hA3, family_mono (by simp [stageLevel]) fA⟩, ⟨hab, ha2⟩, ⟨b8, b9⟩, ?_⟩
          · rintro _ ⟨rfl⟩
            exact ⟨B, hB3, family_mono (by omega) fB⟩
          · rintro p (rfl | h)
            · exact ⟨hbnew, by omega⟩
            · rw [l3]; exact hpnew p h
        | false =>
          simp only [Bool.false_eq_true, if_false] at hx
          obtain ⟨_, m4, e4, hx⟩ := bind_ok hx
          simp only [HM.pure_apply, Prod.mk.injEq, Except.ok.injEq] at hx
          obtain ⟨⟨rfl, rfl, rfl⟩, rfl⟩ := hx
          obtain ⟨⟨A', B', hA', hB', nA, nB, ne, sA, sB⟩, d2, d3⟩ := cross_lineage h0 c1 rec ha0 hb0 (by omega) (by omega) e4 A B hA3 hB3 fA.2.1 fB.2.1
          have hcount : ∀ l : List Nat, l.Nodup → (∀ u ∈ l, u ∈ A ∨ u ∈ B) → l.length ≤ 2 ^ (k + 1) := by
            intro l hl hs
            have : l.length ≤ (A ++ B).length := (List.subperm_of_subset hl fun u hu => List.mem_append.2 (hs u hu)).length_le
            have := fA.2.2.1
            have := fB.2.2.1
            simp only [List.length_append] at *
            omega
          have fA' : Family U (k + 1) A' := ⟨(ne fA.1 fB.1).1, nA, hcount _ nA sA, fun u hu => (sA u hu).elim (fA.2.2.2 u) (fB.2.2.2 u)⟩
          have fB' : Family U (k + 1) B' := ⟨(ne fA.1 fB.1).2, nB, hcount _ nB sB, fun u hu => (sB u hu).elim (fA.2.2.2 u) (fB.2.2.2 u)⟩
          have dp : Pedigree m0 m4 (fun _ ps => ∃ k, Family U k ps) j2 := by
            refine pedigree_cross c1 (fun i l ps qs hp hq _ => ?_) rec ha0 hb0 e4
            obtain ⟨k1, f1⟩ := hp
            obtain ⟨k2, f2⟩ := hq
            refine ⟨(setUnion ps qs).length, by simp [setUnion, f1.1], nodup_setUnion f1.2.1 f2.2.1, Nat.lt_two_pow_self.le, fun u hu => ?_⟩
            rcases (mem_setUnion _ _ _).1 hu with h | h
            · exact f1.2.2.2 u h
            · exact f2.2.2.2 u h
          simp only [Option.toList_some, List.cons_append, List.nil_append, List.nodup_cons, List.mem_cons, not_or]
          refine ⟨j2, dp, by omega, ⟨h.frame _ _ _ (fun p hp => d2 p ?_ ?_ ?_) c3, ?_⟩, fun x hx hxp => ?_, a5, by omega, ⟨A', hA', fA'⟩, ⟨hab, ha2⟩, ⟨b8, b9⟩, ?_⟩
          · have := (hpnew p hp).2; omega
          · rintro rfl; exact ha2 hp
          · rintro rfl; exact b8 hp
          · rintro _ ⟨rfl⟩
            exact ⟨B', hB', fB'⟩
          · rw [d2 x (by omega) ?_ ?_]
            · exact hx3 x hx hxp
            · rintro rfl
              rcases a5 with h | h
              · exact hxp h
              · omega
            · rintro rfl
              rcases hbnew with h | h
              · exact hxp h
              · omega
          · rintro p (rfl | h)
            · exact ⟨hbnew, by omega⟩
            · rw [d3, l3]; exact hpnew p h

theorem stages_breed {m0 : Mem γ ψ φ ρ} (h0 : Tied m0) (U : Nat → Prop) (stages : List (Stage γ ψ φ ρ)) (hst : ∀ st ∈ stages, notClone st = true) :
    ∀ (k : Nat) (up : HIter (Mem γ ψ φ ρ)) (pend : up.σ → List Nat) (inv : up.σ → Mem γ ψ φ ρ → Prop), Breeds m0 U k up pend inv →
      ∃ pend' inv', Breeds m0 U (k + crossovers stages) (stagesIter up stages) pend' inv' := by
  induction stages with
  | nil => intro k up pend inv h; exact ⟨pend, inv, h⟩
  | cons st rest ih =>
    intro k up pend inv h
    obtain ⟨pend', inv', h'⟩ := ih (fun s hs => hst s (by simp [hs])) _ _ _ _ (stage_breeds h0 U k up pend inv h st (hst st (by simp)))
    refine ⟨pend', inv', ?_⟩
    have : k + crossovers (st :: rest) = stageLevel st k + crossovers rest := by
      cases st <;> simp [crossovers, stageLevel] <;> omega
    rw [this]
    exact h'

theorem hpull_breeds {m0 : Mem γ ψ φ ρ} {U : Nat → Prop} {k : Nat} (it : HIter (Mem γ ψ φ ρ)) (pend : it.σ → List Nat) (inv : it.σ → Mem γ ψ φ ρ → Prop)
    (h : Breeds m0 U k it pend inv) (n : Nat) : ∀ s m j out s' m', Pedigree m0 m (fun _ ps => ∃ k, Family U k ps) j → inv s m → (pend s).Nodup →
      (∀ p ∈ pend s, m0.inds.length ≤ p ∧ p < m.inds.length) → hpull it.next n s m = (.ok (out, s'), m') →
      ∃ j', Pedigree m0 m' (fun _ ps => ∃ k, Family U k ps) j' ∧ m.inds.length ≤ m'.inds.length ∧
        (∀ x, x < m.inds.length → x ∉ pend s → lineage m' x = lineage m x) ∧
        ∀ r ∈ out, m0.inds.length ≤ r ∧ r < m'.inds.length ∧ ∃ ps, lineage m' r = some ps ∧ Family U k ps := by
  induction n with
  | zero =>
    intro s m j out s' m' hm _ _ _ hx
    simp only [hpull, HM.pure_apply, Prod.mk.injEq, Except.ok.injEq] at hx
    obtain ⟨⟨rfl, -⟩, rfl⟩ := hx
    exact ⟨j, hm, le_refl _, fun _ _ _ => rfl, by simp⟩
  | succ n ih =>
    intro s m j out s' m' hm hi hn hp hx
    obtain ⟨⟨r, s1⟩, m1, e1, hx⟩ := bind_ok hx
    obtain ⟨⟨rs, s2⟩, m2, e2, hx⟩ := bind_ok hx
    simp only [HM.pure_apply, Prod.mk.injEq, Except.ok.injEq] at hx
    obtain ⟨⟨rfl, -⟩, rfl⟩ := hx
    obtain ⟨j1, a1, a2, a3, a4, a5, a6, a7, a8, a9, a10⟩ := h.step _ _ _ _ _ _ hm hi hn hp e1
    have l0 := pedigree_inds hm
    have hp1 : ∀ p ∈ pend s1, m0.inds.length ≤ p ∧ p < m1.inds.length := by
      intro p h
      refine ⟨?_, (a10 p h).2⟩
      rcases (a10 p h).1 with h | h
      · exact (hp p h).1
      · omega
    obtain ⟨j2, b1, b2, b3, b4⟩ := ih s1 m1 j1 rs s2 m2 a1 a3 a9 hp1 e2
    refine ⟨j2, b1, by omega, fun x hx hxp => ?_, ?_⟩
    · rw [b3 x (by omega) ?_, a4 x hx hxp]
      intro h
      rcases (a10 x h).1 with h | h
      · exact hxp h
      · omega
    · intro q hq
      rcases List.mem_cons.1 hq with rfl | hq
      · refine ⟨?_, by omega, ?_⟩
        · rcases a5 with h | h
          · exact (hp _ h).1
          · omega
        · rw [b3 _ a6 a8]; exact a7
      · exact b4 q hq

/-- The identities of the members of a population. -/
def Spec.identities (m : Mem γ ψ φ ρ) (pop : List Nat) (u : Nat) : Prop := ∃ p ∈ pop, identity m p = some u

theorem pipeline_pedigree {m m' : Mem γ ψ φ ρ} (h0 : Tied m) (pop : List Nat) (hpop : ∀ p ∈ pop, p < m.inds.length)
    (choose : Mem γ ψ φ ρ → PyM Nat × ρ) (stages : List (Stage γ ψ φ ρ)) (hst : ∀ st ∈ stages, notClone st = true) (size : Nat) (out : List Nat)
    (h : runPipeline pop choose stages size m = (.ok out, m')) :
    ∃ j, Pedigree m m' (fun _ ps => ∃ k, Family (identities m pop) k ps) j ∧
      ∀ r ∈ out, m.inds.length ≤ r ∧ r < m'.inds.length ∧ ∃ ps, lineage m' r = some ps ∧ Family (identities m pop) (crossovers stages) ps := by
  obtain ⟨⟨os, s'⟩, m1, e1, h⟩ := bind_ok h
  simp only [HM.pure_apply, Prod.mk.injEq, Except.ok.injEq] at h
  obtain ⟨rfl, rfl⟩ := h
  obtain ⟨pend, inv, hb⟩ := stages_breed h0 (identities m pop) stages hst 0 _ _ _ (clone_breeds h0 (identities m pop) pop hpop (fun p hp u hu => ⟨p, hp, hu⟩) choose)
  rw [Nat.zero_add] at hb
  obtain ⟨j, a1, -, -, a4⟩ := hpull_breeds _ pend inv hb size _ m 0 os s' m1 (pedigree_refl m _) (hb.startInv m) (by rw [hb.start]; simp) (by rw [hb.start]; simp) e1
  exact ⟨j, a1, a4⟩

/-- **C111**, one generation: take any selection, `clone`, and any chain of operators without a second `clone`. The parents recorded for each offspring are members of
the population selected from, at least one and at most `2 ^ k` when there are `k` crossover operators, so exactly one without crossover and at most two with one
crossover. Nobody else's record changes, every identity given to an offspring is new, and no two offspring share one. -/
theorem pipeline_lineage {m m' : Mem γ ψ φ ρ} (hm : Sound m) (pop : List Nat) (hpop : ∀ p ∈ pop, p < m.inds.length)
    (choose : Mem γ ψ φ ρ → PyM Nat × ρ) (stages : List (Stage γ ψ φ ρ)) (hst : ∀ st ∈ stages, notClone st = true) (size : Nat) (out : List Nat)
    (h : runPipeline pop choose stages size m = (.ok out, m')) :
    (∀ r ∈ out, ∃ ps, lineage m' r = some ps ∧ ps ≠ [] ∧ ps.Nodup ∧ ps.length ≤ 2 ^ crossovers stages ∧ ∀ u ∈ ps, ∃ p ∈ pop, identity m p = some u) ∧
    (∀ r < m.inds.length, lineage m' r = lineage m r ∧ identity m' r = identity m r) ∧
    (∀ r ∈ out, ∃ u, identity m' r = some u ∧ (∀ x < m.inds.length, identity m x ≠ some u) ∧ ∀ x, identity m' x = some u → x = r) := by
  obtain ⟨j, h1, h2⟩ := pipeline_pedigree hm.parents pop hpop choose stages hst size out h
  have l1 := pedigree_inds h1
  have hold : ∀ x < m.inds.length, ∀ u, identity m x = some u → u < m.nextUuid := by
    intro x hx u hu
    simp only [identity, List.getElem?_eq_getElem hx, Option.map_some, Option.some.injEq] at hu
    rw [← hu]
    exact hm.uuid _ (List.getElem_mem hx)
  refine ⟨fun r hr => (h2 r hr).2.2, fun r hr => pedigree_old hm.parents h1 hr, fun r hr => ?_⟩
  obtain ⟨r0, r1, -⟩ := h2 r hr
  have hid := (pedigree_lineage h1 (i := r - m.inds.length) (by omega)).2.2
  have xx : m.inds.length + (r - m.inds.length) = r := by omega
  rw [xx] at hid
  refine ⟨_, hid, fun x hx hu => ?_, fun x hu => ?_⟩
  · have := hold x hx _ hu
    omega
  · rcases Nat.lt_or_ge x m.inds.length with hx | hx
    · rw [(pedigree_old hm.parents h1 hx).2] at hu
      have := hold x hx _ hu
      omega
    · have hl : x < m'.inds.length := by
        by_contra hc
        simp [identity, List.getElem?_eq_none (Nat.le_of_not_lt hc)] at hu
      have hid' := (pedigree_lineage h1 (i := x - m.inds.length) (by omega)).2.2
      have xx : m.inds.length + (x - m.inds.length) = x := by omega
      rw [xx, hu] at hid'
      simp only [Option.some.injEq] at hid'
      omega

/-! ### Whole runs -/

/-- The records of a run that found memory `m` and left `m'`, and began with `founders` individuals. -/
structure Spec.FamilyTree (m m' : Mem γ ψ φ ρ) (founders : Nat) : Prop where
  /-- no identity is given out twice -/
  unique : ∀ r r' u, m.inds.length ≤ r → identity m' r = some u → identity m' r' = some u → r = r'
  /-- everybody made by the run has an identity -/
  named : ∀ r, m.inds.length ≤ r → r < m'.inds.length → ∃ u, identity m' r = some u
  /-- the initial individuals have no parents -/
  first : ∀ r, m.inds.length ≤ r → r < m.inds.length + founders → lineage m' r = some []
  /-- everybody else has, and they were made earlier by the same run -/
  later : ∀ r, m.inds.length + founders ≤ r → r < m'.inds.length →
    ∃ ps, lineage m' r = some ps ∧ ps ≠ [] ∧ ∀ u ∈ ps, ∃ p, m.inds.length ≤ p ∧ p < r ∧ identity m' p = some u
  /-- the records of others are left alone -/
  before : ∀ r < m.inds.length, lineage m' r = lineage m r ∧ identity m' r = identity m r

/-- All lines of descent of `r`, followed back as recorded, end in a founder. -/
inductive Spec.Rooted (m : Mem γ ψ φ ρ) (founder : Nat → Prop) : Nat → Prop
  | founder {r : Nat} : founder r → Rooted m founder r
  | child {r : Nat} {ps : List Nat} (who : Nat → Nat) : lineage m r = some ps → ps ≠ [] → (∀ u ∈ ps, identity m (who u) = some u) →
      (∀ u ∈ ps, Rooted m founder (who u)) → Rooted m founder r

/-- With such records everybody descends from the initial population, and from nobody else. -/
theorem family_tree_rooted {m m' : Mem γ ψ φ ρ} {N : Nat} (h : FamilyTree m m' N) :
    ∀ r, m.inds.length ≤ r → r < m'.inds.length → Rooted m' (fun f => m.inds.length ≤ f ∧ f < m.inds.length + N) r := by
  intro r
  induction r using Nat.strongRecOn with
  | _ r ih =>
    intro h1 h2
    rcases Nat.lt_or_ge r (m.inds.length + N) with hr | hr
    · exact .founder ⟨h1, hr⟩
    · obtain ⟨ps, e, ne, hp⟩ := h.later r hr h2
      classical
      have hw : ∀ u, ∃ p, u ∈ ps → m.inds.length ≤ p ∧ p < r ∧ identity m' p = some u := by
        intro u
        by_cases hu : u ∈ ps
        · obtain ⟨p, hp⟩ := hp u hu
          exact ⟨p, fun _ => hp⟩
        · exact ⟨0, fun h => absurd h hu⟩
      choose who hwho using hw
      exact .child who e ne (fun u hu => (hwho u hu).2.2) fun u hu => ih _ (hwho u hu).2.1 (hwho u hu).1 (by have := (hwho u hu).2.1; omega)

def runTree (m0 : Mem γ ψ φ ρ) (N i : Nat) (ps : List Nat) : Prop :=
  (i < N → ps = []) ∧ (N ≤ i → ps ≠ [] ∧ ∀ u ∈ ps, m0.nextUuid ≤ u ∧ u < m0.nextUuid + i)

theorem pedigree_tree {m m' : Mem γ ψ φ ρ} (hm : Sound m) {N j : Nat} (h : Pedigree m m' (runTree m N) j) (hN : N ≤ j) : FamilyTree m m' N := by
  have l := pedigree_inds h
  have hid : ∀ r, m.inds.length ≤ r → r < m'.inds.length → identity m' r = some (m.nextUuid + (r - m.inds.length)) := by
    intro r h1 h2
    have := (pedigree_lineage h (i := r - m.inds.length) (by omega)).2.2
    rwa [show m.inds.length + (r - m.inds.length) = r by omega] at this
  have hlt : ∀ x u, identity m' x = some u → x < m'.inds.length := by
    intro x u hu
    by_contra hc
    simp [identity, List.getElem?_eq_none (Nat.le_of_not_lt hc)] at hu
  refine ⟨fun r r' u h1 e1 e2 => ?_, fun r h1 h2 => ⟨_, hid r h1 h2⟩, fun r h1 h2 => ?_, fun r h1 h2 => ?_, fun r hr => pedigree_old hm.parents h hr⟩
  · rw [hid r h1 (hlt r u e1)] at e1
    simp only [Option.some.injEq] at e1
    rcases Nat.lt_or_ge r' m.inds.length with hx | hx
    · rw [(pedigree_old hm.parents h hx).2] at e2
      simp only [identity, List.getElem?_eq_getElem hx, Option.map_some, Option.some.injEq] at e2
      have := hm.uuid _ (List.getElem_mem hx)
      omega
    · rw [hid r' hx (hlt r' u e2)] at e2
      simp only [Option.some.injEq] at e2
      omega
  · obtain ⟨⟨ps, e, q⟩, -⟩ := pedigree_lineage h (i := r - m.inds.length) (by omega)
    rw [show m.inds.length + (r - m.inds.length) = r by omega] at e
    rw [e, q.1 (by omega)]
  · obtain ⟨⟨ps, e, q⟩, -⟩ := pedigree_lineage h (i := r - m.inds.length) (by omega)
    rw [show m.inds.length + (r - m.inds.length) = r by omega] at e
    obtain ⟨ne, hu⟩ := q.2 (by omega)
    refine ⟨ps, e, ne, fun u hu' => ⟨m.inds.length + (u - m.nextUuid), by omega, ?_, ?_⟩⟩
    · have := hu u hu'; omega
    · have := hu u hu'
      rw [hid _ (by omega) (by omega)]
      congr 1
      omega

theorem pedigree_make {m0 m m' : Mem γ ψ φ ρ} {j r g problem : Nat} {Q : Nat → List Nat → Prop} (h : Pedigree m0 m Q j) (hq : Q j [])
    (e : makeIndividual g problem m = (.ok r, m')) : Pedigree m0 m' Q (j + 1) ∧ r = m0.inds.length + j := by
  simp only [makeIndividual, HM.bind_apply, freshUuid, newSet, newObj, Prod.mk.injEq, Except.ok.injEq] at e
  obtain ⟨rfl, rfl⟩ := e
  refine ⟨⟨?_, ?_, ?_, fun s hs => ?_, fun i hi => ?_⟩, pedigree_inds h⟩
  · have := h.heads
    simp only [heads] at this
    simp only [heads, List.map_append, List.map_cons, List.map_nil, this, List.range_succ, h.uuid, h.length, List.append_assoc]
  · simp [h.uuid, Nat.add_assoc]
  · simp [h.length, Nat.add_assoc]
  · simp only
    rw [List.getElem?_append_left (by have := h.length; omega)]
    exact h.old s hs
  · simp only
    rcases Nat.lt_or_ge i j with hij | hij
    · rw [List.getElem?_append_left (by have := h.length; omega)]
      exact h.new i hij
    · have : i = j := by omega
      subst this
      rw [← h.length]
      exact ⟨_, by simp, hq⟩

theorem pedigree_create (initGenome : ρ → PyM (List γ) × ρ) (problem : Nat) {m0 : Mem γ ψ φ ρ} {Q : Nat → List Nat → Prop} : ∀ (k j : Nat) (m m' : Mem γ ψ φ ρ) (pop : List Nat),
    Pedigree m0 m Q j → (∀ i, j ≤ i → i < j + k → Q i []) → createPopulation initGenome problem k m = (.ok pop, m') →
    Pedigree m0 m' Q (j + k) ∧ ∀ r ∈ pop, m0.inds.length ≤ r ∧ r < m'.inds.length
  | 0, j, m, m', pop, h, _, e => by
    simp only [createPopulation, HM.pure_apply, Prod.mk.injEq, Except.ok.injEq] at e
    obtain ⟨rfl, rfl⟩ := e
    exact ⟨h, by simp⟩
  | k + 1, j, m, m', pop, h, hq, e => by
    obtain ⟨g, m1, e1, e⟩ := bind_ok e
    obtain ⟨a, m2, e2, e⟩ := bind_ok e
    obtain ⟨r, m3, e3, e⟩ := bind_ok e
    obtain ⟨rs, m4, e4, e⟩ := bind_ok e
    simp only [HM.pure_apply, Prod.mk.injEq, Except.ok.injEq] at e
    obtain ⟨rfl, rfl⟩ := e
    obtain ⟨h3, rfl⟩ := pedigree_make (pedigree_same (pedigree_same h ((keeps_useRng _).ok e1)) ((keeps_newArr _).ok e2)) (hq j (le_refl _) (by omega)) e3
    obtain ⟨h4, q4⟩ := pedigree_create initGenome problem k (j + 1) m3 m4 rs h3 (fun i h1 h2 => hq i (by omega) (by omega)) e4
    refine ⟨by rwa [show j + (k + 1) = j + 1 + k by omega], fun x hx => ?_⟩
    rcases List.mem_cons.1 hx with rfl | hx
    · rw [pedigree_inds h4]; omega
    · exact q4 x hx

/-- A generation added to a run. -/
theorem pedigree_generation {m0 m m' : Mem γ ψ φ ρ} (h0 : Tied m0) {N j : Nat} (h : Pedigree m0 m (runTree m0 N) j) (hN : N ≤ j) (pop : List Nat)
    (hpop : ∀ p ∈ pop, m0.inds.length ≤ p ∧ p < m.inds.length)
    (choose : Mem γ ψ φ ρ → PyM Nat × ρ) (stages : List (Stage γ ψ φ ρ)) (hst : ∀ st ∈ stages, notClone st = true) (size : Nat) (out : List Nat)
    (e : runPipeline pop choose stages size m = (.ok out, m')) :
    ∃ k, Pedigree m0 m' (runTree m0 N) (j + k) ∧ ∀ r ∈ out, m0.inds.length ≤ r ∧ r < m'.inds.length := by
  obtain ⟨k, h1, h2⟩ := pipeline_pedigree (pedigree_tied h0 h) pop (fun p hp => (hpop p hp).2) choose stages hst size out e
  have l := pedigree_inds h
  refine ⟨k, pedigree_comp h h1 fun i _ ps hps => ⟨fun hi => absurd hi (by omega), fun _ => ?_⟩, fun r hr => ⟨by have := (h2 r hr).1; omega, (h2 r hr).2.1⟩⟩
  obtain ⟨k, f⟩ := hps
  refine ⟨f.1, fun u hu => ?_⟩
  obtain ⟨p, hp, hu⟩ := f.2.2.2 u hu
  obtain ⟨p0, p1⟩ := hpop p hp
  have := (pedigree_lineage h (i := p - m0.inds.length) (by omega)).2.2
  rw [show m0.inds.length + (p - m0.inds.length) = p by omega, hu] at this
  simp only [Option.some.injEq] at this
  omega

theorem evo_loop_tree (cfg : EvoConfig γ ψ φ ρ) (hst : ∀ st ∈ cfg.stages, notClone st = true) {m0 : Mem γ ψ φ ρ} (h0 : Tied m0) {N : Nat} (fuel : Nat) :
    ∀ (g : Int) (parents out : List Nat) (j : Nat) (m m' : Mem γ ψ φ ρ), Pedigree m0 m (runTree m0 N) j → N ≤ j →
      (∀ p ∈ parents, m0.inds.length ≤ p ∧ p < m.inds.length) → evoLoop cfg fuel g parents m = (.ok out, m') →
      ∃ j', Pedigree m0 m' (runTree m0 N) j' ∧ N ≤ j' ∧ ∀ p ∈ out, m0.inds.length ≤ p ∧ p < m'.inds.length := by
  induction fuel with
  | zero =>
    intro g parents out j m m' h hN hp e
    simp only [evoLoop, HM.pure_apply, Prod.mk.injEq, Except.ok.injEq] at e
    obtain ⟨rfl, rfl⟩ := e
    exact ⟨j, h, hN, hp⟩
  | succ fuel ih =>
    intro g parents out j m m' h hN hp e
    unfold evoLoop at e
    split at e
    · simp only [Prod.mk.injEq, Except.ok.injEq] at e
      obtain ⟨rfl, rfl⟩ := e
      exact ⟨j, h, hN, hp⟩
    · rcases e1 : runPipeline parents (cfg.choose g parents) cfg.stages cfg.size m with ⟨x, m1⟩
      rw [e1] at e
      cases x with
      | error err => simp at e
      | ok off =>
        simp only at e
        obtain ⟨k, h1, q1⟩ := pedigree_generation h0 h hN parents hp _ cfg.stages hst cfg.size off e1
        refine ih (g + 1) _ out (j + k) m1 m' h1 (by omega) (fun r hr => ?_) e
        have l := pedigree_inds h
        have l1 := pedigree_inds h1
        rcases List.mem_append.1 (topk_mem hr) with h | h
        · exact q1 r h
        · have := hp r (topk_mem h)
          omega

/-- **C111**, `generational_ea`: run it with any selection, any chain of operators after `clone` that does not clone again, any number of generations, in a
program that may hold other individuals. Whenever it returns, the records of parents form a family tree: identities are unique, the initial individuals have no parents,
everybody else made by the run (survivor or not) has at least one, all parents were made earlier by the same run, and following the records back from anybody ends in the initial
population. -/
theorem evo_run_lineage (cfg : EvoConfig γ ψ φ ρ) (hst : ∀ st ∈ cfg.stages, notClone st = true) (initGenome : ρ → PyM (List γ) × ρ) (dec : Dec γ ψ) (prob : Prob γ ψ φ ρ)
    (problem popSize : Nat) (startGeneration maxGenerations : Int) (m m' : Mem γ ψ φ ρ) (hm : Sound m) (out : List Nat)
    (h : evoRun cfg initGenome dec prob problem popSize startGeneration maxGenerations m = (.ok out, m')) :
    FamilyTree m m' popSize ∧ m.inds.length + popSize ≤ m'.inds.length ∧
    (∀ r ∈ out, m.inds.length ≤ r ∧ r < m'.inds.length) ∧
    ∀ r, m.inds.length ≤ r → r < m'.inds.length → Rooted m' (fun f => m.inds.length ≤ f ∧ f < m.inds.length + popSize) r := by
  obtain ⟨parents, m1, e1, h⟩ := bind_ok h
  obtain ⟨_, m2, e2, h⟩ := bind_ok h
  obtain ⟨h1, q1⟩ := pedigree_create initGenome problem popSize 0 m m1 parents (pedigree_refl m (runTree m popSize))
    (fun i _ hi => ⟨fun _ => rfl, fun h => absurd h (by omega)⟩) e1
  have h2 := pedigree_same h1 ((keeps_evaluatePopulation dec prob parents).ok e2)
  have l1 := pedigree_inds h1
  have l2 := pedigree_inds h2
  obtain ⟨j, h3, hN, q3⟩ := evo_loop_tree cfg hst hm.parents _ _ parents out _ m2 m' h2 (by omega) (fun p hp => by have := q1 p hp; omega) h
  have t := pedigree_tree hm h3 hN
  exact ⟨t, by rw [pedigree_inds h3]; omega, q3, family_tree_rooted t⟩

/-! ### Islands -/

theorem keeps_pickOne (choose : Mem γ ψ φ ρ → PyM Nat × ρ) (pop : List Nat) : KeepsTree (pickOne choose pop) := by
  intro m
  unfold pickOne
  rcases choose m with ⟨x, s⟩
  cases x with
  | error e => exact ⟨rfl, rfl, rfl⟩
  | ok i => simp only; split <;> exact ⟨rfl, rfl, rfl⟩

theorem pickOne_mem {choose : Mem γ ψ φ ρ → PyM Nat × ρ} {pop : List Nat} {m m' : Mem γ ψ φ ρ} {i r : Nat} (h : pickOne choose pop m = (.ok (i, r), m')) : r ∈ pop := by
  unfold pickOne at h
  rcases e : choose m with ⟨x, s⟩
  rw [e] at h
  cases x with
  | error e => simp at h
  | ok k =>
    simp only at h
    rcases e2 : pop[k]? with _ | q
    · simp [e2] at h
    · simp only [e2, Prod.mk.injEq, Except.ok.injEq] at h
      rw [← h.1.2]
      exact List.mem_of_getElem? e2

theorem immigrate_tree (cfg : IslandConfig γ ψ φ ρ) : ∀ (queue pop pop' : List Nat) (m m' : Mem γ ψ φ ρ), immigrateInds cfg queue pop m = (.ok pop', m') →
    SameTree m m' ∧ ∀ r ∈ pop', r ∈ pop ∨ r ∈ queue
  | [], pop, pop', m, m', h => by
    simp only [immigrateInds, HM.pure_apply, Prod.mk.injEq, Except.ok.injEq] at h
    obtain ⟨rfl, rfl⟩ := h
    exact ⟨.rfl' m, fun r hr => Or.inl hr⟩
  | imm :: rest, pop, pop', m, m', h => by
    obtain ⟨⟨i, c⟩, m1, e1, h⟩ := bind_ok h
    obtain ⟨s2, q2⟩ := immigrate_tree cfg rest _ pop' m1 m' h
    refine ⟨((keeps_pickOne _ _).ok e1).trans s2, fun r hr => ?_⟩
    rcases q2 r hr with h | h
    · split at h
      · exact Or.inl h
      · rcases List.mem_or_eq_of_mem_set h with h | h
        · exact Or.inl h
        · exact Or.inr (by simp [h])
    · exact Or.inr (by simp [h])

/-- One more clone of somebody made by the run. -/
theorem pedigree_emigrant {m0 m m' : Mem γ ψ φ ρ} {N j r c : Nat} (h : Pedigree m0 m (runTree m0 N) j) (hN : N ≤ j) (hr : m0.inds.length ≤ r)
    (e : cloneWithFitness r m = (.ok c, m')) : Pedigree m0 m' (runTree m0 N) (j + 1) ∧ c = m0.inds.length + j := by
  obtain ⟨c1, m1, e1, e⟩ := bind_ok e
  obtain ⟨o, m2, e2, e⟩ := bind_ok e
  obtain ⟨_, m3, e3, e⟩ := bind_ok e
  simp only [HM.pure_apply, Prod.mk.injEq, Except.ok.injEq] at e
  obtain ⟨rfl, rfl⟩ := e
  have hq : ∀ o, m.inds[r]? = some o → runTree m0 N j [o.uuid] := by
    intro o ho
    refine ⟨fun h => absurd h (by omega), fun _ => ⟨by simp, fun u hu => ?_⟩⟩
    obtain ⟨i, hi, -, hu', -⟩ := pedigree_at h ho hr
    simp only [List.mem_singleton] at hu
    omega
  obtain ⟨h1, e0⟩ := pedigree_clone h hq e1
  exact ⟨pedigree_same (pedigree_same h1 ((keeps_getObj r).ok e2)) ((keeps_modObj _ (fun x => { x with fitness := o.fitness }) fun x => ⟨rfl, rfl⟩).ok e3), e0⟩

/-- Everybody on the islands and on the way was made by the run. -/
def MadeHere (m0 m : Mem γ ψ φ ρ) (ps : List (List Nat)) : Prop := ∀ p ∈ ps, ∀ r ∈ p, m0.inds.length ≤ r ∧ r < m.inds.length

theorem MadeHere.mono {m0 m m' : Mem γ ψ φ ρ} {ps : List (List Nat)} (h : MadeHere m0 m ps) (hl : m.inds.length ≤ m'.inds.length) : MadeHere m0 m' ps :=
  fun p hp r hr => ⟨(h p hp r hr).1, by have := (h p hp r hr).2; omega⟩

theorem MadeHere.set {m0 m : Mem γ ψ φ ρ} {ps : List (List Nat)} (h : MadeHere m0 m ps) (i : Nat) {q : List Nat} (hq : ∀ r ∈ q, m0.inds.length ≤ r ∧ r < m.inds.length) :
    MadeHere m0 m (ps.set i q) := by
  intro p hp
  rcases List.mem_or_eq_of_mem_set hp with h' | rfl
  · exact h p h'
  · exact hq

theorem island_step_tree (cfg : IslandConfig γ ψ φ ρ) (hst : ∀ st ∈ cfg.stages, notClone st = true) {m0 : Mem γ ψ φ ρ} (h0 : Tied m0) {N : Nat}
    (g : Int) (cur : Nat) (parents : List Nat) (queues : List (List Nat)) (out : List Nat × List (List Nat)) (j : Nat) (m m' : Mem γ ψ φ ρ)
    (h : Pedigree m0 m (runTree m0 N) j) (hN : N ≤ j) (hp : ∀ p ∈ parents, m0.inds.length ≤ p ∧ p < m.inds.length) (hq : MadeHere m0 m queues)
    (e : islandStep cfg g cur parents queues m = (.ok out, m')) :
    ∃ j', Pedigree m0 m' (runTree m0 N) j' ∧ N ≤ j' ∧ m.inds.length ≤ m'.inds.length ∧ (∀ p ∈ out.1, m0.inds.length ≤ p ∧ p < m'.inds.length) ∧ MadeHere m0 m' out.2 := by
  obtain ⟨off, m1, e1, e⟩ := bind_ok e
  obtain ⟨k, h1, q1⟩ := pedigree_generation h0 h hN parents hp _ cfg.stages hst cfg.size off e1
  have l := pedigree_inds h
  have l1 := pedigree_inds h1
  rcases eq : queues[cur]? with _ | queue
  · simp [eq, HM.lift] at e
  · simp only [eq] at e
    obtain ⟨pop, m2, e2, e⟩ := bind_ok e
    obtain ⟨s2, q2⟩ := immigrate_tree cfg queue off pop m1 m2 e2
    have h2 := pedigree_same h1 s2
    have l2 := pedigree_inds h2
    have hpop : ∀ p ∈ pop, m0.inds.length ≤ p ∧ p < m2.inds.length := by
      intro p hp
      rcases q2 p hp with h | h
      · have := q1 p h; omega
      · have := hq queue (List.mem_of_getElem? eq) p h; omega
    obtain ⟨queues', m3, e3, e⟩ := bind_ok e
    simp only [HM.pure_apply, Prod.mk.injEq, Except.ok.injEq] at e
    obtain ⟨rfl, rfl⟩ := e
    have hq2 : MadeHere m0 m2 (queues.set cur []) := (hq.mono (by omega)).set cur (by simp)
    unfold emigrateInds at e3
    split at e3
    · simp [HM.lift] at e3
    · split at e3
      · obtain ⟨⟨i, sp⟩, m4, e4, e3⟩ := bind_ok e3
        have h4 := pedigree_same h2 ((keeps_pickOne _ _).ok e4)
        have hsp := hpop sp (pickOne_mem e4)
        obtain ⟨emi, m5, e5, e3⟩ := bind_ok e3
        obtain ⟨h5, rfl⟩ := pedigree_emigrant h4 (by omega) hsp.1 e5
        obtain ⟨d, m6, e6, e3⟩ := bind_ok e3
        have h6 := pedigree_same h5 ((keeps_useRng _).ok e6)
        have l6 := pedigree_inds h6
        rcases ed : (cfg.neighbors cur)[d]? with _ | d'
        · simp [ed, HM.lift] at e3
        · simp only [ed] at e3
          rcases eqd : (queues.set cur [])[d']? with _ | qd
          · simp [eqd, HM.lift] at e3
          · simp only [eqd, HM.pure_apply, Prod.mk.injEq, Except.ok.injEq] at e3
            obtain ⟨rfl, rfl⟩ := e3
            refine ⟨_, h6, by omega, by omega, fun p hp => by have := hpop p hp; omega, (hq2.mono (by omega)).set d' fun r hr => ?_⟩
            rcases List.mem_append.1 hr with h | h
            · have := hq2 qd (List.mem_of_getElem? eqd) r h
              omega
            · simp only [List.mem_singleton] at h
              omega
      · simp only [HM.pure_apply, Prod.mk.injEq, Except.ok.injEq] at e3
        obtain ⟨rfl, rfl⟩ := e3
        exact ⟨_, h2, by omega, by omega, hpop, hq2⟩

theorem island_sweep_tree (cfg : IslandConfig γ ψ φ ρ) (hst : ∀ st ∈ cfg.stages, notClone st = true) {m0 : Mem γ ψ φ ρ} (h0 : Tied m0) {N : Nat} (g : Int) (k : Nat) :
    ∀ (cur : Nat) (pops queues : List (List Nat)) (out : List (List Nat) × List (List Nat)) (j : Nat) (m m' : Mem γ ψ φ ρ),
      Pedigree m0 m (runTree m0 N) j → N ≤ j → MadeHere m0 m pops → MadeHere m0 m queues → islandSweep cfg g k cur pops queues m = (.ok out, m') →
      ∃ j', Pedigree m0 m' (runTree m0 N) j' ∧ N ≤ j' ∧ MadeHere m0 m' out.1 ∧ MadeHere m0 m' out.2 := by
  induction k with
  | zero =>
    intro cur pops queues out j m m' h hN hp hq e
    simp only [islandSweep, HM.pure_apply, Prod.mk.injEq, Except.ok.injEq] at e
    obtain ⟨rfl, rfl⟩ := e
    exact ⟨j, h, hN, hp, hq⟩
  | succ k ih =>
    intro cur pops queues out j m m' h hN hp hq e
    obtain ⟨⟨pop, queues1⟩, m1, e1, e⟩ := bind_ok e
    have hcur : ∀ p ∈ pops.getD cur [], m0.inds.length ≤ p ∧ p < m.inds.length := by
      intro p hpc
      rw [List.getD_eq_getElem?_getD] at hpc
      rcases ec : pops[cur]? with _ | pc
      · simp [ec] at hpc
      · rw [ec] at hpc
        exact hp pc (List.mem_of_getElem? ec) p hpc
    obtain ⟨j1, h1, hN1, l1, p1, q1⟩ := island_step_tree cfg hst h0 g cur _ queues (pop, queues1) j m m1 h hN hcur hq e1
    exact ih (cur + 1) _ queues1 out j1 m1 m' h1 hN1 ((hp.mono l1).set cur p1) q1 e

theorem island_loop_tree (cfg : IslandConfig γ ψ φ ρ) (hst : ∀ st ∈ cfg.stages, notClone st = true) {m0 : Mem γ ψ φ ρ} (h0 : Tied m0) {N : Nat} (fuel : Nat) :
    ∀ (g : Int) (pops queues : List (List Nat)) (out : List (List Nat) × List (List Nat)) (j : Nat) (m m' : Mem γ ψ φ ρ),
      Pedigree m0 m (runTree m0 N) j → N ≤ j → MadeHere m0 m pops → MadeHere m0 m queues → islandLoop cfg fuel g pops queues m = (.ok out, m') →
      ∃ j', Pedigree m0 m' (runTree m0 N) j' ∧ N ≤ j' ∧ MadeHere m0 m' out.1 ∧ MadeHere m0 m' out.2 := by
  induction fuel with
  | zero =>
    intro g pops queues out j m m' h hN hp hq e
    simp only [islandLoop, HM.pure_apply, Prod.mk.injEq, Except.ok.injEq] at e
    obtain ⟨rfl, rfl⟩ := e
    exact ⟨j, h, hN, hp, hq⟩
  | succ fuel ih =>
    intro g pops queues out j m m' h hN hp hq e
    unfold islandLoop at e
    split at e
    · simp only [Prod.mk.injEq, Except.ok.injEq] at e
      obtain ⟨rfl, rfl⟩ := e
      exact ⟨j, h, hN, hp, hq⟩
    · obtain ⟨⟨pops1, queues1⟩, m1, e1, e⟩ := bind_ok e
      obtain ⟨j1, h1, hN1, p1, q1⟩ := island_sweep_tree cfg hst h0 g _ 0 pops queues (pops1, queues1) j m m1 h hN hp hq e1
      exact ih (g + 1) pops1 queues1 out j1 m1 m' h1 hN1 p1 q1 e

theorem pedigree_islands (initGenome : ρ → PyM (List γ) × ρ) (problem popSize : Nat) {m0 : Mem γ ψ φ ρ} {Q : Nat → List Nat → Prop} :
    ∀ (k j : Nat) (m m' : Mem γ ψ φ ρ) (pops : List (List Nat)),
    Pedigree m0 m Q j → (∀ i, j ≤ i → i < j + k * popSize → Q i []) → createIslands initGenome problem popSize k m = (.ok pops, m') →
    Pedigree m0 m' Q (j + k * popSize) ∧ MadeHere m0 m' pops
  | 0, j, m, m', pops, h, _, e => by
    simp only [createIslands, HM.pure_apply, Prod.mk.injEq, Except.ok.injEq] at e
    obtain ⟨rfl, rfl⟩ := e
    exact ⟨by simpa using h, fun p hp => by simp at hp⟩
  | k + 1, j, m, m', pops, h, hq, e => by
    obtain ⟨p, m1, e1, e⟩ := bind_ok e
    obtain ⟨ps, m2, e2, e⟩ := bind_ok e
    simp only [HM.pure_apply, Prod.mk.injEq, Except.ok.injEq] at e
    obtain ⟨rfl, rfl⟩ := e
    have hk : (k + 1) * popSize = popSize + k * popSize := by rw [Nat.succ_mul, Nat.add_comm]
    rw [hk] at hq ⊢
    obtain ⟨h1, q1⟩ := pedigree_create initGenome problem popSize j m m1 p h (fun i a b => hq i a (by omega)) e1
    obtain ⟨h2, q2⟩ := pedigree_islands initGenome problem popSize k (j + popSize) m1 m2 ps h1 (fun i a b => hq i (by omega) (by omega)) e2
    have l1 := pedigree_inds h1
    have l2 := pedigree_inds h2
    refine ⟨by rwa [← Nat.add_assoc], fun x hx r hr => ?_⟩
    rcases List.mem_cons.1 hx with rfl | hx
    · have := q1 r hr; omega
    · exact q2 x hx r hr

theorem keeps_evaluateIslands (dec : Dec γ ψ) (prob : Prob γ ψ φ ρ) : ∀ ps, KeepsTree (evaluateIslands dec prob ps : HM (Mem γ ψ φ ρ) _)
  | [] => keeps_pure _
  | p :: ps => keeps_bind (keeps_evaluatePopulation dec prob p) fun _ => keeps_evaluateIslands dec prob ps

/-- **C111**, island models: with any topology, any migration and any selection, whenever `multi_population_ea` returns the records of parents form one family tree over all
islands: an emigrant is recorded as the child of the individual it was copied from. -/
theorem island_run_lineage (cfg : IslandConfig γ ψ φ ρ) (hst : ∀ st ∈ cfg.stages, notClone st = true) (initGenome : ρ → PyM (List γ) × ρ) (dec : Dec γ ψ) (prob : Prob γ ψ φ ρ)
    (problem numPopulations popSize : Nat) (maxGenerations : Int) (m m' : Mem γ ψ φ ρ) (hm : Sound m) (out : List (List Nat) × List (List Nat))
    (h : islandRun cfg initGenome dec prob problem numPopulations popSize maxGenerations m = (.ok out, m')) :
    FamilyTree m m' (numPopulations * popSize) ∧ m.inds.length + numPopulations * popSize ≤ m'.inds.length ∧
    (∀ p ∈ out.1 ++ out.2, ∀ r ∈ p, m.inds.length ≤ r ∧ r < m'.inds.length) ∧
    ∀ r, m.inds.length ≤ r → r < m'.inds.length → Rooted m' (fun f => m.inds.length ≤ f ∧ f < m.inds.length + numPopulations * popSize) r := by
  obtain ⟨pops, m1, e1, h⟩ := bind_ok h
  obtain ⟨_, m2, e2, h⟩ := bind_ok h
  obtain ⟨h1, q1⟩ := pedigree_islands initGenome problem popSize numPopulations 0 m m1 pops (pedigree_refl m (runTree m (numPopulations * popSize)))
    (fun i _ hi => ⟨fun _ => rfl, fun h => absurd h (by omega)⟩) e1
  have h2 := pedigree_same h1 ((keeps_evaluateIslands dec prob pops).ok e2)
  have l1 := pedigree_inds h1
  have l2 := pedigree_inds h2
  obtain ⟨j, h3, hN, p3, q3⟩ := island_loop_tree cfg hst hm.parents _ 0 pops _ out _ m2 m' h2 (by omega) (q1.mono (by omega))
    (fun p hp r hr => by simp [List.eq_of_mem_replicate hp] at hr) h
  have t := pedigree_tree hm h3 hN
  refine ⟨t, by rw [pedigree_inds h3]; omega, fun p hp r hr => ?_, family_tree_rooted t⟩
  rcases List.mem_append.1 hp with h | h
  · exact p3 p h r hr
  · exact q3 p h r hr

/-! ### Examples -/

/-- Like `exEvo`, and every pair is crossed over. -/
def exTree : EvoConfig Int Int Int Nat := { exEvo with
  stages := [.crossover (fun s => (false, s)) (.uniform fun s k => (.ok (List.replicate k (s % 2 == 0)), s)), .evaluate .identity exSum] }

/-- The hypotheses of `evo_run_lineage` hold of this run of two generations; the records it leaves. -/
example : (∀ st ∈ exTree.stages, notClone st = true) ∧ Sound exStart ∧ crossovers exTree.stages = 1 ∧
    ((evoRun exTree exInit .identity exSum 0 2 0 2 exStart).1.toOption.map fun _ =>
      (List.range 6).map fun r => (identity (evoRun exTree exInit .identity exSum 0 2 0 2 exStart).2 r, lineage (evoRun exTree exInit .identity exSum 0 2 0 2 exStart).2 r)) =
      some [(some 0, some []), (some 1, some []), (some 2, some [0, 1]), (some 3, some [1, 0]), (some 4, some [2, 1]), (some 5, some [1, 2])] := by
  refine ⟨?_, ⟨by simp [exStart], by simp [exStart], by simp [exStart]⟩, rfl, ?_⟩
  · intro st hst
    simp only [exTree, List.mem_cons, List.not_mem_nil, or_false] at hst
    rcases hst with rfl | rfl <;> rfl
  · decide +kernel

/-- Of `island_run_lineage` too: here an emigrant (6) is the child of its sponsor (4). -/
example : (∀ st ∈ exIslands.stages, notClone st = true) ∧ Sound exStart ∧
    ((islandRun exIslands exInit .identity exSum 0 2 2 1 exStart).1.toOption.map fun _ =>
      (List.range 10).map fun r => lineage (islandRun exIslands exInit .identity exSum 0 2 2 1 exStart).2 r) =
      some [some [], some [], some [], some [], some [0], some [1], some [4], some [2], some [3], some [8]] := by
  refine ⟨?_, ⟨by simp [exStart], by simp [exStart], by simp [exStart]⟩, ?_⟩
  · intro st hst
    simp only [exIslands, List.mem_cons, List.not_mem_nil, or_false] at hst
    rcases hst with rfl | rfl <;> rfl
  · decide +kernel

/-- A memory with two individuals. -/
def exPair : Mem Int Int Int Nat := ⟨[[0], [1]], [[], []], [{ genome := 0, fitness := some 0, phenome := none, uuid := 0, parents := 0, problem := 0 },
  { genome := 1, fitness := some 1, phenome := none, uuid := 1, parents := 1, problem := 0 }], 2, 0⟩

/-- Why `pipeline_lineage` asks for one `clone`: with a second one, the recorded parent is the clone in between, which no population ever held. -/
theorem second_clone_hides_parent : ∃ (m m' : Mem Int Int Int Nat) (out : List Nat), Sound m ∧
    runPipeline [0, 1] (fun m => (.ok 0, m.rng)) [.clone] 1 m = (.ok out, m') ∧
    ∃ r ∈ out, ∃ u, lineage m' r = some [u] ∧ ∀ p ∈ [0, 1], identity m p ≠ some u := by
  have h1 : (runPipeline [0, 1] (fun m : Mem Int Int Int Nat => (.ok 0, m.rng)) [.clone] 1 exPair).1 = .ok [3] := by decide +kernel
  have h2 : lineage (runPipeline [0, 1] (fun m : Mem Int Int Int Nat => (.ok 0, m.rng)) [.clone] 1 exPair).2 3 = some [2] := by decide +kernel
  generalize e : runPipeline [0, 1] (fun m : Mem Int Int Int Nat => (.ok 0, m.rng)) [.clone] 1 exPair = x at h1 h2
  obtain ⟨a, m'⟩ := x
  cases h1
  exact ⟨exPair, m', [3], ⟨by simp [exPair], by simp [exPair], by simp [exPair]⟩, e, 3, by simp, 2, h2, by simp [identity, exPair]⟩

end Leap
