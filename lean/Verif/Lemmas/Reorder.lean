import Verif.Lemmas.Recode

/-! # Runs on genomes whose genes have been put in another order -/

namespace Leap

variable {γ ψ φ ρ α β α' β' : Type}

/-- A genome with its genes in another order: position `i` has the gene that was at position `p[i]`. -/
def Spec.rearranged (p : List Nat) (g : List γ) : List γ := p.filterMap (g[·]?)

/-- The same memory with every genome in the other order. -/
def Spec.reordered (p : List Nat) (m : Mem γ ψ φ ρ) : Mem γ ψ φ ρ := ⟨m.arrays.map (Spec.rearranged p), m.sets, m.inds, m.nextUuid, m.rng⟩

/-- What a problem sees, in the other order. -/
def Spec.reorderContent (p : List Nat) : Content γ ψ → Content γ ψ
  | .raw g => .raw (Spec.rearranged p g)
  | .value v => .value v

/-- The second decoder makes of a genome in the other order what the first makes of the genome. -/
def Spec.ReorderedDec (p : List Nat) (n : Nat) : Dec γ ψ → Dec γ ψ → Prop
  | .identity, .identity => True
  | .fn f, .fn f' => ∀ g, g.length = n → f' (Spec.rearranged p g) = f g
  | _, _ => False

/-- The second problem scores a genome in the other order as the first scores the genome. -/
def Spec.ReorderedProb (p : List Nat) (n : Nat) (prob : Prob γ ψ φ ρ) (prob' : Prob γ ψ φ ρ) : Prop :=
  ∀ c s, Spec.SizedContent n c → prob'.evaluate (Spec.reorderContent p c) s = prob.evaluate c s

/-- The second mutation does to a genome in the other order what the first does to the genome, with the same random numbers. -/
def Spec.ReorderedMut (p : List Nat) (n : Nat) (f : MutFn γ ρ) (f' : MutFn γ ρ) : Prop :=
  ∀ g s, g.length = n →
    f' (Spec.rearranged p g) s = ⟨Spec.rearranged p (f g s).left, (f g s).result.map (Option.map (Spec.rearranged p)), (f g s).rng⟩ ∧
    (f g s).left.length = n ∧ ∀ g', (f g s).result = .ok (some g') → g'.length = n

/-- The second crossover mask is the first in the other order; masks are as long as genomes. -/
def Spec.ReorderedMask (p : List Nat) (n : Nat) (mask mask' : ρ → Nat → PyM (List Bool) × ρ) : Prop :=
  ∀ s, mask' s n = ((mask s n).1.map (Spec.rearranged p), (mask s n).2) ∧ ∀ mk, (mask s n).1 = .ok mk → mk.length = n

/-- The same operator for the other order. There is no such operator for n-ary crossover. -/
inductive Spec.ReorderedStage (p : List Nat) (n : Nat) : Stage γ ψ φ ρ → Stage γ ψ φ ρ → Prop
  | clone : ReorderedStage p n .clone .clone
  | mutate {check stopOk f f'} : Spec.ReorderedMut p n f f' → ReorderedStage p n (.mutate check stopOk f) (.mutate check stopOk f')
  | uniform {skip mask mask'} : Spec.ReorderedMask p n mask mask' → ReorderedStage p n (.crossover skip (.uniform mask)) (.crossover skip (.uniform mask'))
  | evaluate {dec dec' prob prob'} : Spec.ReorderedDec p n dec dec' → Spec.ReorderedProb p n prob prob' →
      ReorderedStage p n (.evaluate dec prob) (.evaluate dec' prob')
  | robustEvaluate {nan dec dec' prob prob'} : Spec.ReorderedDec p n dec dec' → Spec.ReorderedProb p n prob prob' →
      ReorderedStage p n (.robustEvaluate nan dec prob) (.robustEvaluate nan dec' prob')

open Spec

/-! ### Genomes -/

theorem filterMap_at (g : List γ) : ∀ (l : List Nat), (∀ j ∈ l, j < g.length) → ∀ i : Nat, (l.filterMap (g[·]?))[i]? = (l[i]?).bind (g[·]?)
  | [], _, i => by simp
  | j :: l, h, i => by
    have hj := h j (by simp)
    rw [List.filterMap_cons, List.getElem?_eq_getElem hj]
    simp only
    cases i with
    | zero => simp [hj]
    | succ i => simpa using filterMap_at g l (fun k hk => h k (by simp [hk])) i

theorem filterMap_at_length (g : List γ) : ∀ (l : List Nat), (∀ j ∈ l, j < g.length) → (l.filterMap (g[·]?)).length = l.length
  | [], _ => rfl
  | j :: l, h => by
    have hj := h j (by simp)
    rw [List.filterMap_cons, List.getElem?_eq_getElem hj]
    simpa using filterMap_at_length g l fun k hk => h k (by simp [hk])

theorem perm_lt {p : List Nat} {n : Nat} (hp : p.Perm (List.range n)) : ∀ j ∈ p, j < n := fun j hj => List.mem_range.1 (hp.mem_iff.1 hj)

theorem rearranged_length {p : List Nat} {n : Nat} (hp : p.Perm (List.range n)) (g : List γ) (hg : g.length = n) : (rearranged p g).length = n := by
  subst hg
  unfold rearranged
  rw [filterMap_at_length g p (perm_lt hp), hp.length_eq, List.length_range]

theorem rearranged_get {p : List Nat} {n : Nat} (hp : p.Perm (List.range n)) (g : List γ) (hg : g.length = n) (i : Nat) :
    (rearranged p g)[i]? = (p[i]?).bind (g[·]?) := by
  subst hg
  exact filterMap_at g p (perm_lt hp) i

theorem rearranged_eq_of {p : List Nat} {n : Nat} (hp : p.Perm (List.range n)) {g g' : List γ} (hg : g.length = n) (hl : g'.length = n)
    (h : ∀ i j : Nat, p[i]? = some j → g'[i]? = g[j]?) : g' = rearranged p g := by
  apply List.ext_getElem?
  intro i
  rw [rearranged_get hp g hg]
  by_cases hi : i < n
  · have hpl : i < p.length := by rw [hp.length_eq]; simpa using hi
    rw [List.getElem?_eq_getElem hpl]
    exact h i p[i] (List.getElem?_eq_getElem hpl)
  · rw [List.getElem?_eq_none (by omega), List.getElem?_eq_none (by rw [hp.length_eq]; simpa using Nat.le_of_not_lt hi)]
    rfl

theorem maskStore_reorder {p : List Nat} {n : Nat} (hp : p.Perm (List.range n)) (mk : List Bool) (a b : List γ) (hm : mk.length = n) (ha : a.length = n)
    (hb : b.length = n) : maskStore (rearranged p mk) (rearranged p a) (maskSelect (rearranged p mk) (rearranged p b)) =
      rearranged p (maskStore mk a (maskSelect mk b)) := by
  have lm := rearranged_length hp mk hm
  have la := rearranged_length hp a ha
  have lb := rearranged_length hp b hb
  refine rearranged_eq_of hp (by rw [maskStore_length, ha]) (by rw [maskStore_length, la]) fun i j hij => ?_
  have hj : j < n := perm_lt hp j (List.mem_of_getElem? hij)
  have e : mk[j]? = some mk[j] := List.getElem?_eq_getElem (by omega)
  have e' : (rearranged p mk)[i]? = some mk[j] := by rw [rearranged_get hp mk hm, hij]; exact e
  rw [maskStore_select_get _ _ _ (lm.trans la.symm) (lm.trans lb.symm) i _ e', maskStore_select_get mk a b (hm.trans ha.symm) (hm.trans hb.symm) j _ e]
  cases mk[j] <;> simp [rearranged_get hp _ ha, rearranged_get hp _ hb, hij]

/-! ### Steps on memory -/

/-- `y` does to the reordered memory what `x` does to the memory, and returns or raises the same up to `k`; genomes keep their length and what `x` returns
satisfies `Q`. -/
def Reorders (p : List Nat) (n : Nat) (Q : α → Prop) (k : α → β) (x : HM (Mem γ ψ φ ρ) α) (y : HM (Mem γ ψ φ ρ) β) : Prop :=
  ∀ m, Sized n m → y (reordered p m) = ((x m).1.map k, reordered p (x m).2) ∧ Sized n (x m).2 ∧ ∀ a, (x m).1 = .ok a → Q a

variable {p : List Nat} {n : Nat}

theorem Reorders.pure {Q : α → Prop} (a : α) (k : α → β) (hq : Q a) :
    Reorders (γ := γ) (ψ := ψ) (φ := φ) (ρ := ρ) p n Q k (Pure.pure a) (Pure.pure (k a)) := fun _ hm => ⟨rfl, hm, by rintro _ ⟨⟩; exact hq⟩

theorem Reorders.bind {Q : α → Prop} {Q' : α' → Prop} {k : α → β} {k' : α' → β'} {x : HM (Mem γ ψ φ ρ) α} {y : HM (Mem γ ψ φ ρ) β}
    {f : α → HM (Mem γ ψ φ ρ) α'} {f' : β → HM (Mem γ ψ φ ρ) β'} (hx : Reorders p n Q k x y) (hf : ∀ a, Q a → Reorders p n Q' k' (f a) (f' (k a))) :
    Reorders p n Q' k' (x >>= f) (y >>= f') := by
  intro m hm
  obtain ⟨h1, h2, h3⟩ := hx m hm
  rw [HM.bind_apply, HM.bind_apply, h1]
  rcases hxm : x m with ⟨_ | a, m1⟩
  · rw [hxm] at h2; exact ⟨rfl, h2, by rintro _ ⟨⟩⟩
  · rw [hxm] at h2 h3; exact hf a (h3 a rfl) m1 h2

theorem Reorders.lift {Q : α → Prop} {k : α → β} (r : PyM α) (r' : PyM β) (hr : r' = r.map k) (hq : ∀ a, r = .ok a → Q a) :
    Reorders (γ := γ) (ψ := ψ) (φ := φ) (ρ := ρ) p n Q k (HM.lift r) (HM.lift r') := by
  intro m hm; subst hr; exact ⟨rfl, hm, hq⟩

theorem Reorders.lift_same (r : PyM α) : Reorders (γ := γ) (ψ := ψ) (φ := φ) (ρ := ρ) p n Anything id (HM.lift r) (HM.lift r) :=
  Reorders.lift r r (except_map_id r).symm fun _ _ => trivial

theorem Reorders.pep {Q : α → Prop} {k : α → β} {x : HM (Mem γ ψ φ ρ) α} {y : HM (Mem γ ψ φ ρ) β} (hx : Reorders p n Q k x y) :
    Reorders p n Q k (HM.pep479 x) (HM.pep479 y) := by
  intro m hm
  obtain ⟨h1, h2, h3⟩ := hx m hm
  simp only [HM.pep479, h1]
  rcases hxm : x m with ⟨e | a, m1⟩
  · rw [hxm] at h2; cases e <;> exact ⟨rfl, h2, by rintro _ ⟨⟩⟩
  · rw [hxm] at h2 h3; exact ⟨rfl, h2, h3⟩

theorem Reorders.upstream {Q : α → Prop} {k : α → β} {x : HM (Mem γ ψ φ ρ) α} {y : HM (Mem γ ψ φ ρ) β} (b : Bool) (hx : Reorders p n Q k x y) :
    Reorders p n Q k (upstream b x) (upstream b y) := by
  unfold Leap.upstream; cases b
  · exact hx.pep
  · exact hx

theorem reorders_getObj (r : Nat) : Reorders (γ := γ) (ψ := ψ) (φ := φ) (ρ := ρ) p n Anything id (getObj r) (getObj r) := by
  intro m hm
  simp only [getObj, reordered]
  cases m.inds[r]? <;> exact ⟨rfl, hm, fun _ _ => trivial⟩

theorem reorders_modObj (r : Nat) (f : Obj ψ φ → Obj ψ φ) : Reorders (γ := γ) (ρ := ρ) p n Anything id (modObj r f) (modObj r f) :=
  fun _ hm => ⟨rfl, hm, fun _ _ => trivial⟩

theorem reorders_newObj (o : Obj ψ φ) : Reorders (γ := γ) (ρ := ρ) p n Anything id (newObj o) (newObj o) := fun _ hm => ⟨rfl, hm, fun _ _ => trivial⟩

theorem reorders_getArr (a : Nat) :
    Reorders (γ := γ) (ψ := ψ) (φ := φ) (ρ := ρ) p n (fun g => g.length = n) (rearranged p) (getArr a) (getArr a) := by
  intro m hm
  simp only [getArr, reordered, List.getElem?_map]
  rcases hg : m.arrays[a]? with _ | g
  · exact ⟨rfl, hm, by rintro _ ⟨⟩⟩
  · exact ⟨rfl, hm, by rintro _ ⟨⟩; exact hm _ (List.mem_of_getElem? hg)⟩

theorem reorders_setArr (a : Nat) (g : List γ) (hg : g.length = n) :
    Reorders (γ := γ) (ψ := ψ) (φ := φ) (ρ := ρ) p n Anything id (setArr a g) (setArr a (rearranged p g)) := by
  intro m hm
  refine ⟨?_, ?_, fun _ _ => trivial⟩
  · simp only [setArr, reordered, List.map_set]; rfl
  · intro x hx
    rcases List.mem_or_eq_of_mem_set hx with hx | rfl
    · exact hm x hx
    · exact hg

theorem reorders_newArr (g : List γ) (hg : g.length = n) :
    Reorders (γ := γ) (ψ := ψ) (φ := φ) (ρ := ρ) p n Anything id (newArr g) (newArr (rearranged p g)) := by
  intro m hm
  refine ⟨?_, ?_, fun _ _ => trivial⟩
  · simp [newArr, reordered, Except.map]
  · intro x hx
    rcases List.mem_append.1 hx with hx | hx
    · exact hm x hx
    · rw [List.mem_singleton.1 hx]; exact hg

theorem reorders_getSet (a : Nat) : Reorders (γ := γ) (ψ := ψ) (φ := φ) (ρ := ρ) p n Anything id (getSet a) (getSet a) := by
  intro m hm
  simp only [getSet, reordered]
  cases m.sets[a]? <;> exact ⟨rfl, hm, fun _ _ => trivial⟩

theorem reorders_setSet (a : Nat) (g : List Nat) : Reorders (γ := γ) (ψ := ψ) (φ := φ) (ρ := ρ) p n Anything id (setSet a g) (setSet a g) :=
  fun _ hm => ⟨rfl, hm, fun _ _ => trivial⟩

theorem reorders_newSet (g : List Nat) : Reorders (γ := γ) (ψ := ψ) (φ := φ) (ρ := ρ) p n Anything id (newSet g) (newSet g) :=
  fun _ hm => ⟨rfl, hm, fun _ _ => trivial⟩

theorem reorders_freshUuid : Reorders (γ := γ) (ψ := ψ) (φ := φ) (ρ := ρ) p n Anything id freshUuid freshUuid :=
  fun _ hm => ⟨rfl, hm, fun _ _ => trivial⟩

theorem reorders_useRng {Q : α → Prop} {k : α → β} (f : ρ → PyM α × ρ) (f' : ρ → PyM β × ρ) (hf : ∀ s, f' s = ((f s).1.map k, (f s).2))
    (hq : ∀ s a, (f s).1 = .ok a → Q a) : Reorders (γ := γ) (ψ := ψ) (φ := φ) p n Q k (useRng f) (useRng f') := by
  intro m hm
  refine ⟨?_, hm, fun a ha => hq _ a ha⟩
  show ((f' m.rng).1, (⟨m.arrays.map (rearranged p), m.sets, m.inds, m.nextUuid, (f' m.rng).2⟩ : Mem γ ψ φ ρ)) = _
  rw [hf]; rfl

theorem reorders_useRng_same (f : ρ → PyM α × ρ) : Reorders (γ := γ) (ψ := ψ) (φ := φ) p n Anything id (useRng f) (useRng f) :=
  reorders_useRng f f (fun s => by rw [except_map_id]) fun _ _ _ => trivial

/-! ### Individuals -/

theorem reorders_makeIndividual (g q : Nat) : Reorders (γ := γ) (ψ := ψ) (φ := φ) (ρ := ρ) p n Anything id (makeIndividual g q) (makeIndividual g q) :=
  reorders_freshUuid.bind fun _ _ => (reorders_newSet _).bind fun _ _ => reorders_newObj _

theorem reorders_createPopulation (initGenome : ρ → PyM (List γ) × ρ) (initGenome' : ρ → PyM (List γ) × ρ)
    (hi : ∀ s, initGenome' s = ((initGenome s).1.map (rearranged p), (initGenome s).2)) (hn : ∀ s g, (initGenome s).1 = .ok g → g.length = n)
    (problem size : Nat) :
    Reorders (γ := γ) (ψ := ψ) (φ := φ) p n Anything id (createPopulation initGenome problem size) (createPopulation initGenome' problem size) := by
  induction size with
  | zero => exact Reorders.pure _ _ trivial
  | succ size ih =>
    exact (reorders_useRng initGenome initGenome' hi hn).bind fun g hg => (reorders_newArr g hg).bind fun _ _ =>
      (reorders_makeIndividual _ _).bind fun _ _ => ih.bind fun _ _ => Reorders.pure _ _ trivial

theorem reorders_cloneInd (r : Nat) : Reorders (γ := γ) (ψ := ψ) (φ := φ) (ρ := ρ) p n Anything id (cloneInd r) (cloneInd r) :=
  (reorders_getObj r).bind fun o _ => (reorders_newObj o).bind fun c _ => (reorders_getArr _).bind fun g hg => (reorders_newArr g hg).bind fun _ _ =>
    (reorders_modObj _ _).bind fun _ _ => (reorders_modObj _ _).bind fun _ _ => reorders_freshUuid.bind fun _ _ =>
    (reorders_modObj _ _).bind fun _ _ => (reorders_newSet _).bind fun _ _ => (reorders_modObj _ _).bind fun _ _ => Reorders.pure _ _ trivial

theorem reorders_decodeInd (dec : Dec γ ψ) (dec' : Dec γ ψ) (hd : ReorderedDec p n dec dec') (r : Nat) :
    Reorders (γ := γ) (φ := φ) (ρ := ρ) p n Anything id (decodeInd dec r) (decodeInd dec' r) := by
  refine (reorders_getObj r).bind fun o _ => ?_
  cases dec with
  | identity =>
    cases dec' with
    | identity => exact (reorders_modObj _ _).bind fun _ _ => Reorders.pure _ _ trivial
    | fn f' => exact hd.elim
  | fn f =>
    cases dec' with
    | identity => exact hd.elim
    | fn f' =>
      refine (reorders_getArr _).bind fun g hg => ?_
      rw [hd g hg]
      exact (Reorders.lift_same _).bind fun _ _ => (reorders_modObj _ _).bind fun _ _ => Reorders.pure _ _ trivial

theorem reorders_phenomeOf (dec : Dec γ ψ) (dec' : Dec γ ψ) (hd : ReorderedDec p n dec dec') (r : Nat) :
    Reorders (γ := γ) (φ := φ) (ρ := ρ) p n Anything id (phenomeOf dec r) (phenomeOf dec' r) := by
  refine (reorders_getObj r).bind fun o _ => ?_
  show Reorders p n Anything id (match o.phenome with | none => decodeInd dec r | some p => pure p)
    (match o.phenome with | none => decodeInd dec' r | some p => pure p)
  cases o.phenome with
  | none => exact reorders_decodeInd dec dec' hd r
  | some p => exact Reorders.pure _ _ trivial

theorem reorders_contentOf (q : Phen ψ) :
    Reorders (γ := γ) (φ := φ) (ρ := ρ) p n (SizedContent n) (reorderContent p) (contentOf q) (contentOf q) := by
  rcases q with a | v
  · exact (reorders_getArr a).bind fun g hg => Reorders.pure (Content.raw g) (reorderContent p) hg
  · exact Reorders.pure (Content.value v) (reorderContent p) trivial

theorem reorders_evaluateImp (dec : Dec γ ψ) (dec' : Dec γ ψ) (hd : ReorderedDec p n dec dec') (prob : Prob γ ψ φ ρ) (prob' : Prob γ ψ φ ρ)
    (hp : ReorderedProb p n prob prob') (r : Nat) : Reorders p n Anything id (evaluateImp dec prob r) (evaluateImp dec' prob' r) :=
  (reorders_decodeInd dec dec' hd r).bind fun _ _ => (reorders_phenomeOf dec dec' hd r).bind fun _ _ => (reorders_contentOf _).bind fun c hc =>
    reorders_useRng (prob.evaluate c) (prob'.evaluate (reorderContent p c)) (fun s => by rw [hp c s hc, except_map_id]) fun _ _ _ => trivial

theorem reorders_evaluateInd (dec : Dec γ ψ) (dec' : Dec γ ψ) (hd : ReorderedDec p n dec dec') (prob : Prob γ ψ φ ρ) (prob' : Prob γ ψ φ ρ)
    (hp : ReorderedProb p n prob prob') (r : Nat) : Reorders p n Anything id (evaluateInd dec prob r) (evaluateInd dec' prob' r) :=
  (reorders_evaluateImp dec dec' hd prob prob' hp r).bind fun _ _ => (reorders_modObj _ _).bind fun _ _ => Reorders.pure _ _ trivial

theorem reorders_robustEvaluate (nan : φ) (dec : Dec γ ψ) (dec' : Dec γ ψ) (hd : ReorderedDec p n dec dec') (prob : Prob γ ψ φ ρ)
    (prob' : Prob γ ψ φ ρ) (hp : ReorderedProb p n prob prob') (r : Nat) :
    Reorders p n Anything id (robustEvaluate nan dec prob r) (robustEvaluate nan dec' prob' r) := by
  intro m hm
  obtain ⟨h1, h2, _⟩ := reorders_evaluateImp dec dec' hd prob prob' hp r m hm
  simp only [robustEvaluate, h1]
  rcases hxm : evaluateImp dec prob r m with ⟨e | f, m1⟩ <;> rw [hxm] at h2 <;> exact ⟨rfl, h2, fun _ _ => trivial⟩

theorem reorders_evaluatePopulation (dec : Dec γ ψ) (dec' : Dec γ ψ) (hd : ReorderedDec p n dec dec') (prob : Prob γ ψ φ ρ) (prob' : Prob γ ψ φ ρ)
    (hp : ReorderedProb p n prob prob') (pop : List Nat) :
    Reorders p n Anything id (evaluatePopulation dec prob pop) (evaluatePopulation dec' prob' pop) := by
  induction pop with
  | nil => exact Reorders.pure _ _ trivial
  | cons r rs ih => exact (reorders_evaluateInd dec dec' hd prob prob' hp r).bind fun _ _ => ih

/-! ### Operators -/

theorem reorders_uniform (hp : p.Perm (List.range n)) (mask mask' : ρ → Nat → PyM (List Bool) × ρ) (hmask : ReorderedMask p n mask mask') (ra rb : Nat) :
    Reorders (γ := γ) (ψ := ψ) (φ := φ) p n Anything id (recombineInds (.uniform mask) ra rb) (recombineInds (.uniform mask') ra rb) := by
  refine (reorders_getObj ra).bind fun oa _ => (reorders_getObj rb).bind fun ob _ => (reorders_getArr _).bind fun a ha => (reorders_getArr _).bind fun b hb => ?_
  have la := rearranged_length hp a ha
  have lb := rearranged_length hp b hb
  simp only [la, lb, ha, hb, Nat.min_self]
  refine Reorders.bind (Q := fun mk => mk.length = n) (k := rearranged p) (reorders_useRng _ _ (fun s => (hmask s).1) fun s mk h => (hmask s).2 mk h) fun mk hmk => ?_
  have lm := rearranged_length hp mk hmk
  have index : ∀ {δ : Type} (x : List δ) (mk : List Bool), mk.length = n → x.length = n → boolIndex x mk = .ok (maskSelect mk x) := by
    intro δ x mk hmk hx; simp [boolIndex, hmk, hx]
  have assign : ∀ {δ : Type} (x y : List δ) (mk : List Bool), mk.length = n → x.length = n → y.length = n →
      boolAssign x mk (maskSelect mk y) = .ok (maskStore mk x (maskSelect mk y)) := by
    intro δ x y mk hmk hx hy
    simp [boolAssign, hmk, hx, maskSelect_length mk y (hmk.trans hy.symm)]
  rw [index a mk hmk ha, index b mk hmk hb, index _ _ lm la, index _ _ lm lb]
  refine Reorders.bind (Q := fun t => t = maskSelect mk a) (k := fun _ => maskSelect (rearranged p mk) (rearranged p a)) (Reorders.lift _ _ rfl (by rintro _ ⟨⟩; rfl))
    fun t ht => ?_
  subst ht
  refine Reorders.bind (Q := fun t => t = maskSelect mk b) (k := fun _ => maskSelect (rearranged p mk) (rearranged p b)) (Reorders.lift _ _ rfl (by rintro _ ⟨⟩; rfl))
    fun t ht => ?_
  subst ht
  refine Reorders.bind (Q := fun t => t.length = n) (k := rearranged p) (Reorders.lift _ _ ?_ ?_) fun a' ha' => ?_
  · rw [assign a b mk hmk ha hb, assign _ _ _ lm la lb, maskStore_reorder hp mk a b hmk ha hb]; rfl
  · rw [assign a b mk hmk ha hb]; rintro _ ⟨⟩; rw [maskStore_length, ha]
  refine (reorders_setArr _ a' ha').bind fun _ _ => (reorders_getArr _).bind fun b1 hb1 => ?_
  refine Reorders.bind (Q := fun t => t.length = n) (k := rearranged p) (Reorders.lift _ _ ?_ ?_) fun b' hb' => reorders_setArr _ b' hb'
  · rw [assign b1 a mk hmk hb1 ha, assign _ _ _ lm (rearranged_length hp b1 hb1) la, maskStore_reorder hp mk b1 a hmk hb1 ha]; rfl
  · rw [assign b1 a mk hmk hb1 ha]; rintro _ ⟨⟩; rw [maskStore_length, hb1]

theorem reorders_mutateInd (f : MutFn γ ρ) (f' : MutFn γ ρ) (hf : ReorderedMut p n f f') (r : Nat) :
    Reorders (γ := γ) (ψ := ψ) (φ := φ) p n Anything id (mutateInd f r) (mutateInd f' r) := by
  refine (reorders_getObj r).bind fun o _ => (reorders_getArr _).bind fun g hg => ?_
  refine Reorders.bind (Q := fun res => res.left.length = n ∧ ∀ g', res.result = .ok (some g') → g'.length = n)
    (k := fun res => ⟨rearranged p res.left, res.result.map (Option.map (rearranged p)), res.rng⟩)
    (reorders_useRng _ _ (fun s => ?_) ?_) fun res hres => ?_
  · rw [(hf g s hg).1]; rfl
  · rintro s _ ⟨⟩; exact (hf g s hg).2
  refine (reorders_setArr _ _ hres.1).bind fun _ _ => ?_
  refine Reorders.bind (Q := fun o => ∀ g', o = some g' → g'.length = n) (k := Option.map (rearranged p)) (Reorders.lift _ _ rfl ?_) fun new hnew => ?_
  · rintro a ha g' rfl; exact hres.2 g' ha
  cases new with
  | none => exact reorders_modObj r _
  | some g' => exact (reorders_newArr g' (hnew g' rfl)).bind fun _ _ => (reorders_modObj _ _).bind fun _ _ => reorders_modObj _ _

theorem reorders_crossInds (rec rec' : Recombiner ρ) (ra rb : Nat)
    (hr : Reorders (γ := γ) (ψ := ψ) (φ := φ) p n Anything id (recombineInds rec ra rb) (recombineInds rec' ra rb)) :
    Reorders (γ := γ) (ψ := ψ) (φ := φ) p n Anything id (crossInds (γ := γ) rec ra rb) (crossInds rec' ra rb) :=
  hr.bind fun _ _ => (reorders_getObj ra).bind fun _ _ => (reorders_getObj rb).bind fun _ _ => (reorders_getSet _).bind fun _ _ =>
    (reorders_getSet _).bind fun _ _ => (reorders_setSet _ _).bind fun _ _ => (reorders_getSet _).bind fun _ _ => (reorders_getSet _).bind fun _ _ =>
    (reorders_setSet _ _).bind fun _ _ => (reorders_modObj _ _).bind fun _ _ => reorders_modObj _ _

/-- Two iterators that do the same, up to a translation of their states. -/
def IterReorders (p : List Nat) (n : Nat) (it : HIter (Mem γ ψ φ ρ)) (it' : HIter (Mem γ ψ φ ρ)) : Prop :=
  ∃ e : it.σ → it'.σ, it'.init = e it.init ∧ ∀ s, Reorders p n Anything (fun p => (p.1, e p.2)) (it.next s) (it'.next (e s))

theorem iterReorders_crossover (up : HIter (Mem γ ψ φ ρ)) (up' : HIter (Mem γ ψ φ ρ)) (hup : IterReorders p n up up') (skip : ρ → Bool × ρ)
    (rec rec' : Recombiner ρ) (hr : ∀ ra rb, Reorders (γ := γ) (ψ := ψ) (φ := φ) p n Anything id (recombineInds rec ra rb) (recombineInds rec' ra rb)) :
    IterReorders p n ((Stage.crossover skip rec).apply up) ((Stage.crossover skip rec').apply up') := by
  obtain ⟨e, he, hn⟩ := hup
  refine ⟨fun p => (p.1, e p.2), by simp only [Stage.apply, he], fun s => ?_⟩
  obtain ⟨pending, s⟩ := s
  refine Reorders.pep ?_
  cases pending with
  | some b => exact Reorders.pure (b, (none, s)) (fun p => (p.1, (p.2.1, e p.2.2))) trivial
  | none =>
    refine (hn s).bind fun p1 _ => (hn p1.2).bind fun p2 _ => (reorders_useRng_same _).bind fun sk _ => ?_
    cases sk with
    | true => exact Reorders.pure (p1.1, (some p2.1, p2.2)) (fun p => (p.1, (p.2.1, e p.2.2))) trivial
    | false =>
      exact (reorders_crossInds rec rec' p1.1 p2.1 (hr _ _)).bind fun _ _ =>
        Reorders.pure (p1.1, (some p2.1, p2.2)) (fun p => (p.1, (p.2.1, e p.2.2))) trivial

theorem iterReorders_stage (hperm : p.Perm (List.range n)) (up : HIter (Mem γ ψ φ ρ)) (up' : HIter (Mem γ ψ φ ρ)) (hup : IterReorders p n up up') (st : Stage γ ψ φ ρ)
    (st' : Stage γ ψ φ ρ) (hst : ReorderedStage p n st st') : IterReorders p n (st.apply up) (st'.apply up') := by
  cases hst with
  | clone =>
    obtain ⟨e, he, hn⟩ := hup
    exact ⟨e, he, fun s => Reorders.pep ((hn s).bind fun p _ => (reorders_cloneInd _).bind fun c _ => Reorders.pure (c, p.2) (fun p => (p.1, e p.2)) trivial)⟩
  | mutate hf =>
    obtain ⟨e, he, hn⟩ := hup
    refine ⟨fun p => (p.1, e p.2), by simp only [Stage.apply, he], fun s => ?_⟩
    exact (Reorders.lift_same _).bind fun _ _ => ((hn s.2).upstream _).bind fun p _ => (reorders_mutateInd _ _ hf p.1).pep.bind fun _ _ =>
      Reorders.pure (p.1, (true, p.2)) (fun p => (p.1, (p.2.1, e p.2.2))) trivial
  | uniform hm => exact iterReorders_crossover up up' hup _ _ _ fun ra rb => reorders_uniform hperm _ _ hm ra rb
  | evaluate hd hp =>
    obtain ⟨e, he, hn⟩ := hup
    exact ⟨e, he, fun s => Reorders.pep ((hn s).bind fun p _ => (reorders_evaluateInd _ _ hd _ _ hp p.1).bind fun _ _ =>
      Reorders.pure (p.1, p.2) (fun p => (p.1, e p.2)) trivial)⟩
  | robustEvaluate hd hp =>
    obtain ⟨e, he, hn⟩ := hup
    exact ⟨e, he, fun s => Reorders.pep ((hn s).bind fun p _ => (reorders_robustEvaluate _ _ _ hd _ _ hp p.1).bind fun _ _ =>
      Reorders.pure (p.1, p.2) (fun p => (p.1, e p.2)) trivial)⟩

theorem iterReorders_stages (hperm : p.Perm (List.range n)) {stages : List (Stage γ ψ φ ρ)} {stages' : List (Stage γ ψ φ ρ)}
    (hst : List.Forall₂ (ReorderedStage p n) stages stages') : ∀ (src : HIter (Mem γ ψ φ ρ)) (src' : HIter (Mem γ ψ φ ρ)),
    IterReorders p n src src' → IterReorders p n (stagesIter src stages) (stagesIter src' stages') := by
  induction hst with
  | nil => exact fun _ _ hs => hs
  | cons h1 _ ih => exact fun src src' hs => ih _ _ (iterReorders_stage hperm src src' hs _ _ h1)

theorem reorders_hpull {σ σ' : Type} (g : HGen (Mem γ ψ φ ρ) σ Nat) (g' : HGen (Mem γ ψ φ ρ) σ' Nat) (e : σ → σ')
    (hg : ∀ s, Reorders p n Anything (fun p => (p.1, e p.2)) (g s) (g' (e s))) (k : Nat) :
    ∀ s, Reorders p n Anything (fun p => (p.1, e p.2)) (hpull g k s) (hpull g' k (e s)) := by
  induction k with
  | zero => exact fun s => Reorders.pure ([], s) (fun p => (p.1, e p.2)) trivial
  | succ k ih =>
    exact fun s => (hg s).bind fun p _ => (ih p.2).bind fun q _ => Reorders.pure (p.1 :: q.1, q.2) (fun p => (p.1, e p.2)) trivial

theorem iterReorders_selection (pop : List Nat) (choose : Mem γ ψ φ ρ → PyM Nat × ρ) (choose' : Mem γ ψ φ ρ → PyM Nat × ρ)
    (hc : ∀ m, choose' (reordered p m) = choose m) : IterReorders p n (selectionIter pop choose) (selectionIter pop choose') := by
  refine ⟨id, rfl, fun s m hm => ?_⟩
  simp only [selectionIter, hc m]
  rcases choose m with ⟨_ | i, s'⟩
  · exact ⟨rfl, hm, fun _ _ => trivial⟩
  · simp only
    cases pop[i]? <;> exact ⟨rfl, hm, fun _ _ => trivial⟩

theorem reorders_runPipeline (hperm : p.Perm (List.range n)) (pop : List Nat) (choose : Mem γ ψ φ ρ → PyM Nat × ρ) (choose' : Mem γ ψ φ ρ → PyM Nat × ρ)
    (hc : ∀ m, choose' (reordered p m) = choose m) {stages : List (Stage γ ψ φ ρ)} {stages' : List (Stage γ ψ φ ρ)}
    (hst : List.Forall₂ (ReorderedStage p n) stages stages') (size : Nat) :
    Reorders p n Anything id (runPipeline pop choose stages size) (runPipeline pop choose' stages' size) := by
  obtain ⟨e, he, hn⟩ := iterReorders_stages hperm (List.Forall₂.cons ReorderedStage.clone hst) _ _ (iterReorders_selection pop choose choose' hc)
  unfold runPipeline
  refine Reorders.bind (k := fun p => (p.1, e p.2)) (Q := Anything) ?_ fun p _ => Reorders.pure p.1 id trivial
  rw [he]
  exact reorders_hpull _ _ e hn size _

/-! ### Runs -/

/-- Any `generational_ea` whose selection and stop condition decide the same on the reordered genomes does the same. -/
theorem reorders_evoRun (hperm : p.Perm (List.range n)) (cfg : EvoConfig γ ψ φ ρ) (cfg' : EvoConfig γ ψ φ ρ) (hw : cfg'.worse = cfg.worse)
    (hc : ∀ g pop m, cfg'.choose g pop (reordered p m) = cfg.choose g pop m) (hst : List.Forall₂ (ReorderedStage p n) cfg.stages cfg'.stages)
    (hsz : cfg'.size = cfg.size) (hk : cfg'.kElites = cfg.kElites) (hstop : ∀ g pop m, cfg'.stop g pop (reordered p m) = cfg.stop g pop m)
    (initGenome : ρ → PyM (List γ) × ρ) (initGenome' : ρ → PyM (List γ) × ρ)
    (hi : ∀ s, initGenome' s = ((initGenome s).1.map (rearranged p), (initGenome s).2)) (hin : ∀ s g, (initGenome s).1 = .ok g → g.length = n)
    (dec : Dec γ ψ) (dec' : Dec γ ψ) (hd : ReorderedDec p n dec dec') (prob : Prob γ ψ φ ρ) (prob' : Prob γ ψ φ ρ) (hp : ReorderedProb p n prob prob')
    (problem popSize : Nat) (startGeneration maxGenerations : Int) :
    Reorders p n Anything id (evoRun cfg initGenome dec prob problem popSize startGeneration maxGenerations)
      (evoRun cfg' initGenome' dec' prob' problem popSize startGeneration maxGenerations) := by
  refine (reorders_createPopulation _ _ hi hin _ _).bind fun parents _ => (reorders_evaluatePopulation dec dec' hd prob prob' hp parents).bind fun _ _ => ?_
  show Reorders p n Anything id (evoLoop cfg _ _ parents) (evoLoop cfg' _ _ parents)
  generalize (maxGenerations - startGeneration).toNat = fuel
  generalize startGeneration = g
  induction fuel generalizing g parents with
  | zero => exact Reorders.pure _ _ trivial
  | succ fuel ih =>
    intro m hm
    unfold evoLoop
    rw [hstop]
    by_cases hs : cfg.stop g parents m = true
    · rw [if_pos hs, if_pos hs]; exact ⟨rfl, hm, fun _ _ => trivial⟩
    · rw [if_neg hs, if_neg hs]
      obtain ⟨h1, h2, _⟩ := reorders_runPipeline hperm parents (cfg.choose g parents) (cfg'.choose g parents) (hc g parents) hst cfg.size m hm
      rw [hsz, h1]
      rcases hxm : runPipeline parents (cfg.choose g parents) cfg.stages cfg.size m with ⟨e | off, m1⟩ <;> rw [hxm] at h2
      · exact ⟨rfl, h2, by rintro _ ⟨⟩⟩
      · simp only [Except.map, id]
        have hlt : cfg'.lt (reordered p m1) = cfg.lt m1 := by
          funext a b
          simp only [EvoConfig.lt, hw]
          rfl
        rw [hlt, hk]
        exact ih _ trivial _ m1 h2

theorem reorders_submitInd (copied : Bool) (r : Nat) : Reorders (γ := γ) (ψ := ψ) (φ := φ) (ρ := ρ) p n Anything id (submitInd copied r) (submitInd copied r) := by
  unfold submitInd
  cases copied with
  | false => exact Reorders.pure _ _ trivial
  | true =>
    exact (reorders_getObj r).bind fun o _ => (reorders_getArr _).bind fun g hg => (reorders_newArr g hg).bind fun a _ => (reorders_getSet _).bind fun _ _ =>
      (reorders_newSet _).bind fun s _ => reorders_newObj _

theorem reorders_submitAll (copied : Nat → Bool) (rs : List Nat) :
    Reorders (γ := γ) (ψ := ψ) (φ := φ) (ρ := ρ) p n Anything id (submitAll copied rs) (submitAll copied rs) := by
  induction rs with
  | nil => exact Reorders.pure _ _ trivial
  | cons r rs ih => exact (reorders_submitInd _ r).bind fun _ _ => ih.bind fun _ _ => Reorders.pure _ _ trivial

/-- The same for asynchronous runs, in every order of completion. -/
theorem reorders_asyncRun (hperm : p.Perm (List.range n)) (cfg : AsyncConfig γ ψ φ ρ) (cfg' : AsyncConfig γ ψ φ ρ) (hb : cfg'.maxBirths = cfg.maxBirths)
    (hn : cfg'.countNonviable = cfg.countNonviable)
    (hi : ∀ r pop m, cfg'.insert r pop (reordered p m) = cfg.insert r pop m) (hc : ∀ pop m, cfg'.choose pop (reordered p m) = cfg.choose pop m)
    (hst : List.Forall₂ (ReorderedStage p n) cfg.stages cfg'.stages) (hsz : cfg'.size = cfg.size) (hnan : cfg'.nan = cfg.nan)
    (hd : ReorderedDec p n cfg.dec cfg'.dec) (hp : ReorderedProb p n cfg.prob cfg'.prob) (initGenome : ρ → PyM (List γ) × ρ)
    (initGenome' : ρ → PyM (List γ) × ρ) (hg : ∀ s, initGenome' s = ((initGenome s).1.map (rearranged p), (initGenome s).2))
    (hgn : ∀ s g, (initGenome s).1 = .ok g → g.length = n) (problem initSize : Nat) (copied : Nat → Bool)
    (rounds : List AsyncRound) :
    Reorders p n Anything id (asyncRun cfg initGenome problem initSize copied rounds) (asyncRun cfg' initGenome' problem initSize copied rounds) := by
  refine (reorders_createPopulation _ _ hg hgn _ _).bind fun initial _ => (reorders_submitAll _ _).bind fun sent _ => ?_
  show Reorders p n Anything id (asyncLoop cfg rounds ⟨sent, [], 0, []⟩) (asyncLoop cfg' rounds ⟨sent, [], 0, []⟩)
  generalize (⟨sent, [], 0, []⟩ : AsyncState) = st
  induction rounds generalizing st with
  | nil => exact Reorders.pure _ _ trivial
  | cons c cs ih =>
    unfold asyncLoop
    by_cases hp0 : st.pending.isEmpty = true
    · simp only [if_pos hp0]; exact Reorders.pure _ _ trivial
    · simp only [if_neg hp0]
      refine Reorders.bind (Q := Anything) (k := id) ?_ fun st' _ => ih st'
      unfold asyncStep
      cases st.pending[c.which % st.pending.length]? with
      | none => exact Reorders.lift_same _
      | some x =>
        simp only
        rw [hnan]
        refine (reorders_robustEvaluate cfg.nan cfg.dec cfg'.dec hd cfg.prob cfg'.prob hp x).bind fun _ _ => ?_
        intro m hm
        have hv : viableInd (reordered p m) x = viableInd m x := rfl
        simp only [hv, hn, hb]
        refine Reorders.bind (Q := Anything) (k := id) (x := insertInd cfg x st.pop) (y := insertInd cfg' x st.pop) ?_ (fun pop _ => ?_) m hm
        · intro m hm
          simp only [insertInd, hi, except_map_id]
          exact ⟨rfl, hm, fun _ _ => trivial⟩
        · generalize (if (!viableInd m x && !cfg.countNonviable) = true then st.births - 1 else st.births) = births
          by_cases hlt : births < cfg.maxBirths
          · simp only [if_pos hlt, hsz]
            exact Reorders.bind (Q := Anything) (k := id) (reorders_runPipeline hperm pop (cfg.choose pop) (cfg'.choose pop) (hc pop) hst cfg.size) fun off _ =>
              Reorders.bind (Q := Anything) (k := id) (reorders_submitAll _ _) fun _ _ => Reorders.pure _ _ trivial
          · simp only [if_neg hlt]
            exact Reorders.pure _ _ trivial

end Leap
