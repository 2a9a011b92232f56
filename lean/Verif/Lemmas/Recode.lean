import Verif.Lemmas.Rescore
import Verif.Lemmas.Mask
import Verif.Model.AsyncRun
import Verif.Props.Crossover

/-! # Runs on genomes whose genes have been replaced one for one -/

namespace Leap

variable {γ γ' ψ φ ρ α β α' β' : Type}

/-- A genome in another code: the gene at position `i` is replaced by its image under `h i`. -/
def Spec.recode (h : Nat → γ → γ') (g : List γ) : List γ' := g.mapIdx h

/-- The same memory with every genome in the other code. -/
def Spec.recoded (h : Nat → γ → γ') (m : Mem γ ψ φ ρ) : Mem γ' ψ φ ρ := ⟨m.arrays.map (Spec.recode h), m.sets, m.inds, m.nextUuid, m.rng⟩

/-- All genomes have `n` genes. -/
def Spec.Sized (n : Nat) (m : Mem γ ψ φ ρ) : Prop := ∀ g ∈ m.arrays, g.length = n

/-- What a problem sees, in the other code. -/
def Spec.recodeContent (h : Nat → γ → γ') : Content γ ψ → Content γ' ψ
  | .raw g => .raw (Spec.recode h g)
  | .value v => .value v

/-- What a problem sees of a genome of `n` genes. -/
def Spec.SizedContent (n : Nat) : Content γ ψ → Prop
  | .raw g => g.length = n
  | .value _ => True

/-- The second decoder makes of a genome in the other code what the first makes of the genome. -/
def Spec.RecodedDec (h : Nat → γ → γ') (n : Nat) : Dec γ ψ → Dec γ' ψ → Prop
  | .identity, .identity => True
  | .fn f, .fn f' => ∀ g, g.length = n → f' (Spec.recode h g) = f g
  | _, _ => False

/-- The second problem scores a genome in the other code as the first scores the genome. -/
def Spec.RecodedProb (h : Nat → γ → γ') (n : Nat) (prob : Prob γ ψ φ ρ) (prob' : Prob γ' ψ φ ρ) : Prop :=
  ∀ c s, Spec.SizedContent n c → prob'.evaluate (Spec.recodeContent h c) s = prob.evaluate c s

/-- The second mutation does to a genome in the other code what the first does to the genome, with the same random numbers. -/
def Spec.RecodedMut (h : Nat → γ → γ') (n : Nat) (f : MutFn γ ρ) (f' : MutFn γ' ρ) : Prop :=
  ∀ g s, g.length = n →
    f' (Spec.recode h g) s = ⟨Spec.recode h (f g s).left, (f g s).result.map (Option.map (Spec.recode h)), (f g s).rng⟩ ∧
    (f g s).left.length = n ∧ ∀ g', (f g s).result = .ok (some g') → g'.length = n

/-- The same operator for the other code. Crossover is the same operator. -/
inductive Spec.RecodedStage (h : Nat → γ → γ') (n : Nat) : Stage γ ψ φ ρ → Stage γ' ψ φ ρ → Prop
  | clone : RecodedStage h n .clone .clone
  | mutate {check stopOk f f'} : Spec.RecodedMut h n f f' → RecodedStage h n (.mutate check stopOk f) (.mutate check stopOk f')
  | uniform {skip mask} : RecodedStage h n (.crossover skip (.uniform mask)) (.crossover skip (.uniform mask))
  | nary {skip k cuts} : (∀ s, ValidCuts k n (cuts s n).1) → RecodedStage h n (.crossover skip (.nary k cuts)) (.crossover skip (.nary k cuts))
  | evaluate {dec dec' prob prob'} : Spec.RecodedDec h n dec dec' → Spec.RecodedProb h n prob prob' →
      RecodedStage h n (.evaluate dec prob) (.evaluate dec' prob')
  | robustEvaluate {nan dec dec' prob prob'} : Spec.RecodedDec h n dec dec' → Spec.RecodedProb h n prob prob' →
      RecodedStage h n (.robustEvaluate nan dec prob) (.robustEvaluate nan dec' prob')

open Spec

/-! ### Genomes -/

@[simp] theorem recode_length (h : Nat → γ → γ') (g : List γ) : (recode h g).length = g.length := by simp [recode]

theorem recode_get (h : Nat → γ → γ') (g : List γ) (i : Nat) : (recode h g)[i]? = (g[i]?).map (h i) := by simp [recode]

theorem recode_eq_of {h : Nat → γ → γ'} {g : List γ} {g' : List γ'} (hl : g'.length = g.length)
    (hg : ∀ i, i < g.length → g'[i]? = (g[i]?).map (h i)) : g' = recode h g := by
  apply List.ext_getElem?
  intro i
  rw [recode_get]
  by_cases hi : i < g.length
  · exact hg i hi
  · rw [List.getElem?_eq_none (by omega), List.getElem?_eq_none (by omega)]; rfl

theorem maskStore_recode (h : Nat → γ → γ') (mk : List Bool) (a b : List γ) (ha : mk.length = a.length) (hb : mk.length = b.length) :
    maskStore mk (recode h a) (maskSelect mk (recode h b)) = recode h (maskStore mk a (maskSelect mk b)) := by
  refine recode_eq_of (by simp [maskStore_length]) fun i hi => ?_
  rw [maskStore_length] at hi
  have hm : mk[i]? = some mk[i] := List.getElem?_eq_getElem (by omega)
  rw [maskStore_select_get mk _ _ (by simpa using ha) (by simpa using hb) i _ hm, maskStore_select_get mk a b ha hb i _ hm]
  cases mk[i] <;> simp [recode_get]

theorem naryRecombine_recode (h : Nat → γ → γ') (k : Nat) (xs : List Nat) (a b : List γ) (hab : a.length = b.length)
    (hv : ValidCuts k a.length xs) :
    naryRecombine k xs (recode h a) (recode h b) = (naryRecombine k xs a b).map (Prod.map (recode h) (recode h)) ∧
      ∀ p, naryRecombine k xs a b = .ok p → p.1.length = a.length ∧ p.2.length = a.length := by
  obtain ⟨a', b', e, la, lb, hi⟩ := nary_crossover_alternates k xs a b hab hv
  obtain ⟨a2, b2, e2, la2, lb2, hi2⟩ := nary_crossover_alternates k xs (recode h a) (recode h b) (by simpa using hab) (by simpa using hv)
  rw [recode_length] at la2 hi2
  rw [recode_length] at lb2
  rw [e, e2]
  refine ⟨?_, by rintro _ ⟨⟩; exact ⟨la, lb.trans hab.symm⟩⟩
  simp only [Except.map, Prod.map, Except.ok.injEq, Prod.mk.injEq]
  constructor
  · refine recode_eq_of (la2.trans la.symm) fun i hlt => ?_
    rw [la] at hlt
    rcases Nat.mod_two_eq_zero_or_one (xs.countP (fun c => decide (c ≤ i))) with hp | hp
    · rw [((hi2 i hlt).1 hp).1, ((hi i hlt).1 hp).1, recode_get]
    · rw [((hi2 i hlt).2 hp).1, ((hi i hlt).2 hp).1, recode_get]
  · refine recode_eq_of (lb2.trans lb.symm) fun i hlt => ?_
    rw [lb, ← hab] at hlt
    rcases Nat.mod_two_eq_zero_or_one (xs.countP (fun c => decide (c ≤ i))) with hp | hp
    · rw [((hi2 i hlt).1 hp).2, ((hi i hlt).1 hp).2, recode_get]
    · rw [((hi2 i hlt).2 hp).2, ((hi i hlt).2 hp).2, recode_get]

/-! ### Steps on memory -/

/-- `y` does to the recoded memory what `x` does to the memory, and returns or raises the same up to `k`; genomes keep their length and what `x` returns
satisfies `Q`. -/
def Recodes (h : Nat → γ → γ') (n : Nat) (Q : α → Prop) (k : α → β) (x : HM (Mem γ ψ φ ρ) α) (y : HM (Mem γ' ψ φ ρ) β) : Prop :=
  ∀ m, Sized n m → y (recoded h m) = ((x m).1.map k, recoded h (x m).2) ∧ Sized n (x m).2 ∧ ∀ a, (x m).1 = .ok a → Q a

/-- No condition. -/
abbrev Anything : α → Prop := fun _ => True

variable {h : Nat → γ → γ'} {n : Nat}

theorem Recodes.pure {Q : α → Prop} (a : α) (k : α → β) (hq : Q a) :
    Recodes (ψ := ψ) (φ := φ) (ρ := ρ) h n Q k (Pure.pure a) (Pure.pure (k a)) := fun _ hm => ⟨rfl, hm, by rintro _ ⟨⟩; exact hq⟩

theorem Recodes.bind {Q : α → Prop} {Q' : α' → Prop} {k : α → β} {k' : α' → β'} {x : HM (Mem γ ψ φ ρ) α} {y : HM (Mem γ' ψ φ ρ) β}
    {f : α → HM (Mem γ ψ φ ρ) α'} {f' : β → HM (Mem γ' ψ φ ρ) β'} (hx : Recodes h n Q k x y) (hf : ∀ a, Q a → Recodes h n Q' k' (f a) (f' (k a))) :
    Recodes h n Q' k' (x >>= f) (y >>= f') := by
  intro m hm
  obtain ⟨h1, h2, h3⟩ := hx m hm
  rw [HM.bind_apply, HM.bind_apply, h1]
  rcases hxm : x m with ⟨_ | a, m1⟩
  · rw [hxm] at h2; exact ⟨rfl, h2, by rintro _ ⟨⟩⟩
  · rw [hxm] at h2 h3; exact hf a (h3 a rfl) m1 h2

theorem Recodes.lift {Q : α → Prop} {k : α → β} (r : PyM α) (r' : PyM β) (hr : r' = r.map k) (hq : ∀ a, r = .ok a → Q a) :
    Recodes (ψ := ψ) (φ := φ) (ρ := ρ) h n Q k (HM.lift r) (HM.lift r') := by
  intro m hm; subst hr; exact ⟨rfl, hm, hq⟩

theorem Recodes.lift_same (r : PyM α) : Recodes (ψ := ψ) (φ := φ) (ρ := ρ) h n Anything id (HM.lift r) (HM.lift r) :=
  Recodes.lift r r (except_map_id r).symm fun _ _ => trivial

theorem Recodes.pep {Q : α → Prop} {k : α → β} {x : HM (Mem γ ψ φ ρ) α} {y : HM (Mem γ' ψ φ ρ) β} (hx : Recodes h n Q k x y) :
    Recodes h n Q k (HM.pep479 x) (HM.pep479 y) := by
  intro m hm
  obtain ⟨h1, h2, h3⟩ := hx m hm
  simp only [HM.pep479, h1]
  rcases hxm : x m with ⟨e | a, m1⟩
  · rw [hxm] at h2; cases e <;> exact ⟨rfl, h2, by rintro _ ⟨⟩⟩
  · rw [hxm] at h2 h3; exact ⟨rfl, h2, h3⟩

theorem Recodes.upstream {Q : α → Prop} {k : α → β} {x : HM (Mem γ ψ φ ρ) α} {y : HM (Mem γ' ψ φ ρ) β} (b : Bool) (hx : Recodes h n Q k x y) :
    Recodes h n Q k (upstream b x) (upstream b y) := by
  unfold Leap.upstream; cases b
  · exact hx.pep
  · exact hx

theorem recodes_getObj (r : Nat) : Recodes (ψ := ψ) (φ := φ) (ρ := ρ) h n Anything id (getObj r) (getObj r) := by
  intro m hm
  simp only [getObj, recoded]
  cases m.inds[r]? <;> exact ⟨rfl, hm, fun _ _ => trivial⟩

theorem recodes_modObj (r : Nat) (f : Obj ψ φ → Obj ψ φ) : Recodes (ρ := ρ) h n Anything id (modObj r f) (modObj r f) :=
  fun _ hm => ⟨rfl, hm, fun _ _ => trivial⟩

theorem recodes_newObj (o : Obj ψ φ) : Recodes (ρ := ρ) h n Anything id (newObj o) (newObj o) := fun _ hm => ⟨rfl, hm, fun _ _ => trivial⟩

theorem recodes_getArr (a : Nat) :
    Recodes (ψ := ψ) (φ := φ) (ρ := ρ) h n (fun g => g.length = n) (recode h) (getArr a) (getArr a) := by
  intro m hm
  simp only [getArr, recoded, List.getElem?_map]
  rcases hg : m.arrays[a]? with _ | g
  · exact ⟨rfl, hm, by rintro _ ⟨⟩⟩
  · exact ⟨rfl, hm, by rintro _ ⟨⟩; exact hm _ (List.mem_of_getElem? hg)⟩

theorem recodes_setArr (a : Nat) (g : List γ) (hg : g.length = n) :
    Recodes (ψ := ψ) (φ := φ) (ρ := ρ) h n Anything id (setArr a g) (setArr a (recode h g)) := by
  intro m hm
  refine ⟨?_, ?_, fun _ _ => trivial⟩
  · simp only [setArr, recoded, List.map_set]; rfl
  · intro x hx
    rcases List.mem_or_eq_of_mem_set hx with hx | rfl
    · exact hm x hx
    · exact hg

theorem recodes_newArr (g : List γ) (hg : g.length = n) :
    Recodes (ψ := ψ) (φ := φ) (ρ := ρ) h n Anything id (newArr g) (newArr (recode h g)) := by
  intro m hm
  refine ⟨?_, ?_, fun _ _ => trivial⟩
  · simp [newArr, recoded, Except.map]
  · intro x hx
    rcases List.mem_append.1 hx with hx | hx
    · exact hm x hx
    · rw [List.mem_singleton.1 hx]; exact hg

theorem recodes_getSet (a : Nat) : Recodes (ψ := ψ) (φ := φ) (ρ := ρ) h n Anything id (getSet a) (getSet a) := by
  intro m hm
  simp only [getSet, recoded]
  cases m.sets[a]? <;> exact ⟨rfl, hm, fun _ _ => trivial⟩

theorem recodes_setSet (a : Nat) (g : List Nat) : Recodes (ψ := ψ) (φ := φ) (ρ := ρ) h n Anything id (setSet a g) (setSet a g) :=
  fun _ hm => ⟨rfl, hm, fun _ _ => trivial⟩

theorem recodes_newSet (g : List Nat) : Recodes (ψ := ψ) (φ := φ) (ρ := ρ) h n Anything id (newSet g) (newSet g) :=
  fun _ hm => ⟨rfl, hm, fun _ _ => trivial⟩

theorem recodes_freshUuid : Recodes (ψ := ψ) (φ := φ) (ρ := ρ) h n Anything id freshUuid freshUuid :=
  fun _ hm => ⟨rfl, hm, fun _ _ => trivial⟩

theorem recodes_useRng {Q : α → Prop} {k : α → β} (f : ρ → PyM α × ρ) (f' : ρ → PyM β × ρ) (hf : ∀ s, f' s = ((f s).1.map k, (f s).2))
    (hq : ∀ s a, (f s).1 = .ok a → Q a) : Recodes (ψ := ψ) (φ := φ) h n Q k (useRng f) (useRng f') := by
  intro m hm
  refine ⟨?_, hm, fun a ha => hq _ a ha⟩
  show ((f' m.rng).1, (⟨m.arrays.map (recode h), m.sets, m.inds, m.nextUuid, (f' m.rng).2⟩ : Mem γ' ψ φ ρ)) = _
  rw [hf]; rfl

theorem recodes_useRng_same (f : ρ → PyM α × ρ) : Recodes (ψ := ψ) (φ := φ) h n Anything id (useRng f) (useRng f) :=
  recodes_useRng f f (fun s => by rw [except_map_id]) fun _ _ _ => trivial

/-! ### Individuals -/

theorem recodes_makeIndividual (g p : Nat) : Recodes (ψ := ψ) (φ := φ) (ρ := ρ) h n Anything id (makeIndividual g p) (makeIndividual g p) :=
  recodes_freshUuid.bind fun _ _ => (recodes_newSet _).bind fun _ _ => recodes_newObj _

theorem recodes_createPopulation (initGenome : ρ → PyM (List γ) × ρ) (initGenome' : ρ → PyM (List γ') × ρ)
    (hi : ∀ s, initGenome' s = ((initGenome s).1.map (recode h), (initGenome s).2)) (hn : ∀ s g, (initGenome s).1 = .ok g → g.length = n)
    (problem size : Nat) :
    Recodes (ψ := ψ) (φ := φ) h n Anything id (createPopulation initGenome problem size) (createPopulation initGenome' problem size) := by
  induction size with
  | zero => exact Recodes.pure _ _ trivial
  | succ size ih =>
    exact (recodes_useRng initGenome initGenome' hi hn).bind fun g hg => (recodes_newArr g hg).bind fun _ _ =>
      (recodes_makeIndividual _ _).bind fun _ _ => ih.bind fun _ _ => Recodes.pure _ _ trivial

theorem recodes_cloneInd (r : Nat) : Recodes (ψ := ψ) (φ := φ) (ρ := ρ) h n Anything id (cloneInd r) (cloneInd r) :=
  (recodes_getObj r).bind fun o _ => (recodes_newObj o).bind fun c _ => (recodes_getArr _).bind fun g hg => (recodes_newArr g hg).bind fun _ _ =>
    (recodes_modObj _ _).bind fun _ _ => (recodes_modObj _ _).bind fun _ _ => recodes_freshUuid.bind fun _ _ =>
    (recodes_modObj _ _).bind fun _ _ => (recodes_newSet _).bind fun _ _ => (recodes_modObj _ _).bind fun _ _ => Recodes.pure _ _ trivial

theorem recodes_decodeInd (dec : Dec γ ψ) (dec' : Dec γ' ψ) (hd : RecodedDec h n dec dec') (r : Nat) :
    Recodes (φ := φ) (ρ := ρ) h n Anything id (decodeInd dec r) (decodeInd dec' r) := by
  refine (recodes_getObj r).bind fun o _ => ?_
  cases dec with
  | identity =>
    cases dec' with
    | identity => exact (recodes_modObj _ _).bind fun _ _ => Recodes.pure _ _ trivial
    | fn f' => exact hd.elim
  | fn f =>
    cases dec' with
    | identity => exact hd.elim
    | fn f' =>
      refine (recodes_getArr _).bind fun g hg => ?_
      rw [hd g hg]
      exact (Recodes.lift_same _).bind fun _ _ => (recodes_modObj _ _).bind fun _ _ => Recodes.pure _ _ trivial

theorem recodes_phenomeOf (dec : Dec γ ψ) (dec' : Dec γ' ψ) (hd : RecodedDec h n dec dec') (r : Nat) :
    Recodes (φ := φ) (ρ := ρ) h n Anything id (phenomeOf dec r) (phenomeOf dec' r) := by
  refine (recodes_getObj r).bind fun o _ => ?_
  show Recodes h n Anything id (match o.phenome with | none => decodeInd dec r | some p => pure p)
    (match o.phenome with | none => decodeInd dec' r | some p => pure p)
  cases o.phenome with
  | none => exact recodes_decodeInd dec dec' hd r
  | some p => exact Recodes.pure _ _ trivial

theorem recodes_contentOf (p : Phen ψ) :
    Recodes (φ := φ) (ρ := ρ) h n (SizedContent n) (recodeContent h) (contentOf p) (contentOf p) := by
  rcases p with a | v
  · exact (recodes_getArr a).bind fun g hg => Recodes.pure (Content.raw g) (recodeContent h) hg
  · exact Recodes.pure (Content.value v) (recodeContent h) trivial

theorem recodes_evaluateImp (dec : Dec γ ψ) (dec' : Dec γ' ψ) (hd : RecodedDec h n dec dec') (prob : Prob γ ψ φ ρ) (prob' : Prob γ' ψ φ ρ)
    (hp : RecodedProb h n prob prob') (r : Nat) : Recodes h n Anything id (evaluateImp dec prob r) (evaluateImp dec' prob' r) :=
  (recodes_decodeInd dec dec' hd r).bind fun _ _ => (recodes_phenomeOf dec dec' hd r).bind fun _ _ => (recodes_contentOf _).bind fun c hc =>
    recodes_useRng (prob.evaluate c) (prob'.evaluate (recodeContent h c)) (fun s => by rw [hp c s hc, except_map_id]) fun _ _ _ => trivial

theorem recodes_evaluateInd (dec : Dec γ ψ) (dec' : Dec γ' ψ) (hd : RecodedDec h n dec dec') (prob : Prob γ ψ φ ρ) (prob' : Prob γ' ψ φ ρ)
    (hp : RecodedProb h n prob prob') (r : Nat) : Recodes h n Anything id (evaluateInd dec prob r) (evaluateInd dec' prob' r) :=
  (recodes_evaluateImp dec dec' hd prob prob' hp r).bind fun _ _ => (recodes_modObj _ _).bind fun _ _ => Recodes.pure _ _ trivial

theorem recodes_robustEvaluate (nan : φ) (dec : Dec γ ψ) (dec' : Dec γ' ψ) (hd : RecodedDec h n dec dec') (prob : Prob γ ψ φ ρ)
    (prob' : Prob γ' ψ φ ρ) (hp : RecodedProb h n prob prob') (r : Nat) :
    Recodes h n Anything id (robustEvaluate nan dec prob r) (robustEvaluate nan dec' prob' r) := by
  intro m hm
  obtain ⟨h1, h2, _⟩ := recodes_evaluateImp dec dec' hd prob prob' hp r m hm
  simp only [robustEvaluate, h1]
  rcases hxm : evaluateImp dec prob r m with ⟨e | f, m1⟩ <;> rw [hxm] at h2 <;> exact ⟨rfl, h2, fun _ _ => trivial⟩

theorem recodes_evaluatePopulation (dec : Dec γ ψ) (dec' : Dec γ' ψ) (hd : RecodedDec h n dec dec') (prob : Prob γ ψ φ ρ) (prob' : Prob γ' ψ φ ρ)
    (hp : RecodedProb h n prob prob') (pop : List Nat) :
    Recodes h n Anything id (evaluatePopulation dec prob pop) (evaluatePopulation dec' prob' pop) := by
  induction pop with
  | nil => exact Recodes.pure _ _ trivial
  | cons r rs ih => exact (recodes_evaluateInd dec dec' hd prob prob' hp r).bind fun _ _ => ih

/-! ### Operators -/

theorem recodes_uniform (mask : ρ → Nat → PyM (List Bool) × ρ) (ra rb : Nat) :
    Recodes (ψ := ψ) (φ := φ) h n Anything id (recombineInds (.uniform mask) ra rb) (recombineInds (.uniform mask) ra rb) := by
  refine (recodes_getObj ra).bind fun oa _ => (recodes_getObj rb).bind fun ob _ => (recodes_getArr _).bind fun a ha => (recodes_getArr _).bind fun b hb => ?_
  simp only [recode_length]
  refine (recodes_useRng_same _).bind fun mk _ => ?_
  simp only [id]
  by_cases hmk : mk.length = n
  · have ea : boolIndex a mk = .ok (maskSelect mk a) := by simp [boolIndex, hmk, ha]
    have eb : boolIndex b mk = .ok (maskSelect mk b) := by simp [boolIndex, hmk, hb]
    have ea' : boolIndex (recode h a) mk = .ok (maskSelect mk (recode h a)) := by simp [boolIndex, hmk, ha]
    have eb' : boolIndex (recode h b) mk = .ok (maskSelect mk (recode h b)) := by simp [boolIndex, hmk, hb]
    have assign : ∀ {δ : Type} (x y : List δ), x.length = n → y.length = n → boolAssign x mk (maskSelect mk y) = .ok (maskStore mk x (maskSelect mk y)) := by
      intro δ x y hx hy
      simp [boolAssign, hmk, hx, maskSelect_length mk y (hmk.trans hy.symm)]
    rw [ea, eb, ea', eb']
    refine Recodes.bind (Q := fun t => t = maskSelect mk a) (k := fun _ => maskSelect mk (recode h a)) (Recodes.lift _ _ rfl (by rintro _ ⟨⟩; rfl))
      fun t ht => ?_
    subst ht
    refine Recodes.bind (Q := fun t => t = maskSelect mk b) (k := fun _ => maskSelect mk (recode h b)) (Recodes.lift _ _ rfl (by rintro _ ⟨⟩; rfl))
      fun t ht => ?_
    subst ht
    refine Recodes.bind (Q := fun t => t.length = n) (k := recode h) (Recodes.lift _ _ ?_ ?_) fun a' ha' => ?_
    · rw [assign a b ha hb, assign _ _ (by simpa using ha) (by simpa using hb), maskStore_recode h mk a b (hmk.trans ha.symm) (hmk.trans hb.symm)]; rfl
    · rw [assign a b ha hb]; rintro _ ⟨⟩; rw [maskStore_length, ha]
    refine (recodes_setArr _ a' ha').bind fun _ _ => (recodes_getArr _).bind fun b1 hb1 => ?_
    refine Recodes.bind (Q := fun t => t.length = n) (k := recode h) (Recodes.lift _ _ ?_ ?_) fun b' hb' => recodes_setArr _ b' hb'
    · rw [assign b1 a hb1 ha, assign _ _ (by simpa using hb1) (by simpa using ha), maskStore_recode h mk b1 a (hmk.trans hb1.symm) (hmk.trans ha.symm)]; rfl
    · rw [assign b1 a hb1 ha]; rintro _ ⟨⟩; rw [maskStore_length, hb1]
  · have ea : boolIndex a mk = .error .indexError := by simp [boolIndex, hmk, ha]
    have ea' : boolIndex (recode h a) mk = .error .indexError := by simp [boolIndex, hmk, ha]
    rw [ea, ea']
    exact fun m hm => ⟨rfl, hm, by rintro _ ⟨⟩⟩

theorem recodes_nary (k : Nat) (cuts : ρ → Nat → List Nat × ρ) (hv : ∀ s, ValidCuts k n (cuts s n).1) (ra rb : Nat) :
    Recodes (ψ := ψ) (φ := φ) h n Anything id (recombineInds (.nary k cuts) ra rb) (recombineInds (.nary k cuts) ra rb) := by
  refine (recodes_getObj ra).bind fun oa _ => (recodes_getObj rb).bind fun ob _ => (recodes_getArr _).bind fun a ha => (recodes_getArr _).bind fun b hb => ?_
  simp only [recode_length]
  refine Recodes.bind (Q := fun xs => ValidCuts k n xs) (k := id) (recodes_useRng _ _ (fun s => rfl) ?_) fun xs hxs => ?_
  · rintro s _ ⟨⟩; rw [ha]; exact hv s
  obtain ⟨e1, e2⟩ := naryRecombine_recode h k xs a b (ha.trans hb.symm) (by rw [ha]; exact hxs)
  refine Recodes.bind (Q := fun p => p.1.length = n ∧ p.2.length = n) (k := Prod.map (recode h) (recode h)) (Recodes.lift _ _ e1 ?_) fun p hp => ?_
  · intro p hp; rw [← ha]; exact e2 p hp
  · exact (recodes_newArr p.1 hp.1).bind fun _ _ => (recodes_modObj _ _).bind fun _ _ => (recodes_newArr p.2 hp.2).bind fun _ _ => recodes_modObj _ _

theorem recodes_mutateInd (f : MutFn γ ρ) (f' : MutFn γ' ρ) (hf : RecodedMut h n f f') (r : Nat) :
    Recodes (ψ := ψ) (φ := φ) h n Anything id (mutateInd f r) (mutateInd f' r) := by
  refine (recodes_getObj r).bind fun o _ => (recodes_getArr _).bind fun g hg => ?_
  refine Recodes.bind (Q := fun res => res.left.length = n ∧ ∀ g', res.result = .ok (some g') → g'.length = n)
    (k := fun res => ⟨recode h res.left, res.result.map (Option.map (recode h)), res.rng⟩)
    (recodes_useRng _ _ (fun s => ?_) ?_) fun res hres => ?_
  · rw [(hf g s hg).1]; rfl
  · rintro s _ ⟨⟩; exact (hf g s hg).2
  refine (recodes_setArr _ _ hres.1).bind fun _ _ => ?_
  refine Recodes.bind (Q := fun o => ∀ g', o = some g' → g'.length = n) (k := Option.map (recode h)) (Recodes.lift _ _ rfl ?_) fun new hnew => ?_
  · rintro a ha g' rfl; exact hres.2 g' ha
  cases new with
  | none => exact recodes_modObj r _
  | some g' => exact (recodes_newArr g' (hnew g' rfl)).bind fun _ _ => (recodes_modObj _ _).bind fun _ _ => recodes_modObj _ _

theorem recodes_crossInds (rec : Recombiner ρ) (ra rb : Nat)
    (hr : Recodes (ψ := ψ) (φ := φ) h n Anything id (recombineInds rec ra rb) (recombineInds rec ra rb)) :
    Recodes (ψ := ψ) (φ := φ) h n Anything id (crossInds rec ra rb) (crossInds rec ra rb) :=
  hr.bind fun _ _ => (recodes_getObj ra).bind fun _ _ => (recodes_getObj rb).bind fun _ _ => (recodes_getSet _).bind fun _ _ =>
    (recodes_getSet _).bind fun _ _ => (recodes_setSet _ _).bind fun _ _ => (recodes_getSet _).bind fun _ _ => (recodes_getSet _).bind fun _ _ =>
    (recodes_setSet _ _).bind fun _ _ => (recodes_modObj _ _).bind fun _ _ => recodes_modObj _ _

/-- Two iterators that do the same, up to a translation of their states. -/
def IterRecodes (h : Nat → γ → γ') (n : Nat) (it : HIter (Mem γ ψ φ ρ)) (it' : HIter (Mem γ' ψ φ ρ)) : Prop :=
  ∃ e : it.σ → it'.σ, it'.init = e it.init ∧ ∀ s, Recodes h n Anything (fun p => (p.1, e p.2)) (it.next s) (it'.next (e s))

theorem iterRecodes_crossover (up : HIter (Mem γ ψ φ ρ)) (up' : HIter (Mem γ' ψ φ ρ)) (hup : IterRecodes h n up up') (skip : ρ → Bool × ρ)
    (rec : Recombiner ρ) (hr : ∀ ra rb, Recodes (ψ := ψ) (φ := φ) h n Anything id (recombineInds rec ra rb) (recombineInds rec ra rb)) :
    IterRecodes h n ((Stage.crossover skip rec).apply up) ((Stage.crossover skip rec).apply up') := by
  obtain ⟨e, he, hn⟩ := hup
  refine ⟨fun p => (p.1, e p.2), by simp only [Stage.apply, he], fun s => ?_⟩
  obtain ⟨pending, s⟩ := s
  refine Recodes.pep ?_
  cases pending with
  | some b => exact Recodes.pure (b, (none, s)) (fun p => (p.1, (p.2.1, e p.2.2))) trivial
  | none =>
    refine (hn s).bind fun p1 _ => (hn p1.2).bind fun p2 _ => (recodes_useRng_same _).bind fun sk _ => ?_
    cases sk with
    | true => exact Recodes.pure (p1.1, (some p2.1, p2.2)) (fun p => (p.1, (p.2.1, e p.2.2))) trivial
    | false =>
      exact (recodes_crossInds rec p1.1 p2.1 (hr _ _)).bind fun _ _ =>
        Recodes.pure (p1.1, (some p2.1, p2.2)) (fun p => (p.1, (p.2.1, e p.2.2))) trivial

theorem iterRecodes_stage (up : HIter (Mem γ ψ φ ρ)) (up' : HIter (Mem γ' ψ φ ρ)) (hup : IterRecodes h n up up') (st : Stage γ ψ φ ρ)
    (st' : Stage γ' ψ φ ρ) (hst : RecodedStage h n st st') : IterRecodes h n (st.apply up) (st'.apply up') := by
  cases hst with
  | clone =>
    obtain ⟨e, he, hn⟩ := hup
    exact ⟨e, he, fun s => Recodes.pep ((hn s).bind fun p _ => (recodes_cloneInd _).bind fun c _ => Recodes.pure (c, p.2) (fun p => (p.1, e p.2)) trivial)⟩
  | mutate hf =>
    obtain ⟨e, he, hn⟩ := hup
    refine ⟨fun p => (p.1, e p.2), by simp only [Stage.apply, he], fun s => ?_⟩
    exact (Recodes.lift_same _).bind fun _ _ => ((hn s.2).upstream _).bind fun p _ => (recodes_mutateInd _ _ hf p.1).pep.bind fun _ _ =>
      Recodes.pure (p.1, (true, p.2)) (fun p => (p.1, (p.2.1, e p.2.2))) trivial
  | uniform => exact iterRecodes_crossover up up' hup _ _ fun ra rb => recodes_uniform _ ra rb
  | nary hv => exact iterRecodes_crossover up up' hup _ _ fun ra rb => recodes_nary _ _ hv ra rb
  | evaluate hd hp =>
    obtain ⟨e, he, hn⟩ := hup
    exact ⟨e, he, fun s => Recodes.pep ((hn s).bind fun p _ => (recodes_evaluateInd _ _ hd _ _ hp p.1).bind fun _ _ =>
      Recodes.pure (p.1, p.2) (fun p => (p.1, e p.2)) trivial)⟩
  | robustEvaluate hd hp =>
    obtain ⟨e, he, hn⟩ := hup
    exact ⟨e, he, fun s => Recodes.pep ((hn s).bind fun p _ => (recodes_robustEvaluate _ _ _ hd _ _ hp p.1).bind fun _ _ =>
      Recodes.pure (p.1, p.2) (fun p => (p.1, e p.2)) trivial)⟩

theorem iterRecodes_stages {stages : List (Stage γ ψ φ ρ)} {stages' : List (Stage γ' ψ φ ρ)}
    (hst : List.Forall₂ (RecodedStage h n) stages stages') : ∀ (src : HIter (Mem γ ψ φ ρ)) (src' : HIter (Mem γ' ψ φ ρ)),
    IterRecodes h n src src' → IterRecodes h n (stagesIter src stages) (stagesIter src' stages') := by
  induction hst with
  | nil => exact fun _ _ hs => hs
  | cons h1 _ ih => exact fun src src' hs => ih _ _ (iterRecodes_stage src src' hs _ _ h1)

theorem recodes_hpull {σ σ' : Type} (g : HGen (Mem γ ψ φ ρ) σ Nat) (g' : HGen (Mem γ' ψ φ ρ) σ' Nat) (e : σ → σ')
    (hg : ∀ s, Recodes h n Anything (fun p => (p.1, e p.2)) (g s) (g' (e s))) (k : Nat) :
    ∀ s, Recodes h n Anything (fun p => (p.1, e p.2)) (hpull g k s) (hpull g' k (e s)) := by
  induction k with
  | zero => exact fun s => Recodes.pure ([], s) (fun p => (p.1, e p.2)) trivial
  | succ k ih =>
    exact fun s => (hg s).bind fun p _ => (ih p.2).bind fun q _ => Recodes.pure (p.1 :: q.1, q.2) (fun p => (p.1, e p.2)) trivial

theorem iterRecodes_selection (pop : List Nat) (choose : Mem γ ψ φ ρ → PyM Nat × ρ) (choose' : Mem γ' ψ φ ρ → PyM Nat × ρ)
    (hc : ∀ m, choose' (recoded h m) = choose m) : IterRecodes h n (selectionIter pop choose) (selectionIter pop choose') := by
  refine ⟨id, rfl, fun s m hm => ?_⟩
  simp only [selectionIter, hc m]
  rcases choose m with ⟨_ | i, s'⟩
  · exact ⟨rfl, hm, fun _ _ => trivial⟩
  · simp only
    cases pop[i]? <;> exact ⟨rfl, hm, fun _ _ => trivial⟩

theorem recodes_runPipeline (pop : List Nat) (choose : Mem γ ψ φ ρ → PyM Nat × ρ) (choose' : Mem γ' ψ φ ρ → PyM Nat × ρ)
    (hc : ∀ m, choose' (recoded h m) = choose m) {stages : List (Stage γ ψ φ ρ)} {stages' : List (Stage γ' ψ φ ρ)}
    (hst : List.Forall₂ (RecodedStage h n) stages stages') (size : Nat) :
    Recodes h n Anything id (runPipeline pop choose stages size) (runPipeline pop choose' stages' size) := by
  obtain ⟨e, he, hn⟩ := iterRecodes_stages (h := h) (n := n) (List.Forall₂.cons RecodedStage.clone hst) _ _ (iterRecodes_selection pop choose choose' hc)
  unfold runPipeline
  refine Recodes.bind (k := fun p => (p.1, e p.2)) (Q := Anything) ?_ fun p _ => Recodes.pure p.1 id trivial
  rw [he]
  exact recodes_hpull _ _ e hn size _

/-! ### Runs -/

/-- Any `generational_ea` whose selection and stop condition decide the same on the recoded genomes does the same. -/
theorem recodes_evoRun (cfg : EvoConfig γ ψ φ ρ) (cfg' : EvoConfig γ' ψ φ ρ) (hw : cfg'.worse = cfg.worse)
    (hc : ∀ g pop m, cfg'.choose g pop (recoded h m) = cfg.choose g pop m) (hst : List.Forall₂ (RecodedStage h n) cfg.stages cfg'.stages)
    (hsz : cfg'.size = cfg.size) (hk : cfg'.kElites = cfg.kElites) (hstop : ∀ g pop m, cfg'.stop g pop (recoded h m) = cfg.stop g pop m)
    (initGenome : ρ → PyM (List γ) × ρ) (initGenome' : ρ → PyM (List γ') × ρ)
    (hi : ∀ s, initGenome' s = ((initGenome s).1.map (recode h), (initGenome s).2)) (hin : ∀ s g, (initGenome s).1 = .ok g → g.length = n)
    (dec : Dec γ ψ) (dec' : Dec γ' ψ) (hd : RecodedDec h n dec dec') (prob : Prob γ ψ φ ρ) (prob' : Prob γ' ψ φ ρ) (hp : RecodedProb h n prob prob')
    (problem popSize : Nat) (startGeneration maxGenerations : Int) :
    Recodes h n Anything id (evoRun cfg initGenome dec prob problem popSize startGeneration maxGenerations)
      (evoRun cfg' initGenome' dec' prob' problem popSize startGeneration maxGenerations) := by
  refine (recodes_createPopulation _ _ hi hin _ _).bind fun parents _ => (recodes_evaluatePopulation dec dec' hd prob prob' hp parents).bind fun _ _ => ?_
  show Recodes h n Anything id (evoLoop cfg _ _ parents) (evoLoop cfg' _ _ parents)
  generalize (maxGenerations - startGeneration).toNat = fuel
  generalize startGeneration = g
  induction fuel generalizing g parents with
  | zero => exact Recodes.pure _ _ trivial
  | succ fuel ih =>
    intro m hm
    unfold evoLoop
    rw [hstop]
    by_cases hs : cfg.stop g parents m = true
    · rw [if_pos hs, if_pos hs]; exact ⟨rfl, hm, fun _ _ => trivial⟩
    · rw [if_neg hs, if_neg hs]
      obtain ⟨h1, h2, _⟩ := recodes_runPipeline parents (cfg.choose g parents) (cfg'.choose g parents) (hc g parents) hst cfg.size m hm
      rw [hsz, h1]
      rcases hxm : runPipeline parents (cfg.choose g parents) cfg.stages cfg.size m with ⟨e | off, m1⟩ <;> rw [hxm] at h2
      · exact ⟨rfl, h2, by rintro _ ⟨⟩⟩
      · simp only [Except.map, id]
        have hlt : cfg'.lt (recoded h m1) = cfg.lt m1 := by
          funext a b
          simp only [EvoConfig.lt, hw]
          rfl
        rw [hlt, hk]
        exact ih _ trivial _ m1 h2

theorem recodes_submitInd (copied : Bool) (r : Nat) : Recodes (ψ := ψ) (φ := φ) (ρ := ρ) h n Anything id (submitInd copied r) (submitInd copied r) := by
  unfold submitInd
  cases copied with
  | false => exact Recodes.pure _ _ trivial
  | true =>
    exact (recodes_getObj r).bind fun o _ => (recodes_getArr _).bind fun g hg => (recodes_newArr g hg).bind fun a _ => (recodes_getSet _).bind fun _ _ =>
      (recodes_newSet _).bind fun s _ => recodes_newObj _

theorem recodes_submitAll (copied : Nat → Bool) (rs : List Nat) :
    Recodes (ψ := ψ) (φ := φ) (ρ := ρ) h n Anything id (submitAll copied rs) (submitAll copied rs) := by
  induction rs with
  | nil => exact Recodes.pure _ _ trivial
  | cons r rs ih => exact (recodes_submitInd _ r).bind fun _ _ => ih.bind fun _ _ => Recodes.pure _ _ trivial

/-- The same for asynchronous runs, in every order of completion. -/
theorem recodes_asyncRun (cfg : AsyncConfig γ ψ φ ρ) (cfg' : AsyncConfig γ' ψ φ ρ) (hb : cfg'.maxBirths = cfg.maxBirths)
    (hn : cfg'.countNonviable = cfg.countNonviable)
    (hi : ∀ r pop m, cfg'.insert r pop (recoded h m) = cfg.insert r pop m) (hc : ∀ pop m, cfg'.choose pop (recoded h m) = cfg.choose pop m)
    (hst : List.Forall₂ (RecodedStage h n) cfg.stages cfg'.stages) (hsz : cfg'.size = cfg.size) (hnan : cfg'.nan = cfg.nan)
    (hd : RecodedDec h n cfg.dec cfg'.dec) (hp : RecodedProb h n cfg.prob cfg'.prob) (initGenome : ρ → PyM (List γ) × ρ)
    (initGenome' : ρ → PyM (List γ') × ρ) (hg : ∀ s, initGenome' s = ((initGenome s).1.map (recode h), (initGenome s).2))
    (hgn : ∀ s g, (initGenome s).1 = .ok g → g.length = n) (problem initSize : Nat) (copied : Nat → Bool)
    (rounds : List AsyncRound) :
    Recodes h n Anything id (asyncRun cfg initGenome problem initSize copied rounds) (asyncRun cfg' initGenome' problem initSize copied rounds) := by
  refine (recodes_createPopulation _ _ hg hgn _ _).bind fun initial _ => (recodes_submitAll _ _).bind fun sent _ => ?_
  show Recodes h n Anything id (asyncLoop cfg rounds ⟨sent, [], 0, []⟩) (asyncLoop cfg' rounds ⟨sent, [], 0, []⟩)
  generalize (⟨sent, [], 0, []⟩ : AsyncState) = st
  induction rounds generalizing st with
  | nil => exact Recodes.pure _ _ trivial
  | cons c cs ih =>
    unfold asyncLoop
    by_cases hp0 : st.pending.isEmpty = true
    · simp only [if_pos hp0]; exact Recodes.pure _ _ trivial
    · simp only [if_neg hp0]
      refine Recodes.bind (Q := Anything) (k := id) ?_ fun st' _ => ih st'
      unfold asyncStep
      cases st.pending[c.which % st.pending.length]? with
      | none => exact Recodes.lift_same _
      | some x =>
        simp only
        rw [hnan]
        refine (recodes_robustEvaluate cfg.nan cfg.dec cfg'.dec hd cfg.prob cfg'.prob hp x).bind fun _ _ => ?_
        intro m hm
        have hv : viableInd (recoded h m) x = viableInd m x := rfl
        simp only [hv, hn, hb]
        refine Recodes.bind (Q := Anything) (k := id) (x := insertInd cfg x st.pop) (y := insertInd cfg' x st.pop) ?_ (fun pop _ => ?_) m hm
        · intro m hm
          simp only [insertInd, hi, except_map_id]
          exact ⟨rfl, hm, fun _ _ => trivial⟩
        · generalize (if (!viableInd m x && !cfg.countNonviable) = true then st.births - 1 else st.births) = births
          by_cases hlt : births < cfg.maxBirths
          · simp only [if_pos hlt, hsz]
            exact Recodes.bind (Q := Anything) (k := id) (recodes_runPipeline pop (cfg.choose pop) (cfg'.choose pop) (hc pop) hst cfg.size) fun off _ =>
              Recodes.bind (Q := Anything) (k := id) (recodes_submitAll _ _) fun _ _ => Recodes.pure _ _ trivial
          · simp only [if_neg hlt]
            exact Recodes.pure _ _ trivial

end Leap
