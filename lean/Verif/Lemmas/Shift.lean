import Verif.Model.EvoRun
import Verif.Model.WalkRun

/-!
# Doing the same beside older objects

`after o m` is the memory `m` placed behind an older memory `o`: every object of `m` is there, with addresses and identities moved up by
what `o` holds. `Same o f x y` says that `y`, run in `after o m`, does what `x` does in `m`: the outcome is the same up to `f`
and so is the memory, with `o` untouched in front of it.
-/

namespace Leap

section
variable {γ ψ φ ρ : Type}

/-- A phenome moved with its array. -/
def shiftPhen (k : Nat) : Phen ψ → Phen ψ
  | .alias a => .alias (a + k)
  | .decoded v => .decoded v

/-- An individual with all addresses and identities moved behind `o`. -/
def shiftObj (o : Mem γ ψ φ ρ) (x : Obj ψ φ) : Obj ψ φ :=
  { x with genome := x.genome + o.arrays.length, phenome := x.phenome.map (shiftPhen o.arrays.length), uuid := x.uuid + o.nextUuid,
           parents := x.parents + o.sets.length }

/-- The memory `m` placed behind the memory `o`. -/
def after (o m : Mem γ ψ φ ρ) : Mem γ ψ φ ρ :=
  { arrays := o.arrays ++ m.arrays, sets := o.sets ++ m.sets.map (·.map (· + o.nextUuid)), inds := o.inds ++ m.inds.map (shiftObj o),
    nextUuid := m.nextUuid + o.nextUuid, rng := m.rng }

/-- The same outcome up to `f`. -/
def outcome {α β : Type} (f : α → β) : PyM α → PyM β
  | .ok a => .ok (f a)
  | .error e => .error e

/-- `y` does behind `o` what `x` does alone. -/
def Same {α β : Type} (o : Mem γ ψ φ ρ) (f : α → β) (x : HM (Mem γ ψ φ ρ) α) (y : HM (Mem γ ψ φ ρ) β) : Prop :=
  ∀ m, y (after o m) = (outcome f (x m).1, after o (x m).2)

variable {α β α' β' : Type} {o : Mem γ ψ φ ρ}

theorem same_pure {f : α → β} {a : α} {b : β} (h : b = f a) : Same o f (pure a) (pure b) := by
  intro m; subst h; rfl

theorem same_raise {f : α → β} (e : PyErr) : Same o f (HM.raise e) (HM.raise e) := fun _ => rfl

theorem same_lift {f : α → β} {r : PyM α} {r' : PyM β} (h : r' = outcome f r) : Same o f (HM.lift r) (HM.lift r') := by
  intro m; subst h; rfl

theorem same_lift_id (r : PyM α) : Same o id (HM.lift r) (HM.lift r) := same_lift (by cases r <;> rfl)

theorem same_bind {f : α → β} {g : α' → β'} {x : HM (Mem γ ψ φ ρ) α} {y : HM (Mem γ ψ φ ρ) β} {k : α → HM (Mem γ ψ φ ρ) α'} {l : β → HM (Mem γ ψ φ ρ) β'}
    (hx : Same o f x y) (hk : ∀ a, Same o g (k a) (l (f a))) : Same o g (x >>= k) (y >>= l) := by
  intro m
  rw [HM.bind_apply, HM.bind_apply, hx m]
  rcases e : x m with ⟨r, m1⟩
  cases r with
  | error err => rfl
  | ok a => exact hk a m1

theorem same_bind_ok {f : α → β} {g : α' → β'} {x : HM (Mem γ ψ φ ρ) α} {y : HM (Mem γ ψ φ ρ) β} {k : α → HM (Mem γ ψ φ ρ) α'} {l : β → HM (Mem γ ψ φ ρ) β'}
    (hx : Same o f x y) (hk : ∀ a m m', x m = (.ok a, m') → Same o g (k a) (l (f a))) : Same o g (x >>= k) (y >>= l) := by
  intro m
  rw [HM.bind_apply, HM.bind_apply, hx m]
  rcases e : x m with ⟨r, m1⟩
  cases r with
  | error err => rfl
  | ok a => exact hk a m m1 e m1

theorem same_pep {f : α → β} {x : HM (Mem γ ψ φ ρ) α} {y : HM (Mem γ ψ φ ρ) β} (h : Same o f x y) : Same o f (HM.pep479 x) (HM.pep479 y) := by
  intro m
  simp only [HM.pep479, h m]
  rcases e : x m with ⟨r, m1⟩
  cases r with
  | error err => cases err <;> rfl
  | ok a => rfl

theorem same_ite {f : α → β} {c c' : Prop} [Decidable c] [Decidable c'] (hc : c' ↔ c) {x x1 : HM (Mem γ ψ φ ρ) α} {y y1 : HM (Mem γ ψ φ ρ) β}
    (h : Same o f x y) (h1 : Same o f x1 y1) : Same o f (if c then x else x1) (if c' then y else y1) := by
  by_cases hh : c
  · rw [if_pos hh, if_pos (hc.2 hh)]; exact h
  · rw [if_neg hh, if_neg (fun h => hh (hc.1 h))]; exact h1

theorem getElem?_behind {α : Type} (l l1 : List α) (i : Nat) : (l ++ l1)[i + l.length]? = l1[i]? := by
  rw [List.getElem?_append_right (by omega)]
  congr 1; omega

theorem same_getObj (r : Nat) : Same o (shiftObj o) (getObj r) (getObj (r + o.inds.length)) := by
  intro m
  simp only [getObj, after, getElem?_behind, List.getElem?_map]
  cases m.inds[r]? <;> rfl

theorem modify_behind {α : Type} (l l1 : List α) (i : Nat) (f : α → α) : (l ++ l1).modify (i + l.length) f = l ++ l1.modify i f := by
  induction l with
  | nil => rfl
  | cons a l ih => rw [List.length_cons, ← Nat.add_assoc]; simpa using ih

theorem modify_map_comm {α : Type} (l : List α) (i : Nat) (s f f' : α → α) (h : ∀ x, f' (s x) = s (f x)) :
    (l.map s).modify i f' = (l.modify i f).map s := by
  induction l generalizing i with
  | nil => cases i <;> rfl
  | cons a l ih => cases i <;> simp_all

theorem same_modObj (r : Nat) {f f' : Obj ψ φ → Obj ψ φ} (h : ∀ x, f' (shiftObj o x) = shiftObj o (f x)) :
    Same o id (modObj r f) (modObj (r + o.inds.length) f') := by
  intro m
  simp only [modObj, after, modify_behind, modify_map_comm _ _ _ _ _ h]
  rfl

theorem same_newObj (x : Obj ψ φ) : Same o (· + o.inds.length) (newObj x) (newObj (shiftObj o x)) := by
  intro m
  simp [newObj, after, outcome, Nat.add_comm]

theorem same_getArr (a : Nat) : Same o id (getArr a) (getArr (a + o.arrays.length)) := by
  intro m
  simp only [getArr, after, getElem?_behind]
  cases m.arrays[a]? <;> rfl

theorem same_setArr (a : Nat) (g : List γ) : Same o id (setArr a g) (setArr (a + o.arrays.length) g) := by
  intro m
  simp only [setArr, after, outcome, List.set_append, show ¬ a + o.arrays.length < o.arrays.length by omega, if_false, Nat.add_sub_cancel, id]

theorem same_newArr (g : List γ) : Same o (· + o.arrays.length) (newArr g) (newArr g) := by
  intro m
  simp [newArr, after, outcome, Nat.add_comm]

theorem same_getSet (a : Nat) : Same o (·.map (· + o.nextUuid)) (getSet a) (getSet (a + o.sets.length)) := by
  intro m
  simp only [getSet, after, getElem?_behind, List.getElem?_map]
  cases m.sets[a]? <;> rfl

theorem same_setSet (a : Nat) (g : List Nat) : Same o id (setSet a g) (setSet (a + o.sets.length) (g.map (· + o.nextUuid))) := by
  intro m
  simp only [setSet, after, outcome, List.set_append, show ¬ a + o.sets.length < o.sets.length by omega, if_false, Nat.add_sub_cancel, List.map_set, id]

theorem same_newSet (g : List Nat) : Same o (· + o.sets.length) (newSet g) (newSet (g.map (· + o.nextUuid))) := by
  intro m
  simp [newSet, after, outcome, Nat.add_comm]

theorem same_freshUuid : Same o (· + o.nextUuid) freshUuid freshUuid := by
  intro m
  simp [freshUuid, after, outcome, Nat.add_right_comm]

theorem same_useRng (f : ρ → PyM α × ρ) : Same o id (useRng f) (useRng f) := by
  intro m
  simp only [useRng, after]
  cases (f m.rng).1 <;> rfl

/-! ### Individuals -/

theorem same_makeIndividual (a problem : Nat) :
    Same o (· + o.inds.length) (makeIndividual a problem) (makeIndividual (a + o.arrays.length) problem) :=
  same_bind same_freshUuid fun _ => same_bind (same_newSet []) fun _ => same_newObj _

theorem same_createPopulation (initGenome : ρ → PyM (List γ) × ρ) (problem n : Nat) :
    Same o (·.map (· + o.inds.length)) (createPopulation initGenome problem n) (createPopulation initGenome problem n) := by
  induction n with
  | zero => exact same_pure rfl
  | succ n ih =>
    exact same_bind (same_useRng _) fun _ => same_bind (same_newArr _) fun a => same_bind (same_makeIndividual a problem) fun _ =>
      same_bind ih fun _ => same_pure rfl

theorem same_cloneInd (r : Nat) : Same o (· + o.inds.length) (cloneInd r) (cloneInd (r + o.inds.length)) := by
  refine same_bind (same_getObj r) fun x => same_bind (same_newObj x) fun c => same_bind (same_getArr x.genome) fun g => same_bind (same_newArr g) fun a =>
    same_bind (same_modObj c fun y => rfl) fun _ => same_bind (same_modObj c fun y => rfl) fun _ => same_bind same_freshUuid fun u =>
    same_bind (same_modObj c fun y => rfl) fun _ => same_bind (same_newSet [x.uuid]) fun s => same_bind (same_modObj c fun y => rfl) fun _ => same_pure rfl

theorem same_decodeInd (dec : Dec γ ψ) (r : Nat) : Same o (shiftPhen o.arrays.length) (decodeInd dec r) (decodeInd dec (r + o.inds.length)) := by
  refine same_bind (same_getObj r) fun x => ?_
  cases dec with
  | identity => exact same_bind (same_modObj r fun y => rfl) fun _ => same_pure rfl
  | fn f => exact same_bind (same_getArr x.genome) fun g => same_bind (same_lift_id (f g)) fun v => same_bind (same_modObj r fun y => rfl) fun _ => same_pure rfl

theorem same_phenomeOf (dec : Dec γ ψ) (r : Nat) : Same o (shiftPhen o.arrays.length) (phenomeOf dec r) (phenomeOf dec (r + o.inds.length)) := by
  refine same_bind (same_getObj r) fun x => ?_
  show Same o _ _ (match x.phenome.map (shiftPhen o.arrays.length) with | none => _ | some p => _)
  cases x.phenome with
  | none => exact same_decodeInd dec r
  | some p => exact same_pure rfl

theorem same_contentOf (p : Phen ψ) : Same o id (contentOf p) (contentOf (shiftPhen o.arrays.length p)) := by
  rcases p with a | v
  · exact same_bind (same_getArr a) fun g => same_pure rfl
  · exact same_pure rfl

theorem same_evaluateImp (dec : Dec γ ψ) (prob : Prob γ ψ φ ρ) (r : Nat) : Same o id (evaluateImp dec prob r) (evaluateImp dec prob (r + o.inds.length)) :=
  same_bind (same_decodeInd dec r) fun _ => same_bind (same_phenomeOf dec r) fun p => same_bind (same_contentOf p) fun _ => same_useRng _

theorem same_evaluateInd (dec : Dec γ ψ) (prob : Prob γ ψ φ ρ) (r : Nat) : Same o id (evaluateInd dec prob r) (evaluateInd dec prob (r + o.inds.length)) :=
  same_bind (same_evaluateImp dec prob r) fun _ => same_bind (same_modObj r fun y => rfl) fun _ => same_pure rfl

theorem same_robustEvaluate (nan : φ) (dec : Dec γ ψ) (prob : Prob γ ψ φ ρ) (r : Nat) :
    Same o id (robustEvaluate nan dec prob r) (robustEvaluate nan dec prob (r + o.inds.length)) := by
  intro m
  unfold robustEvaluate
  rw [same_evaluateImp dec prob r m]
  rcases e : evaluateImp dec prob r m with ⟨res, m1⟩
  cases res with
  | error err =>
    simp only [outcome, after, modify_behind, id]
    rw [modify_map_comm _ _ (shiftObj o) (fun x => { x with fitness := some nan, exception := some err, viable := some false }) _ (fun y => rfl)]
  | ok f =>
    simp only [outcome, after, modify_behind, id]
    rw [modify_map_comm _ _ (shiftObj o) (fun x => { x with fitness := some f, viable := some true }) _ (fun y => rfl)]

theorem same_evaluatePopulation (dec : Dec γ ψ) (prob : Prob γ ψ φ ρ) (pop : List Nat) :
    Same o id (evaluatePopulation dec prob pop) (evaluatePopulation dec prob (pop.map (· + o.inds.length))) := by
  induction pop with
  | nil => exact same_pure rfl
  | cons r rs ih => exact same_bind (same_evaluateInd dec prob r) fun _ => ih

/-! ### Operators -/

theorem setUnion_map (k : Nat) (a b : List Nat) : setUnion (a.map (· + k)) (b.map (· + k)) = (setUnion a b).map (· + k) := by
  simp only [setUnion, List.map_append, List.filter_map]
  congr 2
  refine List.filter_congr fun x _ => ?_
  simp

theorem same_recombineInds (rec : Recombiner ρ) (ra rb : Nat) :
    Same o id (recombineInds rec ra rb) (recombineInds rec (ra + o.inds.length) (rb + o.inds.length)) := by
  refine same_bind (same_getObj ra) fun oa => same_bind (same_getObj rb) fun ob => same_bind (same_getArr oa.genome) fun a => same_bind (same_getArr ob.genome) fun b => ?_
  cases rec with
  | uniform mask =>
    exact same_bind (same_useRng _) fun mk => same_bind (same_lift_id _) fun tmp => same_bind (same_lift_id _) fun fromB => same_bind (same_lift_id _) fun a' =>
      same_bind (same_setArr oa.genome a') fun _ => same_bind (same_getArr ob.genome) fun b1 => same_bind (same_lift_id _) fun b' => same_setArr ob.genome b'
  | nary k cuts =>
    exact same_bind (same_useRng _) fun xs => same_bind (same_lift_id _) fun g => same_bind (same_newArr g.1) fun a1 => same_bind (same_modObj ra fun y => rfl) fun _ =>
      same_bind (same_newArr g.2) fun a2 => same_modObj rb fun y => rfl

theorem same_mutateInd (f : MutFn γ ρ) (r : Nat) : Same o id (mutateInd f r) (mutateInd f (r + o.inds.length)) := by
  refine same_bind (same_getObj r) fun x => same_bind (same_getArr x.genome) fun g => same_bind (same_useRng _) fun res =>
    same_bind (same_setArr x.genome res.left) fun _ => same_bind (same_lift_id _) fun new => ?_
  cases new with
  | none => exact same_modObj r fun y => rfl
  | some g' => exact same_bind (same_newArr g') fun a => same_bind (same_modObj r fun y => rfl) fun _ => same_modObj r fun y => rfl

theorem same_crossInds (rec : Recombiner ρ) (ra rb : Nat) :
    Same o id (crossInds rec ra rb) (crossInds rec (ra + o.inds.length) (rb + o.inds.length)) := by
  refine same_bind (same_recombineInds rec ra rb) fun _ => same_bind (same_getObj ra) fun oa => same_bind (same_getObj rb) fun ob =>
    same_bind (same_getSet ob.parents) fun sb => same_bind (same_getSet oa.parents) fun sa => ?_
  rw [setUnion_map]
  refine same_bind (same_setSet oa.parents _) fun _ => same_bind (same_getSet oa.parents) fun sa' => same_bind (same_getSet ob.parents) fun sb' => ?_
  rw [setUnion_map]
  exact same_bind (same_setSet ob.parents _) fun _ => same_bind (same_modObj ra fun y => rfl) fun _ => same_modObj rb fun y => rfl

/-- Two iterators that do the same, with a translation of their private states. -/
structure SameIter (o : Mem γ ψ φ ρ) (a b : HIter (Mem γ ψ φ ρ)) where
  tr : a.σ → b.σ
  init : b.init = tr a.init
  next : ∀ s, Same o (fun x : Nat × a.σ => (x.1 + o.inds.length, tr x.2)) (a.next s) (b.next (tr s))

theorem same_stage (st : Stage γ ψ φ ρ) {a b : HIter (Mem γ ψ φ ρ)} (h : SameIter o a b) : Nonempty (SameIter o (st.apply a) (st.apply b)) := by
  cases st with
  | clone =>
    exact ⟨h.tr, h.init, fun s => same_pep (same_bind (h.next s) fun x => same_bind (same_cloneInd x.1) fun _ => same_pure rfl)⟩
  | mutate check stopOk f =>
    refine ⟨fun s => (s.1, h.tr s.2), congrArg (Prod.mk false) h.init, fun s => ?_⟩
    obtain ⟨started, s⟩ := s
    refine same_bind (same_lift_id _) fun _ => same_bind (f := fun x : Nat × a.σ => (x.1 + o.inds.length, h.tr x.2)) ?_ fun x =>
      same_bind (same_pep (same_mutateInd f x.1)) fun _ => same_pure rfl
    unfold upstream
    cases stopOk
    · exact same_pep (h.next s)
    · exact h.next s
  | crossover skip rec =>
    refine ⟨fun s => (s.1.map (· + o.inds.length), h.tr s.2), congrArg (Prod.mk none) h.init, fun s => ?_⟩
    obtain ⟨pending, s⟩ := s
    refine same_pep ?_
    cases pending with
    | some c => exact same_pure rfl
    | none =>
      refine same_bind (h.next s) fun x => same_bind (h.next x.2) fun y => same_bind (same_useRng _) fun sk => ?_
      refine same_ite Iff.rfl (same_pure rfl) (same_bind (same_crossInds rec x.1 y.1) fun _ => same_pure rfl)
  | evaluate dec prob =>
    exact ⟨h.tr, h.init, fun s => same_pep (same_bind (h.next s) fun x => same_bind (same_evaluateInd dec prob x.1) fun _ => same_pure rfl)⟩
  | robustEvaluate nan dec prob =>
    exact ⟨h.tr, h.init, fun s => same_pep (same_bind (h.next s) fun x => same_bind (same_robustEvaluate nan dec prob x.1) fun _ => same_pure rfl)⟩

theorem same_stages (stages : List (Stage γ ψ φ ρ)) : ∀ {a b : HIter (Mem γ ψ φ ρ)}, SameIter o a b → Nonempty (SameIter o (stagesIter a stages) (stagesIter b stages)) := by
  induction stages with
  | nil => exact fun h => ⟨h⟩
  | cons st rest ih =>
    intro a b h
    obtain ⟨h1⟩ := same_stage st h
    exact ih h1

/-- Selection from a moved population. -/
def same_selection (pop : List Nat) {choose choose' : Mem γ ψ φ ρ → PyM Nat × ρ} (h : ∀ m, choose' (after o m) = choose m) :
    SameIter o (selectionIter pop choose) (selectionIter (pop.map (· + o.inds.length)) choose') := by
  refine ⟨fun _ => (), rfl, fun s m => ?_⟩
  simp only [selectionIter, h]
  rcases choose m with ⟨r, t⟩
  cases r with
  | error e => rfl
  | ok i =>
    simp only [List.getElem?_map]
    cases pop[i]? <;> rfl

theorem same_hpull {a b : HIter (Mem γ ψ φ ρ)} (h : SameIter o a b) (n : Nat) :
    ∀ s, Same o (fun x : List Nat × a.σ => (x.1.map (· + o.inds.length), h.tr x.2)) (hpull a.next n s) (hpull b.next n (h.tr s)) := by
  induction n with
  | zero => intro s; exact same_pure rfl
  | succ n ih => intro s; exact same_bind (h.next s) fun x => same_bind (ih x.2) fun y => same_pure rfl

theorem same_runPipeline (pop : List Nat) {choose choose' : Mem γ ψ φ ρ → PyM Nat × ρ} (h : ∀ m, choose' (after o m) = choose m)
    (stages : List (Stage γ ψ φ ρ)) (size : Nat) :
    Same o (·.map (· + o.inds.length)) (runPipeline pop choose stages size) (runPipeline (pop.map (· + o.inds.length)) choose' stages size) := by
  obtain ⟨hi⟩ := same_stages (Stage.clone :: stages) (same_selection pop h)
  unfold runPipeline
  simp only
  rw [hi.init]
  exact same_bind (same_hpull hi size _) fun x => same_pure rfl

/-! ### Survival -/

theorem fitness_after (m : Mem γ ψ φ ρ) (r : Nat) :
    (((after o m).inds[r + o.inds.length]?).bind Obj.fitness) = ((m.inds[r]?).bind Obj.fitness) := by
  simp only [after, getElem?_behind, List.getElem?_map]
  cases m.inds[r]? <;> rfl

theorem topk_map {α β : Type} (f : α → β) (lt : α → α → Bool) (lt' : β → β → Bool) (h : ∀ a b, lt' (f a) (f b) = lt a b) (k : Nat) (l : List α) :
    topk lt' k (l.map f) = (topk lt k l).map f := by
  unfold topk sortedDesc
  rw [← List.map_insertionSort (r := fun a b => lt a b = false) (s := fun a b => lt' a b = false) f l (fun a _ b _ => by rw [h]), List.map_take]

theorem elitistSurvival_map {α β : Type} (f : α → β) (lt : α → α → Bool) (lt' : β → β → Bool) (h : ∀ a b, lt' (f a) (f b) = lt a b) (off par : List α) (k : Nat) :
    (elitistSurvival lt' (off.map f) (par.map f) k).1 = (elitistSurvival lt off par k).1.map f := by
  simp only [elitistSurvival, topk_map f lt lt' h, ← List.map_append, List.length_map]

end

end Leap
