import Verif.Model.TaskRun
import Verif.Props.IslandRun

/-! # Islands with problems of their own: everybody is scored by the problem of the island they live on (C115) -/

namespace Leap
open Spec

variable {γ ψ φ ρ : Type} {n : Nat} {allowed : Nat → γ → Prop} {truth : List γ → φ → Prop}

/-- The problem that an individual holds. -/
def Spec.problemOf (m : Mem γ ψ φ ρ) (r : Nat) : Option Nat := (m.inds[r]?).map Obj.problem

/-! ## Operators leave the problems of individuals alone -/

/-- Whoever had a problem still has it. -/
def KeepsProblems (m m' : Mem γ ψ φ ρ) : Prop := ∀ r k, problemOf m r = some k → problemOf m' r = some k

theorem KeepsProblems.refl (m : Mem γ ψ φ ρ) : KeepsProblems m m := fun _ _ h => h

theorem KeepsProblems.trans {m m1 m2 : Mem γ ψ φ ρ} (h1 : KeepsProblems m m1) (h2 : KeepsProblems m1 m2) : KeepsProblems m m2 :=
  fun r k h => h2 r k (h1 r k h)

theorem keepsProblems_inds {m m' : Mem γ ψ φ ρ} (h : m'.inds = m.inds) : KeepsProblems m m' := fun r k e => by
  simpa only [problemOf, h] using e

theorem keepsProblems_unchanged {m m' : Mem γ ψ φ ρ} (h : Unchanged m m') : KeepsProblems m m' := fun r k e => by
  simp only [problemOf] at e ⊢
  cases ho : m.inds[r]? with
  | none => rw [ho] at e; cases e
  | some o => rw [h.inds r (List.getElem?_eq_some_iff.1 ho).1]; exact e

/-- A computation that leaves them alone, also when it raises. -/
def KeepsM {α : Type} (x : HM (Mem γ ψ φ ρ) α) : Prop := ∀ m, KeepsProblems m (x m).2

theorem KeepsM.bind {α β : Type} {x : HM (Mem γ ψ φ ρ) α} {f : α → HM (Mem γ ψ φ ρ) β} (h1 : KeepsM x) (h2 : ∀ a, KeepsM (f a)) :
    KeepsM (x >>= f) := by
  intro m
  rw [HM.bind_apply]
  have h := h1 m
  rcases e : x m with ⟨r, m1⟩
  rw [e] at h
  cases r with
  | error err => exact h
  | ok a => exact h.trans (h2 a m1)

theorem KeepsM.ofInds {α : Type} {x : HM (Mem γ ψ φ ρ) α} (h : ∀ m, (x m).2.inds = m.inds) : KeepsM x := fun m =>
  keepsProblems_inds (h m)

theorem KeepsM.ok {α : Type} {x : HM (Mem γ ψ φ ρ) α} (h : KeepsM x) {m m' : Mem γ ψ φ ρ} {a : PyM α} (e : x m = (a, m')) :
    KeepsProblems m m' := by
  have := h m
  rwa [e] at this

theorem task_keeps_pure {α : Type} (a : α) : KeepsM (pure a : HM (Mem γ ψ φ ρ) α) := .ofInds fun _ => rfl
theorem task_keeps_lift {α : Type} (a : PyM α) : KeepsM (HM.lift a : HM (Mem γ ψ φ ρ) α) := .ofInds fun _ => rfl
theorem task_keeps_useRng {α : Type} (f : ρ → PyM α × ρ) : KeepsM (useRng f : HM (Mem γ ψ φ ρ) α) := .ofInds fun _ => rfl
theorem task_keeps_newArr (g : List γ) : KeepsM (newArr g : HM (Mem γ ψ φ ρ) Nat) := .ofInds fun _ => rfl
theorem task_keeps_setArr (a : Nat) (g : List γ) : KeepsM (setArr a g : HM (Mem γ ψ φ ρ) Unit) := .ofInds fun _ => rfl
theorem task_keeps_setSet (a : Nat) (g : List Nat) : KeepsM (setSet a g : HM (Mem γ ψ φ ρ) Unit) := .ofInds fun _ => rfl
theorem task_keeps_getObj (r : Nat) : KeepsM (getObj r : HM (Mem γ ψ φ ρ) (Obj ψ φ)) := .ofInds fun m => by
  unfold getObj; split <;> rfl
theorem task_keeps_getArr (r : Nat) : KeepsM (getArr r : HM (Mem γ ψ φ ρ) (List γ)) := .ofInds fun m => by
  unfold getArr; split <;> rfl
theorem task_keeps_getSet (r : Nat) : KeepsM (getSet r : HM (Mem γ ψ φ ρ) (List Nat)) := .ofInds fun m => by
  unfold getSet; split <;> rfl

theorem problemOf_modify {f : Obj ψ φ → Obj ψ φ} (hf : ∀ x, (f x).problem = x.problem) (inds : List (Obj ψ φ)) (r y : Nat) :
    ((inds.modify r f)[y]?).map Obj.problem = (inds[y]?).map Obj.problem := by
  rw [List.getElem?_modify]
  cases inds[y]? with
  | none => rfl
  | some o => simp only [Option.map_some]; split <;> simp [hf]

theorem task_keeps_modObj (r : Nat) (f : Obj ψ φ → Obj ψ φ) (hf : ∀ x, (f x).problem = x.problem) :
    KeepsM (modObj r f : HM (Mem γ ψ φ ρ) Unit) := by
  intro m y k hy
  simpa only [modObj, problemOf, problemOf_modify hf] using hy

/-- Cloning keeps everybody's problem, and the clone has the same problem. -/
theorem task_keeps_clone {m m' : Mem γ ψ φ ρ} {r c : Nat} (h : cloneInd r m = (.ok c, m')) :
    KeepsProblems m m' ∧ problemOf m' c = problemOf m r := by
  cases ho : m.inds[r]? with
  | none => simp [cloneInd, HM.bind_apply, getObj, ho] at h
  | some o =>
    cases hg : m.arrays[o.genome]? with
    | none =>
      have : o.genome < m.arrays.length ∨ ¬ o.genome < m.arrays.length := by omega
      simp [cloneInd, HM.bind_apply, getObj, ho, newObj, getArr, hg] at h
    | some g =>
      rw [clone_effect m r o g ho hg] at h
      simp only [Prod.mk.injEq, Except.ok.injEq] at h
      obtain ⟨rfl, rfl⟩ := h
      refine ⟨fun y k hy => ?_, by simp [problemOf, ho]⟩
      simp only [problemOf] at hy ⊢
      cases hi : m.inds[y]? with
      | none => rw [hi] at hy; cases hy
      | some oy => rw [List.getElem?_append_left (List.getElem?_eq_some_iff.1 hi).1]; exact hy

theorem task_keeps_newObj (o : Obj ψ φ) : KeepsM (newObj o : HM (Mem γ ψ φ ρ) Nat) := by
  intro m y k hy
  simp only [problemOf, newObj] at hy ⊢
  cases hi : m.inds[y]? with
  | none => rw [hi] at hy; cases hy
  | some oy => rw [List.getElem?_append_left (List.getElem?_eq_some_iff.1 hi).1, hi]; rw [hi] at hy; exact hy

theorem task_keeps_newSet (g : List Nat) : KeepsM (newSet g : HM (Mem γ ψ φ ρ) Nat) := .ofInds fun _ => rfl
theorem task_keeps_freshUuid : KeepsM (freshUuid : HM (Mem γ ψ φ ρ) Nat) := .ofInds fun _ => rfl

theorem task_keeps_cloneInd (r : Nat) : KeepsM (cloneInd r : HM (Mem γ ψ φ ρ) Nat) := by
  unfold cloneInd
  exact (task_keeps_getObj _).bind fun _ => (task_keeps_newObj _).bind fun _ => (task_keeps_getArr _).bind fun _ => (task_keeps_newArr _).bind fun _ =>
    (task_keeps_modObj _ _ (by intro _; rfl)).bind fun _ => (task_keeps_modObj _ _ (by intro _; rfl)).bind fun _ => task_keeps_freshUuid.bind fun _ =>
    (task_keeps_modObj _ _ (by intro _; rfl)).bind fun _ => (task_keeps_newSet _).bind fun _ => (task_keeps_modObj _ _ (by intro _; rfl)).bind fun _ =>
    task_keeps_pure _

theorem KeepsM.pep {α : Type} {x : HM (Mem γ ψ φ ρ) α} (h : KeepsM x) : KeepsM (HM.pep479 x) := by
  intro m
  have := h m
  unfold HM.pep479
  rcases e : x m with ⟨r, m1⟩
  rw [e] at this
  rcases r with (err | a)
  · cases err <;> exact this
  · exact this

theorem task_keeps_mutate (f : MutFn γ ρ) (r : Nat) : KeepsM (mutateInd f r : HM (Mem γ ψ φ ρ) Unit) := by
  unfold mutateInd
  refine (task_keeps_getObj r).bind fun o => (task_keeps_getArr _).bind fun g => (task_keeps_useRng _).bind fun res => (task_keeps_setArr _ _).bind fun _ =>
    (task_keeps_lift _).bind fun new => ?_
  cases new with
  | none => exact task_keeps_modObj _ _ (by intro _; rfl)
  | some g' =>
    exact (task_keeps_newArr _).bind fun a => (task_keeps_modObj _ _ (by intro _; rfl)).bind fun _ => task_keeps_modObj _ _ (by intro _; rfl)

theorem task_keeps_cross (rec : Recombiner ρ) (ra rb : Nat) : KeepsM (crossInds rec ra rb : HM (Mem γ ψ φ ρ) Unit) := by
  unfold crossInds
  refine KeepsM.bind ?_ fun _ => (task_keeps_getObj _).bind fun _ => (task_keeps_getObj _).bind fun _ => (task_keeps_getSet _).bind fun _ =>
    (task_keeps_getSet _).bind fun _ => (task_keeps_setSet _ _).bind fun _ => (task_keeps_getSet _).bind fun _ => (task_keeps_getSet _).bind fun _ =>
    (task_keeps_setSet _ _).bind fun _ => (task_keeps_modObj _ _ (by intro _; rfl)).bind fun _ => task_keeps_modObj _ _ (by intro _; rfl)
  unfold recombineInds
  refine (task_keeps_getObj _).bind fun _ => (task_keeps_getObj _).bind fun _ => (task_keeps_getArr _).bind fun _ => (task_keeps_getArr _).bind fun _ => ?_
  cases rec with
  | uniform mask =>
    exact (task_keeps_useRng _).bind fun _ => (task_keeps_lift _).bind fun _ => (task_keeps_lift _).bind fun _ => (task_keeps_lift _).bind fun _ =>
      (task_keeps_setArr _ _).bind fun _ => (task_keeps_getArr _).bind fun _ => (task_keeps_lift _).bind fun _ => task_keeps_setArr _ _
  | nary k cuts =>
    exact (task_keeps_useRng _).bind fun _ => (task_keeps_lift _).bind fun _ => (task_keeps_newArr _).bind fun _ =>
      (task_keeps_modObj _ _ (by intro _; rfl)).bind fun _ => (task_keeps_newArr _).bind fun _ => task_keeps_modObj _ _ (by intro _; rfl)

theorem task_keeps_decode (dec : Dec γ ψ) (r : Nat) : KeepsM (decodeInd dec r : HM (Mem γ ψ φ ρ) (Phen ψ)) := by
  unfold decodeInd
  refine (task_keeps_getObj _).bind fun o => ?_
  cases dec with
  | identity => exact (task_keeps_modObj _ _ (by intro _; rfl)).bind fun _ => task_keeps_pure _
  | fn f => exact (task_keeps_getArr _).bind fun _ => (task_keeps_lift _).bind fun _ => (task_keeps_modObj _ _ (by intro _; rfl)).bind fun _ => task_keeps_pure _

theorem task_keeps_evaluateImp (dec : Dec γ ψ) (prob : Prob γ ψ φ ρ) (r : Nat) : KeepsM (evaluateImp dec prob r) := by
  unfold evaluateImp phenomeOf
  refine (task_keeps_decode dec r).bind fun _ => KeepsM.bind ((task_keeps_getObj _).bind fun o => ?_) fun p => KeepsM.bind ?_ fun c => task_keeps_useRng _
  · cases o.phenome with
    | none => exact task_keeps_decode dec r
    | some p => exact task_keeps_pure _
  · cases p with
    | «alias» a => exact (task_keeps_getArr _).bind fun _ => task_keeps_pure _
    | decoded v => exact task_keeps_pure _

theorem task_keeps_evaluate (dec : Dec γ ψ) (prob : Prob γ ψ φ ρ) (r : Nat) : KeepsM (evaluateInd dec prob r) :=
  (task_keeps_evaluateImp dec prob r).bind fun _ => (task_keeps_modObj _ _ (by intro _; rfl)).bind fun _ => task_keeps_pure _

theorem task_keeps_robust (nan : φ) (dec : Dec γ ψ) (prob : Prob γ ψ φ ρ) (r : Nat) : KeepsM (Leap.robustEvaluate nan dec prob r) := by
  intro m
  have h := task_keeps_evaluateImp dec prob r m
  unfold Leap.robustEvaluate
  rcases e : evaluateImp dec prob r m with ⟨x, m1⟩
  rw [e] at h
  cases x with
  | ok f =>
    refine h.trans fun y k hy => ?_
    simp only [problemOf] at hy ⊢
    rw [problemOf_modify (by intro _; rfl)]
    exact hy
  | error err =>
    refine h.trans fun y k hy => ?_
    simp only [problemOf] at hy ⊢
    rw [problemOf_modify (by intro _; rfl)]
    exact hy

/-! ## On an island where everybody has the same problem -/

/-- Two computations with the same outcome: the same exception, or results related by `R`. -/
def Twin {α β : Type} (P : Mem γ ψ φ ρ → Prop) (x : HM (Mem γ ψ φ ρ) α) (y : HM (Mem γ ψ φ ρ) β) (R : α → β → Mem γ ψ φ ρ → Prop) : Prop :=
  ∀ m, P m → (∃ a b m', x m = (.ok a, m') ∧ y m = (.ok b, m') ∧ R a b m') ∨ ∃ e m', x m = (.error e, m') ∧ y m = (.error e, m')

theorem Twin.bind {α β α' β' : Type} {P : Mem γ ψ φ ρ → Prop} {x : HM (Mem γ ψ φ ρ) α} {y : HM (Mem γ ψ φ ρ) β}
    {R : α → β → Mem γ ψ φ ρ → Prop} {f : α → HM (Mem γ ψ φ ρ) α'} {g : β → HM (Mem γ ψ φ ρ) β'} {S : α' → β' → Mem γ ψ φ ρ → Prop}
    (h1 : Twin P x y R) (h2 : ∀ a b, Twin (R a b) (f a) (g b) S) : Twin P (x >>= f) (y >>= g) S := by
  intro m hm
  rcases h1 m hm with ⟨a, b, m1, e1, e2, hR⟩ | ⟨e, m1, e1, e2⟩
  · rw [HM.bind_apply, HM.bind_apply, e1, e2]
    exact h2 a b m1 hR
  · rw [HM.bind_apply, HM.bind_apply, e1, e2]
    exact Or.inr ⟨e, m1, rfl, rfl⟩

theorem Twin.pep {α β : Type} {P : Mem γ ψ φ ρ → Prop} {x : HM (Mem γ ψ φ ρ) α} {y : HM (Mem γ ψ φ ρ) β}
    {R : α → β → Mem γ ψ φ ρ → Prop} (h : Twin P x y R) : Twin P (HM.pep479 x) (HM.pep479 y) R := by
  intro m hm
  rcases h m hm with ⟨a, b, m1, e1, e2, hR⟩ | ⟨e, m1, e1, e2⟩
  · exact Or.inl ⟨a, b, m1, pep_live e1, pep_live e2, hR⟩
  · right
    unfold HM.pep479
    rw [e1, e2]
    cases e <;> exact ⟨_, _, rfl, rfl⟩

theorem Twin.ret {α β : Type} {P : Mem γ ψ φ ρ → Prop} {a : α} {b : β} {R : α → β → Mem γ ψ φ ρ → Prop} (h : ∀ m, P m → R a b m) :
    Twin P (pure a) (pure b) R := fun m hm => Or.inl ⟨a, b, m, rfl, rfl, h m hm⟩

theorem Twin.same {α : Type} {P Q : Mem γ ψ φ ρ → Prop} (x : HM (Mem γ ψ φ ρ) α) (h : ∀ m a m', P m → x m = (.ok a, m') → Q m') :
    Twin P x x (fun a b m => a = b ∧ Q m) := by
  intro m hm
  rcases e : x m with ⟨r, m1⟩
  cases r with
  | error err => exact Or.inr ⟨err, m1, rfl, rfl⟩
  | ok a => exact Or.inl ⟨a, a, m1, rfl, rfl, rfl, h m a m1 hm e⟩

/-- Two iterators that agree as long as everybody they hold has problem `k`, and that yield only such individuals. -/
structure TaskAgrees (k : Nat) (P : Mem γ ψ φ ρ → Prop) (a b : HIter (Mem γ ψ φ ρ)) (rel : a.σ → b.σ → Mem γ ψ φ ρ → Prop) : Prop where
  init : ∀ m, P m → rel a.init b.init m
  keep : ∀ s t m m', KeepsProblems m m' → rel s t m → rel s t m'
  keeps : ∀ s, KeepsM (a.next s)
  next : ∀ s t, Twin (rel s t) (a.next s) (b.next t) fun p q m => p.1 = q.1 ∧ problemOf m p.1 = some k ∧ rel p.2 q.2 m

/-- The operator that an `evaluate` amounts to when everybody has problem `k`. -/
def Spec.TaskStage.at (k : Nat) : TaskStage γ ψ φ ρ → Stage γ ψ φ ρ
  | .plain st => st
  | .evaluateOwn dec probs => .evaluate dec (probs k)

theorem selection_agrees (k : Nat) (pop : List Nat) (choose : Mem γ ψ φ ρ → PyM Nat × ρ) :
    TaskAgrees k (fun m => ∀ r ∈ pop, problemOf m r = some k) (selectionIter pop choose) (selectionIter pop choose)
      (fun _ _ m => ∀ r ∈ pop, problemOf m r = some k) := by
  refine ⟨fun m h => h, fun s t m m' hk h r hr => hk r k (h r hr), fun s => .ofInds fun m => ?_, fun s t m hm => ?_⟩
  · simp only [selectionIter]
    rcases choose m with ⟨x, g⟩
    cases x with
    | error err => rfl
    | ok i => simp only; split <;> rfl
  simp only [selectionIter]
  rcases e : choose m with ⟨x, g⟩
  cases x with
  | error err => exact Or.inr ⟨err, _, rfl, rfl⟩
  | ok i =>
    simp only
    cases hi : pop[i]? with
    | none => exact Or.inr ⟨_, _, rfl, rfl⟩
    | some r => exact Or.inl ⟨_, _, _, rfl, rfl, rfl, hm r (List.mem_of_getElem? hi), hm⟩

theorem plain_agrees {k : Nat} {P : Mem γ ψ φ ρ → Prop} {a b : HIter (Mem γ ψ φ ρ)} {rel : a.σ → b.σ → Mem γ ψ φ ρ → Prop}
    (h : TaskAgrees k P a b rel) (st : Stage γ ψ φ ρ) : ∃ rel', TaskAgrees k P (st.apply a) (st.apply b) rel' := by
  cases st with
  | clone =>
    refine ⟨rel, h.init, h.keep, fun s => ((h.keeps s).bind fun p => (task_keeps_cloneInd p.1).bind fun _ => task_keeps_pure _).pep,
      fun s t => Twin.pep ((h.next s t).bind ?_)⟩
    rintro ⟨r, s'⟩ ⟨r', t'⟩
    simp only
    by_cases hr : r = r'
    swap
    · exact fun m hm => absurd hm.1 hr
    subst hr
    refine Twin.bind (R := fun c c' m => c = c' ∧ problemOf m c = some k ∧ rel s' t' m) (fun m hm => ?_) fun c c' => ?_
    · rcases e : cloneInd r m with ⟨x, m1⟩
      cases x with
      | error err => exact Or.inr ⟨err, m1, rfl, rfl⟩
      | ok c =>
        obtain ⟨h1, h2⟩ := task_keeps_clone e
        exact Or.inl ⟨c, c, m1, rfl, rfl, rfl, h2.trans hm.2.1, h.keep _ _ _ _ h1 hm.2.2⟩
    · exact Twin.ret fun m hm => hm
  | mutate check stopOk f =>
    refine ⟨fun s t m => s.1 = t.1 ∧ rel s.2 t.2 m, fun m hm => ⟨rfl, h.init m hm⟩,
      fun s t m m' hk hm => ⟨hm.1, h.keep _ _ _ _ hk hm.2⟩, fun s => ?_, ?_⟩
    · refine (task_keeps_lift _).bind fun _ => KeepsM.bind ?_ fun p => (task_keeps_mutate f p.1).pep.bind fun _ => task_keeps_pure _
      unfold upstream
      split
      · exact h.keeps _
      · exact (h.keeps _).pep
    rintro ⟨b1, s⟩ ⟨b2, t⟩
    by_cases hb : b1 = b2
    swap
    · exact fun m hm => absurd hm.1 hb
    subst hb
    refine Twin.bind (R := fun _ _ m => rel s t m) (fun m hm => ?_) fun _ _ => ?_
    · cases e : (if b1 then .ok () else check : PyM Unit) with
      | error err => exact Or.inr ⟨err, m, rfl, rfl⟩
      | ok _ => exact Or.inl ⟨_, _, m, rfl, rfl, hm.2⟩
    refine Twin.bind (R := fun p q m => p.1 = q.1 ∧ problemOf m p.1 = some k ∧ rel p.2 q.2 m) ?_ ?_
    · unfold upstream
      split
      · exact h.next s t
      · exact (h.next s t).pep
    rintro ⟨r, s'⟩ ⟨r', t'⟩
    by_cases hr : r = r'
    swap
    · exact fun m hm => absurd hm.1 hr
    subst hr
    exact Twin.bind (Twin.pep (Twin.same (Q := fun m => problemOf m r = some k ∧ rel s' t' m) (mutateInd f r) fun m _ m' hm e =>
      ⟨(task_keeps_mutate f r).ok e _ _ hm.2.1, h.keep _ _ _ _ ((task_keeps_mutate f r).ok e) hm.2.2⟩))
      fun _ _ => Twin.ret fun m hm => ⟨rfl, hm.2.1, rfl, hm.2.2⟩
  | crossover skip rec =>
    refine ⟨fun s t m => s.1 = t.1 ∧ (∀ c, s.1 = some c → problemOf m c = some k) ∧ rel s.2 t.2 m,
      fun m hm => ⟨rfl, fun c hc => (by cases hc), h.init m hm⟩,
      fun s t m m' hk hm => ⟨hm.1, fun c hc => hk _ _ (hm.2.1 c hc), h.keep _ _ _ _ hk hm.2.2⟩, fun s => ?_, ?_⟩
    · obtain ⟨p1, s⟩ := s
      refine KeepsM.pep ?_
      cases p1 with
      | some c => exact task_keeps_pure _
      | none =>
        refine (h.keeps _).bind fun x => (h.keeps _).bind fun y => (task_keeps_useRng _).bind fun sk => ?_
        cases sk with
        | true => exact task_keeps_pure _
        | false => exact (task_keeps_cross _ _ _).bind fun _ => task_keeps_pure _
    rintro ⟨p1, s⟩ ⟨p2, t⟩
    by_cases hp : p1 = p2
    swap
    · exact fun m hm => absurd hm.1 hp
    subst hp
    refine Twin.pep ?_
    cases p1 with
    | some c => exact Twin.ret fun m hm => ⟨rfl, hm.2.1 c rfl, rfl, fun c hc => (by cases hc), hm.2.2⟩
    | none =>
      refine Twin.bind (R := fun p q m => p.1 = q.1 ∧ problemOf m p.1 = some k ∧ rel p.2 q.2 m)
        (fun m hm => h.next s t m hm.2.2) ?_
      rintro ⟨x, s1⟩ ⟨x', t1⟩
      by_cases hx : x = x'
      swap
      · exact fun m hm => absurd hm.1 hx
      subst hx
      simp only
      refine Twin.bind (R := fun p q m => p.1 = q.1 ∧ problemOf m p.1 = some k ∧ rel p.2 q.2 m ∧ problemOf m x = some k) (fun m hm => ?_) ?_
      · rcases h.next s1 t1 m hm.2.2 with ⟨p, q, m1, e1, e2, hR⟩ | h
        · exact Or.inl ⟨p, q, m1, e1, e2, hR.1, hR.2.1, hR.2.2, (h.keeps s1).ok e1 _ _ hm.2.1⟩
        · exact Or.inr h
      rintro ⟨y, s2⟩ ⟨y', t2⟩
      by_cases hy : y = y'
      swap
      · exact fun m hm => absurd hm.1 hy
      subst hy
      simp only
      refine Twin.bind (Twin.same (Q := fun m => problemOf m x = some k ∧ problemOf m y = some k ∧ rel s2 t2 m) _ fun m _ m' hm e => ?_) fun sk sk' => ?_
      · have hk := (task_keeps_useRng _).ok e
        exact ⟨hk _ _ hm.2.2.2, hk _ _ hm.2.1, h.keep _ _ _ _ hk hm.2.2.1⟩
      by_cases hs : sk = sk'
      swap
      · exact fun m hm => absurd hm.1 hs
      subst hs
      cases sk with
      | true =>
        exact Twin.ret fun m hm => ⟨rfl, hm.2.1, rfl, fun c hc => (by cases hc; exact hm.2.2.1), hm.2.2.2⟩
      | false =>
        refine Twin.bind (Twin.same (Q := fun m => problemOf m x = some k ∧ problemOf m y = some k ∧ rel s2 t2 m) _ fun m _ m' hm e => ?_)
          fun _ _ => Twin.ret fun m hm => ⟨rfl, hm.2.1, rfl, fun c hc => (by cases hc; exact hm.2.2.1), hm.2.2.2⟩
        have hk := (task_keeps_cross rec x y).ok e
        exact ⟨hk _ _ hm.2.1, hk _ _ hm.2.2.1, h.keep _ _ _ _ hk hm.2.2.2⟩
  | evaluate dec prob =>
    refine ⟨rel, h.init, h.keep, fun s => ((h.keeps s).bind fun p => (task_keeps_evaluate dec prob p.1).bind fun _ => task_keeps_pure _).pep, fun s t => Twin.pep ((h.next s t).bind ?_)⟩
    rintro ⟨r, s'⟩ ⟨r', t'⟩
    by_cases hr : r = r'
    swap
    · exact fun m hm => absurd hm.1 hr
    subst hr
    exact Twin.bind (Twin.same (Q := fun m => problemOf m r = some k ∧ rel s' t' m) (evaluateInd dec prob r) fun m _ m' hm e =>
      ⟨(task_keeps_evaluate dec prob r).ok e _ _ hm.2.1, h.keep _ _ _ _ ((task_keeps_evaluate dec prob r).ok e) hm.2.2⟩)
      fun _ _ => Twin.ret fun m hm => ⟨rfl, hm.2⟩
  | robustEvaluate nan dec prob =>
    refine ⟨rel, h.init, h.keep, fun s => ((h.keeps s).bind fun p => (task_keeps_robust nan dec prob p.1).bind fun _ => task_keeps_pure _).pep, fun s t => Twin.pep ((h.next s t).bind ?_)⟩
    rintro ⟨r, s'⟩ ⟨r', t'⟩
    by_cases hr : r = r'
    swap
    · exact fun m hm => absurd hm.1 hr
    subst hr
    exact Twin.bind (Twin.same (Q := fun m => problemOf m r = some k ∧ rel s' t' m) (Leap.robustEvaluate nan dec prob r) fun m _ m' hm e =>
      ⟨(task_keeps_robust nan dec prob r).ok e _ _ hm.2.1, h.keep _ _ _ _ ((task_keeps_robust nan dec prob r).ok e) hm.2.2⟩)
      fun _ _ => Twin.ret fun m hm => ⟨rfl, hm.2⟩

theorem stage_agrees {k : Nat} {P : Mem γ ψ φ ρ → Prop} {a b : HIter (Mem γ ψ φ ρ)} {rel : a.σ → b.σ → Mem γ ψ φ ρ → Prop}
    (h : TaskAgrees k P a b rel) (st : TaskStage γ ψ φ ρ) : ∃ rel', TaskAgrees k P (st.apply a) ((TaskStage.at k st).apply b) rel' := by
  cases st with
  | plain st => exact plain_agrees h st
  | evaluateOwn dec probs =>
    refine ⟨rel, h.init, h.keep, fun s => ((h.keeps s).bind fun p => ((task_keeps_getObj _).bind fun o => task_keeps_evaluate dec (probs o.problem) p.1).bind
      fun _ => task_keeps_pure _).pep, fun s t => Twin.pep ((h.next s t).bind ?_)⟩
    rintro ⟨r, s'⟩ ⟨r', t'⟩
    by_cases hr : r = r'
    swap
    · exact fun m hm => absurd hm.1 hr
    subst hr
    refine Twin.bind (R := fun a b m => a = b ∧ problemOf m r = some k ∧ rel s' t' m) (fun m hm => ?_)
      fun _ _ => Twin.ret fun m hm => ⟨rfl, hm.2⟩
    have hp := hm.2.1
    have e1 : evaluateOwnInd dec probs r m = evaluateInd dec (probs k) r m := by
      simp only [problemOf] at hp
      cases ho : m.inds[r]? with
      | none => rw [ho] at hp; cases hp
      | some o =>
        rw [ho] at hp
        simp only [Option.map_some, Option.some.injEq] at hp
        rw [← hp]
        exact bind_live (by simp [getObj, ho])
    rcases e : evaluateInd dec (probs k) r m with ⟨x, m1⟩
    simp only [e1, e]
    cases x with
    | error err => exact Or.inr ⟨err, m1, rfl, rfl⟩
    | ok f =>
      have hk := (task_keeps_evaluate dec (probs k) r).ok e
      exact Or.inl ⟨f, f, m1, rfl, rfl, rfl, hk _ _ hp, h.keep _ _ _ _ hk hm.2.2⟩

theorem stages_agree {k : Nat} {P : Mem γ ψ φ ρ → Prop} (stages : List (TaskStage γ ψ φ ρ)) :
    ∀ (a b : HIter (Mem γ ψ φ ρ)) (rel : a.σ → b.σ → Mem γ ψ φ ρ → Prop), TaskAgrees k P a b rel →
      ∃ rel', TaskAgrees k P (taskIter a stages) (stagesIter b (stages.map (TaskStage.at k))) rel' := by
  induction stages with
  | nil => exact fun a b rel h => ⟨rel, h⟩
  | cons st rest ih =>
    intro a b rel h
    obtain ⟨rel', h'⟩ := stage_agrees h st
    exact ih _ _ _ h'

theorem hpull_keeps {a : HIter (Mem γ ψ φ ρ)} (h : ∀ s, KeepsM (a.next s)) (size : Nat) : ∀ s, KeepsM (hpull a.next size s) := by
  induction size with
  | zero => exact fun s => task_keeps_pure _
  | succ size ih => exact fun s => (h s).bind fun p => (ih p.2).bind fun q => task_keeps_pure _

theorem hpull_agrees {k : Nat} {P : Mem γ ψ φ ρ → Prop} {a b : HIter (Mem γ ψ φ ρ)} {rel : a.σ → b.σ → Mem γ ψ φ ρ → Prop}
    (h : TaskAgrees k P a b rel) (size : Nat) : ∀ s t, Twin (rel s t) (hpull a.next size s) (hpull b.next size t)
      fun p q m => p.1 = q.1 ∧ ∀ r ∈ p.1, problemOf m r = some k := by
  induction size with
  | zero => exact fun s t => Twin.ret fun m hm => ⟨rfl, by simp⟩
  | succ size ih =>
    intro s t
    refine (h.next s t).bind ?_
    rintro ⟨x, s1⟩ ⟨x', t1⟩
    by_cases hx : x = x'
    swap
    · exact fun m hm => absurd hm.1 hx
    subst hx
    refine Twin.bind (R := fun p q m => p.1 = q.1 ∧ problemOf m x = some k ∧ ∀ r ∈ p.1, problemOf m r = some k) (fun m hm => ?_) ?_
    · rcases ih s1 t1 m hm.2.2 with ⟨p, q, m1, e1, e2, hR⟩ | h'
      · exact Or.inl ⟨p, q, m1, e1, e2, hR.1, (hpull_keeps h.keeps size s1).ok e1 _ _ hm.2.1, hR.2⟩
      · exact Or.inr h'
    · rintro ⟨xs, s2⟩ ⟨xs', t2⟩
      refine Twin.ret fun m hm => ⟨by simp [show xs = xs' from hm.1], fun r hr => ?_⟩
      rcases List.mem_cons.1 hr with rfl | hr
      · exact hm.2.1
      · exact hm.2.2 r hr

/-- C115: on an island whose residents all have the same problem, the pipeline does exactly what it would do with an `evaluate` that asks
that problem, and all offspring have that problem. -/
theorem task_pipeline_eq (k : Nat) (pop : List Nat) (choose : Mem γ ψ φ ρ → PyM Nat × ρ) (stages : List (TaskStage γ ψ φ ρ)) (size : Nat)
    (m : Mem γ ψ φ ρ) (hpop : ∀ r ∈ pop, problemOf m r = some k) :
    taskPipeline pop choose stages size m = runPipeline pop choose (stages.map (TaskStage.at k)) size m ∧
    ∀ out m', taskPipeline pop choose stages size m = (.ok out, m') → ∀ r ∈ out, problemOf m' r = some k := by
  obtain ⟨rel, h⟩ := stages_agree (.plain .clone :: stages) _ _ _ (selection_agrees k pop choose)
  have ht := hpull_agrees h size _ _ m (h.init m hpop)
  have e1 : taskPipeline pop choose stages size m = (hpull (taskIter (selectionIter pop choose) (.plain .clone :: stages)).next size
    (taskIter (selectionIter pop choose) (.plain .clone :: stages)).init >>= fun os => pure os.1) m := rfl
  have e2 : runPipeline pop choose (stages.map (TaskStage.at k)) size m = (hpull (stagesIter (selectionIter pop choose)
    ((TaskStage.plain .clone :: stages).map (TaskStage.at k))).next size
    (stagesIter (selectionIter pop choose) ((TaskStage.plain .clone :: stages).map (TaskStage.at k))).init >>= fun os => pure os.1) m := rfl
  rw [e1, e2]
  rcases ht with ⟨p, q, m1, h1, h2, h3, h4⟩ | ⟨e, m1, h1, h2⟩
  · rw [HM.bind_apply, HM.bind_apply, h1, h2]
    refine ⟨by simp [h3], fun out m' he => ?_⟩
    simp only [HM.pure_apply, Prod.mk.injEq, Except.ok.injEq] at he
    obtain ⟨rfl, rfl⟩ := he
    exact h4
  · rw [HM.bind_apply, HM.bind_apply, h1, h2]
    exact ⟨rfl, fun out m' he => by cases he⟩

/-! ## Whoever lives on an island is scored by its problem -/

/-- An individual with acceptable genes that holds problem `k` and that problem's score of exactly these genes. -/
def Spec.Settled (n : Nat) (allowed : Nat → γ → Prop) (dec : Dec γ ψ) (probs : Nat → Prob γ ψ φ ρ) (m : Mem γ ψ φ ρ) (k r : Nat) : Prop :=
  problemOf m r = some k ∧ Member n allowed (ScoredBy dec (probs k)) m r

variable {dec : Dec γ ψ} {probs : Nat → Prob γ ψ φ ρ}

theorem settled_same {m m' : Mem γ ψ φ ρ} {k r : Nat} (h : SameInd m m' r) (hs : Settled n allowed dec probs m k r) :
    Settled n allowed dec probs m' k r := ⟨by rw [problemOf, h.1]; exact hs.1, member_same h hs.2⟩

theorem evaluateInd_member (prob : Prob γ ψ φ ρ) {m m' : Mem γ ψ φ ρ} {r : Nat} {f : φ} {g : List γ} (hg : genes m r = some g)
    (hG : GenesIn n allowed g) (hx : evaluateInd dec prob r m = (.ok f, m')) :
    m'.inds.length = m.inds.length ∧ (∀ y, y ≠ r → m'.inds[y]? = m.inds[y]?) ∧ genes m' r = some g ∧
      Member n allowed (ScoredBy dec prob) m' r := by
  obtain ⟨o, ho, ha, hlt⟩ := genes_lt hg
  obtain ⟨k, hk, he⟩ := evaluateImp_effect dec prob m r o g ho ha
  rw [evaluateInd, HM.bind_apply, he] at hx
  cases hc : decodeOf dec g with
  | error e => rw [hc] at hx; simp at hx
  | ok c =>
    rw [hc] at hx
    simp only at hx
    cases hp : (prob.evaluate c m.rng).1 with
    | error e => rw [hp] at hx; simp at hx
    | ok f' =>
      rw [hp] at hx
      simp only [HM.bind_apply, modObj, HM.pure_apply, Prod.mk.injEq, Except.ok.injEq] at hx
      obtain ⟨rfl, rfl⟩ := hx
      have hgr : genes (⟨m.arrays, m.sets, (m.inds.modify r k).modify r fun x => { x with fitness := some f' }, m.nextUuid,
          (prob.evaluate c m.rng).2⟩ : Mem γ ψ φ ρ) r = some g := by
        simp [genes, List.getElem?_modify, ho, (hk o).1, ha]
      refine ⟨by simp, fun y hy => by simp [List.getElem?_modify, hy.symm], hgr, g, f', hgr, hG, ?_, c, m.rng, hc, hp⟩
      simp [fitness, List.getElem?_modify, ho]

/-- Evaluating an individual by its own problem. -/
theorem evaluateOwn_settles {m m' : Mem γ ψ φ ρ} {r k : Nat} {f : φ} {g : List γ} (hm : Sound m) (hp : problemOf m r = some k)
    (hg : genes m r = some g) (hG : GenesIn n allowed g) (hx : evaluateOwnInd dec probs r m = (.ok f, m')) :
    Sound m' ∧ m'.arrays = m.arrays ∧ m'.sets = m.sets ∧ m'.inds.length = m.inds.length ∧ (∀ y, y ≠ r → m'.inds[y]? = m.inds[y]?) ∧
      Settled n allowed dec probs m' k r := by
  obtain ⟨o, ho, -, -⟩ := genes_lt hg
  have hok : o.problem = k := by simpa [problemOf, ho] using hp
  have hx : evaluateInd dec (probs k) r m = (.ok f, m') := by
    have hgo : (getObj r : HM (Mem γ ψ φ ρ) (Obj ψ φ)) m = (.ok o, m) := by simp [getObj, ho]
    rw [← hx, ← hok, evaluateOwnInd, bind_live hgo]
  obtain ⟨s1, a1, b1⟩ := evaluateInd_sound dec _ hm hx
  obtain ⟨l1, o1, -, m1⟩ := evaluateInd_member (probs k) hg hG hx
  exact ⟨s1, a1, b1, l1, o1, (task_keeps_evaluate dec _ r).ok hx _ _ hp, m1⟩

/-- The stamp makes a newcomer one of the island's own, and touches nobody else. -/
theorem stamp_settles {ids : List Nat} {m m' : Mem γ ψ φ ρ} {r r' cur k : Nat} {g : List γ} (hm : Sound m) (hk : ids[cur]? = some k)
    (hg : genes m r = some g) (hG : GenesIn n allowed g) (hx : problemStamp dec probs ids r cur m = (.ok r', m')) :
    r' = r ∧ Sound m' ∧ m'.arrays = m.arrays ∧ m'.sets = m.sets ∧ m'.inds.length = m.inds.length ∧ (∀ y, y ≠ r → m'.inds[y]? = m.inds[y]?) ∧
      Settled n allowed dec probs m' k r := by
  obtain ⟨o, ho, ha, -⟩ := genes_lt hg
  simp only [problemStamp, hk] at hx
  obtain ⟨_, m1, e1, hx⟩ := bind_ok hx
  obtain ⟨f, m2, e2, hx⟩ := bind_ok hx
  simp only [HM.pure_apply, Prod.mk.injEq, Except.ok.injEq] at hx
  obtain ⟨rfl, rfl⟩ := hx
  simp only [modObj, Prod.mk.injEq, true_and] at e1
  subst e1
  have hs : Sound (⟨m.arrays, m.sets, m.inds.modify r fun x => { x with problem := k }, m.nextUuid, m.rng⟩ : Mem γ ψ φ ρ) := by
    refine ⟨fun x hx => ?_, fun x hx => ?_, fun x hx => ?_⟩
    · rcases mem_modify hx with h | ⟨y, h, e⟩
      · exact hm.genome x h
      · rw [e]; exact hm.genome y h
    · rcases mem_modify hx with h | ⟨y, h, e⟩
      · exact hm.parents x h
      · rw [e]; exact hm.parents y h
    · rcases mem_modify hx with h | ⟨y, h, e⟩
      · exact hm.uuid x h
      · rw [e]; exact hm.uuid y h
  obtain ⟨s1, a1, b1, l1, o1, z1⟩ := evaluateOwn_settles (k := k) (g := g) hs (by simp [problemOf, List.getElem?_modify, ho])
    (by simp [genes, List.getElem?_modify, ho, ha]) hG e2
  exact ⟨rfl, s1, a1, b1, by simpa using l1, fun y hy => by rw [o1 y hy]; simp [List.getElem?_modify, hy.symm], z1⟩

theorem same_of_arrays {m m' : Mem γ ψ φ ρ} {y : Nat} (ha : m'.arrays = m.arrays) (hi : m'.inds[y]? = m.inds[y]?) : SameInd m m' y :=
  ⟨hi, by simp only [genes, hi, ha]⟩

theorem task_lt_settled (cfg : TaskConfig γ ψ φ ρ) {m : Mem γ ψ φ ρ} {k a : Nat} (b : Nat) (ha : Settled n allowed dec probs m k a) :
    cfg.lt m a b = cfg.worse k ((m.inds[a]?).bind Obj.fitness) ((m.inds[b]?).bind Obj.fitness) := by
  have := ha.1
  simp only [problemOf] at this
  simp [TaskConfig.lt, this]

/-- C115: immigration with the problem stamp. Everybody who arrives is scored by the island's problem, whether or not they stay; only
immigrants are touched; the island keeps its size and holds only residents and immigrants, each at most once, all of them scored by the
island's problem; and by that problem the best of residents and immigrants is not lost. -/
theorem immigrate_task_spec (cfg : TaskConfig γ ψ φ ρ) (ids : List Nat) (hstamp : cfg.stamp = problemStamp dec probs ids) (cur k : Nat)
    (hk : ids[cur]? = some k) (queue : List Nat) : ∀ (pop out : List Nat) (m m' : Mem γ ψ φ ρ), Sound m → (queue ++ pop).Nodup →
    (∀ r ∈ queue, ∃ g, genes m r = some g ∧ GenesIn n allowed g) → (∀ r ∈ pop, Settled n allowed dec probs m k r) →
    immigrateTask cfg cur queue pop m = (.ok out, m') →
    Sound m' ∧ m'.arrays = m.arrays ∧ m'.sets = m.sets ∧ m'.inds.length = m.inds.length ∧
    (∀ y, y ∉ queue → m'.inds[y]? = m.inds[y]?) ∧ out.length = pop.length ∧ out.Subperm (queue ++ pop) ∧
    (∀ r ∈ queue ++ pop, Settled n allowed dec probs m' k r) ∧
    (StrictWeak (cfg.worse k) → ∀ x ∈ queue ++ pop, ∃ b ∈ out, cfg.lt m' b x = false) := by
  induction queue with
  | nil =>
    intro pop out m m' hm hnd _ hp h
    simp only [immigrateTask, HM.pure_apply, Prod.mk.injEq, Except.ok.injEq] at h
    obtain ⟨rfl, rfl⟩ := h
    refine ⟨hm, rfl, rfl, rfl, fun _ _ => rfl, rfl, List.Subperm.refl _, hp, fun hw x hx => ⟨x, hx, ?_⟩⟩
    rw [task_lt_settled cfg x (hp x hx)]
    by_contra hc
    rw [Bool.not_eq_false] at hc
    have := hw.asymm _ _ hc
    rw [hc] at this
    cases this
  | cons imm rest ih =>
    intro pop out m m' hm hnd hq hp h
    obtain ⟨imm', m1, e1, h1⟩ := bind_ok h
    clear h
    rw [hstamp] at e1
    obtain ⟨g, hg, hG⟩ := hq imm (by simp)
    obtain ⟨rfl, s1, a1, b1, l1, o1, z1⟩ := stamp_settles hm hk hg hG e1
    obtain ⟨⟨i, contestant⟩, m2, e2, h⟩ := bind_ok h1
    clear h1
    obtain ⟨-, h2, rfl⟩ := pickOne_ok e2
    obtain ⟨popD, m3, eD, h⟩ := bind_ok h
    simp only [duel, Prod.mk.injEq, Except.ok.injEq] at eD
    obtain ⟨rfl, rfl⟩ := eD
    set s := (cfg.replace pop m1).2 with hs
    have hnd' := hnd
    rw [List.cons_append, List.nodup_cons] at hnd'
    have hi := (List.getElem?_eq_some_iff.1 h2).1
    have hlt : cfg.lt { m1 with rng := s } imm' contestant = cfg.lt m1 imm' contestant := rfl
    set pop' := if cfg.lt { m1 with rng := s } imm' contestant then pop else pop.set i imm' with hpop'
    have hsub : (rest ++ pop').Subperm (imm' :: (rest ++ pop)) := by
      rw [hpop']
      split
      · exact (List.sublist_cons_self imm' (rest ++ pop)).subperm
      · exact ((List.Subperm.refl rest).append (set_subperm imm')).trans List.perm_middle.subperm
    have hp1 : ∀ r ∈ pop, Settled n allowed dec probs { m1 with rng := s } k r := fun r hr =>
      settled_same (m := m) (same_of_arrays a1 (o1 r (by rintro rfl; exact hnd'.1 (by simp [hr])))) (hp r hr)
    have z1' : Settled n allowed dec probs { m1 with rng := s } k imm' := settled_same (m := m1) ⟨rfl, rfl⟩ z1
    have hset : ∀ r ∈ pop', Settled n allowed dec probs { m1 with rng := s } k r := by
      intro r hr
      rw [hpop'] at hr
      split at hr
      · exact hp1 r hr
      · rcases List.mem_or_eq_of_mem_set hr with hr | rfl
        · exact hp1 r hr
        · exact z1'
    obtain ⟨s3, a3, b3, l3, o3, n3, sub3, z3, w3⟩ := ih pop' out _ m' (sound_rng s1 s) (nodup_of_subperm hsub hnd)
      (fun r hr => by
        obtain ⟨g, hg, hG⟩ := hq r (by simp [hr])
        refine ⟨g, ?_, hG⟩
        rw [← hg]
        exact (same_of_arrays (m := m) (m' := { m1 with rng := s }) a1 (o1 r (by rintro rfl; exact hnd'.1 (by simp [hr])))).2)
      hset h
    have himm : imm' ∉ rest := fun hin => hnd'.1 (by simp [hin])
    have hres : ∀ r ∈ pop, r ∉ rest := fun r hr hin => (List.disjoint_of_nodup_append hnd'.2) hin hr
    have keepS : ∀ r, r ∉ rest → Settled n allowed dec probs { m1 with rng := s } k r → Settled n allowed dec probs m' k r :=
      fun r hr hz => settled_same (same_of_arrays a3 (o3 r hr)) hz
    have hall : ∀ r ∈ imm' :: rest ++ pop, Settled n allowed dec probs m' k r := by
      intro r hr
      rcases List.mem_cons.1 hr with rfl | hr
      · exact keepS _ himm z1'
      · rcases List.mem_append.1 hr with hr | hr
        · exact z3 r (by simp [hr])
        · exact keepS r (hres r hr) (hp1 r hr)
    refine ⟨s3, a3.trans a1, b3.trans b1, l3.trans l1, fun y hy => ?_, ?_, sub3.trans hsub, hall, fun hw x hx => ?_⟩
    · simp only [List.mem_cons, not_or] at hy
      rw [o3 y hy.2]
      exact o1 y hy.1
    · rw [n3, hpop']; split <;> simp
    · have hwlt : ∀ a b, a ∈ imm' :: rest ++ pop → cfg.lt m' a b = cfg.worse k ((m'.inds[a]?).bind Obj.fitness) ((m'.inds[b]?).bind Obj.fitness) :=
        fun a b ha => task_lt_settled cfg b (hall a ha)
      have hself : ∀ a, a ∈ imm' :: rest ++ pop → cfg.lt m' a a = false := fun a ha => by
        rw [hwlt a a ha]
        by_contra hc
        rw [Bool.not_eq_false] at hc
        have := hw.asymm _ _ hc
        rw [hc] at this
        cases this
      suffices hs : ∃ y ∈ rest ++ pop', cfg.lt m' y x = false by
        obtain ⟨y, hy, hyx⟩ := hs
        obtain ⟨b, hb, hby⟩ := w3 hw y hy
        have hbm : b ∈ imm' :: rest ++ pop := hsub.subset (sub3.subset hb)
        have hym : y ∈ imm' :: rest ++ pop := hsub.subset hy
        refine ⟨b, hb, ?_⟩
        rw [hwlt _ _ hbm] at hby ⊢
        rw [hwlt _ _ hym] at hyx
        exact hw.negTrans _ _ _ hby hyx
      have hcm : contestant ∈ pop := List.mem_of_getElem? h2
      -- the duel, seen at the end
      have hduel : cfg.lt m1 imm' contestant = cfg.lt m' imm' contestant := by
        have e1 : m'.inds[imm']? = m1.inds[imm']? := o3 imm' himm
        have e2 : m'.inds[contestant]? = m1.inds[contestant]? := o3 contestant (hres _ hcm)
        simp only [TaskConfig.lt, e1, e2]
      by_cases hc : cfg.lt m1 imm' contestant = true
      · have hpe : pop' = pop := by rw [hpop', if_pos (hlt.trans hc)]
        rw [hpe]
        rcases List.mem_cons.1 (show x ∈ imm' :: (rest ++ pop) from hx) with rfl | hx
        · refine ⟨contestant, by simp [hcm], ?_⟩
          rw [hwlt _ _ (by simp [hcm])]
          rw [hduel, hwlt _ _ (by simp)] at hc
          exact hw.asymm _ _ hc
        · exact ⟨x, hx, hself x (by simp at hx ⊢; tauto)⟩
      · have hpe : pop' = pop.set i imm' := by rw [hpop', if_neg (fun h => hc (hlt ▸ h))]
        rw [hpe]
        have himm2 : imm' ∈ rest ++ pop.set i imm' :=
          List.mem_append.2 (Or.inr (List.mem_of_getElem? (i := i) (by simp [hi])))
        rcases List.mem_cons.1 (show x ∈ imm' :: (rest ++ pop) from hx) with rfl | hx
        · exact ⟨x, himm2, hself x (by simp)⟩
        · rcases List.mem_append.1 hx with hx | hx
          · exact ⟨x, List.mem_append.2 (Or.inl hx), hself x (by simp [hx])⟩
          · obtain ⟨j, hj⟩ := List.mem_iff_getElem?.1 hx
            by_cases hij : j = i
            · subst hij
              rw [h2] at hj
              cases hj
              exact ⟨imm', himm2, by rw [← hduel]; simpa using hc⟩
            · exact ⟨x, List.mem_append.2 (Or.inr (List.mem_of_getElem? (i := j)
                (by rw [List.getElem?_set_ne (Ne.symm hij)]; exact hj))), hself x (by simp [hx])⟩

/-! ## Whole runs -/

/-- The state of a run that started in `m0`: nothing that existed then has changed, everybody on an island or travelling is new and in
one place only, residents are scored by the problem of their island, travellers by the problem of some island. -/
structure Spec.TasksOk (n : Nat) (allowed : Nat → γ → Prop) (dec : Dec γ ψ) (probs : Nat → Prob γ ψ φ ρ) (ids : List Nat)
    (m0 m : Mem γ ψ φ ρ) (pops queues : List (List Nat)) : Prop where
  sound : Sound m
  unchanged : Unchanged m0 m
  new : ∀ r ∈ pops.flatten ++ queues.flatten, m0.inds.length ≤ r
  nodup : (pops.flatten ++ queues.flatten).Nodup
  home : ∀ (i : Nat) (p : List Nat), pops[i]? = some p → ∃ k, ids[i]? = some k ∧ ∀ r ∈ p, Settled n allowed dec probs m k r
  away : ∀ r ∈ queues.flatten, ∃ k ∈ ids, Settled n allowed dec probs m k r

theorem settled_lt {m : Mem γ ψ φ ρ} {k r : Nat} (h : Settled n allowed dec probs m k r) : r < m.inds.length := member_lt h.2

theorem settled_unchanged {m m' : Mem γ ψ φ ρ} (hm : Sound m) (hu : Unchanged m m') {k r : Nat} (h : Settled n allowed dec probs m k r) :
    Settled n allowed dec probs m' k r := settled_same (unchanged_same hm hu (settled_lt h)) h

theorem Spec.TasksOk.anyone {ids : List Nat} {m0 m : Mem γ ψ φ ρ} {pops queues : List (List Nat)}
    (h : TasksOk n allowed dec probs ids m0 m pops queues) : ∀ r ∈ pops.flatten ++ queues.flatten, ∃ k ∈ ids, Settled n allowed dec probs m k r := by
  intro r hr
  rcases List.mem_append.1 hr with hr | hr
  · obtain ⟨p, hp, hr⟩ := List.mem_flatten.1 hr
    obtain ⟨i, hi⟩ := List.mem_iff_getElem?.1 hp
    obtain ⟨k, hk, hs⟩ := h.home i p hi
    exact ⟨k, List.mem_of_getElem? hk, hs r hr⟩
  · exact h.away r hr

/-- What one island does in one generation keeps the run in order. -/
theorem task_step_ok (cfg : TaskConfig γ ψ φ ρ) (ids : List Nat) (hstamp : cfg.stamp = problemStamp dec probs ids)
    (hst : ∀ k ∈ ids, ∀ st ∈ cfg.stages, StageOk n allowed (ScoredBy dec (probs k)) (TaskStage.at k st))
    (hev : ∀ k ∈ ids, endsEvaluated (cfg.stages.map (TaskStage.at k)) = true) (g : Int) (cur : Nat)
    (pops queues queues' : List (List Nat)) (parents pop : List Nat) (m0 m m' : Mem γ ψ φ ρ)
    (hok : TasksOk n allowed dec probs ids m0 m pops queues) (hpar : pops[cur]? = some parents)
    (h : taskStep cfg g cur parents queues m = (.ok (pop, queues'), m')) :
    pop.length = cfg.size ∧ queues'.length = queues.length ∧ TasksOk n allowed dec probs ids m0 m' (pops.set cur pop) queues' := by
  obtain ⟨off, m1, e1, h⟩ := bind_ok h
  obtain ⟨k, hk, hsp⟩ := hok.home cur parents hpar
  have hkm := List.mem_of_getElem? hk
  obtain ⟨eq1, prob1⟩ := task_pipeline_eq k parents (cfg.choose g cur parents) cfg.stages cfg.size m fun r hr => (hsp r hr).1
  have prob1 := prob1 off m1 e1
  rw [eq1] at e1
  have hst' : ∀ st ∈ cfg.stages.map (TaskStage.at k), StageOk n allowed (ScoredBy dec (probs k)) st := by
    intro st h
    obtain ⟨st', h1, rfl⟩ := List.mem_map.1 h
    exact hst k hkm st' h1
  obtain ⟨s1, u1, l1, nd1, q1⟩ := pipeline_keeps_feasible m m1 hok.sound parents (fun r hr => ((member_iff m r).1 (hsp r hr).2).1) _
    _ hst' cfg.size off e1
  have hoff : ∀ r ∈ off, Settled n allowed dec probs m1 k r := fun r hr =>
    ⟨prob1 r hr, (member_iff m1 r).2 ⟨(q1 r hr).2.2.1, (q1 r hr).2.2.2 (hev k hkm)⟩⟩
  cases hq : queues[cur]? with
  | none => rw [hq] at h; simp [HM.lift_apply] at h
  | some queue =>
    rw [hq] at h
    simp only at h
    obtain ⟨pop1, m2, e2, h⟩ := bind_ok h
    obtain ⟨queues1, m3, e3, h⟩ := bind_ok h
    simp only [HM.pure_apply, Prod.mk.injEq, Except.ok.injEq] at h
    obtain ⟨⟨rfl, rfl⟩, rfl⟩ := h
    -- everybody else
    set E := (pops.eraseIdx cur).flatten with hE
    set F := (queues.eraseIdx cur).flatten with hF
    have hperm : (pops.flatten ++ queues.flatten).Perm ((parents ++ E) ++ (queue ++ F)) :=
      (flatten_perm hpar).append (flatten_perm hq)
    have hnd0 : ((parents ++ E) ++ (queue ++ F)).Nodup := hperm.nodup_iff.1 hok.nodup
    have hm0 : ∀ r ∈ (parents ++ E) ++ (queue ++ F), ∃ j ∈ ids, Settled n allowed dec probs m j r := fun r hr =>
      hok.anyone r (hperm.mem_iff.2 hr)
    have hlt0 : ∀ r ∈ E ++ (queue ++ F), r < m.inds.length := fun r hr => by
      obtain ⟨j, -, hj⟩ := hm0 r (by rw [List.append_assoc]; exact List.mem_append.2 (Or.inr hr))
      exact settled_lt hj
    have hnd1 : ((off ++ E) ++ (queue ++ F)).Nodup := by
      rw [List.append_assoc, List.nodup_append]
      refine ⟨nd1, (List.nodup_append.1 (by rwa [List.append_assoc] at hnd0)).2.1, ?_⟩
      rintro a ha b hb rfl
      have h1 := (q1 a ha).1
      have h2 := hlt0 a hb
      omega
    have hqo : (queue ++ off).Nodup := by
      have h1 : (queue ++ off).Subperm ((off ++ E) ++ (queue ++ F)) := by
        refine List.perm_append_comm.subperm.trans ?_
        exact ((List.sublist_append_left off E).append (List.sublist_append_left queue F)).subperm
      exact nodup_of_subperm h1 hnd1
    have hqg : ∀ r ∈ queue, ∃ g, genes m1 r = some g ∧ GenesIn n allowed g := by
      intro r hr
      obtain ⟨j, -, -, g, f, hg, hG, -⟩ := hm0 r (by simp [hr])
      refine ⟨g, ?_, hG⟩
      rw [(unchanged_same hok.sound u1 (hlt0 r (by simp [hr]))).2, hg]
    obtain ⟨s2, a2, b2, l2, o2, n2, sub2, z2, -⟩ := immigrate_task_spec cfg ids hstamp cur k hk queue off pop1 m1 m2 s1 hqo hqg hoff e2
    have hsub : ((pop1 ++ E) ++ F).Subperm ((off ++ E) ++ (queue ++ F)) := by
      have h1 : ((pop1 ++ E) ++ F).Subperm (((queue ++ off) ++ E) ++ F) := (sub2.append (.refl E)).append (.refl F)
      refine h1.trans (List.Perm.subperm ?_)
      rw [List.append_assoc (off ++ E) queue F |>.symm]
      refine List.Perm.append_right F ?_
      rw [List.append_assoc queue off E]
      exact List.perm_append_comm
    have hnd2 : ((pop1 ++ E) ++ F).Nodup := nodup_of_subperm hsub hnd1
    have hpop1 : ∀ r ∈ pop1, Settled n allowed dec probs m2 k r := fun r hr => z2 r (sub2.subset hr)
    -- the others have not been stamped
    have hother : ∀ r ∈ E ++ F, SameInd m m2 r := by
      intro r hr
      have hr' : r ∈ E ++ (queue ++ F) := by simp at hr ⊢; tauto
      refine sameInd_trans (unchanged_same hok.sound u1 (hlt0 r hr')) (same_of_arrays a2 (o2 r fun hin => ?_))
      have hd : (queue ++ (E ++ F)).Nodup := by
        have : (queue ++ (E ++ F)).Subperm ((parents ++ E) ++ (queue ++ F)) := by
          rw [← List.append_assoc]
          refine ((List.perm_append_comm.append_right F).subperm).trans ?_
          rw [List.append_assoc E, List.append_assoc parents]
          exact (List.sublist_append_right parents _).subperm
        exact nodup_of_subperm this hnd0
      exact (List.disjoint_of_nodup_append hd) hin hr
    have hu2 : Unchanged m0 m2 := by
      have hu1 := unchanged_then hok.unchanged u1
      refine ⟨fun y hy => ?_, fun y hy => by rw [a2]; exact hu1.arrays y hy, fun y hy => by rw [b2]; exact hu1.sets y hy⟩
      rw [o2 y fun hin => ?_]
      · exact hu1.inds y hy
      · have := hok.new y (hperm.mem_iff.2 (by simp [hin]))
        omega
    have hpops : (pops.set cur pop1).flatten.Perm (pop1 ++ E) := flatten_set_perm pop1 hpar
    have hqs : (queues.set cur []).flatten.Perm F := by simpa using flatten_set_perm (l := queues) [] hq
    obtain ⟨s3, u3, -, c1, c2⟩ := emigrate_inds_spec cfg.ferry g cur pop1 _ _ _ _ s2 (fun r hr => (hpop1 r hr).2) e3
    have hbase : ((pops.set cur pop1).flatten ++ (queues.set cur []).flatten).Perm ((pop1 ++ E) ++ F) := hpops.append hqs
    have hgrow1 := (unchanged_length u1).1
    have hold : ∀ r ∈ (pop1 ++ E) ++ F, m0.inds.length ≤ r ∧ r < m2.inds.length := by
      intro r hr
      have hmem := hsub.subset hr
      rw [List.append_assoc] at hmem
      have h0 := (unchanged_length hok.unchanged).1
      rcases List.mem_append.1 hmem with h | h
      · have := q1 r h; omega
      · have h1 := hok.new r (hperm.mem_iff.2 (by rw [List.append_assoc]; exact List.mem_append.2 (Or.inr h)))
        have h2 := hlt0 r h
        omega
    -- residents
    have hhome : ∀ (i : Nat) (p : List Nat), (pops.set cur pop1)[i]? = some p →
        ∃ k, ids[i]? = some k ∧ ∀ r ∈ p, Settled n allowed dec probs m3 k r := by
      intro i p hi
      by_cases hc : i = cur
      · subst hc
        rw [List.getElem?_set_self (List.getElem?_eq_some_iff.1 hpar).1] at hi
        cases hi
        exact ⟨k, hk, fun r hr => settled_unchanged s2 u3 (hpop1 r hr)⟩
      · rw [List.getElem?_set_ne (Ne.symm hc)] at hi
        obtain ⟨j, hj, hs⟩ := hok.home i p hi
        refine ⟨j, hj, fun r hr => settled_unchanged s2 u3 (settled_same (hother r (List.mem_append.2 (Or.inl ?_))) (hs r hr))⟩
        refine List.mem_flatten.2 ⟨p, ?_, hr⟩
        rw [List.mem_eraseIdx_iff_getElem?]
        exact ⟨i, hc, hi⟩
    -- travellers
    have haway : ∀ r ∈ (queues.set cur []).flatten, ∃ j ∈ ids, Settled n allowed dec probs m3 j r := by
      intro r hr
      have hF' := hqs.mem_iff.1 hr
      obtain ⟨j, hj, hs⟩ := hok.away r ((flatten_perm hq).mem_iff.2 (List.mem_append.2 (Or.inr hF')))
      exact ⟨j, hj, settled_unchanged s2 u3 (settled_same (hother r (List.mem_append.2 (Or.inr hF'))) hs)⟩
    refine ⟨by omega, ?_, ?_⟩
    · by_cases hg : g % cfg.gap = 0
      · obtain ⟨_, _, _, _, d, _, q, _, e, _⟩ := c2 hg
        rw [e]; simp
      · rw [c1 hg]; simp
    · by_cases hg : g % cfg.gap = 0
      · obtain ⟨_, spon, _, hspon, d, _, q, hqd, e, hnew, _, _, hprob⟩ := c2 hg
        have hp1 : queues1.flatten.Perm (m2.inds.length :: (queues.set cur []).flatten) := by
          rw [e]
          refine (flatten_set_perm _ hqd).trans (List.Perm.trans ?_ ((flatten_perm hqd).symm.cons _))
          rw [List.append_assoc]
          exact List.perm_middle
        have hp2 : ((pops.set cur pop1).flatten ++ queues1.flatten).Perm
            (m2.inds.length :: ((pops.set cur pop1).flatten ++ (queues.set cur []).flatten)) :=
          (hp1.append_left _).trans List.perm_middle
        refine ⟨s3, unchanged_then hu2 u3, fun r hr => ?_, hp2.nodup_iff.2 (List.nodup_cons.2 ⟨fun hin => ?_, hbase.nodup_iff.2 hnd2⟩),
          hhome, fun r hr => ?_⟩
        · rcases List.mem_cons.1 (hp2.mem_iff.1 hr) with rfl | hr
          · exact (unchanged_length hu2).1
          · exact (hold r (hbase.mem_iff.1 hr)).1
        · have := (hold _ (hbase.mem_iff.1 hin)).2
          omega
        · rcases List.mem_cons.1 (hp1.mem_iff.1 hr) with rfl | hr
          · exact ⟨k, hkm, hprob.trans (hpop1 spon (List.mem_of_getElem? hspon)).1, hnew⟩
          · exact haway r hr
      · rw [c1 hg]
        exact ⟨s3, unchanged_then hu2 u3, fun r hr => (hold r (hbase.mem_iff.1 hr)).1, hbase.nodup_iff.2 hnd2, hhome, haway⟩

theorem task_sweep_ok (cfg : TaskConfig γ ψ φ ρ) (ids : List Nat) (hstamp : cfg.stamp = problemStamp dec probs ids)
    (hst : ∀ k ∈ ids, ∀ st ∈ cfg.stages, StageOk n allowed (ScoredBy dec (probs k)) (TaskStage.at k st))
    (hev : ∀ k ∈ ids, endsEvaluated (cfg.stages.map (TaskStage.at k)) = true) (g : Int) (k : Nat) :
    ∀ (cur : Nat) (pops queues pops' queues' : List (List Nat)) (m0 m m' : Mem γ ψ φ ρ), TasksOk n allowed dec probs ids m0 m pops queues →
      cur + k ≤ pops.length → taskSweep cfg g k cur pops queues m = (.ok (pops', queues'), m') →
      pops'.length = pops.length ∧ queues'.length = queues.length ∧ TasksOk n allowed dec probs ids m0 m' pops' queues' ∧
      ∀ (i : Nat) (p : List Nat), pops'[i]? = some p → (cur ≤ i ∧ i < cur + k → p.length = cfg.size) ∧
        (¬ (cur ≤ i ∧ i < cur + k) → pops[i]? = some p) := by
  induction k with
  | zero =>
    intro cur pops queues pops' queues' m0 m m' hok _ h
    simp only [taskSweep, HM.pure_apply, Prod.mk.injEq, Except.ok.injEq] at h
    obtain ⟨⟨rfl, rfl⟩, rfl⟩ := h
    exact ⟨rfl, rfl, hok, fun i p hi => ⟨fun h => by omega, fun _ => hi⟩⟩
  | succ k ih =>
    intro cur pops queues pops' queues' m0 m m' hok hk h
    obtain ⟨⟨pop, queues1⟩, m1, e1, h⟩ := bind_ok h
    have hcur : pops[cur]? = some (pops.getD cur []) := by
      rw [List.getD_eq_getElem?_getD, List.getElem?_eq_getElem (by omega : cur < pops.length)]; rfl
    obtain ⟨l1, n1, ok1⟩ := task_step_ok cfg ids hstamp hst hev g cur pops queues queues1 _ pop m0 m m1 hok hcur e1
    obtain ⟨l2, n2, ok2, q2⟩ := ih (cur + 1) (pops.set cur pop) queues1 pops' queues' m0 m1 m' ok1 (by simp; omega) h
    refine ⟨by simpa using l2, n2.trans n1, ok2, fun i p hi => ?_⟩
    obtain ⟨a1, a2⟩ := q2 i p hi
    by_cases hc : i = cur
    · subst hc
      have := a2 (by omega)
      rw [List.getElem?_set_self (by omega)] at this
      cases this
      exact ⟨fun _ => l1, fun h => absurd ⟨Nat.le_refl _, by omega⟩ h⟩
    · refine ⟨fun h => a1 (by omega), fun h => ?_⟩
      have := a2 (by omega)
      rwa [List.getElem?_set_ne (Ne.symm hc)] at this

theorem task_loop_ok (cfg : TaskConfig γ ψ φ ρ) (ids : List Nat) (hstamp : cfg.stamp = problemStamp dec probs ids)
    (hst : ∀ k ∈ ids, ∀ st ∈ cfg.stages, StageOk n allowed (ScoredBy dec (probs k)) (TaskStage.at k st))
    (hev : ∀ k ∈ ids, endsEvaluated (cfg.stages.map (TaskStage.at k)) = true) (fuel : Nat) :
    ∀ (g : Int) (pops queues pops' queues' : List (List Nat)) (m0 m m' : Mem γ ψ φ ρ), TasksOk n allowed dec probs ids m0 m pops queues →
      taskLoop cfg fuel g pops queues m = (.ok (pops', queues'), m') →
      pops'.length = pops.length ∧ queues'.length = queues.length ∧ TasksOk n allowed dec probs ids m0 m' pops' queues' ∧
      (pops' = pops ∨ ∀ p ∈ pops', p.length = cfg.size) := by
  induction fuel with
  | zero =>
    intro g pops queues pops' queues' m0 m m' hok h
    simp only [taskLoop, HM.pure_apply, Prod.mk.injEq, Except.ok.injEq] at h
    obtain ⟨⟨rfl, rfl⟩, rfl⟩ := h
    exact ⟨rfl, rfl, hok, Or.inl rfl⟩
  | succ fuel ih =>
    intro g pops queues pops' queues' m0 m m' hok h
    unfold taskLoop at h
    split at h
    · simp only [Prod.mk.injEq, Except.ok.injEq] at h
      obtain ⟨⟨rfl, rfl⟩, rfl⟩ := h
      exact ⟨rfl, rfl, hok, Or.inl rfl⟩
    · obtain ⟨⟨pops1, queues1⟩, m1, e1, h⟩ := bind_ok h
      obtain ⟨l1, n1, ok1, q1⟩ := task_sweep_ok cfg ids hstamp hst hev g pops.length 0 pops queues pops1 queues1 m0 m m1 hok (by omega) e1
      obtain ⟨l2, n2, ok2, q2⟩ := ih (g + 1) pops1 queues1 pops' queues' m0 m1 m' ok1 h
      refine ⟨l2.trans l1, n2.trans n1, ok2, Or.inr ?_⟩
      rcases q2 with rfl | q2
      · intro p hp
        obtain ⟨i, hi⟩ := List.mem_iff_getElem?.1 hp
        have := (List.getElem?_eq_some_iff.1 hi).1
        exact (q1 i p hi).1 (by omega)
      · exact q2

theorem createPopulation_problem (initGenome : ρ → PyM (List γ) × ρ) (problem popSize : Nat) (m m' : Mem γ ψ φ ρ) (hm : Sound m)
    (pop : List Nat) (h : createPopulation initGenome problem popSize m = (.ok pop, m')) : ∀ r ∈ pop, problemOf m' r = some problem := by
  rcases drawn_or_raises initGenome popSize m.rng with ⟨gs, s', hd⟩ | ⟨j, gs, s1, e, s2, h1, h2, h3⟩
  swap
  · have := create_population_raises initGenome problem popSize j m gs s1 s2 e h1 h2 h3
    rw [h] at this
    cases this
  obtain ⟨out, m1, e1, -, -, -, -, q1⟩ := create_population_spec initGenome problem popSize m hm gs s' hd
  rw [h] at e1
  simp only [Prod.mk.injEq, Except.ok.injEq] at e1
  obtain ⟨rfl, rfl⟩ := e1
  intro r hr
  obtain ⟨i, hi⟩ := List.mem_iff_getElem?.1 hr
  obtain ⟨-, -, -, o, a3, -, a4, -⟩ := q1 i r hi
  simp [problemOf, a3, a4]

theorem createTasks_good (initGenome : ρ → PyM (List γ) × ρ) {G : List γ → Prop} (hinit : ∀ s g s', initGenome s = (.ok g, s') → G g)
    (popSize : Nat) (ids : List Nat) : ∀ (m m' : Mem γ ψ φ ρ) (pops : List (List Nat)), Sound m →
      createTasks initGenome popSize ids m = (.ok pops, m') →
      Sound m' ∧ Unchanged m m' ∧ pops.length = ids.length ∧ (∀ p ∈ pops, p.length = popSize) ∧ pops.flatten.Nodup ∧
      (∀ r ∈ pops.flatten, m.inds.length ≤ r ∧ r < m'.inds.length) ∧ (∀ r ∈ pops.flatten, ∃ g, genes m' r = some g ∧ G g) ∧
      ∀ (i : Nat) (p : List Nat), pops[i]? = some p → ∃ k, ids[i]? = some k ∧ ∀ r ∈ p, problemOf m' r = some k := by
  induction ids with
  | nil =>
    intro m m' pops hm h
    simp only [createTasks, HM.pure_apply, Prod.mk.injEq, Except.ok.injEq] at h
    obtain ⟨rfl, rfl⟩ := h
    exact ⟨hm, unchanged_rng m m.rng, rfl, by simp, by simp, by simp, by simp, by simp⟩
  | cons k ks ih =>
    intro m m' pops hm h
    obtain ⟨p, m1, e1, h⟩ := bind_ok h
    obtain ⟨ps, m2, e2, h⟩ := bind_ok h
    simp only [HM.pure_apply, Prod.mk.injEq, Except.ok.injEq] at h
    obtain ⟨rfl, rfl⟩ := h
    obtain ⟨s1, u1, l1, nd1, r1, g1⟩ := createPopulation_good (truth := fun _ _ => True) initGenome hinit k popSize m m1 hm p e1
    have p1 := createPopulation_problem initGenome k popSize m m1 hm p e1
    obtain ⟨s2, u2, l2, z2, nd2, r2, g2, p2⟩ := ih m1 m2 ps s1 e2
    obtain ⟨c1, -, -⟩ := unchanged_length u1
    obtain ⟨c2, -, -⟩ := unchanged_length u2
    refine ⟨s2, unchanged_then u1 u2, by simp [l2], ?_, ?_, ?_, ?_, ?_⟩
    · intro q hq
      rcases List.mem_cons.1 hq with rfl | hq
      · exact l1
      · exact z2 q hq
    · rw [List.flatten_cons, List.nodup_append]
      refine ⟨nd1, nd2, ?_⟩
      rintro a ha b hb rfl
      have := (r1 a ha).2
      have := (r2 a hb).1
      omega
    · intro r hr
      rw [List.flatten_cons] at hr
      rcases List.mem_append.1 hr with hr | hr
      · have := r1 r hr; omega
      · have := r2 r hr; omega
    · intro r hr
      rw [List.flatten_cons] at hr
      rcases List.mem_append.1 hr with hr | hr
      · obtain ⟨g, fo, hg, -, hG, -⟩ := goodInd_same (unchanged_same s1 u2 (r1 r hr).2) (g1 r hr)
        exact ⟨g, hg, hG⟩
      · exact g2 r hr
    · intro i q hi
      cases i with
      | zero =>
        simp only [List.getElem?_cons_zero, Option.some.injEq] at hi
        subst hi
        exact ⟨k, rfl, fun r hr => keepsProblems_unchanged u2 _ _ (p1 r hr)⟩
      | succ i => exact p2 i q hi

theorem evaluateOwnAll_settles (pop : List Nat) : ∀ (m m' : Mem γ ψ φ ρ), Sound m →
    (∀ r ∈ pop, (∃ g, genes m r = some g ∧ GenesIn n allowed g) ∧ ∃ k, problemOf m r = some k) →
    evaluateOwnAll dec probs pop m = (.ok (), m') →
    Sound m' ∧ m'.arrays = m.arrays ∧ m'.sets = m.sets ∧ m'.inds.length = m.inds.length ∧ (∀ y, y ∉ pop → m'.inds[y]? = m.inds[y]?) ∧
      ∀ r ∈ pop, ∀ k, problemOf m r = some k → Settled n allowed dec probs m' k r := by
  induction pop with
  | nil =>
    intro m m' hm _ h
    simp only [evaluateOwnAll, HM.pure_apply, Prod.mk.injEq, true_and] at h
    subst h
    exact ⟨hm, rfl, rfl, rfl, fun _ _ => rfl, by simp⟩
  | cons r rs ih =>
    intro m m' hm hp h
    obtain ⟨f, m1, e1, h⟩ := bind_ok h
    obtain ⟨⟨g, hg, hG⟩, k, hk⟩ := hp r (by simp)
    obtain ⟨s1, a1, b1, l1, o1, z1⟩ := evaluateOwn_settles hm hk hg hG e1
    have hkeep : ∀ y k', problemOf m y = some k' → problemOf m1 y = some k' := by
      intro y k' hy
      by_cases hyr : y = r
      · subst hyr
        rw [hk] at hy
        cases hy
        exact z1.1
      · rw [problemOf, o1 y hyr]; exact hy
    have hgen : ∀ y ∈ rs, ∃ g, genes m1 y = some g ∧ GenesIn n allowed g := by
      intro y hy
      by_cases hyr : y = r
      · subst hyr
        obtain ⟨-, g, f, hg, hG, -⟩ := z1
        exact ⟨g, hg, hG⟩
      · obtain ⟨⟨g, hg, hG⟩, -⟩ := hp y (by simp [hy])
        exact ⟨g, by rw [(same_of_arrays a1 (o1 y hyr)).2, hg], hG⟩
    obtain ⟨s2, a2, b2, l2, o2, z2⟩ := ih m1 m' s1 (fun y hy => ⟨hgen y hy, by
      obtain ⟨-, k', hk'⟩ := hp y (by simp [hy])
      exact ⟨k', hkeep y k' hk'⟩⟩) h
    refine ⟨s2, a2.trans a1, b2.trans b1, l2.trans l1, fun y hy => ?_, fun y hy k' hk' => ?_⟩
    · simp only [List.mem_cons, not_or] at hy
      rw [o2 y hy.2, o1 y hy.1]
    · by_cases hin : y ∈ rs
      · exact z2 y hin k' (hkeep y k' hk')
      · have hyr : y = r := by simpa [hin] using hy
        subst hyr
        rw [hk] at hk'
        cases hk'
        exact settled_same (same_of_arrays a2 (o2 y hin)) z1

theorem evaluateOwnAll_append (a b : List Nat) (m : Mem γ ψ φ ρ) :
    evaluateOwnAll dec probs (a ++ b) m = (evaluateOwnAll dec probs a >>= fun _ => evaluateOwnAll dec probs b) m := by
  induction a generalizing m with
  | nil => rfl
  | cons r rs ih =>
    simp only [List.cons_append, evaluateOwnAll, HM.bind_apply]
    rcases evaluateOwnInd dec probs r m with ⟨x, m1⟩
    cases x with
    | error e => rfl
    | ok f => exact ih m1

theorem evaluateTasks_eq (pops : List (List Nat)) (m : Mem γ ψ φ ρ) :
    evaluateTasks dec probs pops m = evaluateOwnAll dec probs pops.flatten m := by
  induction pops generalizing m with
  | nil => rfl
  | cons p ps ih =>
    rw [List.flatten_cons, evaluateOwnAll_append]
    simp only [evaluateTasks, HM.bind_apply]
    rcases evaluateOwnAll dec probs p m with ⟨x, m1⟩
    cases x with
    | error e => rfl
    | ok f => exact ih m1

theorem tasks_start (initGenome : ρ → PyM (List γ) × ρ) (hinit : ∀ s g s', initGenome s = (.ok g, s') → GenesIn n allowed g)
    (popSize : Nat) (ids : List Nat) (numIslands : Nat) (m m1 m2 : Mem γ ψ φ ρ) (hm : Sound m) (pops : List (List Nat))
    (e1 : createTasks initGenome popSize ids m = (.ok pops, m1)) (e2 : evaluateTasks dec probs pops m1 = (.ok (), m2)) :
    pops.length = ids.length ∧ (∀ p ∈ pops, p.length = popSize) ∧
      TasksOk n allowed dec probs ids m m2 pops (List.replicate numIslands []) := by
  obtain ⟨s1, u1, l1, z1, nd1, r1, g1, p1⟩ := createTasks_good initGenome hinit popSize ids m m1 pops hm e1
  rw [evaluateTasks_eq] at e2
  have hhome : ∀ r ∈ pops.flatten, ∃ k, problemOf m1 r = some k := by
    intro r hr
    obtain ⟨p, hp, hr⟩ := List.mem_flatten.1 hr
    obtain ⟨i, hi⟩ := List.mem_iff_getElem?.1 hp
    obtain ⟨k, -, h⟩ := p1 i p hi
    exact ⟨k, h r hr⟩
  obtain ⟨s2, a2, b2, l2, o2, z2⟩ := evaluateOwnAll_settles pops.flatten m1 m2 s1 (fun r hr => ⟨g1 r hr, hhome r hr⟩) e2
  have hnil : (List.replicate numIslands ([] : List Nat)).flatten = [] := by simp
  refine ⟨l1, z1, s2, ?_, ?_, ?_, ?_, ?_⟩
  · refine ⟨fun y hy => ?_, fun y hy => by rw [a2]; exact u1.arrays y hy, fun y hy => by rw [b2]; exact u1.sets y hy⟩
    rw [o2 y (fun hin => by have := (r1 y hin).1; omega)]
    exact u1.inds y hy
  · intro r hr
    rw [hnil, List.append_nil] at hr
    exact (r1 r hr).1
  · rw [hnil, List.append_nil]; exact nd1
  · intro i p hi
    obtain ⟨k, hk, h⟩ := p1 i p hi
    exact ⟨k, hk, fun r hr => z2 r (List.mem_flatten.2 ⟨p, List.mem_of_getElem? hi, hr⟩) k (h r hr)⟩
  · intro r hr
    rw [hnil] at hr
    simp at hr

/-- C115: run an island model in which each island has a problem of its own and immigrants get the stamp of the example, with any parent,
emigrant and replacement selection, any chain of operators that ends with an evaluation, any topology and migration gap, any stop
condition and any random numbers. Whenever it returns, there is one island for each problem, as many as asked for, of the size that the
pool makes (or the initial size, if no generation ran); everybody on island `i` holds the `i`-th problem, has acceptable genes and carries
that problem's score of exactly these genes; travellers carry the score of the problem they hold, which is that of some island; nobody is
in two places; everybody is new; and nothing that existed before has changed. -/
theorem task_run_members (cfg : TaskConfig γ ψ φ ρ) (initGenome : ρ → PyM (List γ) × ρ) (dec : Dec γ ψ) (probs : Nat → Prob γ ψ φ ρ)
    (ids : List Nat) (hstamp : cfg.stamp = problemStamp dec probs ids)
    (hinit : ∀ s g s', initGenome s = (.ok g, s') → GenesIn n allowed g)
    (hst : ∀ k ∈ ids, ∀ st ∈ cfg.stages, StageOk n allowed (ScoredBy dec (probs k)) (TaskStage.at k st))
    (hev : ∀ k ∈ ids, endsEvaluated (cfg.stages.map (TaskStage.at k)) = true)
    (numPopulations popSize : Nat) (maxGenerations : Int) (m m' : Mem γ ψ φ ρ) (hm : Sound m) (pops queues : List (List Nat))
    (h : taskRun cfg initGenome dec probs ids numPopulations popSize maxGenerations m = (.ok (pops, queues), m')) :
    Unchanged m m' ∧ pops.length = numPopulations ∧ ids.length = numPopulations ∧ queues.length = cfg.numIslands ∧
    ((∀ p ∈ pops, p.length = popSize) ∨ ∀ p ∈ pops, p.length = cfg.size) ∧
    (pops.flatten ++ queues.flatten).Nodup ∧ (∀ r ∈ pops.flatten ++ queues.flatten, m.inds.length ≤ r) ∧
    (∀ (i : Nat) (p : List Nat), pops[i]? = some p → ∃ k, ids[i]? = some k ∧
      ∀ r ∈ p, problemOf m' r = some k ∧ Member n allowed (ScoredBy dec (probs k)) m' r) ∧
    (∀ r ∈ queues.flatten, ∃ k ∈ ids, problemOf m' r = some k ∧ Member n allowed (ScoredBy dec (probs k)) m' r) := by
  unfold taskRun at h
  split at h
  · simp [HM.lift_apply] at h
  rename_i hnum
  rw [ne_eq, not_not] at hnum
  obtain ⟨pops0, m1, e1, h⟩ := bind_ok h
  obtain ⟨_, m2, e2, h⟩ := bind_ok h
  obtain ⟨l0, z0, ok0⟩ := tasks_start (dec := dec) (probs := probs) initGenome hinit popSize ids cfg.numIslands m m1 m2 hm pops0 e1 e2
  obtain ⟨l3, n3, ok3, q3⟩ := task_loop_ok cfg ids hstamp hst hev _ _ _ _ _ _ m m2 m' ok0 h
  refine ⟨ok3.unchanged, l3.trans (l0.trans hnum.symm), hnum.symm, by simpa using n3, ?_, ok3.nodup, ok3.new, ok3.home, ok3.away⟩
  rcases q3 with rfl | q3
  · exact Or.inl z0
  · exact Or.inr q3

/-! ## When a run returns -/

theorem evaluateOwn_returns {m : Mem γ ψ φ ρ} {r k : Nat} {g : List γ} (hp : problemOf m r = some k) (hg : genes m r = some g)
    (hG : GenesIn n allowed g)
    (hd : ∀ g, GenesIn n allowed g → ∃ c, decodeOf dec g = .ok c ∧ ∀ s, ∃ f, ((probs k).evaluate c s).1 = .ok f) :
    ∃ f m', evaluateOwnInd dec probs r m = (.ok f, m') := by
  obtain ⟨o, ho, ha, -⟩ := genes_lt hg
  have hok : o.problem = k := by simpa [problemOf, ho] using hp
  have hgo : (getObj r : HM (Mem γ ψ φ ρ) (Obj ψ φ)) m = (.ok o, m) := by simp [getObj, ho]
  obtain ⟨f, m', e⟩ := evaluateInd_live (truth := fun _ _ => True) dec (probs k) hd (r := r) (m := m)
    ⟨g, _, hg, by rw [fitness, ho]; rfl, hG, fun _ _ => trivial⟩
  exact ⟨f, m', by rw [evaluateOwnInd, bind_live hgo, hok]; exact e⟩

theorem stamp_returns {ids : List Nat} {m : Mem γ ψ φ ρ} {r cur k : Nat} {g : List γ} (hk : ids[cur]? = some k) (hg : genes m r = some g)
    (hG : GenesIn n allowed g)
    (hd : ∀ g, GenesIn n allowed g → ∃ c, decodeOf dec g = .ok c ∧ ∀ s, ∃ f, ((probs k).evaluate c s).1 = .ok f) :
    ∃ r' m', problemStamp dec probs ids r cur m = (.ok r', m') := by
  obtain ⟨o, ho, ha, -⟩ := genes_lt hg
  have e1 : (modObj r fun x => { x with problem := k } : HM (Mem γ ψ φ ρ) Unit) m =
      (.ok (), ⟨m.arrays, m.sets, m.inds.modify r fun x => { x with problem := k }, m.nextUuid, m.rng⟩) := rfl
  obtain ⟨f, m', e2⟩ := evaluateOwn_returns (n := n) (allowed := allowed) (dec := dec) (probs := probs) (k := k) (r := r) (g := g)
    (m := (⟨m.arrays, m.sets, m.inds.modify r fun x => { x with problem := k }, m.nextUuid, m.rng⟩ : Mem γ ψ φ ρ))
    (by simp [problemOf, ho]) (by simp [genes, ho, ha]) hG hd
  refine ⟨r, m', ?_⟩
  simp only [problemStamp, hk]
  rw [bind_live e1, bind_live e2]
  rfl

theorem immigrate_task_returns (cfg : TaskConfig γ ψ φ ρ) (ids : List Nat) (hstamp : cfg.stamp = problemStamp dec probs ids) (cur k : Nat)
    (hk : ids[cur]? = some k) (hr : Picks n allowed (ScoredBy dec (probs k)) cfg.replace)
    (hd : ∀ g, GenesIn n allowed g → ∃ c, decodeOf dec g = .ok c ∧ ∀ s, ∃ f, ((probs k).evaluate c s).1 = .ok f) (queue : List Nat) :
    ∀ (pop : List Nat) (m : Mem γ ψ φ ρ), Sound m → pop ≠ [] → (∀ r ∈ queue, ∃ g, genes m r = some g ∧ GenesIn n allowed g) →
      (∀ r ∈ pop, Settled n allowed dec probs m k r) → ∃ out m', immigrateTask cfg cur queue pop m = (.ok out, m') := by
  induction queue with
  | nil => intro pop m _ _ _ _; exact ⟨pop, m, rfl⟩
  | cons imm rest ih =>
    intro pop m hm hne hq hp
    obtain ⟨g, hg, hG⟩ := hq imm (by simp)
    obtain ⟨imm', m1, e1⟩ := stamp_returns (dec := dec) (probs := probs) hk hg hG hd
    obtain ⟨rfl, s1, a1, -, -, o1, z1⟩ := stamp_settles hm hk hg hG e1
    have hp1 : ∀ r ∈ pop, Settled n allowed dec probs m1 k r := fun r hr => by
      by_cases h : r = imm'
      · rw [h]; exact z1
      · exact settled_same (same_of_arrays a1 (o1 r h)) (hp r hr)
    obtain ⟨i, c, e2, -⟩ := pickOne_returns hr hne fun r h => (hp1 r h).2
    obtain ⟨out, m', e'⟩ := ih (if cfg.lt { m1 with rng := (cfg.replace pop m1).2 } imm' c then pop else pop.set i imm')
      { m1 with rng := (cfg.replace pop m1).2 } ⟨s1.genome, s1.parents, s1.uuid⟩
      (by split
          · exact hne
          · intro h; exact hne (by simpa using h))
      (fun r h => by
        by_cases hri : r = imm'
        · obtain ⟨-, g, f, hg, hG, -⟩ := z1
          exact ⟨g, by rw [hri]; exact hg, hG⟩
        · obtain ⟨g, hg, hG⟩ := hq r (by simp [h])
          exact ⟨g, by rw [← hg]; exact (same_of_arrays a1 (o1 r hri)).2, hG⟩)
      (fun r h => by
        refine settled_same (m := m1) ⟨rfl, rfl⟩ ?_
        split at h
        · exact hp1 r h
        · rcases List.mem_or_eq_of_mem_set h with h | h
          · exact hp1 r h
          · rw [h]; exact z1)
    refine ⟨out, m', ?_⟩
    rw [← hstamp] at e1
    rw [immigrateTask, bind_live e1, bind_live e2]
    exact e'

theorem task_step_returns (cfg : TaskConfig γ ψ φ ρ) (ids : List Nat) (hstamp : cfg.stamp = problemStamp dec probs ids)
    (hst : ∀ k ∈ ids, ∀ st ∈ cfg.stages, StageOk n allowed (ScoredBy dec (probs k)) (TaskStage.at k st))
    (hsl : ∀ k ∈ ids, ∀ st ∈ cfg.stages, StageLive n allowed (TaskStage.at k st))
    (hev : ∀ k ∈ ids, endsEvaluated (cfg.stages.map (TaskStage.at k)) = true) (hsize : 1 ≤ cfg.size)
    (hd : ∀ k ∈ ids, ∀ g, GenesIn n allowed g → ∃ c, decodeOf dec g = .ok c ∧ ∀ s, ∃ f, ((probs k).evaluate c s).1 = .ok f)
    (hc : ∀ k ∈ ids, ∀ g cur, Picks n allowed (ScoredBy dec (probs k)) (cfg.choose g cur))
    (hr : ∀ k ∈ ids, Picks n allowed (ScoredBy dec (probs k)) cfg.replace)
    (hs : ∀ k ∈ ids, Picks n allowed (ScoredBy dec (probs k)) cfg.sponsor) (hgap : cfg.gap ≠ 0)
    (hdest : ∀ s k, 0 < k → (cfg.dest s k).1 < k) (g : Int) (cur : Nat) (pops queues : List (List Nat)) (parents : List Nat)
    (hcur : cur < queues.length) (hnb : cfg.neighbors cur ≠ [] ∧ ∀ d ∈ cfg.neighbors cur, d < queues.length)
    (m0 m : Mem γ ψ φ ρ) (hok : TasksOk n allowed dec probs ids m0 m pops queues) (hpar : pops[cur]? = some parents) (hne : parents ≠ []) :
    ∃ pop queues' m', taskStep cfg g cur parents queues m = (.ok (pop, queues'), m') := by
  obtain ⟨k, hk, hsp⟩ := hok.home cur parents hpar
  have hkm := List.mem_of_getElem? hk
  have hgood : ∀ r ∈ parents, GoodInd (GenesIn n allowed) (ScoredBy dec (probs k)) m r := fun r hr => ((member_iff m r).1 (hsp r hr).2).1
  have hst' : ∀ st ∈ cfg.stages.map (TaskStage.at k), StageOk n allowed (ScoredBy dec (probs k)) st := by
    intro st h
    obtain ⟨st', h1, rfl⟩ := List.mem_map.1 h
    exact hst k hkm st' h1
  have hsl' : ∀ st ∈ cfg.stages.map (TaskStage.at k), StageLive n allowed st := by
    intro st h
    obtain ⟨st', h1, rfl⟩ := List.mem_map.1 h
    exact hsl k hkm st' h1
  obtain ⟨off, m1, e1⟩ := pipeline_returns m hok.sound parents hgood (cfg.choose g cur parents)
    (fun m1 hu => hc k hkm g cur parents m1 hne fun r hr => member_unchanged hok.sound hu (hsp r hr).2) _ hst' hsl' cfg.size
  obtain ⟨s1, u1, l1, nd1, q1⟩ := pipeline_keeps_feasible m m1 hok.sound parents hgood _ _ hst' cfg.size off e1
  obtain ⟨eq1, prob1⟩ := task_pipeline_eq k parents (cfg.choose g cur parents) cfg.stages cfg.size m fun r hr => (hsp r hr).1
  rw [← eq1] at e1
  have hoff : ∀ r ∈ off, Settled n allowed dec probs m1 k r := fun r hr =>
    ⟨prob1 off m1 e1 r hr, (member_iff m1 r).2 ⟨(q1 r hr).2.2.1, (q1 r hr).2.2.2 (hev k hkm)⟩⟩
  have hq : queues[cur]? = some queues[cur] := List.getElem?_eq_getElem hcur
  have hqa : ∀ r ∈ queues[cur], ∃ j ∈ ids, Settled n allowed dec probs m j r := fun r h =>
    hok.away r ((flatten_perm hq).mem_iff.2 (by simp [h]))
  have hqg : ∀ r ∈ queues[cur], ∃ g, genes m1 r = some g ∧ GenesIn n allowed g := by
    intro r h
    obtain ⟨j, -, hj⟩ := hqa r h
    obtain ⟨-, g, f, hg, hG, -⟩ := settled_unchanged hok.sound u1 hj
    exact ⟨g, hg, hG⟩
  have hqo : (queues[cur] ++ off).Nodup := by
    have h1 : (queues[cur]).Nodup := by
      have := (flatten_perm hq).nodup_iff.1 (List.nodup_append.1 hok.nodup).2.1
      exact (List.nodup_append.1 this).1
    rw [List.nodup_append]
    refine ⟨h1, nd1, ?_⟩
    rintro a ha b hb rfl
    obtain ⟨j, -, hj⟩ := hqa a ha
    have := settled_lt hj
    have := (q1 a hb).1
    omega
  obtain ⟨pop, m2, e2⟩ := immigrate_task_returns cfg ids hstamp cur k hk (hr k hkm) (hd k hkm) queues[cur] off m1 s1
    (by rintro rfl; simp at l1; omega) hqg hoff
  obtain ⟨s2, a2, b2, l2, o2, n2, sub2, z2, -⟩ := immigrate_task_spec cfg ids hstamp cur k hk queues[cur] off pop m1 m2 s1 hqo hqg hoff e2
  obtain ⟨queues', m3, e3⟩ := emigrate_inds_returns cfg.ferry (hs k hkm) hgap hdest g cur pop (queues.set cur [])
    ⟨hnb.1, by simpa [TaskConfig.ferry] using hnb.2⟩ m2 (by rintro rfl; simp at n2; omega) (fun r h => (z2 r (sub2.subset h)).2)
  refine ⟨pop, queues', m3, ?_⟩
  rw [taskStep, bind_live e1, hq]
  simp only
  rw [bind_live e2, bind_live e3]
  rfl

theorem task_sweep_returns (cfg : TaskConfig γ ψ φ ρ) (ids : List Nat) (hstamp : cfg.stamp = problemStamp dec probs ids)
    (hst : ∀ k ∈ ids, ∀ st ∈ cfg.stages, StageOk n allowed (ScoredBy dec (probs k)) (TaskStage.at k st))
    (hsl : ∀ k ∈ ids, ∀ st ∈ cfg.stages, StageLive n allowed (TaskStage.at k st))
    (hev : ∀ k ∈ ids, endsEvaluated (cfg.stages.map (TaskStage.at k)) = true) (hsize : 1 ≤ cfg.size)
    (hd : ∀ k ∈ ids, ∀ g, GenesIn n allowed g → ∃ c, decodeOf dec g = .ok c ∧ ∀ s, ∃ f, ((probs k).evaluate c s).1 = .ok f)
    (hc : ∀ k ∈ ids, ∀ g cur, Picks n allowed (ScoredBy dec (probs k)) (cfg.choose g cur))
    (hr : ∀ k ∈ ids, Picks n allowed (ScoredBy dec (probs k)) cfg.replace)
    (hs : ∀ k ∈ ids, Picks n allowed (ScoredBy dec (probs k)) cfg.sponsor) (hgap : cfg.gap ≠ 0)
    (hdest : ∀ s k, 0 < k → (cfg.dest s k).1 < k)
    (hnb : ∀ i < cfg.numIslands, cfg.neighbors i ≠ [] ∧ ∀ d ∈ cfg.neighbors i, d < cfg.numIslands) (g : Int) (k : Nat) :
    ∀ (cur : Nat) (pops queues : List (List Nat)) (m0 m : Mem γ ψ φ ρ), queues.length = cfg.numIslands → pops.length ≤ cfg.numIslands →
      cur + k = pops.length → (∀ p ∈ pops, p ≠ []) → TasksOk n allowed dec probs ids m0 m pops queues →
      ∃ pops' queues' m', taskSweep cfg g k cur pops queues m = (.ok (pops', queues'), m') ∧ ∀ p ∈ pops', p ≠ [] := by
  induction k with
  | zero => intro cur pops queues m0 m _ _ _ hp _; exact ⟨pops, queues, m, rfl, hp⟩
  | succ k ih =>
    intro cur pops queues m0 m hq hle hk hp hok
    have hcur : cur < pops.length := by omega
    have hpar : pops[cur]? = some pops[cur] := List.getElem?_eq_getElem hcur
    obtain ⟨pop, queues1, m1, e1⟩ := task_step_returns cfg ids hstamp hst hsl hev hsize hd hc hr hs hgap hdest g cur pops queues pops[cur]
      (by omega) (by rw [hq]; exact hnb cur (by omega)) m0 m hok hpar (hp _ (List.getElem_mem hcur))
    obtain ⟨l1, n1, ok1⟩ := task_step_ok cfg ids hstamp hst hev g cur pops queues queues1 pops[cur] pop m0 m m1 hok hpar e1
    obtain ⟨pops', queues', m', e2, hp'⟩ := ih (cur + 1) (pops.set cur pop) queues1 m0 m1 (n1.trans hq) (by simpa using hle) (by simp; omega)
      (fun p hp1 => by
        rcases List.mem_or_eq_of_mem_set hp1 with h | h
        · exact hp p h
        · rw [h]; rintro rfl; simp at l1; omega) ok1
    refine ⟨pops', queues', m', ?_, hp'⟩
    have hgd : pops.getD cur [] = pops[cur] := by simp [List.getD, hpar]
    rw [taskSweep, hgd]
    exact (bind_live e1).trans e2

theorem task_loop_returns (cfg : TaskConfig γ ψ φ ρ) (ids : List Nat) (hstamp : cfg.stamp = problemStamp dec probs ids)
    (hst : ∀ k ∈ ids, ∀ st ∈ cfg.stages, StageOk n allowed (ScoredBy dec (probs k)) (TaskStage.at k st))
    (hsl : ∀ k ∈ ids, ∀ st ∈ cfg.stages, StageLive n allowed (TaskStage.at k st))
    (hev : ∀ k ∈ ids, endsEvaluated (cfg.stages.map (TaskStage.at k)) = true) (hsize : 1 ≤ cfg.size)
    (hd : ∀ k ∈ ids, ∀ g, GenesIn n allowed g → ∃ c, decodeOf dec g = .ok c ∧ ∀ s, ∃ f, ((probs k).evaluate c s).1 = .ok f)
    (hc : ∀ k ∈ ids, ∀ g cur, Picks n allowed (ScoredBy dec (probs k)) (cfg.choose g cur))
    (hr : ∀ k ∈ ids, Picks n allowed (ScoredBy dec (probs k)) cfg.replace)
    (hs : ∀ k ∈ ids, Picks n allowed (ScoredBy dec (probs k)) cfg.sponsor) (hgap : cfg.gap ≠ 0)
    (hdest : ∀ s k, 0 < k → (cfg.dest s k).1 < k)
    (hnb : ∀ i < cfg.numIslands, cfg.neighbors i ≠ [] ∧ ∀ d ∈ cfg.neighbors i, d < cfg.numIslands) (fuel : Nat) :
    ∀ (g : Int) (pops queues : List (List Nat)) (m0 m : Mem γ ψ φ ρ), queues.length = cfg.numIslands → pops.length ≤ cfg.numIslands →
      (∀ p ∈ pops, p ≠ []) → TasksOk n allowed dec probs ids m0 m pops queues →
      ∃ pops' queues' m', taskLoop cfg fuel g pops queues m = (.ok (pops', queues'), m') := by
  induction fuel with
  | zero => intro g pops queues m0 m _ _ _ _; exact ⟨pops, queues, m, rfl⟩
  | succ fuel ih =>
    intro g pops queues m0 m hq hle hp hok
    unfold taskLoop
    split
    · exact ⟨_, _, _, rfl⟩
    · obtain ⟨pops1, queues1, m1, e1, hp1⟩ := task_sweep_returns cfg ids hstamp hst hsl hev hsize hd hc hr hs hgap hdest hnb g pops.length 0
        pops queues m0 m hq hle (by omega) hp hok
      obtain ⟨l1, n1, ok1, -⟩ := task_sweep_ok cfg ids hstamp hst hev g _ _ _ _ _ _ m0 m m1 hok (by omega) e1
      obtain ⟨pops', queues', m', e2⟩ := ih (g + 1) pops1 queues1 m0 m1 (n1.trans hq) (by omega) hp1 ok1
      exact ⟨pops', queues', m', (bind_live e1).trans e2⟩

theorem createTasks_returns (initGenome : ρ → PyM (List γ) × ρ) (hinit : ∀ s, ∃ g, (initGenome s).1 = .ok g) (popSize : Nat) (ids : List Nat) :
    ∀ (m : Mem γ ψ φ ρ), Sound m → ∃ pops m', createTasks initGenome popSize ids m = (.ok pops, m') := by
  induction ids with
  | nil => intro m _; exact ⟨[], m, rfl⟩
  | cons k ks ih =>
    intro m hm
    obtain ⟨gs, s', hd'⟩ : ∃ gs s', Drawn initGenome popSize m.rng gs s' := by
      rcases drawn_or_raises initGenome popSize m.rng with h | ⟨j, gs, s1, e, s2, h1, h2, h3⟩
      · exact h
      · obtain ⟨g, hg⟩ := hinit s1
        rw [h3] at hg
        cases hg
    obtain ⟨p, m1, e1, -, -, u1, s1, -⟩ := create_population_spec initGenome k popSize m hm gs s' hd'
    obtain ⟨ps, m2, e2⟩ := ih m1 s1
    exact ⟨p :: ps, m2, by rw [createTasks, bind_live e1, bind_live e2]; rfl⟩

theorem evaluateOwnAll_returns (pop : List Nat) : ∀ (m : Mem γ ψ φ ρ), Sound m →
    (∀ r ∈ pop, (∃ g, genes m r = some g ∧ GenesIn n allowed g) ∧ ∃ k, problemOf m r = some k ∧
      ∀ g, GenesIn n allowed g → ∃ c, decodeOf dec g = .ok c ∧ ∀ s, ∃ f, ((probs k).evaluate c s).1 = .ok f) →
    ∃ m', evaluateOwnAll dec probs pop m = (.ok (), m') := by
  induction pop with
  | nil => intro m _ _; exact ⟨m, rfl⟩
  | cons r rs ih =>
    intro m hm hp
    obtain ⟨⟨g, hg, hG⟩, k, hk, hd⟩ := hp r (by simp)
    obtain ⟨f, m1, e1⟩ := evaluateOwn_returns hk hg hG hd
    obtain ⟨s1, a1, b1, l1, o1, z1⟩ := evaluateOwn_settles hm hk hg hG e1
    obtain ⟨m2, e2⟩ := ih m1 s1 fun y hy => by
      by_cases hyr : y = r
      · subst hyr
        obtain ⟨hz, g, f, hg, hG, -⟩ := z1
        exact ⟨⟨g, hg, hG⟩, k, hz, hd⟩
      · obtain ⟨⟨g, hg, hG⟩, k', hk', hd'⟩ := hp y (by simp [hy])
        exact ⟨⟨g, by rw [(same_of_arrays a1 (o1 y hyr)).2, hg], hG⟩, k', by rw [problemOf, o1 y hyr]; exact hk', hd'⟩
    exact ⟨m2, by rw [evaluateOwnAll, bind_live e1]; exact e2⟩

/-- C115: such a run returns if there is one problem for each island, genomes can be created, the operators accept genomes in the domain,
each island's problem scores genomes in the domain, the selections pick somebody on every island with members, each node of the topology has a
neighbour, `random.choice` picks an element, and there are no more islands than nodes. -/
theorem task_run_returns (cfg : TaskConfig γ ψ φ ρ) (initGenome : ρ → PyM (List γ) × ρ) (dec : Dec γ ψ) (probs : Nat → Prob γ ψ φ ρ)
    (ids : List Nat) (hstamp : cfg.stamp = problemStamp dec probs ids)
    (hinit : ∀ s, ∃ g, (initGenome s).1 = .ok g ∧ GenesIn n allowed g)
    (hst : ∀ k ∈ ids, ∀ st ∈ cfg.stages, StageOk n allowed (ScoredBy dec (probs k)) (TaskStage.at k st))
    (hsl : ∀ k ∈ ids, ∀ st ∈ cfg.stages, StageLive n allowed (TaskStage.at k st))
    (hev : ∀ k ∈ ids, endsEvaluated (cfg.stages.map (TaskStage.at k)) = true)
    (hd : ∀ k ∈ ids, ∀ g, GenesIn n allowed g → ∃ c, decodeOf dec g = .ok c ∧ ∀ s, ∃ f, ((probs k).evaluate c s).1 = .ok f)
    (hc : ∀ k ∈ ids, ∀ g cur, Picks n allowed (ScoredBy dec (probs k)) (cfg.choose g cur))
    (hr : ∀ k ∈ ids, Picks n allowed (ScoredBy dec (probs k)) cfg.replace)
    (hs : ∀ k ∈ ids, Picks n allowed (ScoredBy dec (probs k)) cfg.sponsor) (hgap : cfg.gap ≠ 0)
    (hdest : ∀ s k, 0 < k → (cfg.dest s k).1 < k)
    (hnb : ∀ i < cfg.numIslands, cfg.neighbors i ≠ [] ∧ ∀ d ∈ cfg.neighbors i, d < cfg.numIslands) (hsize : 1 ≤ cfg.size)
    (numPopulations popSize : Nat) (hpop : 1 ≤ popSize) (hids : ids.length = numPopulations) (hnum : numPopulations ≤ cfg.numIslands)
    (maxGenerations : Int) (m : Mem γ ψ φ ρ) (hm : Sound m) :
    ∃ pops queues m', taskRun cfg initGenome dec probs ids numPopulations popSize maxGenerations m = (.ok (pops, queues), m') := by
  have hinit' : ∀ s g s', initGenome s = (.ok g, s') → GenesIn n allowed g := by
    intro s g s' h
    obtain ⟨g', h1, h2⟩ := hinit s
    rw [h] at h1
    cases h1
    exact h2
  obtain ⟨pops0, m1, e1⟩ := createTasks_returns initGenome (fun s => (hinit s).imp fun _ h => h.1) popSize ids m hm
  obtain ⟨s1, u1, l1, z1, nd1, r1, g1, p1⟩ := createTasks_good initGenome hinit' popSize ids m m1 pops0 hm e1
  obtain ⟨m2, e2⟩ := evaluateOwnAll_returns (n := n) (allowed := allowed) (dec := dec) (probs := probs) pops0.flatten m1 s1 fun r hr => by
    refine ⟨g1 r hr, ?_⟩
    obtain ⟨p, hp, hr⟩ := List.mem_flatten.1 hr
    obtain ⟨i, hi⟩ := List.mem_iff_getElem?.1 hp
    obtain ⟨k, hk, h⟩ := p1 i p hi
    exact ⟨k, h r hr, hd k (List.mem_of_getElem? hk)⟩
  rw [← evaluateTasks_eq] at e2
  obtain ⟨l0, z0, ok0⟩ := tasks_start (dec := dec) (probs := probs) initGenome hinit' popSize ids cfg.numIslands m m1 m2 hm pops0 e1 e2
  obtain ⟨pops, queues, m', e3⟩ := task_loop_returns cfg ids hstamp hst hsl hev hsize hd hc hr hs hgap hdest hnb maxGenerations.toNat 0 pops0
    (List.replicate cfg.numIslands []) m m2 (by simp) (by omega) (fun p hp h => by have := z0 p hp; rw [h] at this; simp at this; omega) ok0
  refine ⟨pops, queues, m', ?_⟩
  rw [taskRun, if_neg (by omega), bind_live e1, bind_live e2]
  exact e3

/-! ## A run -/

/-- Ten minus the sum of the genes. -/
def exDeficit : Prob Int Int Int Nat where
  evaluate c s := match c with
    | .raw g => (.ok (10 - g.sum), s + 1)
    | .value v => (.ok (10 - v), s + 1)
  evaluateMultiple cs s := (.ok (cs.map fun c => match c with | .raw g => 10 - g.sum | .value v => 10 - v), s)
  takesIndividuals := true

/-- The problems: number 1 wants few ones, any other wants many. -/
def exTask (k : Nat) : Prob Int Int Int Nat := if k = 1 then exDeficit else exSum

/-- Two islands of two individuals that want opposite things and exchange somebody every generation. -/
def exTasks (stamp : Nat → Nat → HM (Mem Int Int Int Nat) Nat) : TaskConfig Int Int Int Nat where
  worse _ a b := decide (a.getD 0 < b.getD 0)
  choose _ _ pop m := (.ok (m.rng % pop.length), m.rng + 1)
  stages := [.plain (.mutate (.ok ()) false
      (bitflipFn (some 1) none fun s => (if s % 5 < 3 then [1 / 4, 3 / 4] else [3 / 4, 1 / 4], s + 1))),
    .evaluateOwn .identity exTask]
  size := 2
  numIslands := 2
  neighbors i := [1 - i]
  gap := 1
  replace _ m := (.ok 0, m.rng + 1)
  sponsor pop m := (.ok (m.rng % pop.length), m.rng + 1)
  dest s k := (s % k, s + 1)
  stamp := stamp
  stop _ _ _ := false

/-- Problem, genes and fitness of everybody on the islands after a run. -/
def exTaskView (stamp : Nat → Nat → HM (Mem Int Int Int Nat) Nat) (generations : Int) : Option (List (List (Option Nat × Option (List Int) × Option (Option Int)))) :=
  let r := taskRun (exTasks stamp) exInit .identity exTask [0, 1] 2 2 generations exStart
  r.1.toOption.map fun out => out.1.map fun p => p.map fun x => (problemOf r.2 x, genes r.2 x, fitness r.2 x)

set_option synthInstance.maxSize 1000 in
set_option synthInstance.maxHeartbeats 100000 in
/-- The run meets the hypotheses of `task_run_members` and `task_run_returns`; each island improves at what its own problem wants. -/
example :
    (exTasks (problemStamp .identity exTask [0, 1])).stamp = problemStamp .identity exTask [0, 1] ∧
    (∀ s g s', exInit s = (.ok g, s') → GenesIn 2 (fun _ x => x = 0 ∨ x = 1) g) ∧
    (∀ k ∈ [0, 1], ∀ st ∈ (exTasks (problemStamp .identity exTask [0, 1])).stages,
      StageOk 2 (fun _ x => x = 0 ∨ x = 1) (ScoredBy .identity (exTask k)) (TaskStage.at k st)) ∧
    (∀ k ∈ [0, 1], endsEvaluated ((exTasks (problemStamp .identity exTask [0, 1])).stages.map (TaskStage.at k)) = true) ∧
    (∀ k, StrictWeak ((exTasks (problemStamp .identity exTask [0, 1])).worse k)) ∧ Sound exStart ∧
    (∀ k ∈ [0, 1], ∀ st ∈ (exTasks (problemStamp .identity exTask [0, 1])).stages,
      StageLive 2 (fun _ x => x = 0 ∨ x = 1) (TaskStage.at k st)) ∧
    (∀ k ∈ [0, 1], ∀ g, GenesIn 2 (fun _ x => x = 0 ∨ x = 1) g →
      ∃ c, decodeOf (.identity : Dec Int Int) g = .ok c ∧ ∀ s, ∃ f, ((exTask k).evaluate c s).1 = .ok f) ∧
    (∀ k ∈ [0, 1], ∀ g cur, Picks 2 (fun _ x => x = 0 ∨ x = 1) (ScoredBy .identity (exTask k))
      ((exTasks (problemStamp .identity exTask [0, 1])).choose g cur)) ∧
    (∀ k ∈ [0, 1], Picks 2 (fun _ x => x = 0 ∨ x = 1) (ScoredBy .identity (exTask k))
      (exTasks (problemStamp .identity exTask [0, 1])).replace) ∧
    (∀ k ∈ [0, 1], Picks 2 (fun _ x => x = 0 ∨ x = 1) (ScoredBy .identity (exTask k))
      (exTasks (problemStamp .identity exTask [0, 1])).sponsor) ∧
    exTaskView (problemStamp .identity exTask [0, 1]) 3 = some
      [[(some 0, some [1, 1], some (some 2)), (some 0, some [0, 0], some (some 0))],
       [(some 1, some [0, 1], some (some 9)), (some 1, some [0, 0], some (some 10))]] := by
  refine ⟨rfl, ?_, ?_, fun _ _ => rfl, fun k => ⟨?_, ?_⟩, ⟨by simp [exStart], by simp [exStart], by simp [exStart]⟩, ?_, ?_, ?_, ?_, ?_, by decide +kernel⟩
  · intro s g s' h
    simp only [exInit, Prod.mk.injEq, Except.ok.injEq] at h
    obtain ⟨rfl, -⟩ := h
    refine ⟨rfl, fun i x hx => ?_⟩
    have := List.mem_of_getElem? hx
    simp only [List.mem_cons, List.not_mem_nil, or_false] at this
    rcases this with rfl | rfl
    · omega
    · exact Or.inl rfl
  · intro k _ st hst
    simp only [exTasks, List.mem_cons, List.not_mem_nil, or_false] at hst
    rcases hst with rfl | rfl
    · exact bitflip_stage_ok _ _ _ _ _ _ _
    · exact evaluate_stage_ok _ _
  · intro a b; simp [exTasks]; omega
  · intro a b c; simp [exTasks]; omega
  · have hlive : ∀ k g, GenesIn 2 (fun _ x => x = 0 ∨ x = 1) g →
        ∃ c, decodeOf (.identity : Dec Int Int) g = .ok c ∧ ∀ s, ∃ f, ((exTask k).evaluate c s).1 = .ok f := by
      intro k g _
      refine ⟨_, rfl, fun s => ?_⟩
      unfold exTask
      split <;> exact ⟨_, rfl⟩
    intro k _ st hst
    simp only [exTasks, List.mem_cons, List.not_mem_nil, or_false] at hst
    rcases hst with rfl | rfl
    · exact bitflip_stage_live _ _ _ _ (1 / 2) (Or.inr ⟨rfl, by decide, 1, rfl, by norm_num⟩) (by norm_num) (by norm_num)
        (fun s => by split <;> rfl) _
    · exact hlive k
  · intro k _ g _
    refine ⟨_, rfl, fun s => ?_⟩
    unfold exTask
    split <;> exact ⟨_, rfl⟩
  · exact fun k _ g cur pop m hne _ => ⟨_, rfl, Nat.mod_lt _ (List.length_pos_iff.2 hne)⟩
  · exact fun k _ pop m hne _ => ⟨_, rfl, List.length_pos_iff.2 hne⟩
  · exact fun k _ pop m hne _ => ⟨_, rfl, Nat.mod_lt _ (List.length_pos_iff.2 hne)⟩

set_option synthInstance.maxSize 1000 in
set_option synthInstance.maxHeartbeats 100000 in
/-- C115: without a stamp, which is the default, immigrants keep the problem and the fitness they came with, are compared on a scale that
is not the island's and pass their problem on. Here the same run ends with nobody left on the first island who works on its problem. -/
theorem unstamped_islands_mix :
    exTaskView noStamp 0 = some
      [[(some 0, some [0, 0], some (some 0)), (some 0, some [1, 0], some (some 1))],
       [(some 1, some [0, 0], some (some 10)), (some 1, some [1, 0], some (some 9))]] ∧
    exTaskView noStamp 3 = some
      [[(some 1, some [0, 1], some (some 9)), (some 1, some [1, 0], some (some 9))],
       [(some 1, some [0, 1], some (some 9)), (some 1, some [1, 1], some (some 8))]] := by
  decide +kernel

/-- C115: a wrong number of problems is refused before anything happens. -/
theorem task_run_wrong_count (cfg : TaskConfig γ ψ φ ρ) (initGenome : ρ → PyM (List γ) × ρ) (dec : Dec γ ψ) (probs : Nat → Prob γ ψ φ ρ)
    (ids : List Nat) (numPopulations popSize : Nat) (maxGenerations : Int) (m : Mem γ ψ φ ρ) (h : ids.length ≠ numPopulations) :
    taskRun cfg initGenome dec probs ids numPopulations popSize maxGenerations m = (.error .assertionError, m) := by
  unfold taskRun
  rw [if_pos (Ne.symm h)]
  rfl

end Leap
