import Verif.Model.PersistRun
import Verif.Model.IslandRun
import Verif.Model.WalkRun
import Verif.Model.NsgaRun
import Verif.Model.CoopGroup
import Verif.Props.Individual

/-!
# C113: how often a run calls the fitness function

The store of random numbers `ρ` stands for everything outside memory, so a fitness function can keep a tally there: `calls` reads it. What a run
costs is the difference between the tally after it and before it. Nothing is assumed about the fitness function except that it counts.
-/

namespace Leap

namespace Spec

variable {γ ψ φ ρ : Type}

/-- Each call of the problem adds `c` to the tally; a call that raises adds no more than that. For a plain problem `c = 1`; for a problem that wraps another and calls it `n` times,
and a tally of the calls to the wrapped one, `c = n`. -/
def Charges (calls : ρ → Nat) (c : Nat) (prob : Prob γ ψ φ ρ) : Prop :=
  ∀ x s, calls s ≤ calls (prob.evaluate x s).2 ∧ calls (prob.evaluate x s).2 ≤ calls s + c ∧
    ∀ f, (prob.evaluate x s).1 = .ok f → calls (prob.evaluate x s).2 = calls s + c

/-- An operator that does not call the problem: drawing random numbers leaves the tally alone. -/
def Silent (calls : ρ → Nat) : Stage γ ψ φ ρ → Prop
  | .clone => True
  | .mutate _ _ f => ∀ g s, calls (f g s).rng = calls s
  | .crossover skip (.uniform mask) => (∀ s, calls (skip s).2 = calls s) ∧ ∀ s n, calls (mask s n).2 = calls s
  | .crossover skip (.nary _ cuts) => (∀ s, calls (skip s).2 = calls s) ∧ ∀ s n, calls (cuts s n).2 = calls s
  | .evaluate _ _ => False
  | .robustEvaluate _ _ _ => False

/-- A selection operator does not call the problem. -/
def SilentChoice (calls : ρ → Nat) (choose : Mem γ ψ φ ρ → PyM Nat × ρ) : Prop := ∀ m, calls (choose m).2 = calls m.rng

/-- A selection of collaborators does not call the problem. -/
def SilentCollab (calls : ρ → Nat) (c : Collab γ ψ ρ) : Prop := ∀ pop s m, calls (c.pick pop s m).2 = calls m.rng

/-- What a run costs that spends `first` before its loop and `each` in every generation, for at most `G` generations. If it returns, it has gone through some number `n` of generations, and through
all `G` unless the stop condition holds of what it returns; then it has spent exactly that much. If it raises, it has spent no more than all generations would. -/
def WithinBudget {α : Type} (calls : ρ → Nat) (first each G : Nat) (stopped : Nat → α → Mem γ ψ φ ρ → Prop) (m : Mem γ ψ φ ρ) :
    PyM α × Mem γ ψ φ ρ → Prop
  | (.ok out, m') => ∃ n ≤ G, calls m'.rng = calls m.rng + first + n * each ∧ (n < G → stopped n out m')
  | (.error _, m') => calls m.rng ≤ calls m'.rng ∧ calls m'.rng ≤ calls m.rng + first + G * each

end Spec

open Spec

section
variable {γ ψ φ ρ α β : Type} {calls : ρ → Nat}

/-- `x` calls the problem at most `hi` times, at least `lo` times when it returns, and then returns something in `Q`. -/
def Costs (calls : ρ → Nat) (lo hi : Nat) (x : HM (Mem γ ψ φ ρ) α) (Q : α → Prop) : Prop :=
  ∀ m, calls m.rng ≤ calls (x m).2.rng ∧ calls (x m).2.rng ≤ calls m.rng + hi ∧
    ∀ a, (x m).1 = .ok a → calls m.rng + lo ≤ calls (x m).2.rng ∧ Q a

theorem Costs.ret {a : α} {Q : α → Prop} (h : Q a) : Costs calls 0 0 (Pure.pure a : HM (Mem γ ψ φ ρ) α) Q := by
  intro m
  refine ⟨Nat.le_refl _, Nat.le_refl _, ?_⟩
  intro b e
  simp only [HM.pure_apply, Except.ok.injEq] at e
  exact ⟨Nat.le_refl _, e ▸ h⟩

theorem Costs.seq {lo1 hi1 lo2 hi2 : Nat} {x : HM (Mem γ ψ φ ρ) α} {f : α → HM (Mem γ ψ φ ρ) β} {P : α → Prop} {Q : β → Prop}
    (hx : Costs calls lo1 hi1 x P) (hf : ∀ a, P a → Costs calls lo2 hi2 (f a) Q) : Costs calls (lo1 + lo2) (hi1 + hi2) (x >>= f) Q := by
  intro m
  obtain ⟨h1, h2, h3⟩ := hx m
  rw [HM.bind_apply]
  rcases e : x m with ⟨r, m1⟩
  rw [e] at h1 h2 h3
  cases r with
  | error err =>
    refine ⟨h1, by simp only at h2 ⊢; omega, ?_⟩
    intro a ea
    simp at ea
  | ok a =>
    obtain ⟨h4, h5⟩ := h3 a rfl
    obtain ⟨k1, k2, k3⟩ := hf a h5 m1
    simp only at h1 h2 h4 ⊢
    refine ⟨by omega, by omega, ?_⟩
    intro b eb
    obtain ⟨k4, k5⟩ := k3 b eb
    exact ⟨by omega, k5⟩

theorem Costs.mono {lo hi lo' hi' : Nat} {x : HM (Mem γ ψ φ ρ) α} {P Q : α → Prop} (h : Costs calls lo hi x P) (h1 : lo' ≤ lo) (h2 : hi ≤ hi')
    (h3 : ∀ a, P a → Q a) : Costs calls lo' hi' x Q := by
  intro m
  obtain ⟨k1, k2, k3⟩ := h m
  exact ⟨k1, by omega, fun a e => ⟨by have := (k3 a e).1; omega, h3 a (k3 a e).2⟩⟩

/-- Code that leaves the store of random numbers alone costs nothing. -/
theorem Costs.free {x : HM (Mem γ ψ φ ρ) α} (h : ∀ m, (x m).2.rng = m.rng) : Costs calls 0 0 x fun _ => True := by
  intro m
  rw [h m]
  exact ⟨Nat.le_refl _, Nat.le_refl _, fun _ _ => ⟨Nat.le_refl _, trivial⟩⟩

theorem Costs.freeLift {r : PyM α} : Costs calls 0 0 (HM.lift r : HM (Mem γ ψ φ ρ) α) fun _ => True := Costs.free fun _ => rfl

theorem Costs.freeRaise {e : PyErr} {lo : Nat} {Q : α → Prop} : Costs calls lo 0 (HM.raise e : HM (Mem γ ψ φ ρ) α) Q := by
  intro m
  refine ⟨Nat.le_refl _, Nat.le_refl _, ?_⟩
  intro a ea
  simp at ea

theorem Costs.pep {lo hi : Nat} {x : HM (Mem γ ψ φ ρ) α} {Q : α → Prop} (h : Costs calls lo hi x Q) : Costs calls lo hi (HM.pep479 x) Q := by
  intro m
  have h1 := h m
  simp only [HM.pep479]
  rcases e : x m with ⟨r, m1⟩
  rw [e] at h1
  cases r with
  | error err =>
    refine ⟨?_, ?_, ?_⟩
    · cases err <;> exact h1.1
    · cases err <;> exact h1.2.1
    · intro a ea
      cases err <;> simp at ea
  | ok a => exact h1

/-- Drawing random numbers. -/
theorem Costs.rng {f : ρ → PyM α × ρ} (h : ∀ s, calls (f s).2 = calls s) : Costs calls 0 0 (useRng f : HM (Mem γ ψ φ ρ) α) fun _ => True := by
  intro m
  have := h m.rng
  simp only [useRng]
  exact ⟨by omega, by omega, fun _ _ => ⟨by omega, trivial⟩⟩

theorem Costs.bad {e : PyErr} {lo hi : Nat} {Q : α → Prop} : Costs calls lo hi (HM.lift (.error e) : HM (Mem γ ψ φ ρ) α) Q := by
  intro m
  refine ⟨Nat.le_refl _, Nat.le_add_right _ _, ?_⟩
  intro a ea
  simp at ea

theorem free_getObj (r : Nat) : Costs calls 0 0 (getObj r : HM (Mem γ ψ φ ρ) _) fun _ => True :=
  Costs.free fun m => by unfold getObj; split <;> rfl

theorem free_getArr (r : Nat) : Costs calls 0 0 (getArr r : HM (Mem γ ψ φ ρ) _) fun _ => True :=
  Costs.free fun m => by unfold getArr; split <;> rfl

theorem free_getSet (r : Nat) : Costs calls 0 0 (getSet r : HM (Mem γ ψ φ ρ) _) fun _ => True :=
  Costs.free fun m => by unfold getSet; split <;> rfl

theorem free_setArr (r : Nat) (g : List γ) : Costs calls 0 0 (setArr r g : HM (Mem γ ψ φ ρ) _) fun _ => True := Costs.free fun _ => rfl

theorem free_setSet (r : Nat) (g : List Nat) : Costs calls 0 0 (setSet r g : HM (Mem γ ψ φ ρ) _) fun _ => True := Costs.free fun _ => rfl

theorem free_modObj (r : Nat) (f : Obj ψ φ → Obj ψ φ) : Costs calls 0 0 (modObj r f : HM (Mem γ ψ φ ρ) _) fun _ => True := Costs.free fun _ => rfl

theorem free_newObj (o : Obj ψ φ) : Costs calls 0 0 (newObj o : HM (Mem γ ψ φ ρ) _) fun _ => True := Costs.free fun _ => rfl

theorem free_newArr (g : List γ) : Costs calls 0 0 (newArr g : HM (Mem γ ψ φ ρ) _) fun _ => True := Costs.free fun _ => rfl

theorem free_newSet (g : List Nat) : Costs calls 0 0 (newSet g : HM (Mem γ ψ φ ρ) _) fun _ => True := Costs.free fun _ => rfl

theorem free_freshUuid : Costs calls 0 0 (freshUuid : HM (Mem γ ψ φ ρ) _) fun _ => True := Costs.free fun _ => rfl

theorem Costs.seq0 {lo hi : Nat} {x : HM (Mem γ ψ φ ρ) α} {f : α → HM (Mem γ ψ φ ρ) β} {P : α → Prop} {Q : β → Prop}
    (hx : Costs calls 0 0 x P) (hf : ∀ a, P a → Costs calls lo hi (f a) Q) : Costs calls lo hi (x >>= f) Q := by
  have := Costs.seq hx hf
  rwa [Nat.zero_add, Nat.zero_add] at this

theorem Costs.then0 {lo hi : Nat} {x : HM (Mem γ ψ φ ρ) α} {f : α → HM (Mem γ ψ φ ρ) β} {P : α → Prop} {Q : β → Prop}
    (hx : Costs calls lo hi x P) (hf : ∀ a, P a → Costs calls 0 0 (f a) Q) : Costs calls lo hi (x >>= f) Q := Costs.seq hx hf

/-- Steps through code that does not call the problem. -/
macro "costless" : tactic => `(tactic|
  repeat first
    | exact Costs.ret trivial
    | exact free_modObj _ _
    | exact free_newObj _
    | exact free_newArr _
    | exact free_newSet _
    | exact free_setArr _ _
    | exact free_setSet _ _
    | exact free_freshUuid
    | exact Costs.freeLift
    | exact Costs.freeRaise
    | refine Costs.seq0 (free_getObj _) fun _ _ => ?_
    | refine Costs.seq0 (free_getArr _) fun _ _ => ?_
    | refine Costs.seq0 (free_getSet _) fun _ _ => ?_
    | refine Costs.seq0 (free_setArr _ _) fun _ _ => ?_
    | refine Costs.seq0 (free_setSet _ _) fun _ _ => ?_
    | refine Costs.seq0 (free_modObj _ _) fun _ _ => ?_
    | refine Costs.seq0 (free_newObj _) fun _ _ => ?_
    | refine Costs.seq0 (free_newArr _) fun _ _ => ?_
    | refine Costs.seq0 (free_newSet _) fun _ _ => ?_
    | refine Costs.seq0 free_freshUuid fun _ _ => ?_
    | refine Costs.seq0 Costs.freeLift fun _ _ => ?_)

theorem free_cloneInd (r : Nat) : Costs calls 0 0 (cloneInd r : HM (Mem γ ψ φ ρ) _) fun _ => True := by
  unfold cloneInd
  costless

theorem free_makeIndividual (g p : Nat) : Costs calls 0 0 (makeIndividual g p : HM (Mem γ ψ φ ρ) _) fun _ => True := by
  unfold makeIndividual
  costless

theorem free_createPopulation {initGenome : ρ → PyM (List γ) × ρ} (h : ∀ s, calls (initGenome s).2 = calls s) (problem : Nat) :
    ∀ n, Costs calls 0 0 (createPopulation initGenome problem n : HM (Mem γ ψ φ ρ) _) fun l => l.length = n := by
  intro n
  induction n with
  | zero => exact Costs.ret rfl
  | succ n ih =>
    unfold createPopulation
    refine Costs.seq0 (Costs.rng h) fun _ _ => ?_
    refine Costs.seq0 (free_newArr _) fun _ _ => ?_
    refine Costs.seq0 (free_makeIndividual _ _) fun _ _ => ?_
    refine Costs.seq0 ih fun l hl => ?_
    exact Costs.ret (by simp [hl])

theorem free_decodeInd (dec : Dec γ ψ) (r : Nat) : Costs calls 0 0 (decodeInd dec r : HM (Mem γ ψ φ ρ) _) fun _ => True := by
  unfold decodeInd
  refine Costs.seq0 (free_getObj _) fun _ _ => ?_
  cases dec with
  | identity => simp only; costless
  | fn f => simp only; costless

theorem free_phenomeOf (dec : Dec γ ψ) (r : Nat) : Costs calls 0 0 (phenomeOf dec r : HM (Mem γ ψ φ ρ) _) fun _ => True := by
  unfold phenomeOf
  refine Costs.seq0 (free_getObj _) fun o _ => ?_
  cases o.phenome with
  | none => exact free_decodeInd dec r
  | some p => exact Costs.ret trivial

theorem free_contentOf (p : Phen ψ) : Costs calls 0 0 (contentOf p : HM (Mem γ ψ φ ρ) _) fun _ => True := by
  cases p with
  | «alias» a => unfold contentOf; simp only; costless
  | decoded v => exact Costs.ret trivial

theorem cost_problem {c : Nat} {prob : Prob γ ψ φ ρ} (h : Charges calls c prob) (x : Content γ ψ) :
    Costs calls c c (useRng (prob.evaluate x) : HM (Mem γ ψ φ ρ) φ) fun _ => True := by
  intro m
  obtain ⟨h1, h2, h3⟩ := h x m.rng
  refine ⟨h1, h2, fun a e => ⟨?_, trivial⟩⟩
  have := h3 a e
  simp only [useRng]
  omega

theorem cost_evaluateImp {c : Nat} {prob : Prob γ ψ φ ρ} (h : Charges calls c prob) (dec : Dec γ ψ) (r : Nat) :
    Costs calls c c (evaluateImp dec prob r) fun _ => True := by
  unfold evaluateImp
  refine Costs.seq0 (free_decodeInd dec r) fun _ _ => ?_
  refine Costs.seq0 (free_phenomeOf dec r) fun _ _ => ?_
  refine Costs.seq0 (free_contentOf _) fun _ _ => ?_
  exact cost_problem h _

theorem cost_evaluateInd {c : Nat} {prob : Prob γ ψ φ ρ} (h : Charges calls c prob) (dec : Dec γ ψ) (r : Nat) :
    Costs calls c c (evaluateInd dec prob r) fun _ => True := by
  unfold evaluateInd
  refine Costs.then0 (cost_evaluateImp h dec r) fun _ _ => ?_
  costless

theorem cost_robustEvaluate {c : Nat} {prob : Prob γ ψ φ ρ} (h : Charges calls c prob) (nan : φ) (dec : Dec γ ψ) (r : Nat) :
    Costs calls 0 c (robustEvaluate nan dec prob r) fun _ => True := by
  intro m
  have := cost_evaluateImp h dec r m
  unfold robustEvaluate
  rcases e : evaluateImp dec prob r m with ⟨x, m1⟩
  rw [e] at this
  cases x with
  | error err => exact ⟨this.1, this.2.1, fun _ _ => ⟨this.1, trivial⟩⟩
  | ok f => exact ⟨this.1, this.2.1, fun _ _ => ⟨this.1, trivial⟩⟩

theorem cost_evaluatePopulation {c : Nat} {prob : Prob γ ψ φ ρ} (h : Charges calls c prob) (dec : Dec γ ψ) :
    ∀ l, Costs calls (l.length * c) (l.length * c) (evaluatePopulation dec prob l) fun _ => True := by
  intro l
  induction l with
  | nil => rw [List.length_nil, Nat.zero_mul]; exact Costs.ret trivial
  | cons r rs ih =>
    unfold evaluatePopulation
    have := Costs.seq (cost_evaluateInd h dec r) fun _ _ => ih
    rw [show (r :: rs).length * c = c + rs.length * c by simp [Nat.add_mul, Nat.add_comm]]
    exact this

theorem cost_hpull {M : HIter (Mem γ ψ φ ρ)} {lo hi : Nat} (h : ∀ s, Costs calls lo hi (M.next s) fun _ => True) :
    ∀ n s, Costs calls (n * lo) (n * hi) (hpull M.next n s) fun p => p.1.length = n := by
  intro n
  induction n with
  | zero => intro s; rw [Nat.zero_mul, Nat.zero_mul]; exact Costs.ret rfl
  | succ n ih =>
    intro s
    unfold hpull
    rw [Nat.succ_mul, Nat.succ_mul, Nat.add_comm _ lo, Nat.add_comm _ hi]
    refine Costs.seq (h s) fun p _ => ?_
    refine Costs.then0 (ih p.2) fun q hq => ?_
    exact Costs.ret (by simp [hq])

theorem free_mutateInd {f : MutFn γ ρ} (h : ∀ g s, calls (f g s).rng = calls s) (r : Nat) :
    Costs calls 0 0 (mutateInd f r : HM (Mem γ ψ φ ρ) _) fun _ => True := by
  unfold mutateInd
  refine Costs.seq0 (free_getObj _) fun _ _ => ?_
  refine Costs.seq0 (free_getArr _) fun g _ => ?_
  refine Costs.seq0 (Costs.rng fun s => h g s) fun res _ => ?_
  refine Costs.seq0 (free_setArr _ _) fun _ _ => ?_
  refine Costs.seq0 Costs.freeLift fun new _ => ?_
  cases new with
  | none => simp only; costless
  | some g' => simp only; costless

theorem free_crossInds {rec : Recombiner ρ} {skip : ρ → Bool × ρ} (h : Silent (γ := γ) (ψ := ψ) (φ := φ) calls (.crossover skip rec)) (a b : Nat) :
    Costs calls 0 0 (crossInds rec a b : HM (Mem γ ψ φ ρ) _) fun _ => True := by
  have hr : Costs calls 0 0 (recombineInds rec a b : HM (Mem γ ψ φ ρ) _) fun _ => True := by
    unfold recombineInds
    refine Costs.seq0 (free_getObj _) fun _ _ => ?_
    refine Costs.seq0 (free_getObj _) fun _ _ => ?_
    refine Costs.seq0 (free_getArr _) fun _ _ => ?_
    refine Costs.seq0 (free_getArr _) fun _ _ => ?_
    cases rec with
    | uniform mask =>
      simp only
      refine Costs.seq0 (Costs.rng fun s => h.2 s _) fun _ _ => ?_
      costless
    | nary k cuts =>
      simp only
      refine Costs.seq0 (Costs.rng fun s => h.2 s _) fun _ _ => ?_
      costless
  unfold crossInds
  refine Costs.seq0 hr fun _ _ => ?_
  costless

theorem silent_apply {up : HIter (Mem γ ψ φ ρ)} (hu : ∀ s, Costs calls 0 0 (up.next s) fun _ => True) {st : Stage γ ψ φ ρ} (h : Silent calls st) :
    ∀ s, Costs calls 0 0 ((st.apply up).next s) fun _ => True := by
  cases st with
  | clone =>
    intro s
    refine Costs.pep (Costs.seq0 (hu s) fun _ _ => Costs.seq0 (free_cloneInd _) fun _ _ => Costs.ret trivial)
  | mutate check stopOk f =>
    rintro ⟨started, s⟩
    refine Costs.seq0 Costs.freeLift fun _ _ => ?_
    refine Costs.seq0 (P := fun _ => True) ?_ fun _ _ => Costs.seq0 (Costs.pep (free_mutateInd h _)) fun _ _ => Costs.ret trivial
    unfold upstream
    split
    · exact hu s
    · exact Costs.pep (hu s)
  | crossover skip rec =>
    rintro ⟨pending, s⟩
    refine Costs.pep ?_
    cases pending with
    | some b => exact Costs.ret trivial
    | none =>
      refine Costs.seq0 (hu s) fun _ _ => Costs.seq0 (hu _) fun _ _ => ?_
      refine Costs.seq0 (Costs.rng fun x => ?_) fun sk _ => ?_
      · cases rec <;> exact h.1 x
      · cases sk with
        | true => simp only [if_true]; exact Costs.ret trivial
        | false => simp only [Bool.false_eq_true, if_false]; exact Costs.seq0 (free_crossInds h _ _) fun _ _ => Costs.ret trivial
  | evaluate => exact h.elim
  | robustEvaluate => exact h.elim

theorem silent_stages : ∀ (stages : List (Stage γ ψ φ ρ)) (up : HIter (Mem γ ψ φ ρ)), (∀ s, Costs calls 0 0 (up.next s) fun _ => True) →
    (∀ st ∈ stages, Silent calls st) → ∀ s, Costs calls 0 0 ((stagesIter up stages).next s) fun _ => True := by
  intro stages
  induction stages with
  | nil => intro up hu _; exact hu
  | cons st rest ih =>
    intro up hu h
    exact ih _ (silent_apply hu (h st (by simp))) fun x hx => h x (by simp [hx])

theorem stages_snoc (up : HIter (Mem γ ψ φ ρ)) (a b : List (Stage γ ψ φ ρ)) :
    stagesIter up (a ++ b) = stagesIter (stagesIter up a) b := by
  induction a generalizing up with
  | nil => rfl
  | cons st rest ih => exact ih _

theorem free_selection {pop : List Nat} {choose : Mem γ ψ φ ρ → PyM Nat × ρ} (h : SilentChoice calls choose) :
    ∀ s, Costs calls 0 0 ((selectionIter pop choose).next s) fun _ => True := by
  intro s m
  have := h m
  simp only [selectionIter]
  rcases e : choose m with ⟨x, t⟩
  rw [e] at this
  cases x with
  | error err => exact ⟨by simp only at this ⊢; omega, by simp only at this ⊢; omega, fun _ _ => ⟨by simp only at this ⊢; omega, trivial⟩⟩
  | ok i =>
    simp only
    cases pop[i]? with
    | none => exact ⟨by simp only at this ⊢; omega, by simp only at this ⊢; omega, fun _ _ => ⟨by simp only at this ⊢; omega, trivial⟩⟩
    | some r => exact ⟨by simp only at this ⊢; omega, by simp only at this ⊢; omega, fun _ _ => ⟨by simp only at this ⊢; omega, trivial⟩⟩

/-- The last operator of a pipeline, and what one individual costs there. -/
inductive Ending (calls : ρ → Nat) (c : Nat) : Nat → Stage γ ψ φ ρ → Prop
  | evaluate {dec : Dec γ ψ} {prob : Prob γ ψ φ ρ} (h : Charges calls c prob) : Ending calls c c (.evaluate dec prob)
  | robust {nan : φ} {dec : Dec γ ψ} {prob : Prob γ ψ φ ρ} (h : Charges calls c prob) : Ending calls c 0 (.robustEvaluate nan dec prob)

theorem cost_ending {c lo : Nat} {last : Stage γ ψ φ ρ} (hl : Ending calls c lo last) {up : HIter (Mem γ ψ φ ρ)}
    (hu : ∀ s, Costs calls 0 0 (up.next s) fun _ => True) : ∀ s, Costs calls lo c ((last.apply up).next s) fun _ => True := by
  cases hl with
  | evaluate h =>
    intro s
    exact Costs.pep (Costs.seq0 (hu s) fun _ _ => Costs.then0 (cost_evaluateInd h _ _) fun _ _ => Costs.ret trivial)
  | robust h =>
    intro s
    exact Costs.pep (Costs.seq0 (hu s) fun _ _ => Costs.then0 (cost_robustEvaluate h _ _ _) fun _ _ => Costs.ret trivial)

theorem cost_stages {c lo : Nat} {before : List (Stage γ ψ φ ρ)} {last : Stage γ ψ φ ρ} (hb : ∀ st ∈ before, Silent calls st)
    (hl : Ending calls c lo last) {up : HIter (Mem γ ψ φ ρ)} (hu : ∀ s, Costs calls 0 0 (up.next s) fun _ => True) :
    ∀ s, Costs calls lo c ((stagesIter up (before ++ [last])).next s) fun _ => True := by
  rw [stages_snoc]
  exact cost_ending hl (silent_stages before up hu hb)

theorem cost_pipeline {c lo : Nat} {before : List (Stage γ ψ φ ρ)} {last : Stage γ ψ φ ρ} (hb : ∀ st ∈ before, Silent calls st)
    (hl : Ending calls c lo last) {pop : List Nat} {choose : Mem γ ψ φ ρ → PyM Nat × ρ} (hc : SilentChoice calls choose) (size : Nat) :
    Costs calls (size * lo) (size * c) (runPipeline pop choose (before ++ [last]) size) fun l => l.length = size := by
  unfold runPipeline
  refine Costs.then0 (cost_hpull (M := stagesIter (selectionIter pop choose) (Stage.clone :: (before ++ [last]))) ?_ size _) fun q hq => Costs.ret hq
  exact cost_stages hb hl (silent_apply (free_selection hc) trivial)

theorem budget_ret {G each : Nat} {a : α} {stopped : Nat → α → Mem γ ψ φ ρ → Prop} {m : Mem γ ψ φ ρ} (h : 0 < G → stopped 0 a m) :
    WithinBudget calls 0 each G stopped m (.ok a, m) := ⟨0, Nat.zero_le _, by simp, h⟩

theorem budget_step {G each : Nat} {x : HM (Mem γ ψ φ ρ) α} {f : α → HM (Mem γ ψ φ ρ) β} {Q : α → Prop} {stopped : Nat → β → Mem γ ψ φ ρ → Prop}
    (hx : Costs calls each each x Q) (hf : ∀ a, Q a → ∀ m, WithinBudget calls 0 each G (fun n => stopped (n + 1)) m (f a m)) (m : Mem γ ψ φ ρ) :
    WithinBudget calls 0 each (G + 1) stopped m ((x >>= f) m) := by
  have h := hx m
  rw [HM.bind_apply]
  rcases e : x m with ⟨r, m1⟩
  rw [e] at h
  have e2 : (G + 1) * each = each + G * each := by rw [Nat.succ_mul, Nat.add_comm]
  cases r with
  | error err =>
    have h2 := h.2.1
    simp only at h2
    exact ⟨h.1, by rw [e2]; omega⟩
  | ok a =>
    obtain ⟨h1, h2, h3⟩ := h
    obtain ⟨h4, h5⟩ := h3 a rfl
    have hm := hf a h5 m1
    simp only at h1 h2 h4 ⊢
    rcases e3 : f a m1 with ⟨r2, m2⟩
    rw [e3] at hm
    cases r2 with
    | error err =>
      obtain ⟨k1, k2⟩ := hm
      exact ⟨by omega, by rw [e2]; omega⟩
    | ok b =>
      obtain ⟨n, k1, k2, k3⟩ := hm
      refine ⟨n + 1, by omega, ?_, fun h => k3 (by omega)⟩
      rw [k2, Nat.succ_mul]
      omega

theorem budget_first {G first each : Nat} {x : HM (Mem γ ψ φ ρ) α} {f : α → HM (Mem γ ψ φ ρ) β} {Q : α → Prop} {stopped : Nat → β → Mem γ ψ φ ρ → Prop}
    (hx : Costs calls first first x Q) (hf : ∀ a, Q a → ∀ m, WithinBudget calls 0 each G stopped m (f a m)) (m : Mem γ ψ φ ρ) :
    WithinBudget calls first each G stopped m ((x >>= f) m) := by
  have h := hx m
  rw [HM.bind_apply]
  rcases e : x m with ⟨r, m1⟩
  rw [e] at h
  cases r with
  | error err =>
    have h2 := h.2.1
    simp only at h2
    exact ⟨h.1, by omega⟩
  | ok a =>
    obtain ⟨h1, h2, h3⟩ := h
    obtain ⟨h4, h5⟩ := h3 a rfl
    have hm := hf a h5 m1
    simp only at h1 h2 h4 ⊢
    rcases e3 : f a m1 with ⟨r2, m2⟩
    rw [e3] at hm
    cases r2 with
    | error err =>
      obtain ⟨k1, k2⟩ := hm
      exact ⟨by omega, by omega⟩
    | ok b =>
      obtain ⟨n, k1, k2, k3⟩ := hm
      exact ⟨n, k1, by omega, k3⟩

/-! ### `generational_ea` -/

/-- The loop as code in sequence. -/
theorem evoLoop_succ (cfg : EvoConfig γ ψ φ ρ) (fuel : Nat) (g : Int) (parents : List Nat) (m : Mem γ ψ φ ρ) :
    evoLoop cfg (fuel + 1) g parents m = if cfg.stop g parents m then (.ok parents, m)
      else (runPipeline parents (cfg.choose g parents) cfg.stages cfg.size >>= fun offspring =>
        (fun m1 => evoLoop cfg fuel (g + 1) (elitistSurvival (cfg.lt m1) offspring parents cfg.kElites).1 m1 : HM (Mem γ ψ φ ρ) (List Nat))) m := by
  conv_lhs => unfold evoLoop
  split
  · rfl
  · change _ = HM.andThen _ _ _
    unfold HM.andThen
    rcases runPipeline parents (cfg.choose g parents) cfg.stages cfg.size m with ⟨r, m1⟩
    cases r <;> rfl

theorem cost_evoLoop {c : Nat} {cfg : EvoConfig γ ψ φ ρ} {before : List (Stage γ ψ φ ρ)} {last : Stage γ ψ φ ρ} (hst : cfg.stages = before ++ [last])
    (hb : ∀ st ∈ before, Silent calls st) (hl : Ending calls c c last) (hc : ∀ g pop, SilentChoice calls (cfg.choose g pop)) :
    ∀ fuel g parents m, WithinBudget calls 0 (cfg.size * c) fuel (fun n out m' => cfg.stop (g + n) out m' = true) m (evoLoop cfg fuel g parents m) := by
  intro fuel
  induction fuel with
  | zero => intro g parents m; exact budget_ret (fun h => absurd h (by simp))
  | succ fuel ih =>
    intro g parents m
    rw [evoLoop_succ]
    split
    · rename_i h; exact budget_ret fun _ => by simpa using h
    · rw [hst]
      refine budget_step (cost_pipeline hb hl (hc g parents) cfg.size) (fun offspring _ m1 => ?_) m
      have := ih (g + 1) (elitistSurvival (cfg.lt m1) offspring parents cfg.kElites).1 m1
      simpa only [Nat.cast_add, Nat.cast_one, Int.add_assoc, Int.add_comm, Int.add_left_comm] using this

/-- A run of `generational_ea` whose pipeline ends in `evaluate` calls the problem exactly once per member of the initial population and once per member of each pool: `popSize + n * size` times after
`n` generations. It goes through all generations unless the stop condition holds. A run that raises has not called it more often than a complete run. Survivors and elites are never scored
again. With `c` other than 1: each of these calls costs `c`. -/
theorem generational_budget {c : Nat} {cfg : EvoConfig γ ψ φ ρ} {dec : Dec γ ψ} {prob : Prob γ ψ φ ρ} {before : List (Stage γ ψ φ ρ)}
    (hst : cfg.stages = before ++ [.evaluate dec prob]) (hb : ∀ st ∈ before, Silent calls st) (hp : Charges calls c prob)
    (hc : ∀ g pop, SilentChoice calls (cfg.choose g pop)) {initGenome : ρ → PyM (List γ) × ρ} (hi : ∀ s, calls (initGenome s).2 = calls s)
    (problem popSize : Nat) (start max : Int) (m : Mem γ ψ φ ρ) :
    WithinBudget calls (popSize * c) (cfg.size * c) (max - start).toNat (fun n out m' => cfg.stop (start + n) out m' = true) m
      (evoRun cfg initGenome dec prob problem popSize start max m) := by
  have h1 : Costs calls (popSize * c) (popSize * c)
      (createPopulation initGenome problem popSize >>= fun parents => evaluatePopulation dec prob parents >>= fun _ => pure parents) fun _ => True := by
    refine Costs.seq0 (free_createPopulation hi problem popSize) fun l hl => ?_
    rw [← hl]
    exact Costs.then0 (cost_evaluatePopulation hp dec l) fun _ _ => Costs.ret trivial
  have h2 := budget_first h1 (fun a _ m => cost_evoLoop hst hb (.evaluate hp) hc (max - start).toNat start a m) m
  have e : evoRun cfg initGenome dec prob problem popSize start max = (createPopulation initGenome problem popSize >>= fun parents =>
      evaluatePopulation dec prob parents >>= fun _ => pure parents) >>= fun parents => evoLoop cfg (max - start).toNat start parents := by
    funext m
    unfold evoRun
    simp only [HM.bind_apply]
    rcases createPopulation initGenome problem popSize m with ⟨r, m1⟩
    cases r with
    | error => rfl
    | ok l =>
      simp only
      rcases evaluatePopulation dec prob l m1 with ⟨r, m2⟩
      cases r <;> rfl
  rw [e]
  exact h2

/-- With operators that keep children the cost is the same. -/
theorem persist_budget {c : Nat} {cfg : EvoConfig γ ψ φ ρ} {dec : Dec γ ψ} {prob : Prob γ ψ φ ρ} {before : List (Stage γ ψ φ ρ)}
    (hst : cfg.stages = before ++ [.evaluate dec prob]) (hb : ∀ st ∈ before, Silent calls st) (hp : Charges calls c prob)
    (hc : ∀ g pop, SilentChoice calls (cfg.choose g pop)) {initGenome : ρ → PyM (List γ) × ρ} (hi : ∀ s, calls (initGenome s).2 = calls s)
    (persist : List Bool) (second : List (Option Nat)) (problem popSize : Nat) (start max : Int) (m : Mem γ ψ φ ρ) :
    WithinBudget calls (popSize * c) (cfg.size * c) (max - start).toNat (fun n out m' => cfg.stop (start + n) out.1 m' = true) m
      (persistRun cfg persist second initGenome dec prob problem popSize start max m) := by
  have hpipe : ∀ pop (choose : Mem γ ψ φ ρ → PyM Nat × ρ), SilentChoice calls choose → ∀ second, Costs calls (cfg.size * c) (cfg.size * c)
      (persistPipeline pop choose cfg.stages persist cfg.size second) fun _ => True := by
    intro pop choose h second
    rw [hst]
    unfold persistPipeline
    refine Costs.then0 (cost_hpull (M := stagesIter (Stage.clone.apply (selectionIter pop choose)) (before ++ [.evaluate dec prob])) ?_ cfg.size _)
      fun q hq => Costs.ret trivial
    exact cost_stages hb (.evaluate hp) (silent_apply (free_selection h) trivial)
  have hloop : ∀ fuel g parents second m, WithinBudget calls 0 (cfg.size * c) fuel (fun n (out : List Nat × List (Option Nat)) m' => cfg.stop (g + n) out.1 m' = true) m
      (persistLoop cfg persist fuel g parents second m) := by
    intro fuel
    induction fuel with
    | zero => intro g parents second m; exact budget_ret (fun h => absurd h (by simp))
    | succ fuel ih =>
      intro g parents second m
      have e : persistLoop cfg persist (fuel + 1) g parents second m = if cfg.stop g parents m then (.ok (parents, second), m)
          else (persistPipeline parents (cfg.choose g parents) cfg.stages persist cfg.size second >>= fun os =>
            (fun m1 => persistLoop cfg persist fuel (g + 1) (elitistSurvival (cfg.lt m1) os.1 parents cfg.kElites).1 os.2 m1 :
              HM (Mem γ ψ φ ρ) (List Nat × List (Option Nat)))) m := by
        conv_lhs => unfold persistLoop
        split
        · rfl
        · change _ = HM.andThen _ _ _
          unfold HM.andThen
          rcases persistPipeline parents (cfg.choose g parents) cfg.stages persist cfg.size second m with ⟨r, m1⟩
          cases r <;> rfl
      rw [e]
      split
      · rename_i h; exact budget_ret fun _ => by simpa using h
      · refine budget_step (hpipe parents _ (hc g parents) second) (fun os _ m1 => ?_) m
        have := ih (g + 1) (elitistSurvival (cfg.lt m1) os.1 parents cfg.kElites).1 os.2 m1
        simpa only [Nat.cast_add, Nat.cast_one, Int.add_assoc, Int.add_comm, Int.add_left_comm] using this
  have h1 : Costs calls (popSize * c) (popSize * c)
      (createPopulation initGenome problem popSize >>= fun parents => evaluatePopulation dec prob parents >>= fun _ => pure parents) fun _ => True := by
    refine Costs.seq0 (free_createPopulation hi problem popSize) fun l hl => ?_
    rw [← hl]
    exact Costs.then0 (cost_evaluatePopulation hp dec l) fun _ _ => Costs.ret trivial
  have h2 := budget_first h1 (fun a _ m => hloop (max - start).toNat start a second m) m
  have e : persistRun cfg persist second initGenome dec prob problem popSize start max = (createPopulation initGenome problem popSize >>= fun parents =>
      evaluatePopulation dec prob parents >>= fun _ => pure parents) >>= fun parents => persistLoop cfg persist (max - start).toNat start parents second := by
    funext m
    unfold persistRun
    simp only [HM.bind_apply]
    rcases createPopulation initGenome problem popSize m with ⟨r, m1⟩
    cases r with
    | error => rfl
    | ok l =>
      simp only
      rcases evaluatePopulation dec prob l m1 with ⟨r, m2⟩
      cases r <;> rfl
  rw [e]
  exact h2

/-! ### `random_search` -/

/-- A returning call of `random_search` with a pipeline that ends in `evaluate` and `pool(1)` has called the problem exactly `evaluations` times, but once when `evaluations` is less than 1; one that raises has
called it no more often. -/
theorem walk_budget {c : Nat} {choose : Int → List Nat → Mem γ ψ φ ρ → PyM Nat × ρ} {dec : Dec γ ψ} {prob : Prob γ ψ φ ρ} {before : List (Stage γ ψ φ ρ)}
    (hb : ∀ st ∈ before, Silent calls st) (hp : Charges calls c prob)
    (hc : ∀ g pop, SilentChoice calls (choose g pop)) {initGenome : ρ → PyM (List γ) × ρ} (hi : ∀ s, calls (initGenome s).2 = calls s)
    (problem : Nat) (evaluations : Int) (m : Mem γ ψ φ ρ) :
    match walkRun choose (before ++ [.evaluate dec prob]) 1 initGenome dec prob problem evaluations m with
    | (.ok _, m') => calls m'.rng = calls m.rng + max 1 evaluations.toNat * c
    | (.error _, m') => calls m.rng ≤ calls m'.rng ∧ calls m'.rng ≤ calls m.rng + max 1 evaluations.toNat * c := by
  have hloop : ∀ fuel g ind traj m, WithinBudget calls 0 c fuel (fun _ _ _ => False) m
      (walkLoop choose (before ++ [.evaluate dec prob]) 1 fuel g ind traj m) := by
    intro fuel
    induction fuel with
    | zero => intro g ind traj m; exact budget_ret (fun h => absurd h (by simp))
    | succ fuel ih =>
      intro g ind traj m
      have e : walkLoop choose (before ++ [.evaluate dec prob]) 1 (fuel + 1) g ind traj m =
          (runPipeline [ind] (choose g [ind]) (before ++ [.evaluate dec prob]) 1 >>= fun out =>
            (match out with
              | [] => HM.raise .indexError
              | next :: more => walkLoop choose (before ++ [.evaluate dec prob]) 1 fuel (g + 1) next (traj ++ next :: more) :
              HM (Mem γ ψ φ ρ) (List Nat))) m := by
        conv_lhs => unfold walkLoop
        change _ = HM.andThen _ _ _
        unfold HM.andThen
        generalize (runPipeline [ind] (choose g [ind]) (before ++ [Stage.evaluate dec prob]) 1 : HM (Mem γ ψ φ ρ) (List Nat)) m = res
        rcases res with ⟨r, m1⟩
        cases r with
        | error => rfl
        | ok l => cases l <;> rfl
      rw [e]
      have hpipe := cost_pipeline (pop := [ind]) hb (.evaluate (dec := dec) hp) (hc g [ind]) 1
      rw [Nat.one_mul] at hpipe
      refine budget_step hpipe (fun out hout m1 => ?_) m
      cases out with
      | nil => simp at hout
      | cons next more => exact ih (g + 1) next (traj ++ next :: more) m1
  have h1 : Costs calls c c (createPopulation initGenome problem 1 >>= fun first => evaluatePopulation dec prob first >>= fun _ => pure first) fun _ => True := by
    refine Costs.seq0 (free_createPopulation hi problem 1) fun l hl => ?_
    have := cost_evaluatePopulation hp dec l
    rw [hl, Nat.one_mul] at this
    exact Costs.then0 this fun _ _ => Costs.ret trivial
  have h2 := budget_first h1 (fun a _ m => hloop (evaluations - 1).toNat 1 (a.headD 0) a m) m
  have e : walkRun choose (before ++ [.evaluate dec prob]) 1 initGenome dec prob problem evaluations = (createPopulation initGenome problem 1 >>= fun first =>
      evaluatePopulation dec prob first >>= fun _ => pure first) >>= fun first =>
        walkLoop choose (before ++ [.evaluate dec prob]) 1 (evaluations - 1).toNat 1 (first.headD 0) first := by
    funext m
    unfold walkRun
    simp only [HM.bind_apply]
    rcases createPopulation initGenome problem 1 m with ⟨r, m1⟩
    cases r with
    | error => rfl
    | ok l =>
      simp only
      rcases evaluatePopulation dec prob l m1 with ⟨r, m2⟩
      cases r <;> rfl
  rw [e]
  have e2 : max 1 evaluations.toNat * c = c + (evaluations - 1).toNat * c := by
    rw [show max 1 evaluations.toNat = 1 + (evaluations - 1).toNat by omega, Nat.add_mul, Nat.one_mul]
  rw [e2]
  revert h2
  generalize ((createPopulation initGenome problem 1 >>= fun first =>
      evaluatePopulation dec prob first >>= fun _ => pure first) >>= fun first =>
        walkLoop choose (before ++ [.evaluate dec prob]) 1 (evaluations - 1).toNat 1 (first.headD 0) first) m = res
  intro h2
  rcases res with ⟨r, m'⟩
  cases r with
  | error => exact ⟨h2.1, by have := h2.2; omega⟩
  | ok l =>
    obtain ⟨n, k1, k2, k3⟩ := h2
    have : n = (evaluations - 1).toNat := by
      by_contra hne
      exact k3 (by omega)
    subst this
    simp only
    omega

/-! ### `generalized_nsga_2` -/

/-- NSGA-II calls the problem as often as `generational_ea`: ranking and crowding never score anybody again. -/
theorem nsga_budget {c : Nat} {calls : ρ → Nat} {cfg : NsgaConfig γ ψ ρ} {dec : Dec γ ψ} {prob : Prob γ ψ (List ℚ) ρ} {before : List (Stage γ ψ (List ℚ) ρ)}
    (hst : cfg.stages = before ++ [.evaluate dec prob]) (hb : ∀ st ∈ before, Silent calls st) (hp : Charges calls c prob)
    (hc : ∀ g rank distance pop, SilentChoice calls (cfg.choose g rank distance pop)) {initGenome : ρ → PyM (List γ) × ρ} (hi : ∀ s, calls (initGenome s).2 = calls s)
    (isMulti : Bool) (problem popSize : Nat) (start max : Int) (rank : Nat → Nat) (distance : Nat → WithTop ℚ) (m : Mem γ ψ (List ℚ) ρ) :
    WithinBudget calls (popSize * c) (cfg.size * c) (max - start).toNat (fun n out m' => cfg.stop (start + n) out.pop m' = true) m
      (nsgaRun cfg isMulti initGenome dec prob problem popSize start max rank distance m) := by
  have hgen : ∀ g st, Costs calls (cfg.size * c) (cfg.size * c) (nsgaGeneration cfg g st) fun _ => True := by
    intro g st m
    have h := cost_pipeline hb (.evaluate (dec := dec) hp) (hc g st.rank st.distance st.pop) (pop := st.pop) cfg.size m
    rw [← hst] at h
    unfold nsgaGeneration
    rcases e : runPipeline st.pop (cfg.choose g st.rank st.distance st.pop) cfg.stages cfg.size m with ⟨r, m1⟩
    rw [e] at h
    cases r with
    | error => exact ⟨h.1, h.2.1, fun a ea => by simp at ea⟩
    | ok l =>
      simp only
      split
      · exact ⟨h.1, h.2.1, fun a ea => by simp at ea⟩
      · exact ⟨h.1, h.2.1, fun a ea => ⟨(h.2.2 l rfl).1, trivial⟩⟩
  have hloop : ∀ fuel g st m, WithinBudget calls 0 (cfg.size * c) fuel (fun n (out : NsgaState) m' => cfg.stop (g + n) out.pop m' = true) m (nsgaLoop cfg fuel g st m) := by
    intro fuel
    induction fuel with
    | zero => intro g st m; exact budget_ret (fun h => absurd h (by simp))
    | succ fuel ih =>
      intro g st m
      unfold nsgaLoop
      split
      · rename_i h; exact budget_ret fun _ => by simpa using h
      · refine budget_step (hgen g st) (fun st' _ m1 => ?_) m
        have := ih (g + 1) st' m1
        simpa only [Nat.cast_add, Nat.cast_one, Int.add_assoc, Int.add_comm, Int.add_left_comm] using this
  cases isMulti with
  | false => exact ⟨Nat.le_refl _, by omega⟩
  | true =>
    have h1 : Costs calls (popSize * c) (popSize * c)
        (createPopulation initGenome problem popSize >>= fun parents => evaluatePopulation dec prob parents >>= fun _ => pure parents) fun _ => True := by
      refine Costs.seq0 (free_createPopulation hi problem popSize) fun l hl => ?_
      rw [← hl]
      exact Costs.then0 (cost_evaluatePopulation hp dec l) fun _ _ => Costs.ret trivial
    have h2 := budget_first h1 (fun a _ m => hloop (max - start).toNat start ⟨a, rank, distance⟩ m) m
    have e : nsgaRun cfg true initGenome dec prob problem popSize start max rank distance = (createPopulation initGenome problem popSize >>= fun parents =>
        evaluatePopulation dec prob parents >>= fun _ => pure parents) >>= fun parents => nsgaLoop cfg (max - start).toNat start ⟨parents, rank, distance⟩ := by
      funext m
      unfold nsgaRun
      simp only [HM.bind_apply, if_true]
      rcases createPopulation initGenome problem popSize m with ⟨r, m1⟩
      cases r with
      | error => rfl
      | ok l =>
        simp only
        rcases evaluatePopulation dec prob l m1 with ⟨r, m2⟩
        cases r <;> rfl
    rw [e]
    exact h2

/-! ### `multi_population_ea` with migration -/

theorem free_pickOne {choose : Mem γ ψ φ ρ → PyM Nat × ρ} (h : SilentChoice calls choose) (pop : List Nat) :
    Costs calls 0 0 (pickOne choose pop) fun _ => True := by
  intro m
  have := h m
  unfold pickOne
  rcases e : choose m with ⟨x, t⟩
  rw [e] at this
  simp only at this
  cases x with
  | error err => exact ⟨by simp only; omega, by simp only; omega, fun _ _ => ⟨by simp only; omega, trivial⟩⟩
  | ok i =>
    simp only
    cases pop[i]? with
    | none => exact ⟨by simp only; omega, by simp only; omega, fun _ _ => ⟨by simp only; omega, trivial⟩⟩
    | some r => exact ⟨by simp only; omega, by simp only; omega, fun _ _ => ⟨by simp only; omega, trivial⟩⟩

theorem free_immigrate {cfg : IslandConfig γ ψ φ ρ} (h : ∀ pop, SilentChoice calls (cfg.replace pop)) :
    ∀ queue pop, Costs calls 0 0 (immigrateInds cfg queue pop) fun _ => True := by
  intro queue
  induction queue with
  | nil => intro pop; exact Costs.ret trivial
  | cons imm rest ih =>
    intro pop
    refine Costs.seq0 (free_pickOne (h pop) pop) fun p _ => ?_
    intro m
    exact ih _ m

theorem free_emigrate {cfg : IslandConfig γ ψ φ ρ} (h : ∀ pop, SilentChoice calls (cfg.sponsor pop)) (hd : ∀ s n, calls (cfg.dest s n).2 = calls s)
    (g : Int) (cur : Nat) (pop : List Nat) (queues : List (List Nat)) : Costs calls 0 0 (emigrateInds cfg g cur pop queues) fun _ => True := by
  unfold emigrateInds
  split
  · exact Costs.bad
  · split
    · refine Costs.seq0 (free_pickOne (h pop) pop) fun p _ => ?_
      refine Costs.seq0 (P := fun _ => True) ?_ fun _ _ => ?_
      · unfold cloneWithFitness
        refine Costs.seq0 (free_cloneInd _) fun _ _ => ?_
        costless
      · refine Costs.seq0 (Costs.rng fun s => hd s _) fun k _ => ?_
        split
        · exact Costs.bad
        · split
          · exact Costs.bad
          · exact Costs.ret trivial
    · exact Costs.ret trivial

theorem free_createIslands {initGenome : ρ → PyM (List γ) × ρ} (h : ∀ s, calls (initGenome s).2 = calls s) (problem popSize : Nat) :
    ∀ n, Costs calls 0 0 (createIslands initGenome problem popSize n : HM (Mem γ ψ φ ρ) _) fun l => l.length = n ∧ ∀ p ∈ l, p.length = popSize := by
  intro n
  induction n with
  | zero => exact Costs.ret (by simp)
  | succ n ih =>
    unfold createIslands
    refine Costs.seq0 (free_createPopulation h problem popSize) fun p hp => ?_
    refine Costs.seq0 ih fun ps hps => ?_
    refine Costs.ret ⟨by simp [hps.1], ?_⟩
    intro q hq
    rcases List.mem_cons.1 hq with rfl | hq
    · exact hp
    · exact hps.2 q hq

theorem cost_evaluateIslands {c : Nat} {prob : Prob γ ψ φ ρ} (h : Charges calls c prob) (dec : Dec γ ψ) (popSize : Nat) :
    ∀ pops : List (List Nat), (∀ p ∈ pops, p.length = popSize) →
      Costs calls (pops.length * (popSize * c)) (pops.length * (popSize * c)) (evaluateIslands dec prob pops) fun _ => True := by
  intro pops
  induction pops with
  | nil => intro _; rw [List.length_nil, Nat.zero_mul]; exact Costs.ret trivial
  | cons p ps ih =>
    intro hl
    unfold evaluateIslands
    have h1 := cost_evaluatePopulation h dec p
    rw [hl p (by simp)] at h1
    have := Costs.seq h1 fun _ _ => ih fun q hq => hl q (by simp [hq])
    rw [show (p :: ps).length * (popSize * c) = popSize * c + ps.length * (popSize * c) by simp [Nat.add_mul, Nat.add_comm]]
    exact this

/-- A run of `multi_population_ea` on `numPopulations` islands calls the problem exactly `numPopulations` times as often as `generational_ea`: migrants travel with their fitness and are not scored again. -/
theorem island_budget {c : Nat} {cfg : IslandConfig γ ψ φ ρ} {dec : Dec γ ψ} {prob : Prob γ ψ φ ρ} {before : List (Stage γ ψ φ ρ)}
    (hst : cfg.stages = before ++ [.evaluate dec prob]) (hb : ∀ st ∈ before, Silent calls st) (hp : Charges calls c prob)
    (hc : ∀ g i pop, SilentChoice calls (cfg.choose g i pop)) (hr : ∀ pop, SilentChoice calls (cfg.replace pop))
    (hs : ∀ pop, SilentChoice calls (cfg.sponsor pop)) (hd : ∀ s n, calls (cfg.dest s n).2 = calls s)
    {initGenome : ρ → PyM (List γ) × ρ} (hi : ∀ s, calls (initGenome s).2 = calls s)
    (problem numPopulations popSize : Nat) (max : Int) (m : Mem γ ψ φ ρ) :
    WithinBudget calls (numPopulations * (popSize * c)) (numPopulations * (cfg.size * c)) max.toNat (fun n out m' => cfg.stop n out.1 m' = true) m
      (islandRun cfg initGenome dec prob problem numPopulations popSize max m) := by
  have hstep : ∀ g cur parents queues, Costs calls (cfg.size * c) (cfg.size * c) (islandStep cfg g cur parents queues) fun _ => True := by
    intro g cur parents queues
    unfold islandStep
    rw [hst]
    refine Costs.then0 (cost_pipeline hb (.evaluate hp) (hc g cur parents) cfg.size) fun off _ => ?_
    split
    · exact Costs.bad
    · refine Costs.seq0 (free_immigrate hr _ _) fun pop _ => ?_
      exact Costs.seq0 (free_emigrate hs hd _ _ _ _) fun _ _ => Costs.ret trivial
  have hsweep : ∀ g k cur pops queues, Costs calls (k * (cfg.size * c)) (k * (cfg.size * c)) (islandSweep cfg g k cur pops queues)
      fun pq => pq.1.length = pops.length := by
    intro g k
    induction k with
    | zero => intro cur pops queues; rw [Nat.zero_mul]; exact Costs.ret rfl
    | succ k ih =>
      intro cur pops queues
      unfold islandSweep
      rw [Nat.succ_mul, Nat.add_comm]
      refine Costs.seq (hstep g cur _ queues) fun pq _ => ?_
      refine Costs.mono (ih (cur + 1) (pops.set cur pq.1) pq.2) (Nat.le_refl _) (Nat.le_refl _) ?_
      intro a ha
      simpa using ha
  have hloop : ∀ fuel g pops queues m, pops.length = numPopulations → WithinBudget calls 0 (numPopulations * (cfg.size * c)) fuel
      (fun n (out : List (List Nat) × List (List Nat)) m' => cfg.stop (g + n) out.1 m' = true) m (islandLoop cfg fuel g pops queues m) := by
    intro fuel
    induction fuel with
    | zero => intro g pops queues m _; exact budget_ret (fun h => absurd h (by simp))
    | succ fuel ih =>
      intro g pops queues m hlen
      unfold islandLoop
      split
      · rename_i h; exact budget_ret fun _ => by simpa using h
      · have hsw := hsweep g pops.length 0 pops queues
        rw [hlen] at hsw ⊢
        refine budget_step hsw (fun pq hpq m1 => ?_) m
        have := ih (g + 1) pq.1 pq.2 m1 hpq
        simpa only [Nat.cast_add, Nat.cast_one, Int.add_assoc, Int.add_comm, Int.add_left_comm] using this
  have h1 : Costs calls (numPopulations * (popSize * c)) (numPopulations * (popSize * c))
      (createIslands initGenome problem popSize numPopulations >>= fun pops => evaluateIslands dec prob pops >>= fun _ => pure pops) fun l => l.length = numPopulations := by
    refine Costs.seq0 (free_createIslands hi problem popSize numPopulations) fun l hl => ?_
    have := cost_evaluateIslands hp dec popSize l hl.2
    rw [hl.1] at this
    exact Costs.then0 this fun _ _ => Costs.ret hl.1
  have h2 := budget_first h1 (fun a ha m => hloop max.toNat 0 a (List.replicate cfg.numIslands []) m ha) m
  have e : islandRun cfg initGenome dec prob problem numPopulations popSize max = (createIslands initGenome problem popSize numPopulations >>= fun pops =>
      evaluateIslands dec prob pops >>= fun _ => pure pops) >>= fun pops => islandLoop cfg max.toNat 0 pops (List.replicate cfg.numIslands []) := by
    funext m
    unfold islandRun
    simp only [HM.bind_apply]
    rcases createIslands initGenome problem popSize numPopulations m with ⟨r, m1⟩
    cases r with
    | error => rfl
    | ok l =>
      simp only
      rcases evaluateIslands dec prob l m1 with ⟨r, m2⟩
      cases r <;> rfl
  rw [e]
  simpa only [Int.zero_add] using h2

/-! ### Cooperative coevolution -/

theorem free_chooseTeam {c : Collab γ ψ ρ} {calls : ρ → Nat} (h : SilentCollab calls c) (current cur : Nat) :
    ∀ (pops : List (List Nat)) (i : Nat) (ss : List c.σ), Costs calls 0 0 (chooseTeam c current cur i pops ss) fun _ => True := by
  intro pops
  induction pops with
  | nil => intro i ss; unfold chooseTeam; exact Costs.ret trivial
  | cons pop pops ih =>
    intro i ss
    cases ss with
    | nil => unfold chooseTeam; exact Costs.ret trivial
    | cons s ss =>
      unfold chooseTeam
      split
      · refine Costs.seq0 (P := fun _ => True) ?_ fun _ _ => Costs.seq0 (ih _ _) fun _ _ => Costs.ret trivial
        intro m
        have := h pop s m
        unfold Collab.next
        rcases e : c.pick pop s m with ⟨x, t⟩
        rw [e] at this
        simp only at this
        cases x with
        | error err => exact ⟨by simp only; omega, by simp only; omega, fun _ _ => ⟨by simp only; omega, trivial⟩⟩
        | ok i =>
          simp only
          cases pop[i.1]? with
          | none => exact ⟨by simp only; omega, by simp only; omega, fun _ _ => ⟨by simp only; omega, trivial⟩⟩
          | some r => exact ⟨by simp only; omega, by simp only; omega, fun _ _ => ⟨by simp only; omega, trivial⟩⟩
      · exact Costs.seq0 (ih _ _) fun _ _ => Costs.ret trivial

theorem free_genomesOf {calls : ρ → Nat} : ∀ l, Costs calls 0 0 (genomesOf l : HM (Mem γ ψ ℚ ρ) _) fun _ => True := by
  intro l
  induction l with
  | nil => exact Costs.ret trivial
  | cons r rs ih =>
    unfold genomesOf
    refine Costs.seq0 (free_getObj _) fun _ _ => Costs.seq0 (free_getArr _) fun _ _ => Costs.seq0 ih fun _ _ => Costs.ret trivial

theorem free_combineInds {calls : ρ → Nat} (l : List Nat) : Costs calls 0 0 (combineInds l : HM (Mem γ ψ ℚ ρ) _) fun _ => True := by
  unfold combineInds
  cases l with
  | nil => exact Costs.freeRaise
  | cons r rs =>
    refine Costs.seq0 (free_cloneInd _) fun _ _ => Costs.seq0 (free_genomesOf _) fun _ _ => ?_
    costless

theorem free_createTeams {calls : ρ → Nat} (popSize : Nat) : ∀ subpops : List ((ρ → PyM (List γ) × ρ) × Nat), (∀ ip ∈ subpops, ∀ s, calls (ip.1 s).2 = calls s) →
    Costs calls 0 0 (createTeams popSize subpops : HM (Mem γ ψ ℚ ρ) _) fun l => l.length = subpops.length := by
  intro subpops
  induction subpops with
  | nil => intro _; exact Costs.ret rfl
  | cons ip rest ih =>
    intro h
    unfold createTeams
    refine Costs.seq0 (free_createPopulation (h ip (by simp)) _ _) fun _ _ => ?_
    exact Costs.seq0 (ih fun q hq => h q (by simp [hq])) fun l hl => Costs.ret (by simp [hl])

theorem free_constEvaluateAll {calls : ρ → Nat} (value : ℚ) : ∀ pops, Costs calls 0 0 (constEvaluateAll value pops : HM (Mem γ ψ ℚ ρ) _) fun _ => True := by
  have h1 : ∀ l, Costs calls 0 0 (constEvaluate value l : HM (Mem γ ψ ℚ ρ) _) fun _ => True := by
    intro l
    induction l with
    | nil => exact Costs.ret trivial
    | cons r rs ih =>
      unfold constEvaluate
      exact Costs.seq0 (free_modObj _ _) fun _ _ => ih
  intro pops
  induction pops with
  | nil => exact Costs.ret trivial
  | cons p ps ih =>
    unfold constEvaluateAll
    exact Costs.seq0 (h1 p) fun _ _ => ih

/-- A run of cooperative coevolution calls the problem exactly `numTrials` times for each offspring, and never for the initial sub-populations. -/
theorem coop_budget {c : Nat} {calls : ρ → Nat} {cfg : CoopConfig γ ψ ρ} (hb : ∀ st ∈ cfg.stages, Silent calls st)
    (hp : ∀ problem, Charges calls c (cfg.env problem).2) (hcl : SilentCollab calls cfg.collab) (hc : ∀ g i pop, SilentChoice calls (cfg.choose g i pop))
    {subpops : List ((ρ → PyM (List γ) × ρ) × Nat)} (hi : ∀ ip ∈ subpops, ∀ s, calls (ip.1 s).2 = calls s)
    (popSize : Nat) (value : ℚ) (max : Int) (m : Mem γ ψ ℚ ρ) :
    WithinBudget calls 0 (subpops.length * (cfg.size * (cfg.numTrials * c))) max.toNat (fun n out m' => cfg.stop n out m' = true) m
      (coopRun cfg subpops popSize value max m) := by
  have htrials : ∀ pops current cur k ss, Costs calls (k * c) (k * c) (coopTrials cfg.env cfg.collab pops current cur k ss) fun _ => True := by
    intro pops current cur k
    induction k with
    | zero => intro ss; rw [Nat.zero_mul]; exact Costs.ret trivial
    | succ k ih =>
      intro ss
      unfold coopTrials
      rw [Nat.succ_mul, Nat.add_comm]
      refine Costs.seq0 (free_chooseTeam hcl _ _ _ _ _) fun _ _ => Costs.seq0 (free_combineInds _) fun x _ => ?_
      refine Costs.seq (P := fun _ => True) ?_ fun _ _ => Costs.then0 (ih _) fun _ _ => Costs.ret trivial
      unfold evaluateCombined
      exact Costs.seq0 (free_getObj _) fun _ _ => cost_evaluateInd (hp _) _ _
  have hpipe : ∀ g cur pops parents, Costs calls (cfg.size * (cfg.numTrials * c)) (cfg.size * (cfg.numTrials * c)) (coopPipeline cfg g cur pops parents) fun _ => True := by
    intro g cur pops parents
    unfold coopPipeline
    refine Costs.then0 (cost_hpull (M := coopApply cfg.env cfg.collab cfg.numTrials pops cur
      (stagesIter (selectionIter parents (cfg.choose g cur parents)) (Stage.clone :: cfg.stages))) ?_ cfg.size _) fun _ _ => Costs.ret trivial
    intro s
    have hup := silent_stages (Stage.clone :: cfg.stages) (selectionIter parents (cfg.choose g cur parents)) (free_selection (hc g cur parents))
      (by intro st hst; rcases List.mem_cons.1 hst with rfl | hst; exacts [trivial, hb st hst])
    refine Costs.pep (Costs.seq0 (hup s) fun _ _ => Costs.then0 (P := fun _ => True) ?_ fun _ _ => Costs.ret trivial)
    unfold coopEvaluate
    refine Costs.then0 (htrials _ _ _ _ _) fun _ _ => ?_
    costless
  have hsweep : ∀ g k cur pops, Costs calls (k * (cfg.size * (cfg.numTrials * c))) (k * (cfg.size * (cfg.numTrials * c))) (coopSweep cfg g k cur pops)
      fun ps => ps.length = pops.length := by
    intro g k
    induction k with
    | zero => intro cur pops; rw [Nat.zero_mul]; exact Costs.ret rfl
    | succ k ih =>
      intro cur pops
      unfold coopSweep
      rw [Nat.succ_mul, Nat.add_comm]
      refine Costs.seq (hpipe g cur pops _) fun off _ => ?_
      refine Costs.mono (ih (cur + 1) (pops.set cur off)) (Nat.le_refl _) (Nat.le_refl _) ?_
      intro a ha
      simpa using ha
  have hloop : ∀ fuel g pops m, pops.length = subpops.length → WithinBudget calls 0 (subpops.length * (cfg.size * (cfg.numTrials * c))) fuel
      (fun n (out : List (List Nat)) m' => cfg.stop (g + n) out m' = true) m (coopLoop cfg fuel g pops m) := by
    intro fuel
    induction fuel with
    | zero => intro g pops m _; exact budget_ret (fun h => absurd h (by simp))
    | succ fuel ih =>
      intro g pops m hlen
      unfold coopLoop
      split
      · rename_i h; exact budget_ret fun _ => by simpa using h
      · have hsw := hsweep g pops.length 0 pops
        rw [hlen] at hsw ⊢
        refine budget_step hsw (fun ps hps m1 => ?_) m
        have := ih (g + 1) ps m1 hps
        simpa only [Nat.cast_add, Nat.cast_one, Int.add_assoc, Int.add_comm, Int.add_left_comm] using this
  have h1 : Costs calls 0 0 (createTeams popSize subpops >>= fun pops => constEvaluateAll value pops >>= fun _ => (pure pops : HM (Mem γ ψ ℚ ρ) _))
      fun l => l.length = subpops.length :=
    Costs.seq0 (free_createTeams popSize subpops hi) fun l hl => Costs.seq0 (free_constEvaluateAll value l) fun _ _ => Costs.ret hl
  have h2 := budget_first h1 (fun a ha m => hloop max.toNat 0 a m ha) m
  have e : coopRun cfg subpops popSize value max = (createTeams popSize subpops >>= fun pops => constEvaluateAll value pops >>= fun _ => pure pops) >>= fun pops =>
      coopLoop cfg max.toNat 0 pops := by
    funext m
    unfold coopRun
    simp only [HM.bind_apply]
    rcases createTeams popSize subpops m with ⟨r, m1⟩
    cases r with
    | error => rfl
    | ok l =>
      simp only
      rcases constEvaluateAll value l m1 with ⟨r, m2⟩
      cases r <;> rfl
  rw [e]
  simpa only [Int.zero_add] using h2

/-- So does a run with a `CooperativeProblem`, which calls the problem it wraps, whatever the size of the chunks. -/
theorem coop_problem_budget {c : Nat} {calls : ρ → Nat} {cfg : CoopGroupConfig γ ψ ρ} (hb : ∀ st ∈ cfg.stages, Silent calls st)
    (hp : Charges calls c cfg.cp.wrapped) (hcl : SilentCollab calls cfg.cp.collab) (hc : ∀ g i pop, SilentChoice calls (cfg.choose g i pop))
    {subpops : List ((ρ → PyM (List γ) × ρ) × Nat)} (hi : ∀ ip ∈ subpops, ∀ s, calls (ip.1 s).2 = calls s)
    (popSize : Nat) (value : ℚ) (max : Int) (m : Mem γ ψ ℚ ρ) :
    WithinBudget calls 0 (subpops.length * (cfg.size * (cfg.cp.numTrials * c))) max.toNat (fun n out m' => cfg.stop n out m' = true) m
      (coopGroupRun cfg subpops popSize value max m) := by
  have htrials : ∀ pops current cur k, Costs calls (k * c) (k * c) (cpTrials cfg.cp pops current cur k) fun _ => True := by
    intro pops current cur k
    induction k with
    | zero => rw [Nat.zero_mul]; exact Costs.ret trivial
    | succ k ih =>
      unfold cpTrials
      rw [Nat.succ_mul, Nat.add_comm]
      refine Costs.seq0 (free_chooseTeam hcl _ _ _ _ _) fun _ _ => Costs.seq0 (free_genomesOf _) fun _ _ => ?_
      refine Costs.seq0 (free_newArr _) fun _ _ => Costs.seq0 (free_makeIndividual _ _) fun _ _ => ?_
      exact Costs.seq (cost_evaluateInd hp _ _) fun _ _ => Costs.then0 ih fun _ _ => Costs.ret trivial
  have hmult : ∀ pops cur l, Costs calls (l.length * (cfg.cp.numTrials * c)) (l.length * (cfg.cp.numTrials * c)) (cpMultiple cfg.cp pops cur l) fun _ => True := by
    intro pops cur l
    induction l with
    | nil => rw [List.length_nil, Nat.zero_mul]; exact Costs.ret trivial
    | cons r rs ih =>
      unfold cpMultiple
      rw [show (r :: rs).length * (cfg.cp.numTrials * c) = cfg.cp.numTrials * c + rs.length * (cfg.cp.numTrials * c) by simp [Nat.add_mul, Nat.add_comm]]
      refine Costs.seq (P := fun _ => True) ?_ fun _ _ => Costs.then0 ih fun _ _ => Costs.ret trivial
      unfold cpEvaluate
      exact Costs.then0 (htrials _ _ _ _) fun _ _ => Costs.ret trivial
  have hphen : ∀ own l, Costs calls 0 0 (phenomesOf own l : HM (Mem γ ψ ℚ ρ) _) fun _ => True := by
    intro own l
    induction l with
    | nil => exact Costs.ret trivial
    | cons r rs ih =>
      unfold phenomesOf
      exact Costs.seq0 (free_phenomeOf _ _) fun _ _ => Costs.seq0 ih fun _ _ => Costs.ret trivial
  have hchunks : ∀ own pops cur (ls : List (List Nat)), Costs calls (ls.flatten.length * (cfg.cp.numTrials * c)) (ls.flatten.length * (cfg.cp.numTrials * c))
      (cpChunks cfg.cp own pops cur ls) fun _ => True := by
    intro own pops cur ls
    induction ls with
    | nil => rw [List.flatten_nil, List.length_nil, Nat.zero_mul]; exact Costs.ret trivial
    | cons ch chs ih =>
      unfold cpChunks
      rw [List.flatten_cons, List.length_append, Nat.add_mul]
      exact Costs.seq0 (hphen own ch) fun _ _ => Costs.seq (hmult pops cur ch) fun _ _ => Costs.then0 ih fun _ _ => Costs.ret trivial
  have hassign : ∀ fs l, Costs calls 0 0 (assignFitnesses fs l : HM (Mem γ ψ ℚ ρ) _) fun _ => True := by
    intro fs
    induction fs with
    | nil => intro l; unfold assignFitnesses; exact Costs.ret trivial
    | cons f fs ih =>
      intro l
      cases l with
      | nil => unfold assignFitnesses; exact Costs.ret trivial
      | cons r rs => unfold assignFitnesses; exact Costs.seq0 (free_modObj _ _) fun _ _ => ih rs
  have hproblems : ∀ l, Costs calls 0 0 (problemsOf l : HM (Mem γ ψ ℚ ρ) _) fun _ => True := by
    intro l
    induction l with
    | nil => exact Costs.ret trivial
    | cons r rs ih => unfold problemsOf; exact Costs.seq0 (free_getObj _) fun _ _ => Costs.seq0 ih fun _ _ => Costs.ret trivial
  have hgroup : ∀ own pops cur (l : List Nat), Costs calls (l.length * (cfg.cp.numTrials * c)) (l.length * (cfg.cp.numTrials * c))
      (groupedCooperate cfg.cp own cfg.chunk pops cur l) fun _ => True := by
    intro own pops cur l
    unfold groupedCooperate
    cases l with
    | nil => rw [List.length_nil, Nat.zero_mul]; exact Costs.freeRaise
    | cons p0 rest =>
      simp only
      refine Costs.seq0 (free_getObj _) fun o _ => Costs.seq0 (hproblems _) fun ps _ => ?_
      split
      · split
        · rename_i hn
          have := hchunks own pops cur (chunksOf _ hn (p0 :: rest))
          rw [chunksOf_flatten] at this
          exact Costs.then0 this fun _ _ => Costs.seq0 (hassign _ _) fun _ _ => Costs.ret trivial
        · exact Costs.bad
      · exact Costs.bad
  have hpipe : ∀ g cur pops parents, Costs calls (cfg.size * (cfg.cp.numTrials * c)) (cfg.size * (cfg.cp.numTrials * c)) (coopGroupPipeline cfg g cur pops parents) fun _ => True := by
    intro g cur pops parents
    unfold coopGroupPipeline
    refine Costs.seq0 (P := fun l => l.length = cfg.size) ?_ fun l hl => ?_
    · unfold runPipeline
      have hup := silent_stages (Stage.clone :: cfg.stages) (selectionIter parents (cfg.choose g cur parents)) (free_selection (hc g cur parents))
        (by intro st hst; rcases List.mem_cons.1 hst with rfl | hst; exacts [trivial, hb st hst])
      have := cost_hpull (M := stagesIter (selectionIter parents (cfg.choose g cur parents)) (Stage.clone :: cfg.stages)) hup cfg.size
      rw [Nat.mul_zero] at this
      exact Costs.seq0 (this _) fun q hq => Costs.ret hq
    · rw [← hl]
      exact hgroup _ _ _ l
  have hsweep : ∀ g k cur pops, Costs calls (k * (cfg.size * (cfg.cp.numTrials * c))) (k * (cfg.size * (cfg.cp.numTrials * c))) (coopGroupSweep cfg g k cur pops)
      fun ps => ps.length = pops.length := by
    intro g k
    induction k with
    | zero => intro cur pops; rw [Nat.zero_mul]; exact Costs.ret rfl
    | succ k ih =>
      intro cur pops
      unfold coopGroupSweep
      rw [Nat.succ_mul, Nat.add_comm]
      refine Costs.seq (hpipe g cur pops _) fun off _ => ?_
      refine Costs.mono (ih (cur + 1) (pops.set cur off)) (Nat.le_refl _) (Nat.le_refl _) ?_
      intro a ha
      simpa using ha
  have hloop : ∀ fuel g pops m, pops.length = subpops.length → WithinBudget calls 0 (subpops.length * (cfg.size * (cfg.cp.numTrials * c))) fuel
      (fun n (out : List (List Nat)) m' => cfg.stop (g + n) out m' = true) m (coopGroupLoop cfg fuel g pops m) := by
    intro fuel
    induction fuel with
    | zero => intro g pops m _; exact budget_ret (fun h => absurd h (by simp))
    | succ fuel ih =>
      intro g pops m hlen
      unfold coopGroupLoop
      split
      · rename_i h; exact budget_ret fun _ => by simpa using h
      · have hsw := hsweep g pops.length 0 pops
        rw [hlen] at hsw ⊢
        refine budget_step hsw (fun ps hps m1 => ?_) m
        have := ih (g + 1) ps m1 hps
        simpa only [Nat.cast_add, Nat.cast_one, Int.add_assoc, Int.add_comm, Int.add_left_comm] using this
  have h1 : Costs calls 0 0 ((HM.lift (if 0 < cfg.cp.numTrials then .ok () else .error .assertionError) : HM (Mem γ ψ ℚ ρ) Unit) >>= fun _ =>
      createTeams popSize subpops >>= fun pops => constEvaluateAll value pops >>= fun _ => (pure pops : HM (Mem γ ψ ℚ ρ) _))
      fun l => l.length = subpops.length :=
    Costs.seq0 Costs.freeLift fun _ _ => Costs.seq0 (free_createTeams popSize subpops hi) fun l hl => Costs.seq0 (free_constEvaluateAll value l) fun _ _ => Costs.ret hl
  have h2 := budget_first h1 (fun a ha m => hloop max.toNat 0 a m ha) m
  have e : coopGroupRun cfg subpops popSize value max = ((HM.lift (if 0 < cfg.cp.numTrials then .ok () else .error .assertionError) : HM (Mem γ ψ ℚ ρ) Unit) >>= fun _ =>
      createTeams popSize subpops >>= fun pops => constEvaluateAll value pops >>= fun _ => pure pops) >>= fun pops => coopGroupLoop cfg max.toNat 0 pops := by
    funext m
    unfold coopGroupRun
    simp only [HM.bind_apply, HM.lift_apply]
    split
    · rename_i he
      obtain ⟨_, rfl⟩ := Prod.mk.injEq _ _ _ _ ▸ he
      rcases createTeams popSize subpops m with ⟨r, m1⟩
      cases r with
      | error => rfl
      | ok l =>
        simp only
        rcases constEvaluateAll value l m1 with ⟨r, m2⟩
        cases r <;> rfl
    · rfl
  rw [e]
  simpa only [Int.zero_add] using h2

/-! ### Robust individuals, averaged problems -/

/-- A pipeline of robust individuals never calls the problem more than once per member of its pool, whatever raises. -/
theorem robust_pipeline_budget {c : Nat} {nan : φ} {dec : Dec γ ψ} {prob : Prob γ ψ φ ρ} {before : List (Stage γ ψ φ ρ)} (hb : ∀ st ∈ before, Silent calls st)
    (hp : Charges calls c prob) {pop : List Nat} {choose : Mem γ ψ φ ρ → PyM Nat × ρ} (hc : SilentChoice calls choose) (size : Nat) (m : Mem γ ψ φ ρ) :
    calls m.rng ≤ calls (runPipeline pop choose (before ++ [.robustEvaluate nan dec prob]) size m).2.rng ∧
      calls (runPipeline pop choose (before ++ [.robustEvaluate nan dec prob]) size m).2.rng ≤ calls m.rng + size * c :=
  let h := cost_pipeline (pop := pop) hb (.robust (nan := nan) (dec := dec) hp) hc size m
  ⟨h.1, h.2.1⟩

theorem charges_replicate {P : Type} {calls : ρ → Nat} {c : Nat} {ev : Eval P ρ}
    (h : ∀ x s, calls s ≤ calls (ev x s).2 ∧ calls (ev x s).2 ≤ calls s + c ∧ ∀ f, (ev x s).1 = .ok f → calls (ev x s).2 = calls s + c) :
    ∀ l s, calls s ≤ calls (evalMultiple ev l s).2 ∧ calls (evalMultiple ev l s).2 ≤ calls s + l.length * c ∧
      ∀ f, (evalMultiple ev l s).1 = .ok f → calls (evalMultiple ev l s).2 = calls s + l.length * c := by
  intro l
  induction l with
  | nil => intro s; simp [evalMultiple]
  | cons p ps ih =>
    intro s
    obtain ⟨h1, h2, h3⟩ := h p s
    have e2 : (p :: ps).length * c = c + ps.length * c := by simp [Nat.add_mul, Nat.add_comm]
    rw [e2]
    unfold evalMultiple
    rcases e : ev p s with ⟨r, s1⟩
    rw [e] at h1 h2 h3
    cases r with
    | error =>
      simp only at h1 h2 ⊢
      exact ⟨h1, by omega, fun f ef => by simp at ef⟩
    | ok v =>
      have h4 := h3 v rfl
      obtain ⟨k1, k2, k3⟩ := ih s1
      simp only at h1 h2 h4 ⊢
      rcases e3 : evalMultiple ev ps s1 with ⟨r, s2⟩
      rw [e3] at k1 k2 k3
      cases r with
      | error =>
        simp only at k1 k2 ⊢
        exact ⟨by omega, by omega, fun f ef => by simp at ef⟩
      | ok vs =>
        have k4 := k3 vs rfl
        simp only at k1 k2 k4 ⊢
        exact ⟨by omega, by omega, fun f _ => by omega⟩

/-- An `AverageFitnessProblem` calls the problem it wraps `n` times for each call. -/
theorem average_charges {c : Nat} {calls : ρ → Nat} {inner : Prob γ ψ ℚ ρ} (h : Charges calls c inner) (n : Nat) :
    Charges calls (n * c) { inner with evaluate := averageEvaluate inner.evaluate n } := by
  intro x s
  have := charges_replicate h (List.replicate n x) s
  rw [List.length_replicate] at this
  obtain ⟨h1, h2, h3⟩ := this
  simp only [averageEvaluate]
  rcases e : evalMultiple inner.evaluate (List.replicate n x) s with ⟨r, s1⟩
  rw [e] at h1 h2 h3
  cases r with
  | error => exact ⟨h1, h2, fun f ef => by simp at ef⟩
  | ok v => exact ⟨h1, h2, fun f _ => h3 v rfl⟩

/-- A run on an `AverageFitnessProblem` with `trials` samples calls the wrapped problem `trials` times for each member of the initial population and of each pool. -/
theorem averaged_budget {calls : ρ → Nat} {cfg : EvoConfig γ ψ ℚ ρ} {dec : Dec γ ψ} {inner : Prob γ ψ ℚ ρ} {trials : Nat} {before : List (Stage γ ψ ℚ ρ)}
    (hst : cfg.stages = before ++ [.evaluate dec { inner with evaluate := averageEvaluate inner.evaluate trials }]) (hb : ∀ st ∈ before, Silent calls st)
    (hp : Charges calls 1 inner) (hc : ∀ g pop, SilentChoice calls (cfg.choose g pop)) {initGenome : ρ → PyM (List γ) × ρ}
    (hi : ∀ s, calls (initGenome s).2 = calls s) (problem popSize : Nat) (start max : Int) (m : Mem γ ψ ℚ ρ) :
    WithinBudget calls (popSize * trials) (cfg.size * trials) (max - start).toNat (fun n out m' => cfg.stop (start + n) out m' = true) m
      (evoRun cfg initGenome dec { inner with evaluate := averageEvaluate inner.evaluate trials } problem popSize start max m) := by
  have := average_charges hp trials
  rw [Nat.mul_one] at this
  exact generational_budget hst hb this hc hi problem popSize start max m

end

/-! ### A run, and a pipeline that spends more -/

/-- A problem that counts its calls and scores the number of ones; it raises on an empty genome. -/
def tallyProblem : Prob Int Int ℚ Nat where
  evaluate := fun x s => match x with
    | .raw [] => (.error .valueError, s + 1)
    | .raw g => (.ok (g.count 1 : ℚ), s + 1)
    | .value _ => (.ok 0, s + 1)
  evaluateMultiple := fun _ s => (.error .typeError, s)
  takesIndividuals := false

/-- A mutation that sets every gene to 1. -/
def tallyMutation : Stage Int Int ℚ Nat := .mutate (.ok ()) false fun g s => ⟨g.map fun _ => 1, .ok none, s⟩

/-- A crossover that swaps all genes. -/
def tallyCrossover : Stage Int Int ℚ Nat := .crossover (fun s => (false, s)) (.uniform fun s n => (.ok (List.replicate n true), s))

/-- A configuration: three offspring in each generation, until generation 5 or until the stop condition says so in generation 2. -/
def tallyConfig : EvoConfig Int Int ℚ Nat where
  worse := fun a b => decide (a.getD 0 < b.getD 0)
  choose := fun _ _ m => (.ok 0, m.rng)
  stages := [tallyMutation, tallyCrossover] ++ [.evaluate .identity tallyProblem]
  size := 3
  kElites := 1
  stop := fun g _ _ => decide (2 ≤ g)

theorem tally_charges : Charges id 1 tallyProblem := by
  intro x s
  unfold tallyProblem
  refine ⟨?_, ?_, ?_⟩ <;> (simp only; split <;> simp)

theorem tally_silent : ∀ st ∈ [tallyMutation, tallyCrossover], Silent id st := by
  intro st h
  simp only [List.mem_cons, List.not_mem_nil, or_false] at h
  rcases h with rfl | rfl
  · intro g s; rfl
  · exact ⟨fun _ => rfl, fun _ _ => rfl⟩

/-- Nothing in memory. -/
def tallyStart : Mem Int Int ℚ Nat := ⟨[], [], [], 0, 0⟩

seal Spec.WithinBudget in
/-- The hypotheses of `generational_budget` hold of this run. -/
example : WithinBudget id (4 * 1) (tallyConfig.size * 1) (5 - 0 : Int).toNat (fun n out m' => tallyConfig.stop (0 + n) out m' = true) tallyStart
    (evoRun tallyConfig (fun s => (.ok [0, 1], s)) .identity tallyProblem 0 4 0 5 tallyStart) :=
  generational_budget (cfg := tallyConfig) rfl tally_silent tally_charges (fun _ _ _ => rfl) (fun _ => rfl) 0 4 0 5 tallyStart

/-- It returns after two generations: 4 + 2 * 3 calls. -/
example : (evoRun tallyConfig (fun s => (.ok [0, 1], s)) .identity tallyProblem 0 4 0 5 tallyStart).2.rng = 10 ∧
    (evoRun tallyConfig (fun s => (.ok [0, 1], s)) .identity tallyProblem 0 4 0 5 tallyStart).1.toOption.isSome = true := by
  decide +kernel

/-- With three samples each: 30. -/
example : (evoRun { tallyConfig with stages := [tallyMutation] ++ [.evaluate .identity { tallyProblem with evaluate := averageEvaluate tallyProblem.evaluate 3 }] }
    (fun s => (.ok [0, 1], s)) .identity { tallyProblem with evaluate := averageEvaluate tallyProblem.evaluate 3 } 0 4 0 5 tallyStart).2.rng = 30 := by
  decide +kernel

/-- Random search with a budget of 7. -/
example : (walkRun (fun _ _ m => (.ok 0, m.rng)) ([tallyMutation] ++ [.evaluate .identity tallyProblem]) 1 (fun s => (.ok [0, 1], s)) .identity tallyProblem 0 7
    tallyStart).2.rng = 7 := by
  decide +kernel

/-- Two islands, three generations, with migration: 2 * (4 + 3 * 3) calls. -/
example : (islandRun (⟨tallyConfig.worse, fun _ _ _ m => (.ok 0, m.rng), tallyConfig.stages, 3, 2, fun i => [1 - i], 1, fun _ m => (.ok 0, m.rng),
    fun _ m => (.ok 0, m.rng), fun s _ => (0, s), fun _ _ _ => false⟩ : IslandConfig Int Int ℚ Nat) (fun s => (.ok [0, 1], s)) .identity tallyProblem 0 2 4 3
    tallyStart).2.rng = 26 := by
  decide +kernel

/-- Two sub-populations of size 4, three offspring each, two trials each, two generations: 2 * 2 * 3 * 2 calls. -/
example : (coopRun (⟨fun _ => (.identity, tallyProblem), ⟨Unit, (), fun _ _ m => (.ok (0, ()), m.rng)⟩, 2, fun _ _ _ m => (.ok 0, m.rng), [tallyMutation], 3, fun _ _ _ => false⟩ :
    CoopConfig Int Int Nat) [(fun s => (.ok [0, 1], s), 0), (fun s => (.ok [1], s), 0)] 4 0 2 tallyStart).2.rng = 24 := by
  decide +kernel

/-- The same with a `CooperativeProblem` in chunks of two. -/
example : (coopGroupRun (⟨⟨.identity, tallyProblem, 1, 2, ⟨Unit, (), fun _ _ m => (.ok (0, ()), m.rng)⟩⟩, fun _ => .identity, some 2, fun _ _ _ m => (.ok 0, m.rng),
    [tallyMutation], 3, fun _ _ _ => false⟩ : CoopGroupConfig Int Int Nat) [(fun s => (.ok [0, 1], s), 0), (fun s => (.ok [1], s), 0)] 4 0 2 tallyStart).2.rng = 24 := by
  decide +kernel

/-- The position of `evaluate` matters: before a crossover operator it scores individuals in pairs, so a pool of odd size costs one call more than it has members. -/
theorem early_evaluate_overspends : ∃ m : Mem Int Int ℚ Nat,
    (runPipeline [0] (fun m => (.ok 0, m.rng)) [.evaluate .identity tallyProblem, tallyCrossover] 3 m).1.toOption.map List.length = some 3 ∧
      (runPipeline [0] (fun m => (.ok 0, m.rng)) [.evaluate .identity tallyProblem, tallyCrossover] 3 m).2.rng = m.rng + 4 :=
  ⟨⟨[[0, 1]], [[]], [⟨0, some 1, none, 0, 0, 0, none, none⟩], 1, 0⟩, by decide +kernel, by decide +kernel⟩

end Leap
