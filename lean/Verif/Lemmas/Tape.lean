import Mathlib.Data.Fin.Tuple.Basic
import Verif.Lemmas.Carry
import Verif.Lemmas.Live
import Verif.Lemmas.Chance

/-!
# A random source in two parts

The random state of memory is a pair: one part for everything else, and a stream of independent draws that only one operator
reads, one for each birth. Here: which computations leave the stream alone, and the chance of a sequence of births none of
which hits.
-/

namespace Leap
open Spec

/-- A stream with one more draw in front. -/
def Spec.before {X : Type} (x : X) (t : Nat → X) : Nat → X
  | 0 => x
  | i + 1 => t i

/-- Finitely many draws, then the rest of the stream. -/
def Spec.draws {X : Type} {T : Nat} (w : Fin T → X) (z : Nat → X) : Nat → X := fun i => if h : i < T then w ⟨i, h⟩ else z (i - T)

/-- The same memory with another stream of draws. -/
def Spec.retape {γ ψ φ S X : Type} (t : Nat → X) (m : Mem γ ψ φ (S × (Nat → X))) : Mem γ ψ φ (S × (Nat → X)) :=
  { m with rng := (m.rng.1, t) }

section
variable {γ ψ φ S X : Type}

theorem draws_zero (w : Fin 0 → X) (z : Nat → X) : draws w z = z := by
  funext i
  simp [draws]

theorem draws_succ {T : Nat} (w : Fin (T + 1) → X) (z : Nat → X) : draws w z = before (w 0) (draws (Fin.tail w) z) := by
  funext i
  cases i with
  | zero => simp [draws, before]
  | succ i =>
    simp only [draws, before, Fin.tail]
    by_cases h : i < T
    · simp [h]
    · simp [h]

@[simp] theorem retape_retape (t t' : Nat → X) (m : Mem γ ψ φ (S × (Nat → X))) : retape t (retape t' m) = retape t m := rfl

theorem retape_self (m : Mem γ ψ φ (S × (Nat → X))) : retape m.rng.2 m = m := rfl

/-- A computation that does not depend on the stream and leaves it alone. -/
def Blind {α : Type} (x : HM (Mem γ ψ φ (S × (Nat → X))) α) : Prop := ∀ m t, x (retape t m) = ((x m).1, retape t (x m).2)

/-- A use of the random source that neither depends on the stream nor changes it. -/
def Spec.BlindDraw {α : Type} (f : S × (Nat → X) → α × (S × (Nat → X))) : Prop :=
  ∀ s t t', f (s, t') = ((f (s, t)).1, ((f (s, t)).2.1, t'))

namespace Blind
variable {α β : Type}

theorem pure (a : α) : Blind (Pure.pure a : HM (Mem γ ψ φ (S × (Nat → X))) α) := fun _ _ => rfl

theorem lift (r : PyM α) : Blind (HM.lift r : HM (Mem γ ψ φ (S × (Nat → X))) α) := fun _ _ => rfl

theorem bind {x : HM (Mem γ ψ φ (S × (Nat → X))) α} {f : α → HM (Mem γ ψ φ (S × (Nat → X))) β} (hx : Blind x)
    (hf : ∀ a, Blind (f a)) : Blind (x >>= f) := by
  intro m t
  rw [HM.bind_apply, HM.bind_apply, hx m t]
  rcases x m with ⟨r, m1⟩
  cases r with
  | error e => rfl
  | ok a => exact hf a m1 t

theorem pep {x : HM (Mem γ ψ φ (S × (Nat → X))) α} (hx : Blind x) : Blind (HM.pep479 x) := by
  intro m t
  simp only [HM.pep479]
  rw [hx m t]
  rcases x m with ⟨r, m1⟩
  cases r with
  | error e => cases e <;> rfl
  | ok a => rfl

theorem getObj (r : Nat) : Blind (Leap.getObj r : HM (Mem γ ψ φ (S × (Nat → X))) _) := by
  intro m t
  simp only [Leap.getObj, retape]
  cases m.inds[r]? <;> rfl

theorem modObj (r : Nat) (f : Obj ψ φ → Obj ψ φ) : Blind (Leap.modObj r f : HM (Mem γ ψ φ (S × (Nat → X))) _) := fun _ _ => rfl

theorem newObj (o : Obj ψ φ) : Blind (Leap.newObj o : HM (Mem γ ψ φ (S × (Nat → X))) _) := fun _ _ => rfl

theorem getArr (r : Nat) : Blind (Leap.getArr r : HM (Mem γ ψ φ (S × (Nat → X))) _) := by
  intro m t
  simp only [Leap.getArr, retape]
  cases m.arrays[r]? <;> rfl

theorem setArr (r : Nat) (g : List γ) : Blind (Leap.setArr r g : HM (Mem γ ψ φ (S × (Nat → X))) _) := fun _ _ => rfl

theorem newArr (g : List γ) : Blind (Leap.newArr g : HM (Mem γ ψ φ (S × (Nat → X))) _) := fun _ _ => rfl

theorem getSet (r : Nat) : Blind (Leap.getSet r : HM (Mem γ ψ φ (S × (Nat → X))) _) := by
  intro m t
  simp only [Leap.getSet, retape]
  cases m.sets[r]? <;> rfl

theorem setSet (r : Nat) (g : List Nat) : Blind (Leap.setSet r g : HM (Mem γ ψ φ (S × (Nat → X))) _) := fun _ _ => rfl

theorem newSet (g : List Nat) : Blind (Leap.newSet g : HM (Mem γ ψ φ (S × (Nat → X))) _) := fun _ _ => rfl

theorem freshUuid : Blind (Leap.freshUuid : HM (Mem γ ψ φ (S × (Nat → X))) _) := fun _ _ => rfl

theorem useRng {f : S × (Nat → X) → PyM α × (S × (Nat → X))} (hf : BlindDraw f) :
    Blind (Leap.useRng f : HM (Mem γ ψ φ (S × (Nat → X))) α) := by
  intro m t
  simp only [Leap.useRng, retape]
  rw [hf m.rng.1 m.rng.2 t]

end Blind

theorem cloneInd_blind (r : Nat) : Blind (cloneInd r : HM (Mem γ ψ φ (S × (Nat → X))) Nat) := by
  unfold cloneInd
  refine .bind (.getObj _) fun o => .bind (.newObj _) fun c => .bind (.getArr _) fun g => .bind (.newArr _) fun a =>
    .bind (.modObj _ _) fun _ => .bind (.modObj _ _) fun _ => .bind .freshUuid fun u => .bind (.modObj _ _) fun _ =>
    .bind (.newSet _) fun s => .bind (.modObj _ _) fun _ => .pure _

theorem mutateInd_blind (f : MutFn γ (S × (Nat → X)))
    (hf : ∀ g, BlindDraw fun s => (((f g s).left, (f g s).result), (f g s).rng)) (r : Nat) :
    Blind (mutateInd f r : HM (Mem γ ψ φ (S × (Nat → X))) Unit) := by
  unfold mutateInd
  intro m t
  simp only [HM.bind_apply]
  rw [Blind.getObj r m t]
  rcases getObj r m with ⟨o, m1⟩
  cases o with
  | error e => rfl
  | ok o =>
    simp only
    rw [Blind.getArr o.genome m1 t]
    rcases getArr o.genome m1 with ⟨g, m2⟩
    cases g with
    | error e => rfl
    | ok g =>
      have h := hf g m2.rng.1 m2.rng.2 t
      simp only [Prod.mk.injEq, Prod.mk.eta] at h
      obtain ⟨⟨h1, h2⟩, h3⟩ := h
      simp only [useRng, setArr, retape, h1, h2, h3, HM.lift_apply]
      rcases (f g m2.rng).result with e | x
      · rfl
      · cases x <;> rfl

/-- The operators that do not use the stream. -/
def Spec.StageBlind : Stage γ ψ φ (S × (Nat → X)) → Prop
  | .clone => True
  | .mutate _ _ f => ∀ g, BlindDraw fun s => (((f g s).left, (f g s).result), (f g s).rng)
  | .crossover skip (.uniform mask) => BlindDraw skip ∧ ∀ k, BlindDraw fun s => mask s k
  | .crossover skip (.nary _ cuts) => BlindDraw skip ∧ ∀ k, BlindDraw fun s => cuts s k
  | .evaluate _ prob => ∀ c, BlindDraw (prob.evaluate c)
  | .robustEvaluate _ _ prob => ∀ c, BlindDraw (prob.evaluate c)

theorem BlindDraw.map {α β : Type} {f : S × (Nat → X) → α × (S × (Nat → X))} (h : BlindDraw f) (k : α → β) :
    BlindDraw fun s => (k (f s).1, (f s).2) := by
  intro s t t'
  simp only
  rw [h s t t']

theorem recombineInds_blind (rec : Recombiner (S × (Nat → X))) (skip : S × (Nat → X) → Bool × (S × (Nat → X)))
    (h : StageBlind (.crossover skip rec : Stage γ ψ φ (S × (Nat → X)))) (a b : Nat) :
    Blind (recombineInds rec a b : HM (Mem γ ψ φ (S × (Nat → X))) Unit) := by
  unfold recombineInds
  refine .bind (.getObj _) fun oa => .bind (.getObj _) fun ob => .bind (.getArr _) fun ga => .bind (.getArr _) fun gb => ?_
  cases rec with
  | uniform mask =>
    exact .bind (.useRng (h.2 _)) fun mk => .bind (.lift _) fun _ => .bind (.lift _) fun _ => .bind (.lift _) fun _ =>
      .bind (.setArr _ _) fun _ => .bind (.getArr _) fun _ => .bind (.lift _) fun _ => .setArr _ _
  | nary k cuts =>
    exact .bind (.useRng (BlindDraw.map (h.2 _) Except.ok)) fun mk => .bind (.lift _) fun _ => .bind (.newArr _) fun _ =>
      .bind (.modObj _ _) fun _ => .bind (.newArr _) fun _ => .modObj _ _

theorem crossInds_blind (rec : Recombiner (S × (Nat → X))) (skip : S × (Nat → X) → Bool × (S × (Nat → X)))
    (h : StageBlind (.crossover skip rec : Stage γ ψ φ (S × (Nat → X)))) (a b : Nat) :
    Blind (crossInds rec a b : HM (Mem γ ψ φ (S × (Nat → X))) Unit) := by
  unfold crossInds
  exact .bind (recombineInds_blind rec skip h a b) fun _ => .bind (.getObj _) fun _ => .bind (.getObj _) fun _ =>
    .bind (.getSet _) fun _ => .bind (.getSet _) fun _ => .bind (.setSet _ _) fun _ => .bind (.getSet _) fun _ =>
    .bind (.getSet _) fun _ => .bind (.setSet _ _) fun _ => .bind (.modObj _ _) fun _ => .modObj _ _

theorem evaluateImp_blind (dec : Dec γ ψ) (prob : Prob γ ψ φ (S × (Nat → X))) (h : ∀ c, BlindDraw (prob.evaluate c)) (r : Nat) :
    Blind (evaluateImp dec prob r) := by
  have hd : Blind (decodeInd dec r : HM (Mem γ ψ φ (S × (Nat → X))) (Phen ψ)) := by
    unfold decodeInd
    refine .bind (.getObj _) fun o => ?_
    cases dec with
    | identity => exact .bind (.modObj _ _) fun _ => .pure _
    | fn f => exact .bind (.getArr _) fun _ => .bind (.lift _) fun _ => .bind (.modObj _ _) fun _ => .pure _
  unfold evaluateImp
  refine .bind hd fun _ => .bind ?_ fun p => .bind ?_ fun c => .useRng (h c)
  · unfold phenomeOf
    refine .bind (.getObj _) fun o => ?_
    cases o.phenome with
    | none => exact hd
    | some p => exact .pure _
  · match p with
    | .alias a => exact .bind (.getArr _) fun _ => .pure _
    | .decoded v => exact .pure _

theorem evaluateInd_blind (dec : Dec γ ψ) (prob : Prob γ ψ φ (S × (Nat → X))) (h : ∀ c, BlindDraw (prob.evaluate c)) (r : Nat) :
    Blind (evaluateInd dec prob r) :=
  .bind (evaluateImp_blind dec prob h r) fun _ => .bind (.modObj _ _) fun _ => .pure _

theorem robustEvaluate_blind (nan : φ) (dec : Dec γ ψ) (prob : Prob γ ψ φ (S × (Nat → X))) (h : ∀ c, BlindDraw (prob.evaluate c))
    (r : Nat) : Blind (robustEvaluate nan dec prob r) := by
  intro m t
  simp only [robustEvaluate]
  rw [evaluateImp_blind dec prob h r m t]
  rcases evaluateImp dec prob r m with ⟨x, m1⟩
  cases x <;> rfl

theorem stage_blind (up : HIter (Mem γ ψ φ (S × (Nat → X)))) (h : ∀ s, Blind (up.next s)) (st : Stage γ ψ φ (S × (Nat → X)))
    (hst : StageBlind st) : ∀ s, Blind ((st.apply up).next s) := by
  cases st with
  | clone => exact fun s => .pep (.bind (h s) fun _ => .bind (cloneInd_blind _) fun _ => .pure _)
  | mutate check stopOk f =>
    rintro ⟨started, s⟩
    refine .bind (.lift _) fun _ => .bind ?_ fun _ => .bind (.pep (mutateInd_blind f hst _)) fun _ => .pure _
    unfold upstream
    split
    · exact h s
    · exact .pep (h s)
  | crossover skip rec =>
    rintro ⟨pending, s⟩
    refine .pep ?_
    cases pending with
    | some b => exact .pure _
    | none =>
      refine .bind (h s) fun _ => .bind (h _) fun _ => .bind (.useRng (BlindDraw.map ?_ Except.ok)) fun sk => ?_
      · cases rec with
        | uniform mask => exact hst.1
        | nary k cuts => exact hst.1
      · cases sk with
        | true => exact .pure _
        | false => exact .bind (crossInds_blind rec skip hst _ _) fun _ => .pure _
  | evaluate dec prob => exact fun s => .pep (.bind (h s) fun _ => .bind (evaluateInd_blind dec prob hst _) fun _ => .pure _)
  | robustEvaluate nan dec prob =>
    exact fun s => .pep (.bind (h s) fun _ => .bind (robustEvaluate_blind nan dec prob hst _) fun _ => .pure _)

theorem stages_blind (stages : List (Stage γ ψ φ (S × (Nat → X)))) (hst : ∀ st ∈ stages, StageBlind st) :
    ∀ up : HIter (Mem γ ψ φ (S × (Nat → X))), (∀ s, Blind (up.next s)) → ∀ s, Blind ((stagesIter up stages).next s) := by
  induction stages with
  | nil => exact fun up h => h
  | cons st rest ih => exact fun up h => ih (fun s hs => hst s (by simp [hs])) _ (stage_blind up h st (hst st (by simp)))

theorem selection_blind (pop : List Nat) (choose : Mem γ ψ φ (S × (Nat → X)) → PyM Nat × (S × (Nat → X)))
    (hc : ∀ m t, choose (retape t m) = ((choose m).1, ((choose m).2.1, t))) : ∀ s, Blind ((selectionIter pop choose).next s) := by
  intro s m t
  simp only [selectionIter]
  rw [hc m t]
  rcases choose m with ⟨x, q⟩
  cases x with
  | error e => rfl
  | ok i =>
    simp only
    cases pop[i]? <;> rfl

theorem stagesIter_append {ρ : Type} (a b : List (Stage γ ψ φ ρ)) :
    ∀ src : HIter (Mem γ ψ φ ρ), stagesIter src (a ++ b) = stagesIter (stagesIter src a) b := by
  induction a with
  | nil => intro src; rfl
  | cons st rest ih => intro src; exact ih _

end

/-! ## Chances of sequences -/

theorem chance_nonneg {Ω : Type} (E : Ω → Prop) : 0 ≤ chance E := by unfold chance; positivity

theorem chance_mono {Ω : Type} [Finite Ω] {E F : Ω → Prop} (h : ∀ ω, E ω → F ω) : chance E ≤ chance F := by
  unfold chance
  have : Nat.card {ω // E ω} ≤ Nat.card {ω // F ω} :=
    Nat.card_le_card_of_injective (fun x => ⟨x.1, h x.1 x.2⟩) fun a b hab => by
      simp only [Subtype.mk.injEq] at hab
      exact Subtype.ext hab
  gcongr

theorem chance_le_one {Ω : Type} [Finite Ω] [Nonempty Ω] (E : Ω → Prop) : chance E ≤ 1 := by
  rw [← chance_true (Ω := Ω)]
  exact chance_mono fun _ _ => trivial

/-- A first draw that rules the event out with chance at least `q`, and whatever it is leaves it a chance of at most `B`. -/
theorem chance_step {X : Type} [Finite X] [Nonempty X] {T : Nat} (E : (Fin (T + 1) → X) → Prop) (H : X → Prop) (q B : ℚ)
    (h1 : ∀ x, H x → ∀ w : Fin T → X, ¬ E (Fin.cons x w)) (h2 : ∀ x, chance (fun w : Fin T → X => E (Fin.cons x w)) ≤ B)
    (hB : 0 ≤ B) (hq : q ≤ chance H) : chance E ≤ (1 - q) * B := by
  classical
  have := Fintype.ofFinite X
  have hX : (0 : ℚ) < Nat.card X := by have := Nat.card_pos (α := X); exact_mod_cast this
  have hP : (0 : ℚ) < Nat.card (Fin T → X) := by have := Nat.card_pos (α := Fin T → X); exact_mod_cast this
  have hcard : Nat.card {w : Fin (T + 1) → X // E w} = ∑ x : X, Nat.card {w : Fin T → X // E (Fin.cons x w)} := by
    rw [← Nat.card_sigma]
    refine Nat.card_congr ⟨fun w => ⟨w.1 0, Fin.tail w.1, by rw [Fin.cons_self_tail]; exact w.2⟩, fun p => ⟨Fin.cons p.1 p.2.1, p.2.2⟩, ?_, ?_⟩
    · intro w; exact Subtype.ext (Fin.cons_self_tail _)
    · rintro ⟨x, w, hw⟩; rfl
  have hall : Nat.card (Fin (T + 1) → X) = Nat.card X * Nat.card (Fin T → X) := by
    rw [Nat.card_congr (Fin.consEquiv (fun _ => X)).symm, Nat.card_prod]
  have hterm : ∀ x : X, (Nat.card {w : Fin T → X // E (Fin.cons x w)} : ℚ) ≤ if ¬ H x then B * Nat.card (Fin T → X) else 0 := by
    intro x
    by_cases hx : H x
    · have : IsEmpty {w : Fin T → X // E (Fin.cons x w)} := ⟨fun w => h1 x hx w.1 w.2⟩
      simp [hx]
    · simp only [hx, not_false_eq_true, if_true]
      have := h2 x
      unfold chance at this
      rwa [div_le_iff₀ hP] at this
  have hn := chance_not H
  rw [chance_fintype] at hn
  have hsum : (Nat.card {w : Fin (T + 1) → X // E w} : ℚ) ≤ ((Finset.univ.filter fun x => ¬ H x).card : ℚ) * (B * Nat.card (Fin T → X)) := by
    rw [hcard]
    push_cast
    refine (Finset.sum_le_sum fun x _ => hterm x).trans ?_
    rw [← Finset.sum_filter, Finset.sum_const, nsmul_eq_mul]
  unfold chance at hq ⊢
  rw [hall]
  push_cast
  rw [div_le_iff₀ (by positivity)]
  refine hsum.trans ?_
  have hk : ((Finset.univ.filter fun x => ¬ H x).card : ℚ) ≤ (1 - q) * Nat.card X := by
    rw [div_eq_iff (by rw [← Nat.card_eq_fintype_card]; exact hX.ne'), ← Nat.card_eq_fintype_card] at hn
    rw [hn]
    have : 1 - chance H ≤ 1 - q := by unfold chance; linarith
    exact mul_le_mul_of_nonneg_right this hX.le
  calc ((Finset.univ.filter fun x => ¬ H x).card : ℚ) * (B * Nat.card (Fin T → X))
      ≤ (1 - q) * Nat.card X * (B * Nat.card (Fin T → X)) := mul_le_mul_of_nonneg_right hk (by positivity)
    _ = (1 - q) * B * (Nat.card X * Nat.card (Fin T → X)) := by ring

/-! ## Births -/

section
variable {γ ψ φ S X : Type}

/-- Pulling `k` individuals, at least one of which is yielded with the genes `target`. -/
def HitRun (it : HIter (Mem γ ψ φ (S × (Nat → X)))) (target : List γ) : Nat → it.σ → Mem γ ψ φ (S × (Nat → X)) → Prop
  | 0, _, _ => False
  | k + 1, s, m => ∃ r s1 m1, it.next s m = (.ok (r, s1), m1) ∧ (genes m1 r = some target ∨ HitRun it target k s1 m1)

/-- The chance that `k` births all miss and something bad happens after them. -/
theorem pull_chance_rest [Finite X] [Nonempty X] (it : HIter (Mem γ ψ φ (S × (Nat → X)))) (target : List γ) (q : ℚ) (hq1 : q ≤ 1)
    (Inv : it.σ → Mem γ ψ φ (S × (Nat → X)) → Prop) (hI : ∀ s m t, Inv s m → Inv s (retape t m))
    (hstep : ∀ s m r s1 m1, Inv s m → it.next s m = (.ok (r, s1), m1) → Inv s1 m1)
    (heat : ∀ s m x t t' r s1 m1, it.next s (retape (before x t) m) = (.ok (r, s1), m1) →
      it.next s (retape (before x t') m) = (.ok (r, s1), retape t' m1))
    (hq : ∀ s m, Inv s m → q ≤ chance fun x => ∀ t r s1 m1, it.next s (retape (before x t) m) = (.ok (r, s1), m1) → genes m1 r = some target)
    (z : Nat → X) (B : ℚ) (hB : 0 ≤ B) (k : Nat) : ∀ (s : it.σ) (m : Mem γ ψ φ (S × (Nat → X))) (Q : List Nat → Mem γ ψ φ (S × (Nat → X)) → Prop) (T' T : Nat),
      T = k + T' → Inv s m →
      (∀ t out s' m', hpull it.next k s (retape t m) = (.ok (out, s'), m') →
        chance (fun w : Fin T' → X => Q out (retape (draws w z) m')) ≤ B) →
      (∀ t out s' m', hpull it.next k s (retape t m) = (.ok (out, s'), m') → HitRun it target k s (retape t m) → ¬ Q out m') →
      chance (fun w : Fin T → X => ∃ out s' m', hpull it.next k s (retape (draws w z) m) = (.ok (out, s'), m') ∧ Q out m') ≤ (1 - q) ^ k * B := by
  induction k with
  | zero =>
    intro s m Q T' T hT _ hQ _
    have hT : T = T' := by omega
    subst hT
    have h := hQ m.rng.2 [] s m rfl
    rw [pow_zero, one_mul]
    refine le_trans (le_of_eq (chance_congr fun w => ?_)) h
    constructor
    · rintro ⟨out, s', m', h1, h2⟩
      simp only [hpull, HM.pure_apply, Prod.mk.injEq, Except.ok.injEq] at h1
      obtain ⟨⟨rfl, rfl⟩, rfl⟩ := h1
      exact h2
    · intro h2
      exact ⟨[], s, _, rfl, h2⟩
  | succ k ih =>
    intro s m Q T' T hT hi hQ hhit
    obtain ⟨T0, rfl⟩ : ∃ T0, T = T0 + 1 := ⟨k + T', by omega⟩
    have hT0 : T0 = k + T' := by omega
    have hp : (0 : ℚ) ≤ (1 - q) ^ k * B := mul_nonneg (pow_nonneg (by linarith) _) hB
    rw [pow_succ, mul_comm ((1 - q) ^ k), mul_assoc]
    refine chance_step _ _ q _ ?_ ?_ hp (hq s m hi)
    · rintro x hx w ⟨out, s', m', h1, h2⟩
      have e0 : (Fin.cons x w : Fin (T0 + 1) → X) 0 = x := rfl
      rw [draws_succ, Fin.tail_cons, e0] at h1
      refine hhit _ _ _ _ h1 ?_ h2
      obtain ⟨⟨r, s1⟩, m1, e1, -⟩ := bind_ok h1
      exact ⟨r, s1, m1, e1, Or.inl (hx _ _ _ _ e1)⟩
    · intro x
      have e0 : ∀ w : Fin T0 → X, (Fin.cons x w : Fin (T0 + 1) → X) 0 = x := fun _ => rfl
      simp only [draws_succ, Fin.tail_cons, e0]
      rcases e : it.next s (retape (before x z) m) with ⟨o, m1⟩
      cases o with
      | error err =>
        rw [chance_false]
        · exact hp
        · rintro w ⟨out, s', m', h1, -⟩
          obtain ⟨⟨r, s1⟩, m2, e1, -⟩ := bind_ok h1
          rw [heat _ _ _ _ z _ _ _ e1] at e
          cases e
      | ok rs =>
        obtain ⟨r, s1⟩ := rs
        have hi1 : Inv s1 m1 := hstep _ _ _ _ _ (hI _ _ _ hi) e
        refine le_trans (le_of_eq (chance_congr fun w => ?_)) (ih s1 m1 (fun out => Q (r :: out)) T' T0 hT0 hi1 ?_ ?_)
        · constructor
          · rintro ⟨out, s', m', h1, h2⟩
            rw [show hpull it.next (k + 1) s = (it.next s >>= fun p => hpull it.next k p.2 >>= fun p' => pure (p.1 :: p'.1, p'.2)) from rfl,
              bind_live (heat _ _ _ _ (draws w z) _ _ _ e)] at h1
            obtain ⟨⟨os, s2⟩, m2, e2, h1⟩ := bind_ok h1
            simp only [HM.pure_apply, Prod.mk.injEq, Except.ok.injEq] at h1
            obtain ⟨⟨rfl, rfl⟩, rfl⟩ := h1
            exact ⟨os, s2, m2, e2, h2⟩
          · rintro ⟨out, s', m', h1, h2⟩
            refine ⟨r :: out, s', m', ?_, h2⟩
            rw [show hpull it.next (k + 1) s = (it.next s >>= fun p => hpull it.next k p.2 >>= fun p' => pure (p.1 :: p'.1, p'.2)) from rfl,
              bind_live (heat _ _ _ _ (draws w z) _ _ _ e)]
            exact bind_live h1
        · intro t out s' m' h1
          refine hQ (before x t) (r :: out) s' m' ?_
          rw [show hpull it.next (k + 1) s = (it.next s >>= fun p => hpull it.next k p.2 >>= fun p' => pure (p.1 :: p'.1, p'.2)) from rfl,
            bind_live (heat _ _ _ _ t _ _ _ e)]
          exact bind_live h1
        · intro t out s' m' h1 h2
          have he := heat _ _ _ _ t _ _ _ e
          refine hhit (before x t) (r :: out) s' m' ?_ ⟨r, s1, retape t m1, he, Or.inr h2⟩
          rw [show hpull it.next (k + 1) s = (it.next s >>= fun p => hpull it.next k p.2 >>= fun p' => pure (p.1 :: p'.1, p'.2)) from rfl,
            bind_live he]
          exact bind_live h1

/-- The same, when what happens after them has the chance of missing in the rest of the draws. -/
theorem pull_chance [Finite X] [Nonempty X] (it : HIter (Mem γ ψ φ (S × (Nat → X)))) (target : List γ) (q : ℚ) (hq1 : q ≤ 1)
    (Inv : it.σ → Mem γ ψ φ (S × (Nat → X)) → Prop) (hI : ∀ s m t, Inv s m → Inv s (retape t m))
    (hstep : ∀ s m r s1 m1, Inv s m → it.next s m = (.ok (r, s1), m1) → Inv s1 m1)
    (heat : ∀ s m x t t' r s1 m1, it.next s (retape (before x t) m) = (.ok (r, s1), m1) →
      it.next s (retape (before x t') m) = (.ok (r, s1), retape t' m1))
    (hq : ∀ s m, Inv s m → q ≤ chance fun x => ∀ t r s1 m1, it.next s (retape (before x t) m) = (.ok (r, s1), m1) → genes m1 r = some target)
    (z : Nat → X) (k : Nat) (s : it.σ) (m : Mem γ ψ φ (S × (Nat → X))) (Q : List Nat → Mem γ ψ φ (S × (Nat → X)) → Prop) (T' T : Nat)
    (hT : T = k + T') (hi : Inv s m)
    (hQ : ∀ t out s' m', hpull it.next k s (retape t m) = (.ok (out, s'), m') →
      chance (fun w : Fin T' → X => Q out (retape (draws w z) m')) ≤ (1 - q) ^ T')
    (hhit : ∀ t out s' m', hpull it.next k s (retape t m) = (.ok (out, s'), m') → HitRun it target k s (retape t m) → ¬ Q out m') :
    chance (fun w : Fin T → X => ∃ out s' m', hpull it.next k s (retape (draws w z) m) = (.ok (out, s'), m') ∧ Q out m') ≤ (1 - q) ^ T := by
  rw [hT, pow_add]
  subst hT
  exact pull_chance_rest it target q hq1 Inv hI hstep heat hq z _ (pow_nonneg (by linarith) _) k s m Q T' _ rfl hi hQ hhit

/-- A yielded individual keeps its genes while more are pulled. -/
theorem hit_stays {n : Nat} {allowed : Nat → γ → Prop} {m0 : Mem γ ψ φ (S × (Nat → X))} (it : HIter (Mem γ ψ φ (S × (Nat → X))))
    (pend : it.σ → List Nat) (h : Carries n allowed m0 it pend) (target : List γ) (k : Nat) :
    ∀ (s : it.σ) (m : Mem γ ψ φ (S × (Nat → X))) (out : List Nat) (s' : it.σ) (m' : Mem γ ψ φ (S × (Nat → X))), Fresh m0 m →
      (∀ p ∈ pend s, m0.inds.length ≤ p ∧ GoodGenes n allowed m p) → (pend s).Nodup → hpull it.next k s m = (.ok (out, s'), m') →
      HitRun it target k s m → ∃ r ∈ out, genes m' r = some target := by
  induction k with
  | zero => intro _ _ _ _ _ _ _ _ _ h; exact absurd h id
  | succ k ih =>
    intro s m out s' m' hm hp hn hx hh
    obtain ⟨⟨r, s1⟩, m1, e1, hx⟩ := bind_ok hx
    obtain ⟨⟨rs, s2⟩, m2, e2, hx⟩ := bind_ok hx
    simp only [HM.pure_apply, Prod.mk.injEq, Except.ok.injEq] at hx
    obtain ⟨⟨rfl, rfl⟩, rfl⟩ := hx
    have o := h.step s m r s1 m1 hm hp hn e1
    obtain ⟨r', s1', m1', e1', hh⟩ := hh
    rw [e1] at e1'
    simp only [Prod.mk.injEq, Except.ok.injEq] at e1'
    obtain ⟨⟨rfl, rfl⟩, rfl⟩ := e1'
    rcases hh with hh | hh
    · obtain ⟨-, -, -, -, g5, -⟩ := hpull_carries it pend h (fun _ _ => True) (fun _ _ _ _ _ _ _ _ _ => trivial)
        (fun _ _ _ _ _ _ _ => trivial) k s1 m1 rs s2 m2 o.fresh (fun p hp' => (o.held p hp').2) o.nodup e2
      exact ⟨r, by simp, by rw [(g5 r (goodGenes_lt o.good) o.gone).2, hh]⟩
    · obtain ⟨x, h1, h2⟩ := ih s1 m1 rs s2 m2 o.fresh (fun p hp' => (o.held p hp').2) o.nodup e2 hh
      exact ⟨x, by simp [h1], h2⟩

end

end Leap
