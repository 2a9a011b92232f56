import Verif.Props.Values

/-!
# Two runs over values that differ in identities only

Used in proofs only. `Like x y Q`: from the same random state, whatever the source of identities, `x` and `y` do the same with results related by `Q`.
`TwinVal t v v'`: the individuals `v` and `v'` have the same genes and the same fitness, which is the one `t` gives if there is one.
-/

namespace Leap

open Spec

section
variable {γ ψ φ ρ α β α' β' : Type}

def Like (x : HM (Luck ρ) α) (y : HM (Luck ρ) β) (Q : α → β → Prop) : Prop :=
  ∀ w w' : Luck ρ, w.rng = w'.rng → match x w, y w' with
    | (.ok a, w1), (.ok b, w2) => Q a b ∧ w1.rng = w2.rng
    | (.error e, w1), (.error e', w2) => e = e' ∧ w1.rng = w2.rng
    | _, _ => False

theorem like_mono {x : HM (Luck ρ) α} {y : HM (Luck ρ) β} {Q R : α → β → Prop} (h : Like x y Q) (hq : ∀ a b, Q a b → R a b) : Like x y R := by
  intro w w' e
  have h := h w w' e
  rcases ex : x w with ⟨(e1 | a), m1⟩ <;> rcases ey : y w' with ⟨(e2 | b), m2⟩ <;> rw [ex, ey] at h <;> simp only at h ⊢
  · exact h
  · exact ⟨hq _ _ h.1, h.2⟩

theorem like_pure {a : α} {b : β} {Q : α → β → Prop} (h : Q a b) : Like (ρ := ρ) (pure a) (pure b) Q := fun _ _ e => ⟨h, e⟩

theorem like_raise (e : PyErr) {Q : α → β → Prop} : Like (ρ := ρ) (HM.raise e) (HM.raise e) Q := fun _ _ h => ⟨rfl, h⟩

theorem like_bind {x : HM (Luck ρ) α} {y : HM (Luck ρ) β} {f : α → HM (Luck ρ) α'} {g : β → HM (Luck ρ) β'} {Q : α → β → Prop} {R : α' → β' → Prop}
    (hx : Like x y Q) (hf : ∀ a b, Q a b → Like (f a) (g b) R) : Like (x >>= f) (y >>= g) R := by
  intro w w' e
  have h := hx w w' e
  rw [HM.bind_apply, HM.bind_apply]
  rcases ex : x w with ⟨(e1 | a), m1⟩ <;> rcases ey : y w' with ⟨(e2 | b), m2⟩ <;> rw [ex, ey] at h <;> simp only at h ⊢
  · exact h
  · exact hf a b h.1 m1 m2 h.2

theorem like_pep {x : HM (Luck ρ) α} {y : HM (Luck ρ) β} {Q : α → β → Prop} (h : Like x y Q) : Like (HM.pep479 x) (HM.pep479 y) Q := by
  intro w w' e
  have h := h w w' e
  unfold HM.pep479
  rcases ex : x w with ⟨(e1 | a), m1⟩ <;> rcases ey : y w' with ⟨(e2 | b), m2⟩ <;> rw [ex, ey] at h <;> simp only at h ⊢
  · obtain ⟨rfl, h⟩ := h
    cases e1 <;> exact ⟨rfl, h⟩
  · exact h

theorem like_endOf (stopOk : Bool) {x : HM (Luck ρ) α} {y : HM (Luck ρ) β} {Q : α → β → Prop} (h : Like x y Q) : Like (endOf stopOk x) (endOf stopOk y) Q := by
  cases stopOk
  · exact like_pep h
  · exact h

theorem like_lift (r : PyM α) : Like (ρ := ρ) (HM.lift r) (HM.lift r) Eq := by
  intro w w' e
  cases r
  · exact ⟨rfl, e⟩
  · exact ⟨rfl, e⟩

theorem like_draw (f : ρ → PyM α × ρ) : Like (draw f) (draw f) Eq := by
  intro w w' e
  unfold draw
  rw [← e]
  rcases f w.rng with ⟨(x | a), s⟩
  · exact ⟨rfl, rfl⟩
  · exact ⟨rfl, rfl⟩

theorem like_uuid : Like (ρ := ρ) newUuid newUuid fun _ _ => True := fun _ _ e => ⟨trivial, e⟩

/-! ### Individuals -/

def TwinVal (t : List γ → PyM φ) (v v' : Val γ φ) : Prop :=
  v.genes = v'.genes ∧ v.fitness = v'.fitness ∧ v.viable = none ∧ v'.viable = none ∧ ∀ f, v.fitness = some f → t v.genes = .ok f

/-- Both have been evaluated, too. -/
def Peer (t : List γ → PyM φ) (v v' : Val γ φ) : Prop := TwinVal t v v' ∧ v.fitness.isSome

theorem twin_cloned {t : List γ → PyM φ} {v v' : Val γ φ} (h : TwinVal t v v') : Like (ρ := ρ) (cloned v) (cloned v') (TwinVal t) := by
  refine like_bind like_uuid fun _ _ _ => like_pure ?_
  exact ⟨h.1, rfl, h.2.2.1, h.2.2.2.1, by rintro f ⟨⟩⟩

theorem twin_mutated {t : List γ → PyM φ} (f : MutFn γ ρ) {v v' : Val γ φ} (h : TwinVal t v v') : Like (mutatedVal f v) (mutatedVal f v') (TwinVal t) := by
  unfold mutatedVal
  rw [← h.1]
  refine like_bind (like_draw _) ?_
  rintro res _ rfl
  refine like_bind (like_lift _) ?_
  rintro new _ rfl
  exact like_pure ⟨rfl, rfl, h.2.2.1, h.2.2.2.1, by rintro f ⟨⟩⟩

theorem like_recombined (rec : Recombiner ρ) (a b : List γ) : Like (recombined rec a b) (recombined rec a b) Eq := by
  unfold recombined
  cases rec with
  | uniform mask =>
    refine like_bind (like_draw _) ?_
    rintro mk _ rfl
    refine like_bind (like_lift _) ?_
    rintro x _ rfl
    refine like_bind (like_lift _) ?_
    rintro y _ rfl
    refine like_bind (like_lift _) ?_
    rintro a' _ rfl
    refine like_bind (like_lift _) ?_
    rintro b' _ rfl
    exact like_pure rfl
  | nary k cuts =>
    refine like_bind (like_draw _) ?_
    rintro xs _ rfl
    exact like_lift _

theorem twin_crossed {t : List γ → PyM φ} (rec : Recombiner ρ) {a a' b b' : Val γ φ} (ha : TwinVal t a a') (hb : TwinVal t b b') :
    Like (crossed rec a b) (crossed rec a' b') fun x y => TwinVal t x.1 y.1 ∧ TwinVal t x.2 y.2 := by
  unfold crossed
  rw [← ha.1, ← hb.1]
  refine like_bind (like_recombined rec _ _) ?_
  rintro ⟨ga, gb⟩ _ rfl
  exact like_pure ⟨⟨rfl, rfl, ha.2.2.1, ha.2.2.2.1, by rintro f ⟨⟩⟩, ⟨rfl, rfl, hb.2.2.1, hb.2.2.2.1, by rintro f ⟨⟩⟩⟩

/-- Evaluation always gives what `t` gives and draws no random numbers. -/
def Exact (t : List γ → PyM φ) (dec : Dec γ ψ) (prob : Prob γ ψ φ ρ) : Prop := ∀ g w, scoreOf dec prob g w = (t g, w)

theorem peer_scored {t : List γ → PyM φ} {dec : Dec γ ψ} {prob : Prob γ ψ φ ρ} (ht : Exact t dec prob) {v v' : Val γ φ} (h : TwinVal t v v') :
    Like (scored dec prob v) (scored dec prob v') (Peer t) := by
  intro w w' e
  unfold scored
  rw [HM.bind_apply, HM.bind_apply, ht, ht, ← h.1]
  cases ex : t v.genes with
  | error x => exact ⟨rfl, e⟩
  | ok f => exact ⟨⟨⟨rfl, rfl, h.2.2.1, h.2.2.2.1, by rintro _ ⟨⟩; exact ex⟩, rfl⟩, e⟩

/-! ### Pipelines -/

def LikeIter (P : Val γ φ → Val γ φ → Prop) (a b : VIter γ φ ρ) : Prop :=
  ∃ R : a.σ → b.σ → Prop, R a.init b.init ∧ ∀ s s', R s s' → Like (a.next s) (b.next s') fun x y => P x.1 y.1 ∧ R x.2 y.2

theorem like_selected {P : Val γ φ → Val γ φ → Prop} {pop pop' : List (Val γ φ)} (h : List.Forall₂ P pop pop') (pick : ρ → PyM Nat × ρ) :
    LikeIter P (selected pop pick) (selected pop' pick) := by
  refine ⟨fun _ _ => True, trivial, fun s s' _ => like_bind (like_draw _) ?_⟩
  rintro i _ rfl
  rcases lt_or_ge i pop.length with hi | hi
  · have hi' : i < pop'.length := h.length_eq ▸ hi
    simp only [List.getElem?_eq_getElem hi, List.getElem?_eq_getElem hi']
    exact like_pure ⟨h.get hi hi', trivial⟩
  · have hi' : pop'.length ≤ i := h.length_eq ▸ hi
    simp only [List.getElem?_eq_none hi, List.getElem?_eq_none hi']
    exact like_raise _

/-- Cloning, mutation or crossover. -/
inductive Spec.Breeds : Stage γ ψ φ ρ → Prop
  | clone : Breeds .clone
  | mutate {check stopOk f} : Breeds (.mutate check stopOk f)
  | crossover {skip rec} : Breeds (.crossover skip rec)

theorem like_breeds {t : List γ → PyM φ} {a b : VIter γ φ ρ} (h : LikeIter (TwinVal t) a b) {st : Stage γ ψ φ ρ} (hs : Breeds st) :
    LikeIter (TwinVal t) (through a st) (through b st) := by
  obtain ⟨R, h0, hR⟩ := h
  cases hs with
  | clone =>
    refine ⟨R, h0, fun s s' hs => like_pep (like_bind (hR s s' hs) ?_)⟩
    rintro ⟨v, u⟩ ⟨v', u'⟩ ⟨h1, h2⟩
    refine like_bind (twin_cloned h1) ?_
    exact fun c c' hc => like_pure ⟨hc, h2⟩
  | @mutate check stopOk f =>
    refine ⟨fun x y => x.1 = y.1 ∧ R x.2 y.2, ⟨rfl, h0⟩, ?_⟩
    rintro ⟨st, s⟩ ⟨_, s'⟩ ⟨rfl, hs⟩
    refine like_bind (like_lift _) ?_
    rintro _ _ _
    refine like_bind (like_endOf _ (hR s s' hs)) ?_
    rintro ⟨v, u⟩ ⟨v', u'⟩ ⟨h1, h2⟩
    refine like_bind (like_pep (twin_mutated f h1)) ?_
    exact fun c c' hc => like_pure ⟨hc, rfl, h2⟩
  | @crossover skip rec =>
    refine ⟨fun x y => (match x.1, y.1 with | none, none => True | some v, some v' => TwinVal t v v' | _, _ => False) ∧ R x.2 y.2, ⟨trivial, h0⟩, ?_⟩
    rintro ⟨(_ | p), s⟩ ⟨(_ | p'), s'⟩ ⟨hp, hs⟩
    · refine like_pep (like_bind (hR s s' hs) ?_)
      rintro ⟨v1, u1⟩ ⟨v1', u1'⟩ ⟨h1, k1⟩
      refine like_bind (hR u1 u1' k1) ?_
      rintro ⟨v2, u2⟩ ⟨v2', u2'⟩ ⟨h2, k2⟩
      refine like_bind (like_draw _) ?_
      rintro sk _ rfl
      cases sk
      · refine like_bind (twin_crossed rec h1 h2) ?_
        rintro ⟨x1, x2⟩ ⟨y1, y2⟩ ⟨g1, g2⟩
        exact like_pure ⟨g1, g2, k2⟩
      · exact like_pure ⟨h1, h2, k2⟩
    · exact hp.elim
    · exact hp.elim
    · exact like_pep (like_pure ⟨hp, trivial, hs⟩)

theorem like_evaluate {t : List γ → PyM φ} {a b : VIter γ φ ρ} (h : LikeIter (TwinVal t) a b) {dec : Dec γ ψ} {prob : Prob γ ψ φ ρ} (ht : Exact t dec prob) :
    LikeIter (Peer t) (through a (.evaluate dec prob)) (through b (.evaluate dec prob)) := by
  obtain ⟨R, h0, hR⟩ := h
  refine ⟨R, h0, fun s s' hs => like_pep (like_bind (hR s s' hs) ?_)⟩
  rintro ⟨v, u⟩ ⟨v', u'⟩ ⟨h1, h2⟩
  refine like_bind (peer_scored ht h1) ?_
  exact fun c c' hc => like_pure ⟨hc, h2⟩

theorem like_chained {t : List γ → PyM φ} {dec : Dec γ ψ} {prob : Prob γ ψ φ ρ} (ht : Exact t dec prob) (pre : List (Stage γ ψ φ ρ)) : ∀ {a b : VIter γ φ ρ},
    (∀ st ∈ pre, Breeds st) → LikeIter (TwinVal t) a b →
      LikeIter (Peer t) (chained a (pre ++ [.evaluate dec prob])) (chained b (pre ++ [.evaluate dec prob])) := by
  induction pre with
  | nil => exact fun _ h => like_evaluate h ht
  | cons st pre ih => exact fun hp h => ih (fun x hx => hp x (by simp [hx])) (like_breeds h (hp st (by simp)))

theorem like_hpull {P : Val γ φ → Val γ φ → Prop} {a b : VIter γ φ ρ} {R : a.σ → b.σ → Prop}
    (hR : ∀ s s', R s s' → Like (a.next s) (b.next s') fun x y => P x.1 y.1 ∧ R x.2 y.2) (n : Nat) : ∀ s s', R s s' →
      Like (hpull a.next n s) (hpull b.next n s') fun x y => List.Forall₂ P x.1 y.1 := by
  induction n with
  | zero => exact fun _ _ _ => like_pure .nil
  | succ n ih =>
    intro s s' h
    unfold hpull
    refine like_bind (hR s s' h) ?_
    rintro ⟨v, u⟩ ⟨v', u'⟩ ⟨h1, h2⟩
    refine like_bind (ih u u' h2) ?_
    rintro ⟨vs, x⟩ ⟨vs', x'⟩ h3
    exact like_pure (.cons h1 h3)

theorem like_offspring {t : List γ → PyM φ} {dec : Dec γ ψ} {prob : Prob γ ψ φ ρ} (ht : Exact t dec prob) {pre : List (Stage γ ψ φ ρ)} (hp : ∀ st ∈ pre, Breeds st)
    {pop pop' : List (Val γ φ)} (h : List.Forall₂ (TwinVal t) pop pop') (pick : ρ → PyM Nat × ρ) (size : Nat) :
    Like (offspringOf pop pick (pre ++ [.evaluate dec prob]) size) (offspringOf pop' pick (pre ++ [.evaluate dec prob]) size) (List.Forall₂ (Peer t)) := by
  obtain ⟨R, h0, hR⟩ := like_chained ht (.clone :: pre) (by
    intro st hst
    rcases List.mem_cons.1 hst with rfl | hst
    · exact .clone
    · exact hp st hst) (like_selected h pick)
  unfold offspringOf
  refine like_bind (like_hpull hR size _ _ h0) ?_
  rintro ⟨vs, x⟩ ⟨vs', x'⟩ h3
  exact like_pure h3

/-! ### Survival -/

theorem forall₂_pairs {P : α → α → Prop} {l l' : List α} (h : List.Forall₂ P l l') :
    ∃ S : List { x : α × α // P x.1 x.2 }, S.map (fun x => x.1.1) = l ∧ S.map (fun x => x.1.2) = l' := by
  induction h with
  | nil => exact ⟨[], rfl, rfl⟩
  | cons hx _ ih =>
    obtain ⟨S, h1, h2⟩ := ih
    exact ⟨⟨(_, _), hx⟩ :: S, by simp [h1], by simp [h2]⟩

theorem like_survival {P : Val γ φ → Val γ φ → Prop} (hP : ∀ v v', P v v' → v.fitness = v'.fitness) (worse : Option φ → Option φ → Bool) {off off' par par' : List (Val γ φ)}
    (ho : List.Forall₂ P off off') (hp : List.Forall₂ P par par') (k : Nat) :
    List.Forall₂ P (elitistSurvival (fun a b : Val γ φ => worse a.fitness b.fitness) off par k).1
      (elitistSurvival (fun a b : Val γ φ => worse a.fitness b.fitness) off' par' k).1 := by
  obtain ⟨O, rfl, rfl⟩ := forall₂_pairs ho
  obtain ⟨S, rfl, rfl⟩ := forall₂_pairs hp
  rw [elitistSurvival_map (fun x : { x : Val γ φ × Val γ φ // P x.1 x.2 } => x.1.1) (fun a b => worse a.1.1.fitness b.1.1.fitness) _ (fun _ _ => rfl),
    elitistSurvival_map (fun x : { x : Val γ φ × Val γ φ // P x.1 x.2 } => x.1.2) (fun a b => worse a.1.1.fitness b.1.1.fitness) _
      (fun a b => by rw [hP _ _ a.2, hP _ _ b.2])]
  rw [List.forall₂_map_left_iff, List.forall₂_map_right_iff, List.forall₂_same]
  exact fun x _ => x.2

theorem looks_values (pop : List (Val γ φ)) (s : ρ) :
    (List.range pop.length).map (looks (laidOut pop s : Mem γ ψ φ ρ)) = pop.map fun v => (some v.genes, some v.fitness, v.viable) := by
  apply List.ext_getElem (by simp)
  intro i h1 h2
  simp at h1
  simp [looks, genes, fitness, laidOut, h1]

theorem decide_twins {δ : Type} {choose : List Nat → Mem γ ψ φ ρ → δ} (hc : ByAppearance choose) {t : List γ → PyM φ} {pop pop' : List (Val γ φ)}
    (h : List.Forall₂ (TwinVal t) pop pop') (s : ρ) :
    choose (List.range pop.length) (laidOut pop s) = choose (List.range pop'.length) (laidOut pop' s) := by
  refine hc _ _ _ _ rfl ?_
  rw [looks_values, looks_values]
  induction h with
  | nil => rfl
  | cons hx _ ih => simp only [List.map_cons, ih, hx.1, hx.2.1, hx.2.2.1, hx.2.2.2.1]

/-! ### Loops -/

theorem peers_twins {t : List γ → PyM φ} {pop pop' : List (Val γ φ)} (h : List.Forall₂ (Peer t) pop pop') : List.Forall₂ (TwinVal t) pop pop' :=
  h.imp fun _ _ h => h.1

theorem like_valueLoop {t : List γ → PyM φ} {dec : Dec γ ψ} {prob : Prob γ ψ φ ρ} (ht : Exact t dec prob) {pre : List (Stage γ ψ φ ρ)} (hp : ∀ st ∈ pre, Breeds st)
    (cfg : EvoConfig γ ψ φ ρ) (hst : cfg.stages = pre ++ [.evaluate dec prob]) (hc : ∀ g, ByAppearance (cfg.choose g)) (hs : ∀ g, ByAppearance (cfg.stop g)) (fuel : Nat) :
    ∀ (g : Int) (pop pop' : List (Val γ φ)), List.Forall₂ (Peer t) pop pop' → Like (valueLoop cfg fuel g pop) (valueLoop cfg fuel g pop') (List.Forall₂ (Peer t)) := by
  induction fuel with
  | zero => exact fun _ _ _ h => like_pure h
  | succ fuel ih =>
    intro g pop pop' h w w' e
    unfold valueLoop
    rw [← e, ← decide_twins (hs g) (peers_twins h) w.rng]
    by_cases hb : cfg.stop g (List.range pop.length) (laidOut pop w.rng) = true
    · rw [if_pos hb, if_pos hb]
      exact ⟨h, e⟩
    · rw [if_neg hb, if_neg hb]
      have hpick : (fun s => cfg.choose g (List.range pop'.length) (laidOut pop' s)) = fun s => cfg.choose g (List.range pop.length) (laidOut pop s) :=
        funext fun s => (decide_twins (hc g) (peers_twins h) s).symm
      rw [hpick, hst]
      refine like_bind (like_offspring ht hp (peers_twins h) _ cfg.size) ?_ w w' e
      exact fun off off' ho => ih (g + 1) _ _ (like_survival (fun v v' hv => hv.1.2.1) cfg.worse ho h cfg.kElites)

end

end Leap
