import Mathlib.Tactic.Ring
import Mathlib.Tactic.Linarith
import Mathlib.Data.List.Basic
import Mathlib.Data.List.Induction
import Verif.Model.Counters

/-!
# C30–C33: counters, identifiers, steps
-/

namespace Leap

/-! ## C30 -/

theorem runCallbacks_eq (n : Nat) (v : Int) (calls : List (Nat × Int)) :
    runCallbacks n v calls = calls ++ (List.range n).map fun i => (i, v) := by
  unfold runCallbacks
  induction n with
  | zero => simp
  | succ n ih =>
    rw [List.range_succ, List.foldl_append, ih]
    simp

/-- How many of the events are calls of the counter. -/
def Spec.numCalls (es : List GenEvent) : Nat :=
  es.countP fun | .call => true | .overwrite _ => false

/-- C30: over any history, in which other code may also overwrite the context entry, the values returned
are start+1, start+2, ... in order; the counter is start plus the number of calls; and each call
calls all callbacks once, in order, with the new value. -/
theorem generation_counter_history (n : Nat) (start : Int) (ctx : LeapCtx) (es : List GenEvent) :
    ((incGeneration start ctx).run n es).1 =
        (List.range (Spec.numCalls es)).map (fun i : Nat => start + 1 + (i : Int)) ∧
    ((incGeneration start ctx).run n es).2.generation = start + Spec.numCalls es ∧
    ((incGeneration start ctx).run n es).2.calls =
        (List.range (Spec.numCalls es)).flatMap (fun g : Nat =>
          (List.range n).map fun i : Nat => (i, start + 1 + (g : Int))) := by
  have key : ∀ (es : List GenEvent) (c : GenCounter),
      (c.run n es).1 = (List.range (Spec.numCalls es)).map (fun i : Nat => c.curr + 1 + (i : Int)) ∧
      (c.run n es).2.curr = c.curr + Spec.numCalls es ∧
      (c.run n es).2.calls = c.calls ++ (List.range (Spec.numCalls es)).flatMap (fun g : Nat =>
          (List.range n).map fun i : Nat => (i, c.curr + 1 + (g : Int))) := by
    intro es
    induction es with
    | nil => intro c; simp [GenCounter.run, Spec.numCalls]
    | cons e es ih =>
      intro c
      cases e with
      | call =>
        obtain ⟨h1, h2, h3⟩ := ih (c.increment n).2
        have hn : Spec.numCalls (.call :: es) = Spec.numCalls es + 1 := by
          simp [Spec.numCalls, List.countP_cons]
        simp only [GenCounter.run]
        rw [hn, List.range_succ_eq_map]
        refine ⟨?_, ?_, ?_⟩
        · rw [h1]
          simp only [GenCounter.increment, List.map_cons, List.map_map]
          congr 1
          · simp
          · apply List.map_congr_left
            intro i _
            simp [Function.comp]; ring
        · rw [h2]; simp [GenCounter.increment]; ring
        · rw [h3]
          simp only [GenCounter.increment, runCallbacks_eq, List.flatMap_cons, List.append_assoc,
            List.flatMap_map]
          congr 1
          congr 1
          · simp
          · congr 1
            funext g
            apply List.map_congr_left
            intro i _
            simp; ring
      | overwrite v =>
        have hn : Spec.numCalls (.overwrite v :: es) = Spec.numCalls es := by
          simp [Spec.numCalls, List.countP_cons]
        rw [hn]
        exact ih _
  have := key es (incGeneration start ctx)
  simpa [incGeneration, GenCounter.generation] using this

/-- C30: the context holds the start value before any call, and after a call it holds the value just
returned, even if other code had overwritten it in between. -/
theorem generation_in_context (n : Nat) (start : Int) (ctx : LeapCtx) (es : List GenEvent) :
    (incGeneration start ctx).ctx.generation = some start ∧
    ((incGeneration start ctx).run n (es ++ [.call])).2.ctx.generation =
      some (start + Spec.numCalls es + 1) ∧
    ((incGeneration start ctx).run n (es ++ [.call])).2.ctx.births = ctx.births := by
  have key : ∀ (es : List GenEvent) (c : GenCounter),
      (c.run n (es ++ [.call])).2.ctx.generation = some (c.curr + Spec.numCalls es + 1) ∧
      (c.run n (es ++ [.call])).2.ctx.births = c.ctx.births := by
    intro es
    induction es with
    | nil => intro c; simp [GenCounter.run, Spec.numCalls, GenCounter.increment]
    | cons e es ih =>
      intro c
      cases e with
      | call =>
        have hn : Spec.numCalls (.call :: es) = Spec.numCalls es + 1 := by
          simp [Spec.numCalls, List.countP_cons]
        obtain ⟨h1, h2⟩ := ih (c.increment n).2
        simp only [List.cons_append, GenCounter.run]
        rw [h1, h2, hn]
        simp [GenCounter.increment]; ring
      | overwrite v =>
        have hn : Spec.numCalls (.overwrite v :: es) = Spec.numCalls es := by
          simp [Spec.numCalls, List.countP_cons]
        rw [hn]
        exact ih _
  have := key es (incGeneration start ctx)
  exact ⟨rfl, by simpa [incGeneration] using this.1, by simpa [incGeneration] using this.2⟩

example : ((incGeneration 5 {}).run 2 [.call, .overwrite (some 99), .call]).1 = [6, 7] ∧
    ((incGeneration 5 {}).run 2 [.call, .overwrite (some 99), .call]).2.calls =
      [(0, 6), (1, 6), (0, 7), (1, 7)] := by decide

/-! ## C31 -/

/-- Sum of all increments minus the number of decrements. -/
def Spec.netBirths : List BirthEvent → Int
  | [] => 0
  | .inc size :: es => size + Spec.netBirths es
  | .dec :: es => Spec.netBirths es - 1

/-- The counter value after each event. -/
def Spec.runningBirths (start : Int) (es : List BirthEvent) : List Int :=
  (List.range es.length).map fun i : Nat => start + Spec.netBirths (es.take (i + 1))

/-- C31: after any history the counter is start + Σ increments − #decrements, the context holds the same
number, and each call returned the count at that moment. -/
theorem birth_counter_history (n : Nat) (start : Int) (ctx : LeapCtx) (es : List BirthEvent) :
    ((incBirths start ctx).run n es).2.births = start + Spec.netBirths es ∧
    ((incBirths start ctx).run n es).2.ctx.births = some (start + Spec.netBirths es) ∧
    ((incBirths start ctx).run n es).2.ctx.generation = ctx.generation ∧
    ((incBirths start ctx).run n es).1 = (Spec.runningBirths start es).map .ok := by
  have key : ∀ (es : List BirthEvent) (c : BirthCounter), c.ctx.births = some c.curr →
      (c.run n es).2.curr = c.curr + Spec.netBirths es ∧
      (c.run n es).2.ctx.births = some (c.curr + Spec.netBirths es) ∧
      (c.run n es).2.ctx.generation = c.ctx.generation ∧
      (c.run n es).1 = (Spec.runningBirths c.curr es).map .ok := by
    intro es
    induction es with
    | nil => intro c hc; simp [BirthCounter.run, Spec.netBirths, hc, Spec.runningBirths]
    | cons e es ih =>
      intro c hc
      have hrun : ∀ (x : Int) , (∀ p, Spec.netBirths (e :: p) = x + Spec.netBirths p) →
          Spec.runningBirths c.curr (e :: es) = (c.curr + x) :: Spec.runningBirths (c.curr + x) es := by
        intro x hx
        simp only [Spec.runningBirths, List.length_cons, List.range_succ_eq_map, List.map_cons,
          List.map_map, List.take_succ_cons, hx, List.take_zero, Spec.netBirths]
        congr 1
        · ring
        · apply List.map_congr_left
          intro i _
          simp only [Function.comp]
          ring
      cases e with
      | inc size =>
        obtain ⟨h1, h2, h3, h4⟩ := ih (c.increment n size).2 (by
          simp [BirthCounter.increment, hc])
        have e1 : (c.increment n size).2.curr = c.curr + size := by simp [BirthCounter.increment, hc]
        have e2 : (c.increment n size).2.ctx.generation = c.ctx.generation := by
          simp [BirthCounter.increment, hc]
        have e3 : (c.increment n size).1 = .ok (c.curr + size) := by simp [BirthCounter.increment, hc]
        rw [e1] at h1 h2 h4
        rw [e2] at h3
        rw [hrun size (fun p => rfl)]
        simp only [BirthCounter.run, BirthCounter.step, Spec.netBirths]
        refine ⟨by rw [h1]; ring, by rw [h2]; congr 1; ring, h3, by rw [h4, e3]; rfl⟩
      | dec =>
        obtain ⟨h1, h2, h3, h4⟩ := ih c.decrement.2 (by
          simp [BirthCounter.decrement, hc])
        have e1 : c.decrement.2.curr = c.curr - 1 := by simp [BirthCounter.decrement, hc]
        have e2 : c.decrement.2.ctx.generation = c.ctx.generation := by
          simp [BirthCounter.decrement, hc]
        have e3 : c.decrement.1 = .ok (c.curr - 1) := by simp [BirthCounter.decrement, hc]
        rw [e1] at h1 h2 h4
        rw [e2] at h3
        rw [hrun (-1) (fun p => by simp [Spec.netBirths]; ring)]
        simp only [BirthCounter.run, BirthCounter.step, Spec.netBirths]
        refine ⟨by rw [h1]; ring, by rw [h2]; congr 1; ring, h3, by rw [h4, e3]; rfl⟩
  exact key es (incBirths start ctx) rfl

example : ((incBirths 3 {}).run 1 [.inc 1, .inc 4, .dec]).1 = [.ok 4, .ok 8, .ok 7] ∧
    ((incBirths 3 {}).run 1 [.inc 1, .inc 4, .dec]).2.calls = [(0, 4), (0, 8)] := by decide

/-- C31: if the context entry is deleted, counting raises `KeyError`. -/
theorem birth_counter_missing_entry (n : Nat) (size : Int) (c : BirthCounter)
    (h : c.ctx.births = none) :
    (c.increment n size).1 = .error .keyError ∧ c.decrement.1 = .error .keyError := by
  simp [BirthCounter.increment, BirthCounter.decrement, h]

/-! ## C33 -/

/-- C33: asking explicitly for generations (births not asked for) gives the generation count, or an
`AssertionError` if it is not in the context; symmetrically for births; asking for both is rejected. -/
theorem get_step_explicit (c : LeapCtx) (other : Option Bool) (ho : other ≠ some true) :
    getStep (some c) (some true) other =
      (match c.generation with | some v => .ok (some v) | none => .error .assertionError) ∧
    getStep (some c) other (some true) =
      (match c.births with | some v => .ok (some v) | none => .error .assertionError) ∧
    getStep (some c) (some true) (some true) = .error .assertionError := by
  obtain ⟨g, b, -⟩ := c
  cases g <;> cases b <;> cases other with
  | none => simp [getStep]
  | some x => cases x <;> simp_all [getStep]

/-- C33: asking for neither explicitly uses the only counter there is; it is rejected when there are both or
none, and when the context has no `'leap'` entry. -/
theorem get_step_inferred (c : LeapCtx) :
    (∀ v, c.generation = some v → c.births = none → getStep (some c) none none = .ok (some v)) ∧
    (∀ v, c.births = some v → c.generation = none → getStep (some c) none none = .ok (some v)) ∧
    (∀ v w, c.generation = some v → c.births = some w →
      getStep (some c) none none = .error .assertionError) ∧
    (c.generation = none → c.births = none → getStep (some c) none none = .error .assertionError) ∧
    (∀ g b, getStep none g b = .error .assertionError) := by
  refine ⟨?_, ?_, ?_, ?_, ?_⟩ <;> intros <;> simp_all [getStep]

/-- C33: explicitly refusing both is rejected; refusing one and leaving the other open is accepted and gives
`None`. -/
theorem get_step_refused (c : LeapCtx) :
    getStep (some c) (some false) (some false) = .error .assertionError ∧
    getStep (some c) (some false) none = .ok none ∧ getStep (some c) none (some false) = .ok none := by
  simp [getStep]

example : getStep (some { generation := some 3, births := some 8 }) (some true) none = .ok (some 3) ∧
    getStep (some { births := some 8 }) none none = .ok (some 8) := by decide

/-! ## C32 -/

/-- No two individuals carry the same birth number. -/
def Spec.UniqueBirths (s : BrandState) : Prop :=
  ∀ i j b li lj : Nat, s.inds[i]? = some (some b, li) → s.inds[j]? = some (some b, lj) → i = j

/-- No event of the history clones an individual that has already been branded at that point. -/
def Spec.ClonesOnlyUnbranded (es : List BrandEvent) : Prop :=
  ∀ pre i post, es = pre ++ .clone i :: post →
    ∀ b len, (BrandState.history pre).inds[i]? ≠ some (some b, len)

theorem history_snoc (es : List BrandEvent) (e : BrandEvent) :
    BrandState.history (es ++ [e]) = (BrandState.history es).event e := by
  simp [BrandState.history]

/-- C32 (partial): in every history in which no branded individual is cloned, birth numbers are unique,
and the numbers given out are exactly 0, 1, ..., in order of branding. What is missing: cloning a
branded individual, for which the property is false (`brander_clone_duplicates`). -/
theorem births_unique_partial (es : List BrandEvent) (h : Spec.ClonesOnlyUnbranded es) :
    Spec.UniqueBirths (BrandState.history es) ∧
    (∀ b, b < (BrandState.history es).next ↔
      ∃ (i len : Nat), (BrandState.history es).inds[i]? = some (some b, len)) := by
  induction es using List.reverseRecOn with
  | nil =>
    refine ⟨?_, ?_⟩
    · intro i j b li lj hi; simp [BrandState.history] at hi
    · intro b; simp [BrandState.history]
  | append_singleton es e ih =>
    obtain ⟨hu, hr⟩ := ih (by
      intro pre i post he b len
      exact h pre i (post ++ [e]) (by rw [he]; simp) b len)
    rw [history_snoc]
    set s := BrandState.history es with hs
    have append_none : ∀ len : Nat, Spec.UniqueBirths { s with inds := s.inds ++ [(none, len)] } ∧
        (∀ b, b < s.next ↔ ∃ (i l : Nat), (s.inds ++ [(none, len)])[i]? = some (some b, l)) := by
      intro len
      have hget : ∀ i b l : Nat, (s.inds ++ [((none : Option Nat), len)])[i]? = some (some b, l) ↔
          s.inds[i]? = some (some b, l) := by
        intro i b l
        rcases Nat.lt_trichotomy i s.inds.length with hi | hi | hi
        · rw [List.getElem?_append_left hi]
        · subst hi; simp
        · rw [List.getElem?_eq_none (by simp; omega), List.getElem?_eq_none (by omega)]
      refine ⟨?_, ?_⟩
      · intro i j b li lj hi hj
        exact hu i j b li lj ((hget ..).mp hi) ((hget ..).mp hj)
      · intro b
        rw [hr b]
        simp only [hget]
    cases e with
    | create len => exact append_none len
    | clone i =>
      simp only [BrandState.event]
      cases hi : s.inds[i]? with
      | none => exact ⟨hu, hr⟩
      | some x =>
        obtain ⟨ob, len⟩ := x
        cases ob with
        | none => exact append_none len
        | some b => exact absurd hi (h es i [] rfl b len)
    | brand i =>
      simp only [BrandState.event, brand]
      cases hi : s.inds[i]? with
      | none => exact ⟨hu, hr⟩
      | some x =>
        obtain ⟨ob, len⟩ := x
        cases ob with
        | some b => exact ⟨hu, hr⟩
        | none =>
          have hil : i < s.inds.length := by
            by_contra hcon
            rw [List.getElem?_eq_none (by omega)] at hi; simp at hi
          simp only
          have hget : ∀ j : Nat, (s.inds.set i (some s.next, len))[j]? =
              if j = i then some (some s.next, len) else s.inds[j]? := by
            intro j
            rw [List.getElem?_set]
            by_cases hj : i = j
            · subst hj; simp [hil]
            · simp [hj, Ne.symm hj]
          have hnew : ∀ j l : Nat, s.inds[j]? ≠ some (some s.next, l) := by
            intro j l hcon
            have := (hr s.next).mpr ⟨j, l, hcon⟩
            omega
          refine ⟨?_, ?_⟩
          · intro a c b la lc ha hc
            simp only [hget] at ha hc
            by_cases h1 : a = i <;> by_cases h2 : c = i
            · rw [h1, h2]
            · simp only [h1, if_true, Option.some.injEq, Prod.mk.injEq, h2, if_false] at ha hc
              rw [← ha.1] at hc
              exact absurd hc (hnew c lc)
            · simp only [h1, if_false, Option.some.injEq, Prod.mk.injEq, h2, if_true] at ha hc
              rw [← hc.1] at ha
              exact absurd ha (hnew a la)
            · simp only [h1, h2, if_false] at ha hc
              exact hu a c b la lc ha hc
          · intro b
            simp only [hget]
            constructor
            · intro hb
              rcases Nat.lt_succ_iff_lt_or_eq.mp hb with hb | rfl
              · obtain ⟨j, l, hj⟩ := (hr b).mp hb
                refine ⟨j, l, ?_⟩
                rw [if_neg]
                · exact hj
                · rintro rfl; rw [hi] at hj; simp at hj
              · exact ⟨i, len, by simp⟩
            · rintro ⟨j, l, hj⟩
              by_cases h1 : j = i
              · simp only [h1, if_true, Option.some.injEq, Prod.mk.injEq] at hj
                omega
              · simp only [h1, if_false] at hj
                have := (hr b).mpr ⟨j, l, hj⟩
                omega

example : Spec.ClonesOnlyUnbranded [.create 2, .clone 0, .brand 1, .brand 0, .brand 1] ∧
    (BrandState.history [.create 2, .clone 0, .brand 1, .brand 0, .brand 1]).inds =
      [(some 1, 2), (some 0, 2)] := by
  refine ⟨?_, by decide⟩
  intro pre i post h b len
  match pre, h with
  | [], h => simp at h
  | [e1], h =>
    simp only [List.cons_append, List.nil_append, List.cons.injEq] at h
    obtain ⟨rfl, h2, -⟩ := h
    simp only [BrandEvent.clone.injEq] at h2
    subst h2
    simp [BrandState.history, BrandState.event]
  | [e1, e2], h => simp at h
  | [e1, e2, e3], h => simp at h
  | [e1, e2, e3, e4], h => simp at h
  | e1 :: e2 :: e3 :: e4 :: e5 :: pre, h => simp at h

/-- C32 is false when a branded individual is cloned: the clone has the same birth number and passing it
through the brander does not change that. -/
theorem brander_clone_duplicates :
    ¬ Spec.UniqueBirths (BrandState.history [.create 2, .brand 0, .clone 0, .brand 1]) := by
  intro h
  have := h 0 1 0 2 2 (by decide) (by decide)
  omega

/-- C32: branding never changes a number already given, gives an unbranded individual the next number, and
touches nobody else. -/
theorem brand_effect (s : BrandState) (i len : Nat) :
    (∀ b, s.inds[i]? = some (some b, len) → brand (.ind i) s = (.ok (), s)) ∧
    (s.inds[i]? = some (none, len) →
      (brand (.ind i) s).1 = .ok () ∧
      (brand (.ind i) s).2.inds[i]? = some (some s.next, len) ∧
      (brand (.ind i) s).2.next = s.next + 1 ∧
      ∀ j, j ≠ i → (brand (.ind i) s).2.inds[j]? = s.inds[j]?) := by
  constructor
  · intro b h; simp [brand, h]
  · intro h
    have hil : i < s.inds.length := by
      by_contra hcon
      rw [List.getElem?_eq_none (by omega)] at h; simp at h
    refine ⟨by simp [brand, h], by simp only [brand, h]; simp [hil], by simp [brand, h], ?_⟩
    intro j hj
    simp [brand, h, List.getElem?_set, Ne.symm hj]

/-- C32: `brand_population` is branding each individual in turn. -/
theorem brand_population_each (l : List Nat) (s : BrandState) (hl : ∀ i ∈ l, i < s.inds.length) :
    brandPopulation l s = (.ok (), l.foldl (fun s i => (brand (.ind i) s).2) s) := by
  induction l generalizing s with
  | nil => rfl
  | cons i l ih =>
    have hi := hl i (List.mem_cons_self ..)
    have h1 : (brand (.ind i) s).1 = .ok () := by
      cases e : s.inds[i]? with
      | none => rw [List.getElem?_eq_none_iff] at e; omega
      | some x => obtain ⟨ob, len⟩ := x; cases ob <;> simp [brand, e]
    have h2 : (brand (.ind i) s).2.inds.length = s.inds.length := by
      cases e : s.inds[i]? with
      | none => simp [brand, e]
      | some x => obtain ⟨ob, len⟩ := x; cases ob <;> simp [brand, e]
    have := ih (brand (.ind i) s).2 (fun j hj => by
      rw [h2]; exact hl j (List.mem_cons_of_mem _ hj))
    simp only [brandPopulation, List.foldl_cons]
    cases e : brand (.ind i) s with
    | mk r s' =>
      rw [e] at h1 this
      simp only at h1 this
      subst h1
      exact this

/-- C32: used on a list, a fresh brander yields the list's individuals in order, each branded, and then
raises `RuntimeError`. -/
theorem branding_a_list (l : List Nat) (s : BrandState) (hs : s.iterator = none)
    (hl : ∀ i ∈ l, i < s.inds.length) :
    (brandingRun (l.length + 1) (.population l) s).1 = l.map .ok ++ [.error .runtimeError] ∧
    (brandingRun (l.length + 1) (.population l) s).2.2.inds =
      (l.foldl (fun s i => (brand (.ind i) s).2) s).inds := by
  have brand_it : ∀ (i : Nat) (t : BrandState) (it : Option (List Thing)), i < t.inds.length →
      brand (.ind i) { t with iterator := it } =
        (.ok (), { (brand (.ind i) t).2 with iterator := it }) ∧
      (brand (.ind i) t).2.inds.length = t.inds.length ∧
      (brand (.ind i) t).2.iterator = t.iterator := by
    intro i t it hi
    cases e : t.inds[i]? with
    | none => rw [List.getElem?_eq_none_iff] at e; omega
    | some x => obtain ⟨ob, len⟩ := x; cases ob <;> simp [brand, e]
  have key : ∀ (l : List Nat) (n : NextThing) (t : BrandState),
      (∀ rest, n ≠ .generator rest) → (∀ i ∈ l, i < t.inds.length) →
      t.iterator = some (l.map .ind) ∨ (t.iterator = none ∧ n = .population l) →
      (brandingRun (l.length + 1) n t).1 = l.map .ok ++ [.error .runtimeError] ∧
      (brandingRun (l.length + 1) n t).2.2.inds =
        (l.foldl (fun s i => (brand (.ind i) s).2) t).inds := by
    intro l
    induction l with
    | nil =>
      intro n t hn _ hit
      have hstep : brandingStep n t = (.error .runtimeError, n, { t with iterator := some [] }) := by
        cases n with
        | generator r => exact absurd rfl (hn r)
        | population p =>
          rcases hit with h | ⟨h, hp⟩
          · obtain ⟨inds, nx, it⟩ := t; simp at h; subst h; simp [brandingStep]
          · simp at hp; subst hp; simp [brandingStep, h, iterOf]
        | ind i =>
          rcases hit with h | ⟨h, hp⟩
          · obtain ⟨inds, nx, it⟩ := t; simp at h; subst h; simp [brandingStep]
          · simp at hp
      simp [brandingRun, hstep]
    | cons i l ih =>
      intro n t hn hl hit
      have hi := hl i (List.mem_cons_self ..)
      obtain ⟨hb, hlen, -⟩ := brand_it i t (some (l.map .ind)) hi
      have hstep : brandingStep n t =
          (.ok i, .ind i, { (brand (.ind i) t).2 with iterator := some (l.map .ind) }) := by
        cases n with
        | generator r => exact absurd rfl (hn r)
        | population p =>
          rcases hit with h | ⟨h, hp⟩
          · simp [brandingStep, h, hb]
          · simp at hp; subst hp; simp [brandingStep, h, iterOf, hb]
        | ind j =>
          rcases hit with h | ⟨h, hp⟩
          · simp [brandingStep, h, hb]
          · simp at hp
      obtain ⟨h1, h2⟩ := ih (.ind i) { (brand (.ind i) t).2 with iterator := some (l.map .ind) }
        (by simp) (by intro j hj; simp only; rw [hlen]; exact hl j (List.mem_cons_of_mem _ hj))
        (Or.inl rfl)
      have hfold : ∀ (l : List Nat) (t : BrandState) (it : Option (List Thing)),
          (∀ j ∈ l, j < t.inds.length) →
          (l.foldl (fun s i => (brand (.ind i) s).2) { t with iterator := it }).inds =
            (l.foldl (fun s i => (brand (.ind i) s).2) t).inds := by
        intro l
        induction l with
        | nil => intros; rfl
        | cons j l ih2 =>
          intro t it hj
          obtain ⟨hbj, hlj, hij⟩ := brand_it j t it (hj j (List.mem_cons_self ..))
          simp only [List.foldl_cons, hbj]
          exact ih2 _ it (by intro x hx; rw [hlj]; exact hj x (List.mem_cons_of_mem _ hx))
      rw [hfold l (brand (.ind i) t).2 _ (by
        intro j hj; rw [hlen]; exact hl j (List.mem_cons_of_mem _ hj))] at h2
      have hrun : brandingRun ((i :: l).length + 1) n t =
          (.ok i :: (brandingRun (l.length + 1) (.ind i)
              { (brand (.ind i) t).2 with iterator := some (l.map .ind) }).1,
            (brandingRun (l.length + 1) (.ind i)
              { (brand (.ind i) t).2 with iterator := some (l.map .ind) }).2) := by
        rw [List.length_cons, brandingRun, hstep]
      rw [hrun]
      simp only [h1, List.map_cons, List.cons_append, List.foldl_cons]
      exact ⟨trivial, h2⟩
  exact key l (.population l) s (by simp) hl (Or.inr ⟨hs, rfl⟩)

/-- Two unbranded individuals and a fresh brander. -/
def exampleBrander : BrandState := ⟨[(none, 3), (none, 3), (none, 3)], 0, none⟩

example : (brandingRun 3 (.population [0, 1]) exampleBrander).1 = [.ok 0, .ok 1, .error .runtimeError] ∧
    (brandingRun 3 (.population [0, 1]) exampleBrander).2.2.inds = [(some 0, 3), (some 1, 3), (none, 3)] := by
  decide

/-- C32 is false for generator input: after the first individual the brander tries to brand a gene of that
individual and raises `AttributeError`; the individuals still in the generator are never
yielded. This happens for every generator of at least two individuals with non-empty genomes. -/
theorem branding_a_generator_fails (i : Nat) (rest : List Nat) (s : BrandState) (len : Nat)
    (ob : Option Nat) (hs : s.iterator = none) (hi : s.inds[i]? = some (ob, len + 1)) :
    (brandingRun 2 (.generator (i :: rest)) s).1 = [.ok i, .error .attributeError] := by
  have hil : i < s.inds.length := by
    by_contra hcon
    rw [List.getElem?_eq_none (by omega)] at hi; simp at hi
  cases ob with
  | some b => simp [brandingRun, brandingStep, brand, hi, hs, iterOf, List.replicate_succ]
  | none =>
    have h2 : (s.inds.set i (some s.next, len + 1))[i]? = some (some s.next, len + 1) := by simp [hil]
    simp only [brandingRun, brandingStep, brand, hi, hs, iterOf, h2, List.replicate_succ]

/-- C32 is false for a second population: once a brander has worked through a list, using it on another
one raises `RuntimeError` at once and brands nobody. -/
theorem branding_a_second_list_fails (l : List Nat) (s : BrandState) (hs : s.iterator = some []) :
    brandingStep (.population l) s = (.error .runtimeError, .population l, s) := by
  simp [brandingStep, hs]

example : (brandingRun 3 (.population [0, 1]) exampleBrander).2.2.iterator = some [] := by decide

end Leap
