import Mathlib.Algebra.BigOperators.Group.List.Lemmas
import Mathlib.Algebra.Order.BigOperators.Group.List
import Mathlib.Tactic.Linarith
import Verif.Model.Environment

/-!
# C69: evaluation in an environment; C70: keyboard control
-/

namespace Leap

namespace Spec

/-- One step of a simulation: the state and observation before, the action taken, and what came of it. -/
structure Transition (W O A : Type) where
  before : W
  seen : O
  action : A
  after : W
  observed : O
  reward : ℚ
  ended : Bool

/-- The step really happened: the picture is drawn if there is a display, the executable chose the action from the last
observation, and the environment reacted to it. -/
def Transition.Real (c : EnvCalls W O A) (gui : Bool) (s : Transition W O A) : Prop :=
  ∃ w1 w2 te tr, (if gui then c.render s.before = .ok w1 else w1 = s.before) ∧ c.act w1 s.seen = .ok (w2, s.action) ∧
    c.step w2 s.action = .ok (s.after, s.observed, s.reward, te, tr) ∧ s.ended = (te || tr)

/-- A list of steps, each starting where the one before ended, beginning in state `w` with observation `o` and ending in
state `w'`. -/
def Linked : W → O → List (Transition W O A) → W → Prop
  | w, _, [], w' => w = w'
  | w, o, s :: ss, w' => s.before = w ∧ s.seen = o ∧ Linked s.after s.observed ss w'

/-- A complete run of at most `steps` steps: without early stopping there are exactly `steps`; with it the run stops at the
first step that ends the episode, and only there or at the limit. -/
structure IsRun (c : EnvCalls W O A) (gui stop : Bool) (steps : Nat) (w : W) (o : O) (ss : List (Transition W O A)) (w' : W) :
    Prop where
  real : ∀ s ∈ ss, s.Real c gui
  linked : Linked w o ss w'
  limit : ss.length ≤ steps
  full : stop = false → ss.length = steps
  first : stop = true → ∀ s ∈ ss.dropLast, s.ended = false
  early : ss.length < steps → ∃ s, ss.getLast? = some s ∧ s.ended = true

/-- A series of runs, each after a reset of the environment. -/
inductive IsSeries (c : EnvCalls W O A) (gui stop : Bool) (steps : Nat) : W → List (O × List (Transition W O A)) → W → Prop
  | nil (w) : IsSeries c gui stop steps w [] w
  | cons {w w1 w2 w3 o ss rest} : c.reset w = .ok (w1, o) → IsRun c gui stop steps w1 o ss w2 →
      IsSeries c gui stop steps w2 rest w3 → IsSeries c gui stop steps w ((o, ss) :: rest) w3

end Spec
open Spec

theorem Spec.IsRun.nonempty {c : EnvCalls W O A} {gui stop : Bool} {steps : Nat} {w w' : W} {o : O}
    {ss : List (Transition W O A)} (h : IsRun c gui stop steps w o ss w') (hs : 0 < steps) : 1 ≤ ss.length := by
  cases ss with
  | nil =>
    obtain ⟨s, hs', _⟩ := h.early (by simpa using hs)
    simp at hs'
  | cons s ss => simp

theorem envSteps_sound (c : EnvCalls W O A) (gui stop : Bool) (n : Nat) (w : W) (o : O) (w' : W) (os : List O) (rs : List ℚ)
    (h : envSteps c gui stop n w o = .ok (w', os, rs)) :
    ∃ ss : List (Transition W O A), IsRun c gui stop n w o ss w' ∧ os = ss.map Transition.observed ∧
      rs = ss.map Transition.reward := by
  induction n generalizing w o w' os rs with
  | zero =>
    simp only [envSteps, Except.ok.injEq, Prod.mk.injEq] at h
    obtain ⟨rfl, rfl, rfl⟩ := h
    exact ⟨[], ⟨by simp, rfl, by simp, by simp, by simp, by simp⟩, rfl, rfl⟩
  | succ n ih =>
    simp only [envSteps] at h
    cases hr : envRender c gui w with
    | error e => rw [hr] at h; cases h
    | ok w1 =>
      rw [hr] at h
      change (c.act w1 o >>= _) = _ at h
      cases ha : c.act w1 o with
      | error e => rw [ha] at h; cases h
      | ok r =>
        obtain ⟨w2, a⟩ := r
        rw [ha] at h
        change (c.step w2 a >>= _) = _ at h
        cases hs : c.step w2 a with
        | error e => rw [hs] at h; cases h
        | ok r =>
          obtain ⟨w3, o', rew, te, tr⟩ := r
          rw [hs] at h
          change (if (stop && (te || tr)) = true then _ else _) = _ at h
          let s : Transition W O A := ⟨w, o, a, w3, o', rew, te || tr⟩
          have hreal : s.Real c gui := by
            refine ⟨w1, w2, te, tr, ?_, ha, hs, rfl⟩
            unfold envRender at hr
            cases gui
            · simp only [Bool.false_eq_true, if_false, Except.ok.injEq] at hr ⊢
              exact hr.symm
            · simpa using hr
          split_ifs at h with hd
          · simp only [Except.ok.injEq, Prod.mk.injEq] at h
            obtain ⟨rfl, rfl, rfl⟩ := h
            simp only [Bool.and_eq_true] at hd
            refine ⟨[s], ⟨by simpa using hreal, ⟨rfl, rfl, rfl⟩, by simp, ?_, by simp, ?_⟩, rfl, rfl⟩
            · intro hf
              rw [hf] at hd
              simp at hd
            · intro _
              exact ⟨s, rfl, hd.2⟩
          · cases hrec : envSteps c gui stop n w3 o' with
            | error e => rw [hrec] at h; cases h
            | ok r =>
              obtain ⟨w4, os', rs'⟩ := r
              rw [hrec] at h
              have h' : (w4, o' :: os', rew :: rs') = (w', os, rs) := by injection h
              simp only [Prod.mk.injEq] at h'
              obtain ⟨rfl, rfl, rfl⟩ := h'
              obtain ⟨ss, hrun, rfl, rfl⟩ := ih w3 o' w4 os' rs' hrec
              refine ⟨s :: ss, ⟨?_, ⟨rfl, rfl, hrun.linked⟩, ?_, ?_, ?_, ?_⟩, rfl, rfl⟩
              · intro t ht
                rcases List.mem_cons.1 ht with rfl | ht
                · exact hreal
                · exact hrun.real t ht
              · simpa using hrun.limit
              · intro hf
                simpa using hrun.full hf
              · intro hst t ht
                cases ss with
                | nil => simp at ht
                | cons t' ts =>
                  rw [List.dropLast_cons₂] at ht
                  rcases List.mem_cons.1 ht with rfl | ht
                  · simp only [hst, Bool.true_and, Bool.not_eq_true] at hd
                    exact hd
                  · exact hrun.first hst t ht
              · intro hlt
                simp only [List.length_cons, Nat.add_lt_add_iff_right] at hlt
                obtain ⟨t, ht, he⟩ := hrun.early hlt
                refine ⟨t, ?_, he⟩
                rw [List.getLast?_cons, ht]
                rfl

theorem envSteps_complete (c : EnvCalls W O A) (gui stop : Bool) (n : Nat) (w : W) (o : O) (w' : W)
    (ss : List (Transition W O A)) (h : IsRun c gui stop n w o ss w') :
    envSteps c gui stop n w o = .ok (w', ss.map Transition.observed, ss.map Transition.reward) := by
  induction n generalizing w o ss with
  | zero =>
    have h0 : ss = [] := List.length_eq_zero_iff.1 (Nat.le_zero.1 h.limit)
    subst h0
    have := h.linked
    simp only [Linked] at this
    subst this
    rfl
  | succ n ih =>
    cases ss with
    | nil =>
      obtain ⟨s, hs, _⟩ := h.early (by simp)
      simp at hs
    | cons s ss =>
      obtain ⟨w1, w2, te, tr, hren, hact, hstep, hend⟩ := h.real s (by simp)
      obtain ⟨hb, hseen, hl⟩ := h.linked
      subst hb hseen
      have hr : envRender c gui s.before = .ok w1 := by
        unfold envRender
        cases gui
        · simp only [Bool.false_eq_true, if_false] at hren ⊢
          rw [hren]
        · simpa using hren
      simp only [envSteps]
      rw [hr]
      change (c.act w1 s.seen >>= _) = _
      rw [hact]
      change (c.step w2 s.action >>= _) = _
      rw [hstep]
      change (if (stop && (te || tr)) = true then _ else _) = _
      by_cases hd : (stop && (te || tr)) = true
      · rw [if_pos hd]
        simp only [Bool.and_eq_true] at hd
        have : ss = [] := by
          cases ss with
          | nil => rfl
          | cons t ts =>
            have := h.first hd.1 s (by simp)
            rw [hend, hd.2] at this
            cases this
        subst this
        simp only [Linked] at hl
        subst hl
        rfl
      · rw [if_neg hd]
        have hrun : IsRun c gui stop n s.after s.observed ss w' := by
          refine ⟨fun t ht => h.real t (by simp [ht]), hl, ?_, ?_, ?_, ?_⟩
          · have := h.limit
            simpa using this
          · intro hf
            have := h.full hf
            simpa using this
          · intro hst t ht
            refine h.first hst t ?_
            cases ss with
            | nil => simp at ht
            | cons t' ts => rw [List.dropLast_cons₂]; exact List.mem_cons_of_mem _ ht
          · intro hlt
            obtain ⟨t, ht, he⟩ := h.early (by simpa using hlt)
            cases ss with
            | nil =>
              simp only [List.getLast?_singleton, Option.some.injEq] at ht
              subst ht
              cases hst : stop with
              | true =>
                rw [hend] at he
                simp [hst, he] at hd
              | false =>
                have := h.full hst
                simp only [List.length_cons, List.length_nil] at this hlt
                omega
            | cons t' ts =>
              refine ⟨t, ?_, he⟩
              rw [List.getLast?_cons_cons] at ht
              exact ht
        rw [ih s.after s.observed ss hrun]
        rfl

theorem envRuns_sound (c : EnvCalls W O A) (p : EnvProblem) (n : Nat) (w w' : W) (os : List (List O)) (rs : List (List ℚ))
    (h : envRuns c p n w = .ok (w', os, rs)) :
    ∃ series, IsSeries c p.gui p.stopOnDone p.steps w series w' ∧ series.length = n ∧
      os = series.map (fun r => r.1 :: r.2.map Transition.observed) ∧ rs = series.map (fun r => r.2.map Transition.reward) := by
  induction n generalizing w w' os rs with
  | zero =>
    simp only [envRuns, Except.ok.injEq, Prod.mk.injEq] at h
    obtain ⟨rfl, rfl, rfl⟩ := h
    exact ⟨[], .nil _, rfl, rfl, rfl⟩
  | succ n ih =>
    simp only [envRuns] at h
    cases hr : c.reset w with
    | error e => rw [hr] at h; cases h
    | ok r =>
      obtain ⟨w1, o⟩ := r
      rw [hr] at h
      change (envSteps c p.gui p.stopOnDone p.steps w1 o >>= _) = _ at h
      cases hs : envSteps c p.gui p.stopOnDone p.steps w1 o with
      | error e => rw [hs] at h; cases h
      | ok r =>
        obtain ⟨w2, os1, rs1⟩ := r
        rw [hs] at h
        change (envRuns c p n w2 >>= _) = _ at h
        cases hn : envRuns c p n w2 with
        | error e => rw [hn] at h; cases h
        | ok r =>
          obtain ⟨w3, os2, rs2⟩ := r
          rw [hn] at h
          have h' : (w3, (o :: os1) :: os2, rs1 :: rs2) = (w', os, rs) := by injection h
          simp only [Prod.mk.injEq] at h'
          obtain ⟨rfl, rfl, rfl⟩ := h'
          obtain ⟨ss, hrun, rfl, rfl⟩ := envSteps_sound c _ _ _ _ _ _ _ _ hs
          obtain ⟨series, hser, hlen, rfl, rfl⟩ := ih w2 w3 os2 rs2 hn
          exact ⟨(o, ss) :: series, .cons hr hrun hser, by simp [hlen], rfl, rfl⟩

theorem envRuns_complete (c : EnvCalls W O A) (p : EnvProblem) (w w' : W) (series : List (O × List (Transition W O A)))
    (h : IsSeries c p.gui p.stopOnDone p.steps w series w') :
    envRuns c p series.length w = .ok (w', series.map (fun r => r.1 :: r.2.map Transition.observed),
      series.map (fun r => r.2.map Transition.reward)) := by
  induction h with
  | nil w => rfl
  | cons hr hrun _ ih =>
    simp only [List.length_cons, envRuns]
    rw [hr]
    change (envSteps c p.gui p.stopOnDone p.steps _ _ >>= _) = _
    rw [envSteps_complete c _ _ _ _ _ _ _ hrun]
    change (envRuns c p _ _ >>= _) = _
    rw [ih]
    rfl

/-- **C69**. Evaluation succeeds with fitness `f` exactly when there is a series of `runs` runs, each after a reset, stopped
exactly as the settings say, whose mean total reward (or mean number of observations, the first one included) is `f`. -/
theorem env_evaluate_spec (c : EnvCalls W O A) (p : EnvProblem) (w w' : W) (f : ℚ) :
    envEvaluate c p w = .ok (w', f) ↔
    ∃ series : List (O × List (Transition W O A)), series.length = p.runs ∧
      IsSeries c p.gui p.stopOnDone p.steps w series w' ∧
      f = (match p.fitness with
        | .reward => (series.map fun r => (r.2.map Transition.reward).sum).sum / p.runs
        | .survival => (series.map fun r => (1 + r.2.length : ℚ)).sum / p.runs) := by
  have key : ∀ series : List (O × List (Transition W O A)), series.length = p.runs →
      envFitness p.fitness (series.map (fun r => r.1 :: r.2.map Transition.observed))
        (series.map (fun r => r.2.map Transition.reward)) =
      (match p.fitness with
        | .reward => (series.map fun r => (r.2.map Transition.reward).sum).sum / p.runs
        | .survival => (series.map fun r => (1 + r.2.length : ℚ)).sum / p.runs) := by
    intro series hl
    cases p.fitness
    · simp only [envFitness, npMeanQ, List.map_map, List.length_map, hl]
      rfl
    · simp only [envFitness, npMeanQ, List.map_map, List.length_map, hl]
      congr 2
      apply List.map_congr_left
      intro r _
      simp [add_comm]
  constructor
  · intro h
    simp only [envEvaluate] at h
    cases hr : envRuns c p p.runs w with
    | error e => rw [hr] at h; cases h
    | ok r =>
      obtain ⟨w1, os, rs⟩ := r
      rw [hr] at h
      have h' : (w1, envFitness p.fitness os rs) = (w', f) := by injection h
      simp only [Prod.mk.injEq] at h'
      obtain ⟨rfl, rfl⟩ := h'
      obtain ⟨series, hser, hlen, rfl, rfl⟩ := envRuns_sound c p _ _ _ _ _ hr
      exact ⟨series, hlen, hser, key series hlen⟩
  · rintro ⟨series, hlen, hser, rfl⟩
    have := envRuns_complete c p w w' series hser
    rw [hlen] at this
    simp only [envEvaluate]
    rw [this]
    show Except.ok _ = _
    rw [key series hlen]

/-- **C69**. Survival fitness lies between 2 and `steps + 1`, and is `steps + 1` without early stopping. -/
theorem env_survival_range (c : EnvCalls W O A) (p : EnvProblem) (hr : 0 < p.runs) (hs : 0 < p.steps)
    (hf : p.fitness = .survival) (w w' : W) (f : ℚ) (h : envEvaluate c p w = .ok (w', f)) :
    2 ≤ f ∧ f ≤ p.steps + 1 ∧ (p.stopOnDone = false → f = p.steps + 1) := by
  obtain ⟨series, hlen, hser, hfit⟩ := (env_evaluate_spec c p w w' f).1 h
  rw [hf] at hfit
  simp only at hfit
  have hpos : (0 : ℚ) < p.runs := by exact_mod_cast hr
  have hall : ∀ r ∈ series, 1 ≤ r.2.length ∧ r.2.length ≤ p.steps ∧ (p.stopOnDone = false → r.2.length = p.steps) := by
    clear hlen hfit h
    induction hser with
    | nil => simp
    | cons _ hrun _ ih =>
      intro r hr
      rcases List.mem_cons.1 hr with rfl | hr
      · refine ⟨?_, hrun.limit, hrun.full⟩
        exact hrun.nonempty hs
      · exact ih r hr
  have hsum : ∀ (lo hi : ℚ) (l : List (O × List (Transition W O A))),
      (∀ r ∈ l, lo ≤ 1 + (r.2.length : ℚ) ∧ 1 + (r.2.length : ℚ) ≤ hi) →
      lo * l.length ≤ (l.map fun r => (1 + r.2.length : ℚ)).sum ∧
      (l.map fun r => (1 + r.2.length : ℚ)).sum ≤ hi * l.length := by
    intro lo hi l
    induction l with
    | nil => simp
    | cons a l ih =>
      intro hl
      obtain ⟨h1, h2⟩ := ih fun r hr => hl r (List.mem_cons_of_mem _ hr)
      obtain ⟨h3, h4⟩ := hl a (by simp)
      simp only [List.map_cons, List.sum_cons, List.length_cons, Nat.cast_add, Nat.cast_one]
      constructor
      · linarith
      · linarith
  obtain ⟨h1, h2⟩ := hsum 2 (p.steps + 1) series fun r hr => by
    obtain ⟨ha, hb, _⟩ := hall r hr
    have ha' : (1 : ℚ) ≤ r.2.length := by exact_mod_cast ha
    have hb' : (r.2.length : ℚ) ≤ p.steps := by exact_mod_cast hb
    constructor
    · linarith
    · linarith
  rw [hlen] at h1 h2
  refine ⟨?_, ?_, ?_⟩
  · rw [hfit, le_div_iff₀ hpos]; exact h1
  · rw [hfit, div_le_iff₀ hpos]; exact h2
  · intro hst
    obtain ⟨h1, _⟩ := hsum (p.steps + 1) (p.steps + 1) series fun r hr => by
      have hb' : (r.2.length : ℚ) = p.steps := by exact_mod_cast (hall r hr).2.2 hst
      constructor
      · linarith
      · linarith
    rw [hlen] at h1
    apply le_antisymm
    · rw [hfit, div_le_iff₀ hpos]; exact h2
    · rw [hfit, le_div_iff₀ hpos]; exact h1

/-- **C69**. The constructor accepts positive numbers of runs and steps with fitness type "reward" or "survival"; the rest is
refused. -/
theorem env_constructor (runs steps : Int) (ft : Option String) (gui stop : Bool) :
    envProblem runs steps ft gui stop =
      if runs ≤ 0 ∨ steps ≤ 0 ∨ ft = none then .error .assertionError
      else if ft = some "reward" then .ok ⟨runs.toNat, steps.toNat, .reward, gui, stop⟩
      else if ft = some "survival" then .ok ⟨runs.toNat, steps.toNat, .survival, gui, stop⟩
      else .error .valueError := by
  simp only [envProblem]
  by_cases h1 : 0 < runs
  · by_cases h2 : 0 < steps
    · rw [if_pos h1, if_pos h2]
      cases ft with
      | none => simp
      | some t => simp [not_le.2 h1, not_le.2 h2]
    · rw [if_pos h1, if_neg h2, if_pos (by right; left; omega)]
  · rw [if_neg h1, if_pos (by left; omega)]

theorem foldl_mul_prod (l : List Nat) (a : Nat) : l.foldl (fun acc n => acc * n) a = a * l.prod := by
  induction l generalizing a with
  | nil => simp
  | cons x l ih => simp [ih, mul_assoc]

/-- **C69**. `space_dimensions` counts the variables of a space: the product of its shape, summed over the parts of a tuple. -/
theorem space_dimensions_value :
    (∀ shape, spaceDimensions (.simple shape) = shape.prod) ∧
    (∀ shapes, spaceDimensions (.tuple shapes) = (shapes.map List.prod).sum) := ⟨fun _ => rfl, fun _ => rfl⟩

/-- **C69** (disagreement). `num_inputs` and `num_outputs` never tell the number of dimensions: they are `None` for every
space. -/
theorem env_dimensions_none (s : GymSpace) :
    envNumInputs s = none ∧ envNumOutputs s = none ∧ envNumInputs s ≠ some (spaceDimensions s) := by
  simp [envNumInputs, envNumOutputs]

/-- **C70**. The keyboard's action is that of the last key pressed, until a key with that action is released; then, and before
any key is pressed, it is 0. -/
theorem keyboard_action_spec (keymap : K → Int) :
    (∀ events, (∀ k, KeyEvent.press k ∉ events) → keyboardAction keymap events = 0) ∧
    (∀ before k after, (∀ j, KeyEvent.press j ∉ after) →
      ((∃ j, KeyEvent.release j ∈ after ∧ keymap j = keymap k) →
        keyboardAction keymap (before ++ .press k :: after) = 0) ∧
      ((∀ j, KeyEvent.release j ∈ after → keymap j ≠ keymap k) →
        keyboardAction keymap (before ++ .press k :: after) = keymap k)) := by
  have zero : ∀ events : List (KeyEvent K), (∀ k, KeyEvent.press k ∉ events) →
      events.foldl (keyboardEvent keymap) 0 = 0 := by
    intro events
    induction events with
    | nil => simp
    | cons e es ih =>
      intro h
      cases e with
      | press k => exact absurd (List.mem_cons_self ..) (h k)
      | release k =>
        have : keyboardEvent keymap 0 (.release k) = 0 := by simp [keyboardEvent]
        rw [List.foldl_cons, this]
        exact ih fun k hk => h k (List.mem_cons_of_mem _ hk)
  have some_ : ∀ (after : List (KeyEvent K)) (a : Int), (∀ k, KeyEvent.press k ∉ after) →
      ((∃ j, KeyEvent.release j ∈ after ∧ keymap j = a) → after.foldl (keyboardEvent keymap) a = 0) ∧
      ((∀ j, KeyEvent.release j ∈ after → keymap j ≠ a) → after.foldl (keyboardEvent keymap) a = a) := by
    intro after
    induction after with
    | nil => simp
    | cons e es ih =>
      intro a h
      have h' : ∀ k, KeyEvent.press k ∉ es := fun k hk => h k (List.mem_cons_of_mem _ hk)
      cases e with
      | press k => exact absurd (List.mem_cons_self ..) (h k)
      | release k =>
        by_cases hk : keymap k = a
        · have he : keyboardEvent keymap a (.release k) = 0 := by simp [keyboardEvent, hk]
          rw [List.foldl_cons, he, zero es h']
          exact ⟨fun _ => rfl, fun hn => absurd hk (hn k (by simp))⟩
        · have he : keyboardEvent keymap a (.release k) = a := by simp [keyboardEvent, hk]
          rw [List.foldl_cons, he]
          obtain ⟨i1, i2⟩ := ih a h'
          constructor
          · rintro ⟨j, hj, hja⟩
            rcases List.mem_cons.1 hj with hj | hj
            · injection hj with hj
              rw [hj] at hja
              exact absurd hja hk
            · exact i1 ⟨j, hj, hja⟩
          · intro hn
            exact i2 fun j hj => hn j (List.mem_cons_of_mem _ hj)
  refine ⟨zero, ?_⟩
  intro before k after h
  simp only [keyboardAction, List.foldl_append, List.foldl_cons, keyboardEvent]
  exact some_ after (keymap k) h

/-- **C70**. The keyboard can only serve one output; otherwise it starts with action 0. -/
theorem keyboard_init_spec (shape : Option (List Nat)) (hasKeymap : Bool) :
    keyboardInit shape hasKeymap =
      match shape with
      | none => .error .assertionError
      | some s => if 1 < s.prod then .error .valueError else if hasKeymap then .ok 0 else .error .assertionError := by
  cases shape with
  | none => rfl
  | some s => simp [keyboardInit, foldl_mul_prod]

/-- **C70** (disagreement). By default the digit keys 0 to 8 stand for their digits, and the key 9 does not: like any other
key it gives action 0.
Missing from the full claim: the key 9. -/
theorem default_keymap_spec_partial :
    (∀ d : Nat, d < 9 → defaultKeymap ('0'.toNat + d) = d) ∧
    (∀ x : Int, x < '0'.toNat ∨ '9'.toNat ≤ x → defaultKeymap x = 0) ∧
    defaultKeymap '9'.toNat ≠ 9 := by
  refine ⟨?_, ?_, by decide⟩
  · intro d hd
    have : ('0'.toNat : Int) = 48 := by decide
    rw [this]
    simp only [defaultKeymap]
    rw [if_pos (by omega)]
    omega
  · intro x hx
    have h0 : ('0'.toNat : Int) = 48 := by decide
    have h9 : ('9'.toNat : Int) = 57 := by decide
    rw [h0, h9] at hx
    simp only [defaultKeymap]
    rw [if_neg (by omega)]

/-! ## The hypotheses can be met -/

/-- A counter that ends its episode when it reaches 3; the reward is the observation. -/
def counterEnv : EnvCalls Nat Nat Unit :=
  ⟨fun _ => .ok (0, 0), fun w => .ok w, fun w _ => .ok (w, ()), fun w _ => .ok (w + 1, w + 1, (w + 1 : ℚ), w + 1 = 3, false)⟩

example : envEvaluate counterEnv ⟨2, 10, .reward, false, true⟩ 7 = .ok (3, 6) := by decide +kernel

example : envEvaluate counterEnv ⟨2, 10, .survival, true, true⟩ 7 = .ok (3, 4) := by decide +kernel

example : envEvaluate counterEnv ⟨2, 5, .survival, true, false⟩ 7 = .ok (5, 6) := by decide +kernel

example : keyboardAction defaultKeymap [.press 50, .release 51, .press 53, .release 50] = 5 := by decide +kernel

end Leap
