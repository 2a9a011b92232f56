import Verif.Model.Transfer

/-!
# Seeding populations from past problems (C60)
-/

namespace Leap

namespace Spec

/-- `n` fresh individuals, one after the other. -/
inductive FreshRun (init : W → PyM (G × W)) : Nat → W → List G → W → Prop
  | done (w : W) : FreshRun init 0 w [] w
  | step {n w g w' gs w''} : init w = .ok (g, w') → FreshRun init n w' gs w'' →
      FreshRun init (n + 1) w (g :: gs) w''

end Spec

open Spec

theorem seededCreates_fresh (init : W → PyM (G × W)) (seeds : List G) (n i : Nat) (w : W) (hi : seeds.length ≤ i)
    (out : List G) (i' : Nat) (w' : W) :
    seededCreates init seeds n (i, w) = .ok (out, (i', w')) ↔ i' = i ∧ FreshRun init n w out w' := by
  induction n generalizing w out with
  | zero =>
    simp only [seededCreates, Except.ok.injEq, Prod.mk.injEq]
    constructor
    · rintro ⟨rfl, rfl, rfl⟩; exact ⟨rfl, .done w⟩
    · rintro ⟨rfl, h⟩; cases h; exact ⟨rfl, rfl, rfl⟩
  | succ n ih =>
    have hnone : seeds[i]? = none := List.getElem?_eq_none hi
    simp only [seededCreates, seededCreate, hnone, bind, Except.bind]
    cases hin : init w with
    | error e =>
      simp only [reduceCtorEq, false_iff, not_and]
      rintro rfl h
      cases h with
      | step h1 _ => rw [hin] at h1; simp at h1
    | ok p =>
      obtain ⟨g, w1⟩ := p
      simp only
      cases hrest : seededCreates init seeds n (i, w1) with
      | error e =>
        simp only [reduceCtorEq, false_iff, not_and]
        rintro rfl h
        cases h with
        | step h1 h2 =>
          rw [hin, Except.ok.injEq, Prod.mk.injEq] at h1
          obtain ⟨rfl, rfl⟩ := h1
          have := (ih w1 _).mpr ⟨rfl, h2⟩
          rw [hrest] at this
          simp at this
      | ok q =>
        obtain ⟨gs, i2, w2⟩ := q
        simp only [Except.ok.injEq, Prod.mk.injEq]
        constructor
        · rintro ⟨rfl, rfl, rfl⟩
          obtain ⟨rfl, h⟩ := (ih w1 gs).mp hrest
          exact ⟨rfl, .step hin h⟩
        · rintro ⟨rfl, h⟩
          cases h with
          | step h1 h2 =>
            rw [hin, Except.ok.injEq, Prod.mk.injEq] at h1
            obtain ⟨rfl, rfl⟩ := h1
            have := (ih w1 _).mpr ⟨rfl, h2⟩
            rw [hrest, Except.ok.injEq, Prod.mk.injEq, Prod.mk.injEq] at this
            obtain ⟨rfl, rfl, rfl⟩ := this
            exact ⟨rfl, rfl, rfl⟩

theorem seededCreates_seeds (init : W → PyM (G × W)) (seeds : List G) (n i m : Nat) (w : W) (h : i + n ≤ seeds.length) :
    seededCreates init seeds (n + m) (i, w) =
      (seededCreates init seeds m (i + n, w)).map fun p => ((seeds.drop i).take n ++ p.1, p.2) := by
  induction n generalizing i with
  | zero =>
    rw [Nat.zero_add, Nat.add_zero]
    cases seededCreates init seeds m (i, w) <;> simp [Except.map]
  | succ n ih =>
    have hi : i < seeds.length := by omega
    rw [show n + 1 + m = (n + m) + 1 by omega]
    simp only [seededCreates, seededCreate, List.getElem?_eq_getElem hi, bind, Except.bind]
    rw [ih (i + 1) (by omega), show i + 1 + n = i + (n + 1) by omega]
    have hd : seeds.drop i = seeds[i] :: seeds.drop (i + 1) := List.drop_eq_getElem_cons hi
    cases seededCreates init seeds m (i + (n + 1), w) with
    | error e => rfl
    | ok p => rw [hd]; rfl

/-- C60: the first calls return the seeds in order, each once, whatever the initialiser does; after that every individual is
a fresh one. -/
theorem seeded_spec (init : W → PyM (G × W)) (seeds : List G) (w : W) :
    (∀ n ≤ seeds.length, seededCreates init seeds n (0, w) = .ok (seeds.take n, (n, w))) ∧
    (∀ m out s, seededCreates init seeds (seeds.length + m) (0, w) = .ok (out, s) ↔
      ∃ fresh w', FreshRun init m w fresh w' ∧ out = seeds ++ fresh ∧ s = (seeds.length, w')) := by
  constructor
  · intro n hn
    have := seededCreates_seeds init seeds n 0 0 w (by omega)
    simpa [seededCreates, Except.map] using this
  · intro m out s
    have := seededCreates_seeds init seeds seeds.length 0 m w (by omega)
    rw [this]
    simp only [Nat.zero_add, List.drop_zero, List.take_length]
    constructor
    · intro h
      cases hr : seededCreates init seeds m (seeds.length, w) with
      | error e => rw [hr] at h; simp [Except.map] at h
      | ok p =>
        obtain ⟨fresh, i', w'⟩ := p
        rw [hr] at h
        simp only [Except.map, Except.ok.injEq, Prod.mk.injEq] at h
        obtain ⟨rfl, hf⟩ := (seededCreates_fresh init seeds m seeds.length w (Nat.le_refl _) fresh i' w').mp hr
        exact ⟨fresh, w', hf, h.1.symm, h.2.symm⟩
    · rintro ⟨fresh, w', hf, rfl, rfl⟩
      rw [(seededCreates_fresh init seeds m seeds.length w (Nat.le_refl _) fresh _ w').mpr ⟨rfl, hf⟩]
      rfl

theorem appendLast_ok (results : List (List (Nat × G))) (repertoire : List G) :
    (∀ lasts : List (Nat × G), results.map List.getLast? = lasts.map some →
      appendLast results repertoire = (.ok (), repertoire ++ lasts.map Prod.snd)) ∧
    (∀ (good bad : List (List (Nat × G))) (lasts : List (Nat × G)), results = good ++ [] :: bad → good.map List.getLast? = lasts.map some →
      appendLast results repertoire = (.error .indexError, repertoire ++ lasts.map Prod.snd)) := by
  constructor
  · induction results generalizing repertoire with
    | nil =>
      intro lasts h
      cases lasts with
      | nil => simp [appendLast]
      | cons a l => simp at h
    | cons r rs ih =>
      intro lasts h
      cases lasts with
      | nil => simp at h
      | cons a l =>
        simp only [List.map_cons, List.cons.injEq] at h
        rw [appendLast, h.1]
        simp only
        rw [ih _ l h.2]
        simp
  · intro good bad lasts hres h
    subst hres
    induction good generalizing repertoire lasts with
    | nil =>
      cases lasts with
      | nil => simp [appendLast]
      | cons a l => simp at h
    | cons r rs ih =>
      cases lasts with
      | nil => simp at h
      | cons a l =>
        simp only [List.map_cons, List.cons.injEq] at h
        rw [List.cons_append, appendLast, h.1]
        simp only
        rw [ih _ l h.2]
        simp

/-- C60: training appends the last individual of every run, one for each problem in order, and changes nothing if a run
raises or the keyword arguments do not match the problems. -/
theorem build_repertoire_spec (algorithm : P → K → PyM (List (Nat × G))) (empty : K) (problems : List P) (kwargs : Option (List K))
    (repertoire : List G) :
    (∀ ks, kwargs = some ks → ks.length ≠ problems.length →
      buildRepertoire algorithm empty problems kwargs repertoire = (.error .assertionError, repertoire)) ∧
    (∀ (args : List (P × K)), (kwargs = none ∧ args = problems.map (fun p => (p, empty)) ∨
        ∃ ks, kwargs = some ks ∧ ks.length = problems.length ∧ args = problems.zip ks) →
      (∀ (best : List G), (best.length = args.length) →
        (∀ (i : Nat) a b, args[i]? = some a → best[i]? = some b → ∃ run step, algorithm a.1 a.2 = .ok (run ++ [(step, b)])) →
        buildRepertoire algorithm empty problems kwargs repertoire = (.ok (), repertoire ++ best)) ∧
      (∀ a ∈ args, ∀ e, algorithm a.1 a.2 = .error e →
        ∃ e', buildRepertoire algorithm empty problems kwargs repertoire = (.error e', repertoire))) := by
  have hrun : ∀ args : List (P × K), (kwargs = none ∧ args = problems.map (fun p => (p, empty)) ∨
        ∃ ks, kwargs = some ks ∧ ks.length = problems.length ∧ args = problems.zip ks) →
      buildRepertoire algorithm empty problems kwargs repertoire =
        match trainAll algorithm args with
        | .error e => (.error e, repertoire)
        | .ok results => appendLast results repertoire := by
    rintro args (⟨rfl, rfl⟩ | ⟨ks, rfl, hk, rfl⟩)
    · rfl
    · rw [buildRepertoire]; simp only [if_pos hk]; rfl
  refine ⟨?_, ?_⟩
  · rintro ks rfl hk
    rw [buildRepertoire]; simp only [if_neg hk]
  · intro args hargs
    rw [hrun args hargs]
    clear hrun hargs
    constructor
    · intro best hlen hb
      have : ∃ (results : List (List (Nat × G))) (lasts : List (Nat × G)), trainAll algorithm args = .ok results ∧ results.map List.getLast? = lasts.map some ∧
          lasts.map Prod.snd = best := by
        induction args generalizing best with
        | nil =>
          have : best = [] := by simpa using hlen
          exact ⟨[], [], rfl, rfl, by simp [this]⟩
        | cons a args ih =>
          cases best with
          | nil => simp at hlen
          | cons b best =>
            obtain ⟨run, step, hr⟩ := hb 0 a b rfl rfl
            obtain ⟨rs, ls, h1, h2, h3⟩ := ih best (by simpa using hlen) (fun i x y hx hy => hb (i + 1) x y hx hy)
            refine ⟨(run ++ [(step, b)]) :: rs, (step, b) :: ls, ?_, by simp [h2], by simp [h3]⟩
            simp [trainAll, hr, h1, bind, Except.bind]
      obtain ⟨results, lasts, h1, h2, h3⟩ := this
      rw [h1]
      simp only
      rw [(appendLast_ok results repertoire).1 lasts h2, h3]
    · intro a ha e he
      have : ∃ e', trainAll algorithm args = .error e' := by
        induction args with
        | nil => simp at ha
        | cons x args ih =>
          rcases List.mem_cons.mp ha with rfl | ha
          · exact ⟨e, by simp [trainAll, he, bind, Except.bind]⟩
          · obtain ⟨e', h'⟩ := ih ha
            rw [trainAll]
            cases hx : algorithm x.1 x.2 with
            | error e2 => exact ⟨e2, by simp [bind, Except.bind]⟩
            | ok r => exact ⟨e', by simp [h', bind, Except.bind]⟩
      obtain ⟨e', h'⟩ := this
      exact ⟨e', by rw [h']⟩

/-- C60: every application of a repertoire starts from its first seed again. -/
theorem apply_repertoire_spec (init : W → PyM (G × W)) (repertoire : List G) (n : Nat) (w : W) (hn : n ≤ repertoire.length) :
    applyRepertoire init repertoire n w = .ok (repertoire.take n, (n, w)) :=
  (seeded_spec init repertoire w).1 n hn

/-- A run that yields nothing makes training raise after the earlier results were already added. -/
theorem build_repertoire_empty_run :
    ∃ (algorithm : Nat → Unit → PyM (List (Nat × Nat))),
      buildRepertoire algorithm () [1, 0] none [] = (.error .indexError, [7]) :=
  ⟨fun p _ => .ok (if p = 0 then [] else [(0, 7)]), rfl⟩

example : seededCreates (fun w : Nat => .ok (w, w + 1)) [50, 60] 4 (0, 0) = .ok ([50, 60, 0, 1], (2, 2)) := rfl

end Leap
