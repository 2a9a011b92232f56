import Verif.Model.Towers
import Verif.Props.Compare
import Verif.Props.Wrappers

/-!
# C91: wrapped problems, to any depth of wrapping
-/

namespace Leap

variable {P ρ : Type}

/-- The position in a list of `count` problems that is active in generation `step`: each is active for `modulo` generations. -/
def Spec.ActiveAt (count : Nat) (modulo : Int) (g : Option Int) (i : Nat) : Prop :=
  ∃ step, g = some step ∧ i < count ∧ 0 < modulo ∧ (i : Int) = (step / modulo) % count

open Spec

/-- The optimisation direction of a problem object in generation `g`: what its constructor was told, else what the problem it
wraps says; an alternating problem has the direction of the active problem. -/
inductive Spec.Direction (g : Option Int) : WProblem P ρ → Bool → Prop
  | base {m k a ev} : Spec.Direction g (.base m k a ev) m
  | offsetGiven {p c m} : Spec.Direction g (.offset p c (some m)) m
  | offset {p c m} : Spec.Direction g p m → Spec.Direction g (.offset p c none) m
  | movedGiven {p f m} : Spec.Direction g (.moved p f (some m)) m
  | moved {p f m} : Spec.Direction g p m → Spec.Direction g (.moved p f none) m
  | average {p n m} : Spec.Direction g p m → Spec.Direction g (.average p n) m
  | cooperative {p team n m} : Spec.Direction g p m → Spec.Direction g (.cooperative p team n) m
  | alternating {count ps modulo i m} : Spec.ActiveAt count modulo g i → Spec.Direction g (ps i) m →
      Spec.Direction g (.alternating count ps modulo) m

/-- In generation `g`, evaluating the problem at `x` means: move the phenome to `place x`, evaluate the innermost problem `ev`
there `reps` times, average, and add `shift`. -/
inductive Spec.Plain (g : Option Int) : WProblem P ρ → Eval P ρ → (P → PyM P) → Nat → ℚ → Prop
  | base {m k a ev} : Spec.Plain g (.base m k a ev) ev (fun x => .ok x) 1 0
  | offset {p c mx ev place n d} : Spec.Plain g p ev place n d → Spec.Plain g (.offset p c mx) ev place n (d + c)
  | moved {p f mx ev place n d} : Spec.Plain g p ev place n d →
      Spec.Plain g (.moved p f mx) ev (fun x => f x >>= place) n d
  | average {p} {k : Int} {ev place n d} : Spec.Plain g p ev place n d → 0 < k →
      Spec.Plain g (.average p k) ev place (k.toNat * n) d
  | alternating {count ps modulo i ev place n d} : Spec.ActiveAt count modulo g i → Spec.Plain g (ps i) ev place n d →
      Spec.Plain g (.alternating count ps modulo) ev place n d

/-- In generation `g`, evaluating the problem comes to a cooperative problem inside it. -/
inductive Spec.NeedsTeam (g : Option Int) : WProblem P ρ → Prop
  | cooperative {p team n} : Spec.NeedsTeam g (.cooperative p team n)
  | offset {p c mx} : Spec.NeedsTeam g p → Spec.NeedsTeam g (.offset p c mx)
  | moved {p f mx} : Spec.NeedsTeam g p → Spec.NeedsTeam g (.moved p f mx)
  | average {p n} : Spec.NeedsTeam g p → Spec.NeedsTeam g (.average p n)
  | alternating {count ps modulo i} : Spec.ActiveAt count modulo g i → Spec.NeedsTeam g (ps i) →
      Spec.NeedsTeam g (.alternating count ps modulo)

/-! ### Which problem is active -/

theorem floor_div_int (a b : Int) (hb : 0 < b) : ⌊(a : ℚ) / (b : ℚ)⌋ = a / b := by
  have hq : (0 : ℚ) < b := by exact_mod_cast hb
  rw [Int.floor_eq_iff]
  have h1 := Int.mul_ediv_self_le (x := a) (k := b) (by omega)
  have h2 := Int.lt_mul_ediv_self_add (x := a) (k := b) hb
  have h1' : (b : ℚ) * ((a / b : Int) : ℚ) ≤ a := by exact_mod_cast h1
  have h2' : (a : ℚ) < (b : ℚ) * ((a / b : Int) : ℚ) + b := by exact_mod_cast h2
  constructor
  · rw [le_div_iff₀ hq]; linarith
  · rw [div_lt_iff₀ hq]; linarith

theorem currentProblem_range (count : Nat) (modulo step : Int) (hc : 0 < count) (hm : 0 < modulo) :
    ∃ i, currentProblem (List.range count) modulo (some step) = .ok i ∧ ActiveAt count modulo (some step) i := by
  have hc' : (0 : Int) < count := by exact_mod_cast hc
  have h0 := Int.emod_nonneg (step / modulo) (by omega : (count : Int) ≠ 0)
  have h1 := Int.emod_lt_of_pos (step / modulo) hc'
  have hi : ((step / modulo) % (count : Int)).toNat < count := by omega
  refine ⟨((step / modulo) % (count : Int)).toNat, ?_, step, rfl, hi, hm, by omega⟩
  simp only [currentProblem, List.length_range, floor_div_int _ _ hm]
  rw [List.getElem?_range hi]

theorem active_iff (count : Nat) (modulo : Int) (g : Option Int) (i : Nat) :
    ActiveAt count modulo g i ↔ currentProblem (List.range count) modulo g = .ok i ∧ 0 < count ∧ 0 < modulo := by
  constructor
  · rintro ⟨step, rfl, hi, hm, he⟩
    obtain ⟨j, hj, step', hs, hj1, -, hj2⟩ := currentProblem_range count modulo step (by omega) hm
    cases hs
    have : i = j := by omega
    subst this
    exact ⟨hj, by omega, hm⟩
  · rintro ⟨h, hc, hm⟩
    cases g with
    | none => simp [currentProblem] at h
    | some step =>
      obtain ⟨j, hj, ha⟩ := currentProblem_range count modulo step hc hm
      rw [hj] at h
      cases h
      exact ha

/-- C91: one problem is active in each generation. -/
theorem active_unique (count : Nat) (modulo : Int) (g : Option Int) (i j : Nat)
    (hi : ActiveAt count modulo g i) (hj : ActiveAt count modulo g j) : i = j := by
  obtain ⟨s, rfl, _, _, h1⟩ := hi
  obtain ⟨s', hs, _, _, h2⟩ := hj
  cases hs
  omega

/-! ### Construction -/

theorem construct_alternating {count : Nat} {ps : Nat → WProblem P ρ} {modulo : Int}
    (h : (WProblem.alternating count ps modulo).construct = .ok ()) :
    (∀ i < count, (ps i).construct = .ok ()) ∧ 0 < count ∧ 0 < modulo := by
  simp only [WProblem.construct] at h
  have key : ∀ (l : List Nat) (r : List Unit), pyMapM (fun i => (ps i).construct) l = .ok r →
      ∀ i ∈ l, (ps i).construct = .ok () := by
    intro l
    induction l with
    | nil => intro _ _ i hi; simp at hi
    | cons a l ih =>
      intro r hr i hi
      simp only [pyMapM, bind, Except.bind] at hr
      rcases ha : (ps a).construct with e | u
      · rw [ha] at hr; simp at hr
      · rw [ha] at hr
        simp only at hr
        rcases hl : pyMapM (fun i => (ps i).construct) l with e | us
        · rw [hl] at hr; simp at hr
        · rcases List.mem_cons.1 hi with rfl | hi
          · exact ha
          · exact ih us hl i hi
  rcases hm : pyMapM (fun i => (ps i).construct) (List.range count) with e | us
  · rw [hm] at h; simp [bind, Except.bind] at h
  · rw [hm] at h
    simp only [bind, Except.bind, alternatingInit, List.length_range] at h
    refine ⟨fun i hi => key _ us hm i (List.mem_range.2 hi), ?_⟩
    by_cases hc : 0 < count
    · rw [if_pos hc] at h
      by_cases hmo : 0 < modulo
      · exact ⟨hc, hmo⟩
      · rw [if_neg hmo] at h; simp at h
    · rw [if_neg hc] at h; simp at h

theorem construct_then {p : WProblem P ρ} {x : PyM Unit} (h : (do p.construct; x : PyM Unit) = .ok ()) :
    p.construct = .ok () ∧ x = .ok () := by
  rcases hp : p.construct with e | u
  · rw [hp] at h; simp [bind, Except.bind] at h
  · rw [hp] at h
    simp only [bind, Except.bind] at h
    exact ⟨rfl, h⟩

theorem attr_direction (g : Option Int) (p : WProblem P ρ) (m : Bool) (h : p.maximizeAttr = some m) : Direction g p m := by
  induction p with
  | base m' k a ev => simp [WProblem.maximizeAttr] at h; subst h; exact .base
  | offset p c mx ih =>
    cases mx with
    | none => exact .offset (ih h)
    | some m' => simp [WProblem.maximizeAttr] at h; subst h; exact .offsetGiven
  | moved p f mx ih =>
    cases mx with
    | none => exact .moved (ih h)
    | some m' => simp [WProblem.maximizeAttr] at h; subst h; exact .movedGiven
  | average p n => simp [WProblem.maximizeAttr] at h
  | alternating c ps mo => simp [WProblem.maximizeAttr] at h
  | cooperative p t n => simp [WProblem.maximizeAttr] at h

/-- C91: a wrapper that takes its direction from the problem it wraps cannot be put around an averaged, alternating or
cooperative problem unless the direction is given: `AttributeError`. Numbers of evaluations, trials and generations must be
positive, and there must be a problem to alternate: `AssertionError`. -/
theorem wrapping_refusals (p : WProblem P ρ) (hp : p.construct = .ok ()) (c : ℚ) (f : P → PyM P) (team : P → ρ → PyM P × ρ)
    (n : Int) (ps : Nat → WProblem P ρ) :
    (∀ m, (WProblem.offset p c (some m)).construct = .ok () ∧ (WProblem.moved p f (some m)).construct = .ok ()) ∧
    ((∃ q k, p = .average q k) ∨ (∃ k qs mo, p = .alternating k qs mo) ∨ (∃ q t k, p = .cooperative q t k) →
      (WProblem.offset p c none).construct = .error .attributeError ∧
      (WProblem.moved p f none).construct = .error .attributeError) ∧
    (n ≤ 0 → (WProblem.average p n).construct = .error .assertionError ∧
      (WProblem.cooperative p team n).construct = .error .assertionError) ∧
    (0 < n → (WProblem.average p n).construct = .ok () ∧ (WProblem.cooperative p team n).construct = .ok ()) ∧
    (WProblem.alternating 0 ps n : WProblem P ρ).construct = .error .assertionError ∧
    (n ≤ 0 → (WProblem.alternating 1 (fun _ => p) n).construct = .error .assertionError) := by
  refine ⟨fun m => ⟨?_, ?_⟩, ?_, fun hn => ?_, fun hn => ?_, ?_, fun hn => ?_⟩
  · simp [WProblem.construct, hp, bind, Except.bind, inheritCheck]
  · simp [WProblem.construct, hp, bind, Except.bind, inheritCheck]
  · intro h
    have ha : p.maximizeAttr = none := by
      rcases h with ⟨q, k, rfl⟩ | ⟨k, qs, mo, rfl⟩ | ⟨q, t, k, rfl⟩ <;> rfl
    constructor <;> simp only [WProblem.construct, hp, bind, Except.bind, inheritCheck, ha]
  · have : ¬ 0 < n := by omega
    simp [WProblem.construct, hp, bind, Except.bind, this]
  · simp [WProblem.construct, hp, bind, Except.bind, hn]
  · simp [WProblem.construct, pyMapM, bind, Except.bind, alternatingInit]
  · have : ¬ 0 < n := by omega
    have hr : List.range 1 = [0] := rfl
    simp [WProblem.construct, hr, pyMapM, hp, bind, Except.bind, alternatingInit, this]

/-! ### Comparison -/

/-- C91: a problem object has at most one direction in each generation. -/
theorem direction_unique (g : Option Int) (t : WProblem P ρ) (d d' : Bool) (h : Direction g t d) (h' : Direction g t d') :
    d = d' := by
  induction h with
  | base => cases h'; rfl
  | offsetGiven => cases h'; rfl
  | offset _ ih => cases h' with | offset h => exact ih h
  | movedGiven => cases h'; rfl
  | moved _ ih => cases h' with | moved h => exact ih h
  | average _ ih => cases h' with | average h => exact ih h
  | cooperative _ ih => cases h' with | cooperative h => exact ih h
  | alternating ha _ ih =>
    cases h' with
    | alternating hb h =>
      have := active_unique _ _ _ _ _ ha hb
      subst this
      exact ih h

theorem direction_compares (g : Option Int) (t : WProblem P ρ) (d : Bool) (hc : t.construct = .ok ()) (h : Direction g t d)
    (coin : Bool) (a b : FitSlot) : t.worse g coin a b = indLt ⟨d⟩ coin a b ∧ t.equiv g a b = indEq ⟨d⟩ a b := by
  have heq : ∀ d d' : Bool, indEq ⟨d⟩ a b = indEq ⟨d'⟩ a b := by
    intro d d'; cases a <;> cases b <;> rfl
  induction h with
  | base => exact ⟨rfl, rfl⟩
  | offsetGiven => exact ⟨rfl, heq _ _⟩
  | @offset p c m hd ih =>
    obtain ⟨_, h2⟩ := construct_then hc
    simp only [inheritCheck] at h2
    rcases ha : p.maximizeAttr with _ | m'
    · rw [ha] at h2; simp at h2
    · have := direction_unique g p m m' hd (attr_direction g p m' ha)
      subst this
      exact ⟨by simp [WProblem.worse, WProblem.maximizeAttr, ha], heq _ _⟩
  | movedGiven => exact ⟨rfl, heq _ _⟩
  | @moved p f m hd ih =>
    obtain ⟨_, h2⟩ := construct_then hc
    simp only [inheritCheck] at h2
    rcases ha : p.maximizeAttr with _ | m'
    · rw [ha] at h2; simp at h2
    · have := direction_unique g p m m' hd (attr_direction g p m' ha)
      subst this
      exact ⟨by simp [WProblem.worse, WProblem.maximizeAttr, ha], heq _ _⟩
  | average _ ih => exact ih (construct_then hc).1
  | cooperative _ ih => exact ih (construct_then hc).1
  | @alternating count ps modulo i m ha hd ih =>
    obtain ⟨h1, -, -⟩ := construct_alternating hc
    obtain ⟨hcur, -⟩ := (active_iff _ _ _ _).1 ha
    have := ih (h1 i ha.choose_spec.2.1)
    simp only [WProblem.worse, WProblem.equiv, hcur]
    exact this

/-- **C91** (comparison). However deep the wrapping, in each generation a problem object compares any two fitnesses exactly as
a plain scalar problem of one direction does: the direction given to the outermost wrapper that was told one, and otherwise
that of the (active) problem inside. So all facts about the comparison of scalar fitnesses hold of it, for missing fitnesses,
infinities and NaN too. Only without a generation in the context can it refuse, with `AssertionError`, because of an
alternating problem. -/
theorem wrapped_compares (t : WProblem P ρ) (h : t.construct = .ok ()) (g : Option Int) :
    (∃ d, Direction g t d ∧ ∀ coin a b, t.worse g coin a b = indLt ⟨d⟩ coin a b ∧ t.equiv g a b = indEq ⟨d⟩ a b) ∨
    (g = none ∧ ∀ coin a b, t.worse g coin a b = .error .assertionError ∧ t.equiv g a b = .error .assertionError) := by
  have key : (∃ d, Direction g t d) ∨
      (g = none ∧ ∀ coin a b, t.worse g coin a b = .error .assertionError ∧ t.equiv g a b = .error .assertionError) := by
    induction t with
    | base m k a ev => exact .inl ⟨m, .base⟩
    | offset p c mx ih =>
      cases mx with
      | some m => exact .inl ⟨m, .offsetGiven⟩
      | none =>
        obtain ⟨_, h2⟩ := construct_then h
        simp only [inheritCheck] at h2
        rcases ha : p.maximizeAttr with _ | m'
        · rw [ha] at h2; simp at h2
        · exact .inl ⟨m', .offset (attr_direction g p m' ha)⟩
    | moved p f mx ih =>
      cases mx with
      | some m => exact .inl ⟨m, .movedGiven⟩
      | none =>
        obtain ⟨_, h2⟩ := construct_then h
        simp only [inheritCheck] at h2
        rcases ha : p.maximizeAttr with _ | m'
        · rw [ha] at h2; simp at h2
        · exact .inl ⟨m', .moved (attr_direction g p m' ha)⟩
    | average p n ih =>
      rcases ih (construct_then h).1 with ⟨d, hd⟩ | hn
      · exact .inl ⟨d, .average hd⟩
      · exact .inr hn
    | cooperative p team n ih =>
      rcases ih (construct_then h).1 with ⟨d, hd⟩ | hn
      · exact .inl ⟨d, .cooperative hd⟩
      · exact .inr hn
    | alternating count ps modulo ih =>
      obtain ⟨h1, hc, hm⟩ := construct_alternating h
      cases g with
      | none => exact .inr ⟨rfl, fun coin a b => ⟨rfl, rfl⟩⟩
      | some step =>
        obtain ⟨i, -, ha⟩ := currentProblem_range count modulo step hc hm
        rcases ih i (h1 i ha.choose_spec.2.1) with ⟨d, hd⟩ | ⟨hn, -⟩
        · exact .inl ⟨d, .alternating ha hd⟩
        · cases hn
  rcases key with ⟨d, hd⟩ | hn
  · exact .inl ⟨d, hd, fun coin a b => direction_compares g t d h hd coin a b⟩
  · exact .inr hn

/-- **C91** (switching). When an alternating problem passes from a problem of one direction to one of the other, every
comparison of the fitnesses stored so far turns round, with no individual re-evaluated. -/
theorem alternation_reverses (t : WProblem P ρ) (h : t.construct = .ok ()) (g g' : Option Int) (d : Bool)
    (h1 : Direction g t d) (h2 : Direction g' t (!d)) (coin coin' : Bool) (a b : SFit) (ha : a.val ≠ .nan) (hb : b.val ≠ .nan) :
    t.worse g' coin' (some a) (some b) = t.worse g coin (some b) (some a) := by
  rw [(direction_compares g t d h h1 coin (some b) (some a)).1, (direction_compares g' t (!d) h h2 coin' (some a) (some b)).1]
  exact (lt_strict_weak_order ⟨d⟩ coin' coin coin a b b ha hb hb).2.2.2.2

/-- **C91** (equality). Fitnesses of a problem whose values are `float` are equal within the tolerance; averaged and cooperative
fitnesses are NumPy numbers, and are equal only when they are the same number. -/
theorem wrapped_equality (t : WProblem P ρ) (h : t.construct = .ok ()) (g : Option Int) (d : Bool) (hd : Direction g t d) (v w : ℚ) :
    ∃ r, t.equiv g (t.fitnessOf g v) (t.fitnessOf g w) = .ok r ∧
      (r = true ↔ if t.kind g = .float then WithinTol v w else v = w) := by
  rw [(direction_compares g t d h hd true _ _).2]
  by_cases hk : t.kind g = .float
  · refine ⟨Num.isclose (.fin v) (.fin w), by simp [WProblem.fitnessOf, hk, indEq, ScalarProblem.equivalent], ?_⟩
    rw [if_pos hk]
    exact isclose_fin_iff v w
  · have hk' : (t.kind g == FitKind.float) = false := by simp [hk]
    refine ⟨Num.eq (.fin v) (.fin w), by simp [WProblem.fitnessOf, hk', indEq, ScalarProblem.equivalent], ?_⟩
    rw [if_neg hk]
    simp [Num.eq]

theorem averaged_kind (g : Option Int) (p : WProblem P ρ) (n : Int) (team : P → ρ → PyM P × ρ) (c : ℚ) (mx : Option Bool) (f : P → PyM P) :
    (WProblem.average p n).kind g = .numpy ∧ (WProblem.cooperative p team n).kind g = .numpy ∧
    (WProblem.offset (.average p n) c mx).kind g = .numpy ∧
    (WProblem.moved p f mx).kind g = p.kind g ∧
    ((WProblem.offset p c mx).kind g = .float ↔ p.kind g ≠ .numpy) := by
  refine ⟨rfl, rfl, rfl, rfl, ?_⟩
  simp only [WProblem.kind]
  cases p.kind g <;> simp [FitKind.plusFloat]

/-! ### Evaluation -/

theorem mean_const_shift (vs : List ℚ) (c : ℚ) (h : vs ≠ []) : mean (vs.map (· + c)) = mean vs + c := by
  have hl : (vs.length : ℚ) ≠ 0 := by
    have := List.length_pos_iff.2 h
    exact_mod_cast (by omega : vs.length ≠ 0)
  have hs : ∀ vs : List ℚ, (vs.map (· + c)).sum = vs.sum + vs.length * c := by
    intro vs
    induction vs with
    | nil => simp
    | cons v vs ih => simp [ih]; ring
  simp only [mean, List.length_map, hs]
  field_simp

/-- Repeating a block of `n` evaluations, reduced to its mean plus a constant, `k` times. -/
theorem evalMultiple_blocks (ev outer : Eval P ρ) (x y : P) (n : Nat) (hn : 0 < n) (c : ℚ)
    (ho : ∀ s, outer x s = match evalMultiple ev (List.replicate n y) s with
      | (.error e, s1) => (.error e, s1)
      | (.ok vs, s1) => (.ok (mean vs + c), s1)) (k : Nat) (s : ρ) :
    match evalMultiple ev (List.replicate (k * n) y) s with
    | (.error e, s1) => evalMultiple outer (List.replicate k x) s = (.error e, s1)
    | (.ok vs, s1) => ∃ ms, evalMultiple outer (List.replicate k x) s = (.ok ms, s1) ∧ ms.length = k ∧
        ms.sum = vs.sum / n + k * c := by
  induction k generalizing s with
  | zero => simp [evalMultiple]
  | succ k ih =>
    have hn' : (n : ℚ) ≠ 0 := by exact_mod_cast (by omega : n ≠ 0)
    have hrep : List.replicate ((k + 1) * n) y = List.replicate n y ++ List.replicate (k * n) y := by
      rw [List.replicate_append_replicate]; congr 1; ring
    rw [hrep, evalMultiple_append]
    have hos := ho s
    rcases hA : evalMultiple ev (List.replicate n y) s with ⟨r, s1⟩
    rw [hA] at hos
    cases r with
    | error e => simp [List.replicate_succ, evalMultiple, hos]
    | ok va =>
      have hla : va.length = n := by
        have := ((evaluated_iff ev _ _ _ _).2 hA).length
        simpa using this
      simp only at hos ⊢
      have := ih s1
      rcases hB : evalMultiple ev (List.replicate (k * n) y) s1 with ⟨r2, s2⟩
      rw [hB] at this
      cases r2 with
      | error e => simp only at this ⊢; simp [List.replicate_succ, evalMultiple, hos, this]
      | ok vb =>
        obtain ⟨ms, h1, h2, h3⟩ := this
        refine ⟨(mean va + c) :: ms, by simp [List.replicate_succ, evalMultiple, hos, h1], by simp [h2], ?_⟩
        simp only [List.sum_cons, h3, List.sum_append, mean, hla]
        push_cast
        field_simp
        ring

theorem plain_value (g : Option Int) (t : WProblem P ρ) (ev : Eval P ρ) (place : P → PyM P) (n : Nat) (c : ℚ)
    (h : Plain g t ev place n c) :
    0 < n ∧ ∀ (x : P) (s : ρ), t.evaluate g false x s =
      match place x with
      | .error e => (.error e, s)
      | .ok y => match evalMultiple ev (List.replicate n y) s with
        | (.error e, s1) => (.error e, s1)
        | (.ok vs, s1) => (.ok (mean vs + c), s1) := by
  induction h with
  | @base m k a ev =>
    refine ⟨by omega, fun x s => ?_⟩
    simp only [WProblem.evaluate, Bool.false_and, Bool.false_eq_true, if_false, List.replicate_one, evalMultiple]
    rcases ev x s with ⟨r, s1⟩
    cases r <;> simp [mean]
  | @offset p c mx ev place n d _ ih =>
    obtain ⟨hn, ih⟩ := ih
    refine ⟨hn, fun x s => ?_⟩
    simp only [WProblem.evaluate, Bool.false_eq_true, if_false, offsetEvaluate, ih]
    cases place x with
    | error e => rfl
    | ok y =>
      simp only
      rcases evalMultiple ev (List.replicate n y) s with ⟨r, s1⟩
      cases r with
      | error e => rfl
      | ok vs => simp [add_assoc]
  | @moved p f mx ev place n d _ ih =>
    obtain ⟨hn, ih⟩ := ih
    refine ⟨hn, fun x s => ?_⟩
    simp only [WProblem.evaluate, Bool.false_eq_true, if_false, bind, Except.bind]
    cases f x with
    | error e => rfl
    | ok y => exact ih y s
  | @average p k ev place n d _ hk ih =>
    obtain ⟨hn, ih⟩ := ih
    have hkn : 0 < k.toNat := by omega
    refine ⟨Nat.mul_pos hkn hn, fun x s => ?_⟩
    simp only [WProblem.evaluate, Bool.false_eq_true, if_false, averageEvaluate]
    cases hp : place x with
    | error e =>
      obtain ⟨k', hk'⟩ : ∃ k', k.toNat = k' + 1 := ⟨k.toNat - 1, by omega⟩
      rw [hk']
      simp [List.replicate_succ, evalMultiple, ih, hp]
    | ok y =>
      have hb := evalMultiple_blocks ev (p.evaluate g false) x y n hn d (fun s => by rw [ih, hp]) k.toNat s
      simp only
      rcases hB : evalMultiple ev (List.replicate (k.toNat * n) y) s with ⟨r, s1⟩
      rw [hB] at hb
      cases r with
      | error e => simp only at hb ⊢; rw [hb]
      | ok vs =>
        obtain ⟨ms, h1, h2, h3⟩ := hb
        have hl : vs.length = k.toNat * n := by
          have := ((evaluated_iff ev _ _ _ _).2 hB).length
          simpa using this
        have hkq : (k.toNat : ℚ) ≠ 0 := by exact_mod_cast (by omega : k.toNat ≠ 0)
        have hnq : (n : ℚ) ≠ 0 := by exact_mod_cast (by omega : n ≠ 0)
        simp only [h1, mean, h2, h3, hl]
        congr 2
        push_cast
        field_simp
  | @alternating count ps modulo i ev place n d ha _ ih =>
    obtain ⟨hn, ih⟩ := ih
    refine ⟨hn, fun x s => ?_⟩
    obtain ⟨hcur, -⟩ := (active_iff _ _ _ _).1 ha
    simp only [WProblem.evaluate, Bool.false_eq_true, if_false, hcur]
    exact ih x s

/-- **C91** (evaluation). The fitness of `x` under a wrapped problem is the mean of `reps` evaluations of the innermost problem
at the moved phenome, made one after the other, plus the sum of all offsets: averages inside averages multiply their numbers
of evaluations, and offsets add up wherever they stand. Errors of moving and of evaluating are passed on. -/
theorem wrapped_value (g : Option Int) (t : WProblem P ρ) (ev : Eval P ρ) (place : P → PyM P) (reps : Nat) (shift : ℚ)
    (h : Plain g t ev place reps shift) (x : P) (s : ρ) :
    0 < reps ∧
    (∀ e, place x = .error e → t.evaluate g false x s = (.error e, s)) ∧
    (∀ y, place x = .ok y →
      (∀ vs s', Evaluated ev (List.replicate reps y) s vs s' → t.evaluate g false x s = (.ok (vs.sum / reps + shift), s')) ∧
      (∀ e s', evalMultiple ev (List.replicate reps y) s = (.error e, s') → t.evaluate g false x s = (.error e, s'))) := by
  obtain ⟨hn, hv⟩ := plain_value g t ev place reps shift h
  refine ⟨hn, fun e he => by rw [hv, he], fun y hy => ⟨fun vs s' hev => ?_, fun e s' he => ?_⟩⟩
  · have hl := hev.length
    rw [hv, hy]
    simp only [(evaluated_iff ev _ _ _ _).1 hev, mean, hl, List.length_replicate]
  · rw [hv, hy]
    simp only [he]

/-- C91: around a deterministic problem, wrapping changes a value only by the offsets, so it never changes which of two
phenomes has the larger value. -/
theorem wrapped_deterministic (g : Option Int) (t : WProblem P ρ) (r : P → ℚ) (place : P → PyM P) (reps : Nat) (shift : ℚ)
    (h : Plain g t (fun y s => (.ok (r y), s)) place reps shift) (x y x' y' : P) (s : ρ) (hx : place x = .ok x') (hy : place y = .ok y') :
    ∃ vx vy, t.evaluate g false x s = (.ok vx, s) ∧ t.evaluate g false y s = (.ok vy, s) ∧
      vx = r x' + shift ∧ (vx < vy ↔ r x' < r y') := by
  obtain ⟨hn, hv⟩ := plain_value g t _ place reps shift h
  have hrep : ∀ z : P, evalMultiple (fun y (s : ρ) => ((.ok (r y) : PyM ℚ), s)) (List.replicate reps z) s =
      (.ok (List.replicate reps (r z)), s) := by
    intro z
    generalize reps = k
    induction k with
    | zero => rfl
    | succ k ih => simp [List.replicate_succ, evalMultiple, ih]
  have hq : (reps : ℚ) ≠ 0 := by exact_mod_cast (by omega : reps ≠ 0)
  have hm : ∀ z : P, mean (List.replicate reps (r z)) = r z := by
    intro z
    simp only [mean, List.sum_replicate, List.length_replicate, nsmul_eq_mul]
    rw [mul_div_cancel_left₀ _ hq]
  refine ⟨r x' + shift, r y' + shift, ?_, ?_, rfl, by constructor <;> intro h <;> linarith⟩
  · rw [hv, hx]; simp only [hrep, hm]
  · rw [hv, hy]; simp only [hrep, hm]

/-- C91: a problem object that could be built is, in each generation, of one of the two sorts. -/
theorem plain_or_team (t : WProblem P ρ) (h : t.construct = .ok ()) (step : Int) :
    (∃ ev place reps shift, Plain (some step) t ev place reps shift) ∨ NeedsTeam (some step) t := by
  induction t with
  | base m k a ev => exact .inl ⟨ev, _, 1, 0, .base⟩
  | offset p c mx ih =>
    rcases ih (construct_then h).1 with ⟨ev, f, n, d, hp⟩ | ht
    · exact .inl ⟨ev, f, n, _, .offset hp⟩
    · exact .inr (.offset ht)
  | moved p f mx ih =>
    rcases ih (construct_then h).1 with ⟨ev, f', n, d, hp⟩ | ht
    · exact .inl ⟨ev, _, n, d, .moved hp⟩
    · exact .inr (.moved ht)
  | average p n ih =>
    obtain ⟨h1, h2⟩ := construct_then h
    have hn : 0 < n := by
      by_contra hc
      rw [if_neg hc] at h2
      simp at h2
    rcases ih h1 with ⟨ev, f', k, d, hp⟩ | ht
    · exact .inl ⟨ev, f', _, d, .average hp hn⟩
    · exact .inr (.average ht)
  | cooperative p team n ih => exact .inr .cooperative
  | alternating count ps modulo ih =>
    obtain ⟨h1, hc, hm⟩ := construct_alternating h
    obtain ⟨i, -, ha⟩ := currentProblem_range count modulo step hc hm
    rcases ih i (h1 i ha.choose_spec.2.1) with ⟨ev, f', k, d, hp⟩ | ht
    · exact .inl ⟨ev, f', k, d, .alternating ha hp⟩
    · exact .inr (.alternating ha ht)

theorem needsTeam_refuses (g : Option Int) (t : WProblem P ρ) (hc : t.construct = .ok ()) (h : NeedsTeam g t) (x : P) (s : ρ) :
    ∃ e s', t.evaluate g false x s = (.error e, s') := by
  induction h generalizing x s with
  | cooperative => exact ⟨_, _, rfl⟩
  | @offset p c mx _ ih =>
    obtain ⟨e, s', he⟩ := ih (construct_then hc).1 x s
    exact ⟨e, s', by simp [WProblem.evaluate, offsetEvaluate, he]⟩
  | @moved p f mx _ ih =>
    cases hf : f x with
    | error e => exact ⟨e, s, by simp [WProblem.evaluate, hf]⟩
    | ok y =>
      obtain ⟨e, s', he⟩ := ih (construct_then hc).1 y s
      exact ⟨e, s', by simp [WProblem.evaluate, hf, he]⟩
  | @average p n _ ih =>
    obtain ⟨h1, h2⟩ := construct_then hc
    have hn : 0 < n := by
      by_contra hc
      rw [if_neg hc] at h2
      simp at h2
    obtain ⟨e, s', he⟩ := ih h1 x s
    obtain ⟨k, hk⟩ : ∃ k, n.toNat = k + 1 := ⟨n.toNat - 1, by omega⟩
    exact ⟨e, s', by simp [WProblem.evaluate, averageEvaluate, hk, List.replicate_succ, evalMultiple, he]⟩
  | @alternating count ps modulo i ha _ ih =>
    obtain ⟨h1, -, -⟩ := construct_alternating hc
    obtain ⟨hcur, -⟩ := (active_iff _ _ _ _).1 ha
    obtain ⟨e, s', he⟩ := ih (h1 i ha.choose_spec.2.1) x s
    exact ⟨e, s', by simp [WProblem.evaluate, hcur, he]⟩

/-- **C91** (cooperation inside a wrapper). A cooperative problem works only as the outermost one. Put inside any wrapper,
including another cooperative problem, it can never be evaluated: plain individuals do not pass themselves, and the wrappers
refuse individuals that do (`TypeError`). -/
theorem cooperative_must_be_outermost (g : Option Int) (t : WProblem P ρ) (hc : t.construct = .ok ()) (h : NeedsTeam g t) (x : P) (s : ρ) :
    (∃ e s', t.evaluate g false x s = (.error e, s')) ∧
    ((∀ p team n, t ≠ .cooperative p team n) → t.evaluate g true x s = (.error .typeError, s)) ∧
    (∀ p team n, t = .cooperative p team n → NeedsTeam g p → ∃ e s', t.evaluate g true x s = (.error e, s')) := by
  refine ⟨needsTeam_refuses g t hc h x s, ?_, ?_⟩
  · intro hne
    cases h with
    | cooperative => exact absurd rfl (hne _ _ _)
    | offset _ => rfl
    | moved _ => rfl
    | average _ => rfl
    | alternating _ _ => simp [WProblem.evaluate]
  · rintro p team n rfl hp
    obtain ⟨h1, h2⟩ := construct_then hc
    have hn : 0 < n := by
      by_contra hc
      rw [if_neg hc] at h2
      simp at h2
    obtain ⟨k, hk⟩ : ∃ k, n.toNat = k + 1 := ⟨n.toNat - 1, by omega⟩
    simp only [WProblem.evaluate, if_true, hk, teamTrials]
    rcases team x s with ⟨r, s1⟩
    cases r with
    | error e => exact ⟨e, s1, rfl⟩
    | ok y =>
      obtain ⟨e, s', he⟩ := needsTeam_refuses g p h1 hp y s1
      exact ⟨e, s', by simp [he]⟩

/-- The trials of a cooperative evaluation of `x`, one after the other: each puts together a team with `x` in it and has the
wrapped problem evaluate it. -/
inductive Spec.TeamValues (ev : Eval P ρ) (team : P → ρ → PyM P × ρ) (x : P) : ρ → List ℚ → ρ → Prop
  | nil {s} : Spec.TeamValues ev team x s [] s
  | cons {s y s1 v s2 vs s3} : team x s = (.ok y, s1) → ev y s1 = (.ok v, s2) → Spec.TeamValues ev team x s2 vs s3 →
      Spec.TeamValues ev team x s (v :: vs) s3

theorem teamTrials_iff (ev : Eval P ρ) (team : P → ρ → PyM P × ρ) (x : P) (k : Nat) (s : ρ) (fs : List ℚ) (s' : ρ) :
    teamTrials ev team x k s = (.ok fs, s') ↔ TeamValues ev team x s fs s' ∧ fs.length = k := by
  constructor
  · induction k generalizing s fs with
    | zero =>
      intro h
      simp only [teamTrials, Prod.mk.injEq, Except.ok.injEq] at h
      obtain ⟨rfl, rfl⟩ := h
      exact ⟨.nil, rfl⟩
    | succ k ih =>
      intro h
      simp only [teamTrials] at h
      rcases h1 : team x s with ⟨r, s1⟩
      rw [h1] at h
      cases r with
      | error e => simp at h
      | ok y =>
        simp only at h
        rcases h2 : ev y s1 with ⟨r2, s2⟩
        rw [h2] at h
        cases r2 with
        | error e => simp at h
        | ok w =>
          simp only at h
          rcases h3 : teamTrials ev team x k s2 with ⟨r3, s3⟩
          rw [h3] at h
          cases r3 with
          | error e => simp at h
          | ok ws =>
            simp only [Prod.mk.injEq, Except.ok.injEq] at h
            obtain ⟨rfl, rfl⟩ := h
            obtain ⟨h4, h5⟩ := ih s2 ws h3
            exact ⟨.cons h1 h2 h4, by simp [h5]⟩
  · rintro ⟨h, rfl⟩
    induction h with
    | nil => rfl
    | cons h1 h2 _ ih => simp [teamTrials, h1, h2, ih]

/-- C91: an individual that passes itself gets, from an outermost cooperative problem, the mean over the given number of
trials. -/
theorem cooperative_outermost (g : Option Int) (p : WProblem P ρ) (team : P → ρ → PyM P × ρ) (n : Int) (x : P) (s s' : ρ) (v : ℚ) :
    (WProblem.cooperative p team n).evaluate g true x s = (.ok v, s') ↔
      ∃ fs, TeamValues (p.evaluate g false) team x s fs s' ∧ fs.length = n.toNat ∧ v = fs.sum / n.toNat := by
  simp only [WProblem.evaluate, if_true]
  rcases ht : teamTrials (p.evaluate g false) team x n.toNat s with ⟨r, s1⟩
  constructor
  · intro h
    cases r with
    | error e => simp at h
    | ok fs =>
      simp only [Prod.mk.injEq, Except.ok.injEq] at h
      obtain ⟨rfl, rfl⟩ := h
      obtain ⟨h1, h2⟩ := (teamTrials_iff _ _ _ _ _ _ _).1 ht
      exact ⟨fs, h1, h2, by rw [mean, h2]⟩
  · rintro ⟨fs, h1, h2, rfl⟩
    have := (teamTrials_iff _ _ _ _ _ _ _).2 ⟨h1, h2⟩
    rw [this] at ht
    cases ht
    simp only [mean, h2]

/-! ### A case -/

/-- Noise that alternates between -1 and 1, added to the sum of a phenome. -/
def exWobble : WProblem (List ℚ) Nat :=
  .base true .float false fun x s => (.ok (x.sum + (if s % 2 = 0 then -1 else 1)), s + 1)

/-- The sum, to be minimised. -/
def exLow : WProblem (List ℚ) Nat := .base false .float false fun x s => (.ok x.sum, s)

/-- Alternately the noisy sum, averaged twice over and with an offset of ten, and the sum to be minimised. -/
def exTower : WProblem (List ℚ) Nat :=
  .alternating 2 (fun i => if i = 0 then .offset (.average (.average (.moved exWobble (fun x => .ok (x.map (· - 1))) none) 2) 3) 10 (some true) else exLow) 5

theorem exTower_built : exTower.construct = .ok () := by
  simp [exTower, exWobble, exLow, WProblem.construct, inheritCheck, WProblem.maximizeAttr, bind, Except.bind, alternatingInit,
    show List.range 2 = [0, 1] from rfl, pyMapM]

theorem exTower_first : ActiveAt 2 5 (some 4) 0 := ⟨4, rfl, by omega, by omega, by decide⟩
theorem exTower_second : ActiveAt 2 5 (some 5) 1 := ⟨5, rfl, by omega, by omega, by decide⟩

example : ∃ place, Plain (some 4) exTower (fun x s => (.ok (x.sum + (if s % 2 = 0 then -1 else 1)), s + 1)) place 6 10 := by
  refine ⟨fun x => (.ok (x.map (· - 1)) : PyM (List ℚ)) >>= fun x => .ok x, .alternating (i := 0) exTower_first ?_⟩
  have := (Plain.offset (c := 10) (mx := some true) (.average (k := 3) (.average (k := 2) (.moved (f := fun x => .ok (x.map (· - 1)))
    (mx := none) (Plain.base (g := some 4) (m := true) (k := .float) (a := false)
      (ev := fun (x : List ℚ) (s : Nat) => ((.ok (x.sum + (if s % 2 = 0 then -1 else 1)) : PyM ℚ), s + 1)))) (by decide)) (by decide)))
  simpa [exWobble] using this

example : Direction (some 4) exTower true ∧ Direction (some 5) exTower false :=
  ⟨.alternating (i := 0) exTower_first .offsetGiven, .alternating (i := 1) exTower_second .base⟩

/-- In generation 4 a stored fitness 3 is worse than 7; in generation 5 it is better. -/
example : exTower.worse (some 4) true (some ⟨true, .fin 3⟩) (some ⟨true, .fin 7⟩) = .ok true ∧
    exTower.worse (some 5) true (some ⟨true, .fin 7⟩) (some ⟨true, .fin 3⟩) = .ok true := by
  have h1 : Direction (some 4) exTower true := .alternating (i := 0) exTower_first .offsetGiven
  have h2 : Direction (some 5) exTower false := .alternating (i := 1) exTower_second .base
  rw [(direction_compares _ _ _ exTower_built h1 _ _ _).1, (direction_compares _ _ _ exTower_built h2 _ _ _).1]
  constructor <;> decide +kernel

/-- Six evaluations, the noise averages out, and the offset is added. -/
example : exTower.evaluate (some 4) false [3, 4] 0 = (.ok 15, 6) := by decide +kernel

/-- A cooperative problem inside an average. -/
example : NeedsTeam none (WProblem.average (.cooperative exLow (fun x s => (.ok (x ++ [1]), s)) 2) 3 : WProblem (List ℚ) Nat) ∧
    (WProblem.average (.cooperative exLow (fun x s => (.ok (x ++ [1]), s)) 2) 3 : WProblem (List ℚ) Nat).construct = .ok () :=
  ⟨.average .cooperative, rfl⟩

end Leap
