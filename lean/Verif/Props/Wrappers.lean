import Mathlib.Algebra.BigOperators.Group.List.Basic
import Mathlib.Algebra.Order.Floor.Ring
import Mathlib.Algebra.Order.Field.Rat
import Mathlib.Tactic.FieldSimp
import Mathlib.Tactic.Linarith
import Mathlib.Tactic.NormNum
import Mathlib.Tactic.Ring
import Mathlib.Data.Rat.Floor
import Verif.Model.Wrappers

/-! # Wrapping problems (C38, C39, C63) and cooperative evaluation (C40) -/

namespace Leap

variable {P ρ : Type}

/-! ## C38 averaged fitness -/

/-- The wrapped problem, evaluated on the phenomes one after the other from random state `s`, returned these
values and left random state `s'`. -/
inductive Spec.Evaluated (ev : Eval P ρ) : List P → ρ → List ℚ → ρ → Prop
  | nil (s) : Spec.Evaluated ev [] s [] s
  | cons {p ps s v s1 vs s2} : ev p s = (.ok v, s1) → Spec.Evaluated ev ps s1 vs s2 →
      Spec.Evaluated ev (p :: ps) s (v :: vs) s2

open Spec

theorem evaluated_iff (ev : Eval P ρ) (ps : List P) (s : ρ) (vs : List ℚ) (s' : ρ) :
    Evaluated ev ps s vs s' ↔ evalMultiple ev ps s = (.ok vs, s') := by
  constructor
  · intro h
    induction h with
    | nil => rfl
    | cons h1 _ ih => simp [evalMultiple, h1, ih]
  · intro h
    induction ps generalizing s vs with
    | nil => simp [evalMultiple] at h; obtain ⟨rfl, rfl⟩ := h; exact .nil s
    | cons p ps ih =>
      simp only [evalMultiple] at h
      rcases e1 : ev p s with ⟨r, s1⟩
      rw [e1] at h
      cases r with
      | error e => simp at h
      | ok v =>
        simp only at h
        rcases e2 : evalMultiple ev ps s1 with ⟨r2, s2⟩
        rw [e2] at h
        cases r2 with
        | error e => simp at h
        | ok vs2 =>
          simp only [Prod.mk.injEq, Except.ok.injEq] at h
          obtain ⟨rfl, rfl⟩ := h
          exact .cons e1 (ih s1 vs2 e2)

theorem Spec.Evaluated.length {ev : Eval P ρ} {ps s vs s'} (h : Evaluated ev ps s vs s') : vs.length = ps.length := by
  induction h with
  | nil => rfl
  | cons _ _ ih => simp [ih]

/-- C38: the averaged fitness is the mean of exactly `n` evaluations of the phenome, made one after the other. -/
theorem average_is_mean_of_n (ev : Eval P ρ) (n : Nat) (p : P) (s s' : ρ) (f : ℚ)
    (h : averageEvaluate ev n p s = (.ok f, s')) :
    ∃ vs, Evaluated ev (List.replicate n p) s vs s' ∧ vs.length = n ∧ f = vs.sum / n := by
  simp only [averageEvaluate] at h
  rcases e : evalMultiple ev (List.replicate n p) s with ⟨r, s1⟩
  rw [e] at h
  cases r with
  | error e => simp at h
  | ok vs =>
    simp only [Prod.mk.injEq, Except.ok.injEq] at h
    obtain ⟨rfl, rfl⟩ := h
    have hev := (evaluated_iff ev _ _ _ _).2 e
    have hl := hev.length
    rw [List.length_replicate] at hl
    exact ⟨vs, hev, hl, by rw [mean, hl]⟩

/-- C38: for a deterministic problem averaging changes nothing. -/
theorem average_of_deterministic (g : P → ℚ) (n : Nat) (hn : 0 < n) (p : P) (s : ρ) :
    averageEvaluate (fun p s => (.ok (g p), s)) n p s = (.ok (g p), s) := by
  have h : ∀ k, evalMultiple (fun p (s : ρ) => ((.ok (g p) : PyM ℚ), s)) (List.replicate k p) s =
      (.ok (List.replicate k (g p)), s) := by
    intro k
    induction k with
    | zero => rfl
    | succ k ih => simp [List.replicate_succ, evalMultiple, ih]
  have hq : (n : ℚ) ≠ 0 := by exact_mod_cast (by omega : n ≠ 0)
  simp only [averageEvaluate, h, mean, List.sum_replicate, List.length_replicate, nsmul_eq_mul]
  rw [mul_div_cancel_left₀ _ hq]

/-- C38: only a positive number of evaluations is accepted. -/
theorem average_init_checks (n : Int) :
    (0 < n → averageInit n = .ok n.toNat) ∧ (n ≤ 0 → averageInit n = .error .assertionError) := by
  refine ⟨fun h => by simp [averageInit, h], fun h => ?_⟩
  have : ¬ 0 < n := by omega
  simp [averageInit, this]

theorem meanByChunk_get (n : Nat) (hn : 0 < n) (l : List ℚ) (i : Nat) :
    (meanByChunk n l)[i]? = if i * n < l.length then some (mean ((l.drop (i * n)).take n)) else none := by
  induction i generalizing l with
  | zero =>
    rw [meanByChunk]
    by_cases h : l = []
    · simp [h]
    · have hl : 0 < l.length := List.length_pos_iff.mpr h
      rw [dif_neg (by rintro (h' | h'); exacts [h h', by omega])]
      simp [hl]
  | succ i ih =>
    rw [meanByChunk]
    by_cases h : l = []
    · simp [h]
    · rw [dif_neg (by rintro (h' | h'); exacts [h h', by omega])]
      simp only [List.getElem?_cons_succ, ih, List.length_drop, List.drop_drop]
      have e1 : n + i * n = (i + 1) * n := by ring
      rw [e1]
      by_cases hlt : (i + 1) * n < l.length
      · rw [if_pos hlt, if_pos (by rw [← e1] at hlt; omega)]
      · rw [if_neg hlt, if_neg (by rw [← e1] at hlt; omega)]

theorem meanByChunk_length (n : Nat) (hn : 0 < n) (l : List ℚ) (k : Nat) (h : l.length = k * n) :
    (meanByChunk n l).length = k := by
  apply Nat.le_antisymm
  · have := meanByChunk_get n hn l k
    rw [h, if_neg (by omega)] at this
    simpa using this
  · by_contra hc
    have hget := meanByChunk_get n hn l (meanByChunk n l).length
    rw [List.getElem?_eq_none (Nat.le_refl _)] at hget
    rw [if_pos] at hget
    · simp at hget
    · rw [h]; exact Nat.mul_lt_mul_of_pos_right (by omega) hn

/-- C38: batch evaluation over any wrapped `evaluate_multiple` that returns one value per phenome: the answer has
one value per phenome, in order, the mean of the `n` values returned for that phenome's own copies. -/
theorem average_multiple_value (em : List P → ρ → PyM (List ℚ) × ρ) (n : Nat) (hn : 0 < n) (ps : List P)
    (s s' : ρ) (fs : List ℚ) (hem : em (ps.flatMap fun p => List.replicate n p) s = (.ok fs, s'))
    (hlen : fs.length = ps.length * n) :
    ∃ rs, averageEvaluateMultiple em n ps s = (.ok rs, s') ∧ rs.length = ps.length ∧
      ∀ i, i < ps.length → rs[i]? = some (((fs.drop (i * n)).take n).sum / n) := by
  have hl := meanByChunk_length n hn fs ps.length hlen
  refine ⟨meanByChunk n fs, by simp [averageEvaluateMultiple, hem, hl], hl, ?_⟩
  intro i hi
  have h1 : (i + 1) * n ≤ fs.length := by rw [hlen]; exact Nat.mul_le_mul_right n hi
  have h2 : i * n + n ≤ fs.length := by rw [Nat.succ_mul] at h1; exact h1
  rw [meanByChunk_get n hn, if_pos (by omega)]
  simp only [mean, List.length_take, List.length_drop]
  congr 3
  omega

/-- C38: a wrapped batch that returns too few values for the number of phenomes is noticed. -/
theorem average_multiple_too_few (em : List P → ρ → PyM (List ℚ) × ρ) (n : Nat) (hn : 0 < n) (ps : List P)
    (s s' : ρ) (fs : List ℚ) (k : Nat) (hem : em (ps.flatMap fun p => List.replicate n p) s = (.ok fs, s'))
    (hlen : fs.length = k * n) (hk : k ≠ ps.length) :
    averageEvaluateMultiple em n ps s = (.error .assertionError, s') := by
  have hl := meanByChunk_length n hn fs k hlen
  simp [averageEvaluateMultiple, hem, hl, hk]

theorem meanByChunk_append (n : Nat) (hn : 0 < n) (a b : List ℚ) (ha : a.length = n) :
    meanByChunk n (a ++ b) = mean a :: meanByChunk n b := by
  rw [meanByChunk, dif_neg]
  · rw [List.take_left' ha, List.drop_left' ha]
  · rintro (h | h)
    · have : a = [] := (List.append_eq_nil_iff.mp h).1
      rw [this] at ha; simp at ha; omega
    · omega

theorem evalMultiple_append (ev : Eval P ρ) (a b : List P) (s : ρ) :
    evalMultiple ev (a ++ b) s = match evalMultiple ev a s with
      | (.error e, s1) => (.error e, s1)
      | (.ok va, s1) => match evalMultiple ev b s1 with
        | (.error e, s2) => (.error e, s2)
        | (.ok vb, s2) => (.ok (va ++ vb), s2) := by
  induction a generalizing s with
  | nil => simp [evalMultiple]; rcases evalMultiple ev b s with ⟨r, s2⟩; cases r <;> rfl
  | cons p ps ih =>
    simp only [List.cons_append, evalMultiple]
    rcases ev p s with ⟨r, s1⟩
    cases r with
    | error e => rfl
    | ok v =>
      simp only [ih]
      rcases evalMultiple ev ps s1 with ⟨r2, s2⟩
      cases r2 with
      | error e => rfl
      | ok vs =>
        simp only
        rcases evalMultiple ev b s2 with ⟨r3, s3⟩
        cases r3 <;> rfl

/-- C38: with the default batch evaluation of the wrapped problem, batch averaging is the same as averaging the
phenomes one by one: same values, same errors, same use of the random source. -/
theorem average_multiple_agrees (ev : Eval P ρ) (n : Nat) (hn : 0 < n) (ps : List P) (s : ρ) :
    averageEvaluateMultiple (evalMultiple ev) n ps s = evalMultiple (averageEvaluate ev n) ps s := by
  have key : ∀ (ps : List P) (s : ρ),
      (match evalMultiple ev (ps.flatMap fun p => List.replicate n p) s with
        | (.error e, s1) => ((.error e : PyM (List ℚ)), s1)
        | (.ok fs, s1) => (.ok (meanByChunk n fs), s1)) = evalMultiple (averageEvaluate ev n) ps s := by
    intro ps
    induction ps with
    | nil => intro s; simp [evalMultiple, meanByChunk]
    | cons p ps ih =>
      intro s
      simp only [List.flatMap_cons, evalMultiple_append, evalMultiple, averageEvaluate]
      rcases e1 : evalMultiple ev (List.replicate n p) s with ⟨r, s1⟩
      cases r with
      | error e => rfl
      | ok va =>
        have hva : va.length = n := by
          have := ((evaluated_iff ev _ _ _ _).2 e1).length; simpa using this
        have := ih s1
        simp only
        rw [← this]
        rcases evalMultiple ev (ps.flatMap fun p => List.replicate n p) s1 with ⟨r2, s2⟩
        cases r2 with
        | error e => rfl
        | ok vb => simp [meanByChunk_append n hn va vb hva]
  rw [← key ps s]
  simp only [averageEvaluateMultiple]
  rcases e : evalMultiple ev (ps.flatMap fun p => List.replicate n p) s with ⟨r, s1⟩
  cases r with
  | error e => rfl
  | ok fs =>
    have hl := ((evaluated_iff ev _ _ _ _).2 e).length
    have hl2 : fs.length = ps.length * n := by
      rw [hl]; simp [List.length_flatMap]
    simp [meanByChunk_length n hn fs ps.length hl2]

/-- A noisy problem for the examples: adds the next random number. -/
def exNoisy : Eval ℚ (List ℚ) := fun p s =>
  match s with
  | [] => (.error .indexError, [])
  | x :: xs => (.ok (p + x), xs)

example : averageEvaluateMultiple (evalMultiple exNoisy) 2 [10, 20] [1, 3, 0, 4, 9] = (.ok [12, 22], [9]) := by
  rw [average_multiple_agrees exNoisy 2 (by decide)]
  decide +kernel

/-- An offset problem adds its constant and passes errors on; its direction is the wrapped one unless given. -/
theorem offset_problem_value (ev : Eval P ρ) (c : ℚ) (p : P) (s : ρ) :
    (∀ v s1, ev p s = (.ok v, s1) → offsetEvaluate ev c p s = (.ok (v + c), s1)) ∧
    (∀ e s1, ev p s = (.error e, s1) → offsetEvaluate ev c p s = (.error e, s1)) ∧
    (∀ w, offsetMaximize w none = w) ∧ ∀ w b, offsetMaximize w (some b) = b :=
  ⟨fun v s1 h => by simp [offsetEvaluate, h], fun e s1 h => by simp [offsetEvaluate, h], fun _ => rfl, fun _ _ => rfl⟩

/-- An offset problem orders phenomes exactly as the wrapped one does. -/
theorem offset_problem_keeps_order (c v w : ℚ) : v + c < w + c ↔ v < w := by constructor <;> intro h <;> linarith

/-! ## C39 alternating problems -/

/-- C39: in generation `q * modulo + r` with `0 ≤ r < modulo` the active problem is number `q` in cyclic order: each
is active for `modulo` consecutive generations, then the next one is. `q` may be negative. -/
theorem alternating_schedule {Q : Type} (problems : List Q) (modulo q r : Int) (hp : problems ≠ [])
    (h0 : 0 ≤ r) (h1 : r < modulo) :
    ∃ (i : Nat) (x : Q), currentProblem problems modulo (some (q * modulo + r)) = .ok x ∧ problems[i]? = some x ∧
      i < problems.length ∧ (i : Int) = q % problems.length := by
  have hm : (0 : ℚ) < modulo := by exact_mod_cast (by omega : 0 < modulo)
  have hfl : ⌊((q * modulo + r : Int) : ℚ) / (modulo : ℚ)⌋ = q := by
    rw [Int.floor_eq_iff]
    push_cast
    have hr0 : (0 : ℚ) ≤ r := by exact_mod_cast h0
    have hr1 : (r : ℚ) < modulo := by exact_mod_cast h1
    constructor
    · rw [le_div_iff₀ hm]; linarith
    · rw [div_lt_iff₀ hm]; linarith
  have hl : 0 < problems.length := List.length_pos_iff.mpr hp
  have hl' : (0 : Int) < problems.length := by exact_mod_cast hl
  have hn := Int.emod_nonneg q (by omega : (problems.length : Int) ≠ 0)
  have hlt := Int.emod_lt_of_pos q hl'
  have hi : (q % (problems.length : Int)).toNat < problems.length := by omega
  refine ⟨(q % (problems.length : Int)).toNat, problems[(q % (problems.length : Int)).toNat], ?_,
    List.getElem?_eq_getElem hi, hi, Int.toNat_of_nonneg hn⟩
  simp only [currentProblem, hfl, List.getElem?_eq_getElem hi]

/-- C39: without a generation in the context, and for no problems or a modulus that is not positive, it refuses. -/
theorem alternating_refusals {Q : Type} (problems : List Q) (modulo : Int) :
    currentProblem problems modulo none = .error .assertionError ∧
    (problems = [] ∨ modulo ≤ 0 → alternatingInit problems modulo = .error .assertionError) ∧
    (problems ≠ [] → 0 < modulo → alternatingInit problems modulo = .ok ()) := by
  refine ⟨rfl, ?_, ?_⟩
  · rintro (rfl | h)
    · rfl
    · have : ¬ 0 < modulo := by omega
      simp [alternatingInit, this]
  · intro h h2
    have := List.length_pos_iff.mpr h
    simp [alternatingInit, this, h2]

example : (List.range 7).map (fun g : Nat => (currentProblem ["a", "b", "c"] 2 (some (g : Int))).toOption) =
    [some "a", some "a", some "b", some "b", some "c", some "c", some "a"] := by decide +kernel

/-! ## C63 external processes -/

/-- Join lines, each followed by a newline. -/
def Spec.unlines (ls : List (List Char)) : List Char := ls.flatMap fun l => l ++ ['\n']

theorem splitLines_ne (l : List Char) : splitLines l ≠ [] := by
  induction l with
  | nil => simp [splitLines]
  | cons c cs ih =>
    simp only [splitLines]
    split
    · simp
    · split <;> simp

theorem splitLines_line (l rest : List Char) (h : '\n' ∉ l) : splitLines (l ++ '\n' :: rest) = l :: splitLines rest := by
  induction l with
  | nil => simp [splitLines]
  | cons c cs ih =>
    simp only [List.mem_cons, not_or] at h
    simp [splitLines, Ne.symm h.1, ih h.2]

theorem splitLines_unlines (ls : List (List Char)) (h : ∀ l ∈ ls, '\n' ∉ l) (tail : List Char) (ht : '\n' ∉ tail) :
    (splitLines (unlines ls ++ tail)).dropLast = ls := by
  induction ls with
  | nil =>
    have : splitLines tail = [tail] := by
      clear h
      induction tail with
      | nil => rfl
      | cons c cs ih =>
        simp only [List.mem_cons, not_or] at ht
        simp [splitLines, Ne.symm ht.1, ih ht.2]
    simp [unlines, this]
  | cons l ls ih =>
    have e : unlines (l :: ls) ++ tail = l ++ '\n' :: (unlines ls ++ tail) := by simp [unlines]
    rw [e, splitLines_line l _ (h l (by simp))]
    rw [List.dropLast_cons_of_ne_nil (splitLines_ne _), ih (fun l' hl' => h l' (by simp [hl']))]

/-- C63: when the process succeeds and answers one line per phenome, the fitnesses are the numbers on those lines in
the order of the phenomes. -/
theorem external_values {E : Type} (str : E → List Char) (process : List Char → Int × List Char)
    (float : List Char → PyM ℚ) (phenomes : List (List E)) (ls : List (List Char)) (fs : List ℚ)
    (hp : process (phenomeBytes str phenomes) = (0, unlines ls)) (hnl : ∀ l ∈ ls, '\n' ∉ l)
    (hf : ls.mapM float = .ok fs) (hlen : fs.length = phenomes.length) :
    externalEvaluateMultiple str process float phenomes = .ok fs := by
  have := splitLines_unlines ls hnl [] (by simp)
  rw [List.append_nil] at this
  simp [externalEvaluateMultiple, hp, this, hf, hlen]

/-- C63: a failing process, or a wrong number of complete lines, raises `RuntimeError`; a line that is not a number
raises its error.
Missing from the full claim, because it is false of the code: a last line without newline that makes the number of
lines wrong. -/
theorem external_errors_partial {E : Type} (str : E → List Char) (process : List Char → Int × List Char)
    (float : List Char → PyM ℚ) (phenomes : List (List E)) :
    ((process (phenomeBytes str phenomes)).1 ≠ 0 →
      externalEvaluateMultiple str process float phenomes = .error .runtimeError) ∧
    (∀ ls fs, process (phenomeBytes str phenomes) = (0, unlines ls) → (∀ l ∈ ls, '\n' ∉ l) →
      ls.mapM float = .ok fs → fs.length ≠ phenomes.length →
      externalEvaluateMultiple str process float phenomes = .error .runtimeError) ∧
    (∀ ls e, process (phenomeBytes str phenomes) = (0, unlines ls) → (∀ l ∈ ls, '\n' ∉ l) →
      ls.mapM float = .error e → externalEvaluateMultiple str process float phenomes = .error e) := by
  refine ⟨fun h => by simp [externalEvaluateMultiple, h], ?_, ?_⟩
  · intro ls fs hp hnl hf hlen
    have := splitLines_unlines ls hnl [] (by simp)
    rw [List.append_nil] at this
    simp [externalEvaluateMultiple, hp, this, hf, hlen]
  · intro ls e hp hnl hf
    have := splitLines_unlines ls hnl [] (by simp)
    rw [List.append_nil] at this
    simp [externalEvaluateMultiple, hp, this, hf]

/-- C63: the last, unterminated line of the output is ignored, whatever it says: a process that answers one value too
many without a final newline goes unnoticed. -/
theorem external_unterminated_line_ignored {E : Type} (str : E → List Char)
    (process : List Char → Int × List Char) (float : List Char → PyM ℚ) (phenomes : List (List E))
    (ls : List (List Char)) (fs : List ℚ) (tail : List Char)
    (hp : process (phenomeBytes str phenomes) = (0, unlines ls ++ tail)) (hnl : ∀ l ∈ ls, '\n' ∉ l)
    (ht : '\n' ∉ tail) (hf : ls.mapM float = .ok fs) (hlen : fs.length = phenomes.length) :
    externalEvaluateMultiple str process float phenomes = .ok fs := by
  simp [externalEvaluateMultiple, hp, splitLines_unlines ls hnl tail ht, hf, hlen]

/-- C63: the phenomes sent can be told apart line by line: cutting the input at newlines gives one line per phenome, in
order, provided no element prints a newline. -/
theorem external_input_lines {E : Type} (str : E → List Char) (phenomes : List (List E)) (hne : phenomes ≠ [])
    (hs : ∀ e, '\n' ∉ str e) :
    splitLines (phenomeBytes str phenomes) = phenomes.map fun p => [','].intercalate (p.map str) := by
  have hrow : ∀ p : List E, '\n' ∉ [','].intercalate (p.map str) := by
    intro p
    induction p with
    | nil => simp [List.intercalate]
    | cons e es ih =>
      cases es with
      | nil => simpa [List.intercalate] using hs e
      | cons e' es' =>
        simp only [List.map_cons, List.intercalate_cons_cons] at ih ⊢
        simp only [List.mem_append, not_or]
        exact ⟨⟨hs e, by decide⟩, ih⟩
  unfold phenomeBytes
  induction phenomes with
  | nil => exact absurd rfl hne
  | cons p ps ih =>
    cases ps with
    | nil =>
      simp only [List.map_cons, List.map_nil, List.intercalate_singleton]
      have h2 : ∀ l : List Char, '\n' ∉ l → splitLines l = [l] := by
        intro l hl
        induction l with
        | nil => rfl
        | cons c cs ih =>
          simp only [List.mem_cons, not_or] at hl
          simp [splitLines, Ne.symm hl.1, ih hl.2]
      exact h2 _ (hrow p)
    | cons p' ps' =>
      simp only [List.map_cons, List.intercalate_cons_cons] at ih ⊢
      rw [List.append_assoc, List.singleton_append, splitLines_line _ _ (hrow p), ih (by simp)]

/-- C63: a single evaluation is a batch of one. -/
theorem external_single {E : Type} (str : E → List Char) (process : List Char → Int × List Char)
    (float : List Char → PyM ℚ) (phenome : List E) (l : List Char) (f : ℚ)
    (hp : process (phenomeBytes str [phenome]) = (0, l ++ ['\n'])) (hnl : '\n' ∉ l) (hf : float l = .ok f) :
    externalEvaluate str process float phenome = .ok f := by
  have : externalEvaluateMultiple str process float [phenome] = .ok [f] :=
    external_values str process float [phenome] [l] [f] (by simpa [unlines] using hp) (by simpa using hnl)
      (by simp [List.mapM_cons, hf]) rfl
  simp [externalEvaluate, this]

example : externalEvaluateMultiple (fun n : Nat => if n = 0 then ['0'] else ['1'])
    (fun s => (0, if s = "0,1\n1".toList then "5\n6\n7".toList else []))
    (fun l => if l = ['5'] then .ok 5 else if l = ['6'] then .ok 6 else .error .valueError)
    [[0, 1], [1]] = .ok [5, 6] := by decide +kernel

/-! ## C40 cooperative evaluation -/

section
variable {W σ ι : Type}

theorem chooseCollaborators_spec (next : Nat → Gen W σ ι) (current : ι) (cur : Nat)
    (Inv : Nat → σ → Prop) (Member : Nat → ι → Prop)
    (hnext : ∀ i s w x s' w', Inv i s → next i s w = .ok (x, s', w') → Member i x ∧ Inv i s')
    (i : Nat) (ss : List σ) (w : W) (hinv : ∀ (k : Nat) (s : σ), ss[k]? = some s → Inv (i + k) s)
    (team : List ι) (ss' : List σ) (w' : W)
    (h : chooseCollaborators next current cur i ss w = .ok (team, ss', w')) :
    team.length = ss.length ∧ ss'.length = ss.length ∧
    (∀ (k : Nat) (s : σ), ss'[k]? = some s → Inv (i + k) s) ∧
    ∀ (k : Nat) (x : ι), team[k]? = some x → if i + k = cur then x = current else Member (i + k) x := by
  induction ss generalizing i w team ss' with
  | nil =>
    simp only [chooseCollaborators, Except.ok.injEq, Prod.mk.injEq] at h
    obtain ⟨rfl, rfl, -⟩ := h
    simp
  | cons s ss ih =>
    have h0 : Inv i s := by simpa using hinv 0 s rfl
    have hinv' : ∀ (k : Nat) (t : σ), ss[k]? = some t → Inv (i + 1 + k) t := by
      intro k t hk
      have := hinv (k + 1) t (by simpa using hk)
      rwa [show i + (k + 1) = i + 1 + k by omega] at this
    simp only [chooseCollaborators] at h
    by_cases hc : i = cur
    · simp only [hc, ne_eq, not_true_eq_false, if_false] at h
      subst hc
      rcases e : chooseCollaborators next current i (i + 1) ss w with e | ⟨xs, ss2, w2⟩
      · rw [e] at h; simp at h
      · rw [e] at h
        simp only [Except.ok.injEq, Prod.mk.injEq] at h
        obtain ⟨rfl, rfl, rfl⟩ := h
        obtain ⟨h1, h2, h3, h4⟩ := ih (i + 1) w hinv' xs ss2 e
        refine ⟨by simp [h1], by simp [h2], ?_, ?_⟩
        · intro k t hk
          cases k with
          | zero => simp at hk; subst hk; exact h0
          | succ k =>
            have := h3 k t (by simpa using hk)
            rwa [show i + (k + 1) = i + 1 + k by omega]
        · intro k x hk
          cases k with
          | zero => simp at hk; simp [hk]
          | succ k =>
            have := h4 k x (by simpa using hk)
            rwa [show i + (k + 1) = i + 1 + k by omega]
    · simp only [ne_eq, hc, not_false_eq_true, if_true] at h
      rcases e1 : next i s w with e | ⟨x, s1, w1⟩
      · rw [e1] at h; simp at h
      · rw [e1] at h
        simp only at h
        obtain ⟨hm, hi1⟩ := hnext i s w x s1 w1 h0 e1
        rcases e : chooseCollaborators next current cur (i + 1) ss w1 with e | ⟨xs, ss2, w2⟩
        · rw [e] at h; simp at h
        · rw [e] at h
          simp only [Except.ok.injEq, Prod.mk.injEq] at h
          obtain ⟨rfl, rfl, rfl⟩ := h
          obtain ⟨h1, h2, h3, h4⟩ := ih (i + 1) w1 hinv' xs ss2 e
          refine ⟨by simp [h1], by simp [h2], ?_, ?_⟩
          · intro k t hk
            cases k with
            | zero => simp at hk; subst hk; exact hi1
            | succ k =>
              have := h3 k t (by simpa using hk)
              rwa [show i + (k + 1) = i + 1 + k by omega]
          · intro k y hk
            cases k with
            | zero => simp at hk; subst hk; simpa [hc] using hm
            | succ k =>
              have := h4 k y (by simpa using hk)
              rwa [show i + (k + 1) = i + 1 + k by omega]

/-- A team for individual `current` of sub-population `cur`, out of `n` sub-populations: one member each, in order,
with `current` in its own place. -/
def Spec.Team (n cur : Nat) (current : ι) (Member : Nat → ι → Prop) (team : List ι) : Prop :=
  team.length = n ∧ (cur < n → team[cur]? = some current) ∧
    ∀ (k : Nat) (x : ι), k ≠ cur → team[k]? = some x → Member k x

theorem team_of_choose {n cur : Nat} {current : ι} {Member : Nat → ι → Prop} {team : List ι} (h1 : team.length = n)
    (h2 : ∀ (k : Nat) (x : ι), team[k]? = some x → if 0 + k = cur then x = current else Member (0 + k) x) :
    Team n cur current Member team := by
  refine ⟨h1, ?_, ?_⟩
  · intro hc
    have hl : cur < team.length := by omega
    have := h2 cur team[cur] (List.getElem?_eq_getElem hl)
    rw [if_pos (by omega)] at this
    rw [List.getElem?_eq_getElem hl, this]
  · intro k x hk hx
    have := h2 k x hx
    rwa [if_neg (by omega), Nat.zero_add] at this

theorem cooperativeTrials_spec (next : Nat → Gen W σ ι) (evalTeam : List ι → W → PyM (ℚ × W)) (current : ι)
    (cur : Nat) (Inv : Nat → σ → Prop) (Member : Nat → ι → Prop)
    (hnext : ∀ i s w x s' w', Inv i s → next i s w = .ok (x, s', w') → Member i x ∧ Inv i s')
    (k : Nat) (ss : List σ) (hinv : ∀ (k : Nat) (s : σ), ss[k]? = some s → Inv k s) (w w' : W)
    (ts : List (List ι × ℚ)) (h : cooperativeTrials next evalTeam current cur k ss w = .ok (ts, w')) :
    ts.length = k ∧ ∀ t ∈ ts, Team ss.length cur current Member t.1 ∧ ∃ w1 w2, evalTeam t.1 w1 = .ok (t.2, w2) := by
  induction k generalizing ss w ts with
  | zero =>
    simp only [cooperativeTrials, Except.ok.injEq, Prod.mk.injEq] at h
    obtain ⟨rfl, -⟩ := h
    simp
  | succ k ih =>
    simp only [cooperativeTrials] at h
    rcases e1 : chooseCollaborators next current cur 0 ss w with e | ⟨team, ss1, w1⟩
    · rw [e1] at h; simp at h
    · rw [e1] at h
      simp only at h
      rcases e2 : evalTeam team w1 with e | ⟨f, w2⟩
      · rw [e2] at h; simp at h
      · rw [e2] at h
        simp only at h
        rcases e3 : cooperativeTrials next evalTeam current cur k ss1 w2 with e | ⟨rest, w3⟩
        · rw [e3] at h; simp at h
        · rw [e3] at h
          simp only [Except.ok.injEq, Prod.mk.injEq] at h
          obtain ⟨rfl, rfl⟩ := h
          obtain ⟨h1, h2, h3, h4⟩ := chooseCollaborators_spec next current cur Inv Member hnext 0 ss w
            (fun k s hk => by simpa using hinv k s hk) team ss1 w1 e1
          obtain ⟨h5, h6⟩ := ih ss1 (fun k s hk => by simpa using h3 k s hk) w2 rest e3
          refine ⟨by simp [h5], ?_⟩
          intro t ht
          simp only [List.mem_cons] at ht
          rcases ht with rfl | ht
          · exact ⟨team_of_choose h1 h4, w1, w2, e2⟩
          · rw [h2] at h6; exact h6 t ht

/-- C40: `CooperativeEvaluate` assigns the mean over exactly `num_trials` trials; in each trial the team has one member
per sub-population in order, the evaluated individual in its own place and the others as selected from
their sub-populations. `Member i x` is any fact that the selection operator guarantees for what it yields from
sub-population `i`, for instance membership. -/
theorem cooperative_evaluate_spec (init : Nat → σ) (next : Nat → Gen W σ ι) (evalTeam : List ι → W → PyM (ℚ × W))
    (numTrials n : Nat) (current : ι) (cur : Nat) (w w' : W) (f : ℚ) (ts : List (List ι × ℚ))
    (Inv : Nat → σ → Prop) (Member : Nat → ι → Prop) (hinit : ∀ i, i < n → Inv i (init i))
    (hnext : ∀ i s w x s' w', Inv i s → next i s w = .ok (x, s', w') → Member i x ∧ Inv i s')
    (h : cooperativeEvaluate init next evalTeam numTrials n current cur w = .ok (f, ts, w')) :
    ts.length = numTrials ∧ f = (ts.map Prod.snd).sum / numTrials ∧
    ∀ t ∈ ts, Team n cur current Member t.1 ∧ ∃ w1 w2, evalTeam t.1 w1 = .ok (t.2, w2) := by
  simp only [cooperativeEvaluate] at h
  rcases e : cooperativeTrials next evalTeam current cur numTrials ((List.range n).map init) w with e | ⟨ts1, w1⟩
  · rw [e] at h; simp at h
  · rw [e] at h
    simp only at h
    split at h
    · simp at h
    · simp only [Except.ok.injEq, Prod.mk.injEq] at h
      obtain ⟨rfl, rfl, rfl⟩ := h
      obtain ⟨h1, h2⟩ := cooperativeTrials_spec next evalTeam current cur Inv Member hnext numTrials
        ((List.range n).map init) (fun k s hk => by
          by_cases hkn : k < n
          · simp [hkn] at hk; exact hk ▸ hinit k hkn
          · simp [hkn] at hk) w w1 ts1 e
      refine ⟨h1, by simp [mean, h1], ?_⟩
      simpa using h2

/-- C40: no trials is an error. -/
theorem cooperative_evaluate_no_trials (init : Nat → σ) (next : Nat → Gen W σ ι)
    (evalTeam : List ι → W → PyM (ℚ × W)) (n : Nat) (current : ι) (cur : Nat) (w : W) :
    cooperativeEvaluate init next evalTeam 0 n current cur w = .error .valueError := rfl

theorem cooperativeProblemTrials_spec (init : Nat → σ) (next : Nat → Gen W σ ι)
    (evalTeam : List ι → W → PyM (ℚ × W)) (n : Nat) (current : ι) (cur : Nat) (Inv : Nat → σ → Prop)
    (Member : Nat → ι → Prop) (hinit : ∀ i, i < n → Inv i (init i))
    (hnext : ∀ i s w x s' w', Inv i s → next i s w = .ok (x, s', w') → Member i x ∧ Inv i s')
    (k : Nat) (w w' : W) (ts : List (List ι × ℚ))
    (h : cooperativeProblemTrials init next evalTeam n current cur k w = .ok (ts, w')) :
    ts.length = k ∧ ∀ t ∈ ts, Team n cur current Member t.1 ∧ ∃ w1 w2, evalTeam t.1 w1 = .ok (t.2, w2) := by
  induction k generalizing w ts with
  | zero =>
    simp only [cooperativeProblemTrials, Except.ok.injEq, Prod.mk.injEq] at h
    obtain ⟨rfl, -⟩ := h
    simp
  | succ k ih =>
    simp only [cooperativeProblemTrials] at h
    rcases e1 : chooseCollaborators next current cur 0 ((List.range n).map init) w with e | ⟨team, ss1, w1⟩
    · rw [e1] at h; simp at h
    · rw [e1] at h
      simp only at h
      rcases e2 : evalTeam team w1 with e | ⟨f, w2⟩
      · rw [e2] at h; simp at h
      · rw [e2] at h
        simp only at h
        rcases e3 : cooperativeProblemTrials init next evalTeam n current cur k w2 with e | ⟨rest, w3⟩
        · rw [e3] at h; simp at h
        · rw [e3] at h
          simp only [Except.ok.injEq, Prod.mk.injEq] at h
          obtain ⟨rfl, rfl⟩ := h
          obtain ⟨h1, -, -, h4⟩ := chooseCollaborators_spec next current cur Inv Member hnext 0
            ((List.range n).map init) w (fun k s hk => by
              by_cases hkn : k < n
              · simp [hkn] at hk; simpa using hk ▸ hinit k hkn
              · simp [hkn] at hk) team ss1 w1 e1
          obtain ⟨h5, h6⟩ := ih w2 rest e3
          refine ⟨by simp [h5], ?_⟩
          intro t ht
          simp only [List.mem_cons] at ht
          rcases ht with rfl | ht
          · exact ⟨team_of_choose (by simpa using h1) h4, w1, w2, e2⟩
          · exact h6 t ht

/-- C40: the same for `CooperativeProblem` without a log stream. -/
theorem cooperative_problem_spec (init : Nat → σ) (next : Nat → Gen W σ ι) (evalTeam : List ι → W → PyM (ℚ × W))
    (numTrials : Int) (n : Nat) (passed : Bool) (current : ι) (cur : Nat) (w w' : W) (f : ℚ)
    (ts : List (List ι × ℚ)) (Inv : Nat → σ → Prop) (Member : Nat → ι → Prop)
    (hinit : ∀ i, i < n → Inv i (init i))
    (hnext : ∀ i s w x s' w', Inv i s → next i s w = .ok (x, s', w') → Member i x ∧ Inv i s')
    (h : cooperativeProblem init next evalTeam numTrials n passed false current cur w = .ok (f, ts, w')) :
    (ts.length : Int) = numTrials ∧ 0 < numTrials ∧ f = (ts.map Prod.snd).sum / numTrials ∧
    ∀ t ∈ ts, Team n cur current Member t.1 ∧ ∃ w1 w2, evalTeam t.1 w1 = .ok (t.2, w2) := by
  simp only [cooperativeProblem] at h
  split at h
  · rename_i hpos
    split at h
    · simp only [Bool.false_eq_true, if_false] at h
      rcases e : cooperativeProblemTrials init next evalTeam n current cur numTrials.toNat w with e | ⟨ts1, w1⟩
      · rw [e] at h; simp at h
      · rw [e] at h
        simp only [Except.ok.injEq, Prod.mk.injEq] at h
        obtain ⟨rfl, rfl, rfl⟩ := h
        obtain ⟨h1, h2⟩ := cooperativeProblemTrials_spec init next evalTeam n current cur Inv Member hinit hnext
          numTrials.toNat w w1 ts1 e
        have hz : (ts1.length : Int) = numTrials := by rw [h1]; omega
        refine ⟨hz, hpos, ?_, h2⟩
        have : (ts1.length : ℚ) = numTrials := by exact_mod_cast hz
        simp [mean, this]
    · simp at h
  · simp at h

/-- C40: refusals of `CooperativeProblem`: a number of trials that is not positive, an evaluation operator that does
not pass the individual; and with a log stream evaluation never succeeds. -/
theorem cooperative_problem_refusals (init : Nat → σ) (next : Nat → Gen W σ ι)
    (evalTeam : List ι → W → PyM (ℚ × W)) (numTrials : Int) (n : Nat) (passed logging : Bool) (current : ι)
    (cur : Nat) (w : W) :
    (numTrials ≤ 0 ∨ passed = false →
      cooperativeProblem init next evalTeam numTrials n passed logging current cur w = .error .assertionError) ∧
    (logging = true → ∀ r,
      cooperativeProblem init next evalTeam numTrials n passed logging current cur w ≠ .ok r) := by
  constructor
  · rintro (h | rfl)
    · have : ¬ 0 < numTrials := by omega
      simp [cooperativeProblem, this]
    · simp [cooperativeProblem]
  · rintro rfl r
    simp only [cooperativeProblem]
    split
    · split
      · simp only [if_true]
        split <;> simp
      · simp
    · simp

/-- C40: the two differ in one respect. `CooperativeProblem` starts new selection iterators in every trial, so with a
selection operator that uses no randomness (such as `naive_cyclic_selection`) all trials use the very
same team. -/
theorem cooperative_problem_repeats_team (init : Nat → σ) (next : Nat → Gen W σ ι)
    (evalTeam : List ι → W → PyM (ℚ × W)) (n : Nat) (current : ι) (cur : Nat) (w : W)
    (team : List ι) (ss : List σ) (hdet : ∀ w', chooseCollaborators next current cur 0 ((List.range n).map init) w' = .ok (team, ss, w'))
    (k : Nat) (ts : List (List ι × ℚ)) (w' : W)
    (h : cooperativeProblemTrials init next evalTeam n current cur k w = .ok (ts, w')) :
    ∀ t ∈ ts, t.1 = team := by
  induction k generalizing w ts with
  | zero =>
    simp only [cooperativeProblemTrials, Except.ok.injEq, Prod.mk.injEq] at h
    obtain ⟨rfl, -⟩ := h
    simp
  | succ k ih =>
    simp only [cooperativeProblemTrials, hdet] at h
    rcases e2 : evalTeam team w with e | ⟨f, w2⟩
    · rw [e2] at h; simp at h
    · rw [e2] at h
      simp only at h
      rcases e3 : cooperativeProblemTrials init next evalTeam n current cur k w2 with e | ⟨rest, w3⟩
      · rw [e3] at h; simp at h
      · rw [e3] at h
        simp only [Except.ok.injEq, Prod.mk.injEq] at h
        obtain ⟨rfl, rfl⟩ := h
        intro t ht
        simp only [List.mem_cons] at ht
        rcases ht with rfl | ht
        · rfl
        · exact ih w2 rest e3 t ht

/-- Cyclic selection from two sub-populations, for the examples. -/
def exNext : Nat → Gen Unit Nat Nat := fun i s _ => .ok (10 * i + s, s + 1, ())

example : cooperativeEvaluate (fun _ => 0) exNext (fun t w => .ok ((t.sum : ℚ), w)) 2 3 100 1 () =
    .ok (121, [([0, 100, 20], 120), ([1, 100, 21], 122)], ()) := by decide +kernel

example : cooperativeProblem (fun _ => 0) exNext (fun t w => .ok ((t.sum : ℚ), w)) 2 3 true false 100 1 () =
    .ok (120, [([0, 100, 20], 120), ([0, 100, 20], 120)], ()) := by decide +kernel

end

end Leap
