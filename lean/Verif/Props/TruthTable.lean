import Mathlib.Tactic.Linarith
import Mathlib.Tactic.FieldSimp
import Mathlib.Data.List.Nodup
import Mathlib.Algebra.Order.Field.Basic
import Mathlib.Tactic.Positivity
import Verif.Model.TruthTable

/-!
# Truth tables (C55)
-/

namespace Leap

namespace Spec

/-- The rows of a truth table of `n` variables. -/
def BitRow (n : Nat) (row : List Int) : Prop := row.length = n ∧ ∀ b ∈ row, b = 0 ∨ b = 1

/-- The row the executable sees: padded with zeros to the number of its inputs when asked for. -/
def paddedRow (pad : Bool) (inputs : Nat) (row : List Int) : List Int :=
  if pad then row ++ List.replicate (inputs - row.length) 0 else row

end Spec

open Spec

/-- C55: the rows enumerated are all Boolean vectors, each exactly once. -/
theorem tt_enumerate (n : Nat) :
    (n = 0 → enumerateTT n = .error .assertionError) ∧
    (0 < n → ∃ rows, enumerateTT n = .ok rows ∧ rows.Nodup ∧ rows.length = 2 ^ n ∧ ∀ row, row ∈ rows ↔ BitRow n row) := by
  constructor
  · rintro rfl; rfl
  · intro hn
    induction n with
    | zero => omega
    | succ n ih =>
      cases n with
      | zero =>
        refine ⟨[[0], [1]], rfl, by simp, by simp, ?_⟩
        intro row
        constructor
        · intro h
          rcases List.mem_cons.mp h with rfl | h
          · exact ⟨rfl, by simp⟩
          · rw [List.mem_singleton] at h
            subst h
            exact ⟨rfl, by simp⟩
        · rintro ⟨hl, hb⟩
          match row, hl with
          | [b], _ =>
            rcases hb b (by simp) with rfl | rfl <;> simp
      | succ n =>
        obtain ⟨rows, h1, h2, h3, h4⟩ := ih (by omega)
        refine ⟨rows.map (fun row => [0] ++ row) ++ rows.map (fun row => [1] ++ row), by simp [enumerateTT, h1, bind, Except.bind],
          ?_, ?_, ?_⟩
        · refine List.Nodup.append ?_ ?_ ?_
          · exact List.Nodup.map (fun a b h => by simpa using h) h2
          · exact List.Nodup.map (fun a b h => by simpa using h) h2
          · intro x hx hy
            obtain ⟨a, -, rfl⟩ := List.mem_map.mp hx
            obtain ⟨b, -, hb⟩ := List.mem_map.mp hy
            simp at hb
        · simp [h3, pow_succ]; omega
        · intro row
          rw [List.mem_append, List.mem_map, List.mem_map]
          constructor
          · rintro (⟨r, hr, rfl⟩ | ⟨r, hr, rfl⟩)
            · obtain ⟨hl, hb⟩ := (h4 r).mp hr
              refine ⟨by simp [hl], ?_⟩
              intro b hm
              rcases List.mem_cons.mp hm with rfl | hm
              · exact Or.inl rfl
              · exact hb b hm
            · obtain ⟨hl, hb⟩ := (h4 r).mp hr
              refine ⟨by simp [hl], ?_⟩
              intro b hm
              rcases List.mem_cons.mp hm with rfl | hm
              · exact Or.inr rfl
              · exact hb b hm
          · rintro ⟨hl, hb⟩
            cases row with
            | nil => simp at hl
            | cons b r =>
              have hr : r ∈ rows := (h4 r).mpr ⟨by simpa using hl, fun x hx => hb x (List.mem_cons_of_mem _ hx)⟩
              rcases hb b (by simp) with rfl | rfl
              · exact Or.inl ⟨r, hr, rfl⟩
              · exact Or.inr ⟨r, hr, rfl⟩

theorem ttScore_ok (p : TTProblem) (x : TTExecutable) (hit : List Int → Bool) (rows : List (List Int))
    (h : ∀ row ∈ rows, ttRow p x row = .ok (hit row)) (score : Nat) :
    ttScore p x score rows = .ok (score + (rows.filter hit).length) := by
  induction rows generalizing score with
  | nil => rfl
  | cons row rows ih =>
    rw [ttScore, h row (List.mem_cons_self ..)]
    simp only [bind, Except.bind]
    rw [ih fun r hr => h r (List.mem_cons_of_mem _ hr)]
    cases hh : hit row <;> simp [hh]
    omega

theorem ttRow_ok (p : TTProblem) (x : TTExecutable) (target program : List Int → List Int) (m : Nat)
    (hm : p.padInputs = true → x.numInputs = some m) (row : List Int)
    (hf : p.function row = .ok (.fresh (target row))) (hne : target row ≠ [])
    (hx : x.call (paddedRow p.padInputs m row) = .ok (program row)) :
    ttRow p x row = .ok (program row == target row) := by
  have hpad : padRow p x row = .ok (paddedRow p.padInputs m row) := by
    rw [padRow, paddedRow]
    by_cases hp : p.padInputs = true
    · rw [if_pos hp, if_pos hp, hm hp]
      by_cases hl : row.length < m
      · simp [hl]
      · have : m - row.length = 0 := by omega
        simp [hl, this]
    · rw [if_neg hp, if_neg hp]
  rw [ttRow]
  simp only [hf, checkExpected, if_pos (List.length_pos_iff.mpr hne), hpad, hx, expectedAfter, bind, Except.bind]

/-- C55: the fitness is the fraction of the `2 ^ n` rows on which the program agrees with the target; it lies between 0
and 1, and is 1 exactly when the program computes the target. -/
theorem tt_fitness (function : List Int → PyM TTExpected) (n k : Int) (pad : Bool) (p : TTProblem)
    (hp : ttProblem function n k pad = .ok p) (x : TTExecutable) (target program : List Int → List Int) (m : Nat)
    (hm : pad = true → x.numInputs = some m)
    (hf : ∀ row, BitRow n.toNat row → function row = .ok (.fresh (target row)) ∧ target row ≠ [])
    (hx : ∀ row, BitRow n.toNat row → x.call (paddedRow pad m row) = .ok (program row)) :
    ∃ (agreeing : List (List Int)), agreeing.Nodup ∧ (∀ row, row ∈ agreeing ↔ BitRow n.toNat row ∧ program row = target row) ∧
      ttEvaluate p x = .ok ((agreeing.length : ℚ) / 2 ^ n.toNat) ∧
      0 ≤ (agreeing.length : ℚ) / 2 ^ n.toNat ∧ (agreeing.length : ℚ) / 2 ^ n.toNat ≤ 1 ∧
      ((agreeing.length : ℚ) / 2 ^ n.toNat = 1 ↔ ∀ row, BitRow n.toNat row → program row = target row) := by
  have hpn : p = ⟨function, n.toNat, pad⟩ ∧ 0 < n := by
    rw [ttProblem] at hp
    split at hp
    · split at hp
      · rw [Except.ok.injEq] at hp
        exact ⟨hp.symm, by assumption⟩
      · exact absurd hp (by simp)
    · exact absurd hp (by simp)
  obtain ⟨rfl, hn⟩ := hpn
  obtain ⟨rows, h1, h2, h3, h4⟩ := (tt_enumerate n.toNat).2 (by omega)
  have hscore := ttScore_ok ⟨function, n.toNat, pad⟩ x (fun row => program row == target row) rows (by
    intro row hr
    have hb := (h4 row).mp hr
    exact ttRow_ok _ x target program m hm row (hf row hb).1 (hf row hb).2 (hx row hb)) 0
  have hle : (rows.filter fun row => program row == target row).length ≤ 2 ^ n.toNat := by
    rw [← h3]; exact List.length_filter_le ..
  have hpos : (0 : ℚ) < 2 ^ n.toNat := by positivity
  have hleq : ((rows.filter fun row => program row == target row).length : ℚ) ≤ 2 ^ n.toNat := by exact_mod_cast hle
  refine ⟨rows.filter fun row => program row == target row, List.Nodup.filter _ h2, ?_, ?_, ?_, ?_, ?_⟩
  · intro row
    rw [List.mem_filter, h4, beq_iff_eq]
  · simp only [ttEvaluate, h1, hscore, bind, Except.bind, h3]
    simp
  · positivity
  · rw [div_le_one hpos]; exact hleq
  · rw [div_eq_one_iff_eq hpos.ne']
    constructor
    · intro he row hb
      have he' : (rows.filter fun row => program row == target row).length = rows.length := by
        rw [h3]; exact_mod_cast he
      have := (List.length_filter_eq_length_iff.mp he') row ((h4 row).mpr hb)
      simpa using this
    · intro hall
      have : (rows.filter fun row => program row == target row).length = rows.length :=
        List.length_filter_eq_length_iff.mpr fun row hr => by simpa using hall row ((h4 row).mp hr)
      rw [this, h3]; push_cast; rfl

/-- C55: constructing the problem needs at least one input and one output. -/
theorem tt_constructor (function : List Int → PyM TTExpected) (n k : Int) (pad : Bool) :
    ((n ≤ 0 ∨ k ≤ 0) → ttProblem function n k pad = .error .assertionError) ∧
    (0 < n → 0 < k → ttProblem function n k pad = .ok ⟨function, n.toNat, pad⟩) := by
  constructor
  · intro h
    rw [ttProblem]
    by_cases hn : 0 < n
    · rw [if_pos hn, if_neg (by omega)]
    · rw [if_neg hn]
  · intro h1 h2
    rw [ttProblem, if_pos h1, if_pos h2]

/-- C55: an exception on any row, from the target, the program, or an output list that is empty or no list, comes out: an
evaluation that returns has seen none. -/
theorem tt_returns (p : TTProblem) (x : TTExecutable) (v : ℚ) (h : ttEvaluate p x = .ok v) (row : List Int) (hb : BitRow p.numInputs row) :
    ∃ expected padded observed, p.function row = .ok expected ∧ expected ≠ .noLength ∧ expected ≠ .fresh [] ∧
      padRow p x row = .ok padded ∧ x.call padded = .ok observed := by
  rw [ttEvaluate] at h
  by_cases hn : p.numInputs = 0
  · rw [hn] at h
    simp [enumerateTT, bind, Except.bind] at h
  · obtain ⟨rows, h1, -, -, h4⟩ := (tt_enumerate p.numInputs).2 (by omega)
    rw [h1] at h
    simp only [bind, Except.bind] at h
    have hs : ∃ s, ttScore p x 0 rows = .ok s := by
      cases hs : ttScore p x 0 rows with
      | ok s => exact ⟨s, rfl⟩
      | error e => rw [hs] at h; simp at h
    have hmem := (h4 row).mpr hb
    obtain ⟨s, hs⟩ := hs
    have : ∃ b, ttRow p x row = .ok b := by
      clear h h4 h1
      generalize 0 = k at hs
      induction rows generalizing k with
      | nil => simp at hmem
      | cons r rows ih =>
        rw [ttScore] at hs
        cases hr : ttRow p x r with
        | error e => rw [hr] at hs; simp [bind, Except.bind] at hs
        | ok b =>
          rw [hr] at hs
          simp only [bind, Except.bind] at hs
          rcases List.mem_cons.mp hmem with rfl | hmem
          · exact ⟨b, hr⟩
          · exact ih hmem _ hs
    obtain ⟨b, hb'⟩ := this
    rw [ttRow] at hb'
    cases he : p.function row with
    | error e => rw [he] at hb'; simp [bind, Except.bind] at hb'
    | ok expected =>
      rw [he] at hb'
      simp only [bind, Except.bind] at hb'
      cases hc : checkExpected row expected with
      | error e => rw [hc] at hb'; simp at hb'
      | ok u =>
        rw [hc] at hb'
        simp only at hb'
        cases hpd : padRow p x row with
        | error e => rw [hpd] at hb'; simp at hb'
        | ok padded =>
          rw [hpd] at hb'
          simp only at hb'
          cases ho : x.call padded with
          | error e => rw [ho] at hb'; simp at hb'
          | ok observed =>
            refine ⟨expected, padded, observed, rfl, ?_, ?_, rfl, ho⟩
            · rintro rfl; simp [checkExpected] at hc
            · rintro rfl; simp [checkExpected] at hc

/-- A disagreement: with padding on, a target that returns its argument itself is compared with the padded row, so a program
that computes the target scores 0. -/
theorem tt_aliased_target :
    ∃ (p : TTProblem) (x : TTExecutable), ttProblem (fun _ => .ok .sameObject) 2 2 true = .ok p ∧ x.numInputs = some 3 ∧
      (∀ row, BitRow 2 row → x.call (paddedRow true 3 row) = .ok row) ∧ ttEvaluate p x = .ok 0 := by
  refine ⟨⟨fun _ => .ok .sameObject, 2, true⟩, ⟨fun l => .ok (l.take 2), some 3⟩, rfl, rfl, ?_, by decide +kernel⟩
  intro row hb
  simp [paddedRow, ← hb.1]

example : ttEvaluate ⟨fun x => .ok (.fresh [max (min (x.getD 0 0) (x.getD 1 0)) (x.getD 2 0)]), 3, false⟩
    ⟨fun x => .ok [(min (x.getD 0 0) (x.getD 1 0) + x.getD 2 0) % 2], none⟩ = .ok (7/8) := by decide +kernel
example : BitRow 3 [0, 1, 1] := ⟨rfl, by simp⟩
example : ttEvaluate ⟨fun _ => .ok (.fresh [0]), 1, true⟩ ⟨fun x => .ok [x.getD 2 0], some 3⟩ = .ok 1 := by decide +kernel

end Leap
