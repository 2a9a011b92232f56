import Mathlib.Tactic.Linarith
import Verif.Model.Parsimony
import Verif.Props.Selection

/-!
# Parsimony pressure (C61)
-/

namespace Leap

namespace Spec

/-- `b` has the better fitness, for its optimisation direction. -/
def Fitter (b a : ParsInd) : Prop := if a.maximize then a.fitness < b.fitness else b.fitness < a.fitness

/-- The raw fitness with the size penalty: taken off when maximizing, added when minimizing. -/
def penalised (c : ℚ) (a : ParsInd) : ℚ := if a.maximize then a.fitness - c * a.genomeLength else a.fitness + c * a.genomeLength

end Spec

open Spec

/-- C61: among individuals of one optimisation direction, lexical parsimony prefers the fitter, and the shorter genome
exactly when the fitnesses are equal. -/
theorem lexical_parsimony_spec (a b : ParsInd) (h : a.maximize = b.maximize) :
    lexicalLt a b = true ↔ Fitter b a ∨ (a.fitness = b.fitness ∧ b.genomeLength < a.genomeLength) := by
  unfold lexicalLt pairLt lexicalParsimony Fitter
  rw [← h]
  cases a.maximize with
  | true =>
    simp only [if_true]
    by_cases he : a.fitness = b.fitness
    · rw [if_pos he, decide_eq_true_eq]
      constructor
      · intro hl; exact Or.inr ⟨he, by omega⟩
      · rintro (hl | ⟨-, hl⟩)
        · rw [he] at hl; exact absurd hl (lt_irrefl _)
        · omega
    · rw [if_neg he, decide_eq_true_eq]
      constructor
      · exact Or.inl
      · rintro (hl | ⟨hl, -⟩)
        · exact hl
        · exact absurd hl he
  | false =>
    simp only [Bool.false_eq_true, if_false]
    by_cases he : a.fitness = b.fitness
    · rw [if_pos (by rw [he]), decide_eq_true_eq]
      constructor
      · intro hl; exact Or.inr ⟨he, by omega⟩
      · rintro (hl | ⟨-, hl⟩)
        · rw [he] at hl; exact absurd hl (lt_irrefl _)
        · omega
    · rw [if_neg (by intro hh; exact he (by linarith)), decide_eq_true_eq]
      constructor
      · intro hl; exact Or.inl (by linarith)
      · rintro (hl | ⟨hl, -⟩)
        · linarith
        · exact absurd hl he

/-- C61: among individuals of one optimisation direction, Koza parsimony prefers the better penalised fitness. -/
theorem koza_parsimony_spec (c : ℚ) (a b : ParsInd) (h : a.maximize = b.maximize) :
    kozaLt c a b = true ↔ if a.maximize then penalised c a < penalised c b else penalised c b < penalised c a := by
  unfold kozaLt kozaParsimony penalised
  rw [← h, decide_eq_true_eq]
  cases a.maximize
  · simp only [Bool.false_eq_true, if_false]
    constructor <;> intro h <;> linarith
  · simp only [if_true]

/-- C61: with no penalty Koza parsimony is the fitness order; with a positive penalty and equal fitness the shorter genome
wins. -/
theorem koza_parsimony_cases (c : ℚ) (a b : ParsInd) (h : a.maximize = b.maximize) :
    (c = 0 → (kozaLt c a b = true ↔ Fitter b a)) ∧
    (0 < c → a.fitness = b.fitness → (kozaLt c a b = true ↔ b.genomeLength < a.genomeLength)) ∧
    (a.genomeLength = b.genomeLength → (kozaLt c a b = true ↔ Fitter b a)) := by
  rw [koza_parsimony_spec c a b h]
  unfold penalised Fitter
  rw [← h]
  refine ⟨?_, ?_, ?_⟩
  · rintro rfl
    simp
  · intro hc he
    rw [he]
    have key : (b.genomeLength : ℚ) < a.genomeLength ↔ b.genomeLength < a.genomeLength := by exact_mod_cast Iff.rfl
    cases a.maximize
    · simp only [Bool.false_eq_true, if_false]
      rw [← key]
      constructor
      · intro hl
        have : c * b.genomeLength < c * a.genomeLength := by linarith
        exact lt_of_mul_lt_mul_left this hc.le
      · intro hl
        have := mul_lt_mul_of_pos_left hl hc
        linarith
    · simp only [if_true]
      rw [← key]
      constructor
      · intro hl
        have : c * b.genomeLength < c * a.genomeLength := by linarith
        exact lt_of_mul_lt_mul_left this hc.le
      · intro hl
        have := mul_lt_mul_of_pos_left hl hc
        linarith
  · intro hl
    rw [hl]
    cases a.maximize
    · simp
    · simp

theorem pairLt_iff (p q : ℚ × Int) : pairLt p q = true ↔ p.1 < q.1 ∨ (p.1 = q.1 ∧ p.2 < q.2) := by
  unfold pairLt
  split
  · rename_i h
    rw [decide_eq_true_eq]
    constructor
    · intro hl; exact Or.inr ⟨h, hl⟩
    · rintro (hl | hl)
      · rw [h] at hl; exact absurd hl (lt_irrefl _)
      · exact hl.2
  · rename_i h
    rw [decide_eq_true_eq]
    constructor
    · exact Or.inl
    · rintro (hl | hl)
      · exact hl
      · exact absurd hl.1 h

theorem lexical_strictWeak : StrictWeak lexicalLt := by
  constructor
  · intro a b h
    unfold lexicalLt at *
    rw [Bool.eq_false_iff, Ne, pairLt_iff]
    rw [pairLt_iff] at h
    rcases h with h | h
    · rintro (hb | hb)
      · exact lt_asymm h hb
      · exact lt_irrefl _ (hb.1 ▸ h)
    · rintro (hb | hb)
      · exact lt_irrefl _ (h.1 ▸ hb)
      · omega
  · intro a b c h1 h2
    unfold lexicalLt at *
    rw [Bool.eq_false_iff, Ne, pairLt_iff] at *
    push Not at *
    obtain ⟨a1, a2⟩ := h1
    obtain ⟨b1, b2⟩ := h2
    refine ⟨le_trans b1 a1, ?_⟩
    intro he
    have h3 : (lexicalParsimony a).1 = (lexicalParsimony b).1 := le_antisymm (he ▸ b1) a1
    exact le_trans (b2 (h3 ▸ he)) (a2 h3)

theorem koza_strictWeak (c : ℚ) : StrictWeak (kozaLt c) := by
  constructor
  · intro a b h
    unfold kozaLt at *
    rw [decide_eq_true_eq] at h
    rw [decide_eq_false_iff_not]
    exact lt_asymm h
  · intro a b c h1 h2
    unfold kozaLt at *
    rw [decide_eq_false_iff_not] at *
    push Not at *
    exact le_trans h2 h1

/-- C61: truncation selection with either key keeps the best individuals of that order: nobody left out is fitter than
somebody kept, nor as fit and shorter. -/
theorem truncation_lexical (offspring : List ParsInd) (size : Nat) (parents : Option (List ParsInd)) (m : Bool)
    (hm : ∀ a ∈ offspring ++ parents.getD [], a.maximize = m) :
    ∃ left, (truncationSelection lexicalLt offspring size parents ++ left).Perm (offspring ++ parents.getD []) ∧
      (truncationSelection lexicalLt offspring size parents).length = min size (offspring ++ parents.getD []).length ∧
      ∀ x ∈ truncationSelection lexicalLt offspring size parents, ∀ y ∈ left,
        ¬ Fitter y x ∧ ¬ (x.fitness = y.fitness ∧ y.genomeLength < x.genomeLength) := by
  obtain ⟨⟨left, h1, h2, h3⟩, -⟩ := truncation_keeps_best lexicalLt lexical_strictWeak offspring size parents
  refine ⟨left, h1, h2, ?_⟩
  intro x hx y hy
  have hxm := hm x (h1.mem_iff.mp (List.mem_append_left _ hx))
  have hym := hm y (h1.mem_iff.mp (List.mem_append_right _ hy))
  have := h3 x hx y hy
  rw [Bool.eq_false_iff, Ne, lexical_parsimony_spec x y (hxm.trans hym.symm)] at this
  exact ⟨fun h => this (Or.inl h), fun h => this (Or.inr h)⟩

/-- C61: the same for Koza parsimony. -/
theorem truncation_koza (c : ℚ) (offspring : List ParsInd) (size : Nat) (parents : Option (List ParsInd)) (m : Bool)
    (hm : ∀ a ∈ offspring ++ parents.getD [], a.maximize = m) :
    ∃ left, (truncationSelection (kozaLt c) offspring size parents ++ left).Perm (offspring ++ parents.getD []) ∧
      (truncationSelection (kozaLt c) offspring size parents).length = min size (offspring ++ parents.getD []).length ∧
      ∀ x ∈ truncationSelection (kozaLt c) offspring size parents, ∀ y ∈ left,
        if m then penalised c y ≤ penalised c x else penalised c x ≤ penalised c y := by
  obtain ⟨⟨left, h1, h2, h3⟩, -⟩ := truncation_keeps_best (kozaLt c) (koza_strictWeak c) offspring size parents
  refine ⟨left, h1, h2, ?_⟩
  intro x hx y hy
  have hxm := hm x (h1.mem_iff.mp (List.mem_append_left _ hx))
  have hym := hm y (h1.mem_iff.mp (List.mem_append_right _ hy))
  have := h3 x hx y hy
  rw [Bool.eq_false_iff, Ne, koza_parsimony_spec c x y (hxm.trans hym.symm), hxm] at this
  cases m
  · simpa using this
  · simpa using this

example : truncationSelection lexicalLt [⟨true, 3, 6⟩, ⟨true, 0, 2⟩, ⟨true, 2, 2⟩, ⟨true, 3, 3⟩] 1 none = [⟨true, 3, 3⟩] := by
  decide +kernel
example : truncationSelection (kozaLt (1/2)) [⟨false, 3, 6⟩, ⟨false, 0, 2⟩, ⟨false, 2, 2⟩] 1 none = [⟨false, 0, 2⟩] := by
  decide +kernel

end Leap
