import Mathlib.Tactic.Linarith
import Mathlib.Tactic.NormNum
import Mathlib.Tactic.Ring
import Verif.Spec.Compare

/-!
# C01–C03: comparing individuals of a scalar problem
-/

namespace Leap
open Spec

/-- Helper for readable statements: all five operators at once on evaluated individuals. -/
structure CmpResults (p : ScalarProblem) (coin : Bool) (a b : SFit)
    (lt le eq ge gt : Bool) : Prop where
  lt_eq : indLt p coin (some a) (some b) = .ok lt
  le_eq : indLe p coin (some a) (some b) = .ok le
  eq_eq : indEq p (some a) (some b) = .ok eq
  ge_eq : indGe p coin (some a) (some b) = .ok ge
  gt_eq : indGt p coin (some a) (some b) = .ok gt

/-- C01: an individual with NaN fitness is strictly worse than one with a number, under all
five operators, in both directions and for every coin. -/
theorem nan_always_loses (p : ScalarProblem) (coin : Bool) (a b : SFit)
    (ha : a.val = .nan) (hb : b.val ≠ .nan) :
    CmpResults p coin a b true true false false false ∧
    CmpResults p coin b a false false false true true := by
  obtain ⟨fa, va⟩ := a
  obtain ⟨fb, vb⟩ := b
  simp only at ha hb
  subst ha
  cases vb <;> first | exact absurd rfl hb | skip
  all_goals
    constructor <;> constructor <;>
    cases fa <;> cases fb <;>
    simp [indLt, indLe, indEq, indGe, indGt, ScalarProblem.worseThan, ScalarProblem.equivalent,
      Num.isNan, Num.isclose, Num.eq, Num.isInf, deriveGt, deriveLe, deriveGe, bind, Except.bind]

example : (⟨true, .nan⟩ : SFit).val = .nan ∧ (⟨true, .negInf⟩ : SFit).val ≠ .nan := by decide

/-- C01: between two NaN fitnesses `<` is exactly the coin, `==` is false, and so each of the
two individuals is either `<` or `>` the other. -/
theorem nan_vs_nan_is_coin (p : ScalarProblem) (coin : Bool) (a b : SFit)
    (ha : a.val = .nan) (hb : b.val = .nan) :
    CmpResults p coin a b coin coin false (!coin) (!coin) := by
  obtain ⟨fa, va⟩ := a
  obtain ⟨fb, vb⟩ := b
  simp only at ha hb
  subst ha; subst hb
  constructor <;> cases coin <;> cases fa <;> cases fb <;>
    simp [indLt, indLe, indEq, indGe, indGt, ScalarProblem.worseThan, ScalarProblem.equivalent,
      Num.isNan, Num.isclose, Num.eq, Num.isInf, deriveGt, deriveLe, deriveGe, bind, Except.bind]

/-- C01: ordering an individual that has not been evaluated raises `TypeError`, whichever side
it is on; `==` does not raise. -/
theorem unevaluated_comparison_raises (p : ScalarProblem) (coin : Bool) (a b : FitSlot)
    (h : a = none ∨ b = none) :
    indLt p coin a b = .error .typeError ∧ indLe p coin a b = .error .typeError ∧
    indGe p coin a b = .error .typeError ∧ indGt p coin a b = .error .typeError ∧
    indEq p a b = .ok (decide (a = b)) := by
  rcases h with rfl | rfl
  · cases b <;> simp [indLt, indLe, indGe, indGt, indEq, deriveGt, deriveLe, deriveGe, bind, Except.bind]
  · cases a <;> simp [indLt, indLe, indGe, indGt, indEq, deriveGt, deriveLe, deriveGe, bind, Except.bind]

theorem numLt_iff (a b : Num) (ha : a ≠ .nan) (hb : b ≠ .nan) :
    Num.lt a b = true ↔ Better true b a := by
  cases a <;> cases b <;> simp_all [Num.lt, Better, point]
  exact WithBot.coe_lt_coe.mpr (WithTop.coe_lt_top _)

theorem better_false_iff (a b : Num) : Better false b a ↔ Better true a b := by
  unfold Better
  constructor <;> rintro ⟨x, y, h1, h2, h3⟩ <;> exact ⟨y, x, h2, h1, by simpa using h3⟩

/-- C02: on numbers, `a < b` means exactly "b is better than a in the problem's direction";
the coin is irrelevant. -/
theorem lt_iff_better (p : ScalarProblem) (coin : Bool) (a b : SFit)
    (ha : a.val ≠ .nan) (hb : b.val ≠ .nan) :
    (indLt p coin (some a) (some b) = .ok true ↔ Better p.maximize b.val a.val) ∧
    (indLt p coin (some a) (some b) = .ok true ∨ indLt p coin (some a) (some b) = .ok false) := by
  obtain ⟨fa, va⟩ := a
  obtain ⟨fb, vb⟩ := b
  obtain ⟨m⟩ := p
  have hna : va.isNan = false := by cases va <;> simp_all [Num.isNan]
  have hnb : vb.isNan = false := by cases vb <;> simp_all [Num.isNan]
  refine ⟨?_, ?_⟩
  · cases m
    · rw [better_false_iff, ← numLt_iff _ _ hb ha]
      simp [indLt, ScalarProblem.worseThan, hna, hnb]
    · rw [← numLt_iff _ _ ha hb]
      simp [indLt, ScalarProblem.worseThan, hna, hnb]
  · simp only [indLt]
    cases ScalarProblem.worseThan _ _ _ _ <;> simp

theorem better_trans (m : Bool) {x y z : Num} (h1 : Better m y x) (h2 : Better m z y) :
    Better m z x := by
  obtain ⟨px, py, hx, hy, h⟩ := h1
  obtain ⟨py', pz, hy', hz, h'⟩ := h2
  rw [hy] at hy'; cases hy'
  refine ⟨px, pz, hx, hz, ?_⟩
  cases m <;> simp_all
  · exact h'.trans h
  · exact h.trans h'

theorem better_irrefl (m : Bool) (x : Num) : ¬ Better m x x := by
  rintro ⟨a, b, h1, h2, h3⟩
  rw [h1] at h2; cases h2
  cases m <;> simp at h3

/-- C02: on evaluated individuals with numbers as fitness, `<` is a strict weak order
(irreflexive, asymmetric, transitive, and "neither `a<b` nor `b<c`" implies not `a<c`), and
reversing the optimisation direction reverses it. -/
theorem lt_strict_weak_order (p : ScalarProblem) (c₁ c₂ c₃ : Bool) (a b c : SFit)
    (ha : a.val ≠ .nan) (hb : b.val ≠ .nan) (hc : c.val ≠ .nan) :
    indLt p c₁ (some a) (some a) = .ok false ∧
    (indLt p c₁ (some a) (some b) = .ok true → indLt p c₂ (some b) (some a) = .ok false) ∧
    (indLt p c₁ (some a) (some b) = .ok true → indLt p c₂ (some b) (some c) = .ok true →
      indLt p c₃ (some a) (some c) = .ok true) ∧
    (indLt p c₁ (some a) (some b) = .ok false → indLt p c₂ (some b) (some c) = .ok false →
      indLt p c₃ (some a) (some c) = .ok false) ∧
    indLt ⟨!p.maximize⟩ c₁ (some a) (some b) = indLt p c₂ (some b) (some a) := by
  have key : ∀ (coin : Bool) (x y : SFit), x.val ≠ .nan → y.val ≠ .nan →
      indLt p coin (some x) (some y) = .ok (p.worseThan true x y) ∧
      (p.worseThan true x y = true ↔ Better p.maximize y.val x.val) := by
    intro coin x y hx hy
    have h1 := (lt_iff_better p true x y hx hy).1
    have hnx : x.val.isNan = false := by cases h : x.val <;> simp_all [Num.isNan]
    have hny : y.val.isNan = false := by cases h : y.val <;> simp_all [Num.isNan]
    refine ⟨by simp [indLt, ScalarProblem.worseThan, hnx, hny], ?_⟩
    simpa [indLt] using h1
  have total : ∀ (x y z : SFit), x.val ≠ .nan → y.val ≠ .nan → z.val ≠ .nan →
      ¬ Better p.maximize y.val x.val → ¬ Better p.maximize z.val y.val →
      ¬ Better p.maximize z.val x.val := by
    intro x y z hx hy hz h1 h2 h3
    obtain ⟨px, pz, ex, ez, hlt⟩ := h3
    obtain ⟨py, ey⟩ : ∃ py, point y.val = some py := by
      cases h : y.val <;> simp_all [point]
    have n1 : ¬ (if p.maximize then px < py else py < px) := fun h => h1 ⟨px, py, ex, ey, h⟩
    have n2 : ¬ (if p.maximize then py < pz else pz < py) := fun h => h2 ⟨py, pz, ey, ez, h⟩
    cases hm : p.maximize <;> simp only [hm, if_true, if_false, Bool.false_eq_true] at n1 n2 hlt
    · exact absurd hlt (not_lt.mpr ((not_lt.mp n1).trans (not_lt.mp n2)))
    · exact absurd hlt (not_lt.mpr ((not_lt.mp n2).trans (not_lt.mp n1)))
  refine ⟨?_, ?_, ?_, ?_, ?_⟩
  · rw [(key c₁ a a ha ha).1]
    have := (key c₁ a a ha ha).2
    have h' := better_irrefl p.maximize a.val
    cases h : p.worseThan true a a
    · rfl
    · exact absurd (this.mp h) h'
  · rw [(key c₁ a b ha hb).1, (key c₂ b a hb ha).1]
    intro h
    cases h' : p.worseThan true b a
    · rfl
    · exfalso
      have e1 := (key c₁ a b ha hb).2.mp (by simpa using h)
      have e2 := (key c₁ b a hb ha).2.mp h'
      exact better_irrefl _ _ (better_trans _ e1 e2)
  · rw [(key c₁ a b ha hb).1, (key c₂ b c hb hc).1, (key c₃ a c ha hc).1]
    intro h1 h2
    have e1 := (key c₁ a b ha hb).2.mp (by simpa using h1)
    have e2 := (key c₁ b c hb hc).2.mp (by simpa using h2)
    rw [(key c₁ a c ha hc).2.mpr (better_trans _ e1 e2)]
  · rw [(key c₁ a b ha hb).1, (key c₂ b c hb hc).1, (key c₃ a c ha hc).1]
    intro h1 h2
    have e1 : ¬ Better p.maximize b.val a.val := fun h => by
      rw [(key c₁ a b ha hb).2.mpr h] at h1; cases h1
    have e2 : ¬ Better p.maximize c.val b.val := fun h => by
      rw [(key c₁ b c hb hc).2.mpr h] at h2; cases h2
    cases h : p.worseThan true a c
    · rfl
    · exact absurd ((key c₁ a c ha hc).2.mp h) (total a b c ha hb hc e1 e2)
  · have hnx : a.val.isNan = false := by cases h : a.val <;> simp_all [Num.isNan]
    have hny : b.val.isNan = false := by cases h : b.val <;> simp_all [Num.isNan]
    obtain ⟨m⟩ := p
    cases m <;> simp [indLt, ScalarProblem.worseThan, hnx, hny]

example : indLt ⟨false⟩ true (some ⟨true, .fin 3⟩) (some ⟨true, .fin 2⟩) = .ok true ∧
    indLt ⟨false⟩ true (some ⟨true, .fin 2⟩) (some ⟨true, .negInf⟩) = .ok true := by
  constructor <;> norm_num [indLt, ScalarProblem.worseThan, Num.isNan, Num.lt]

/-- C03, the full statement: `a > b` exactly when `b < a`, for all evaluated individuals whose
fitness is a number. -/
def GtMirrorsLt (p : ScalarProblem) (a b : SFit) : Prop :=
  ∀ c₁ c₂, indGt p c₁ (some a) (some b) = indLt p c₂ (some b) (some a)

/-- C03 is false of the code: for Python floats closer than the tolerance, `b < a` is true but
`a > b` is false. -/
theorem gt_does_not_mirror_lt :
    ∃ a b : SFit, a.val ≠ .nan ∧ b.val ≠ .nan ∧ ¬ GtMirrorsLt ⟨true⟩ a b := by
  refine ⟨⟨true, .fin 1⟩, ⟨true, .fin (1 - 1/10000000000)⟩, by decide, by decide, ?_⟩
  intro h
  have := h true true
  norm_num [indGt, indLt, indEq, ScalarProblem.worseThan, ScalarProblem.equivalent, Num.isNan,
    Num.lt, Num.isclose, Num.eq, Num.isInf, relTol, deriveGt, deriveLe, deriveGe, bind, Except.bind, abs_of_pos] at this

theorem isclose_fin_iff (x y : ℚ) : Num.isclose (.fin x) (.fin y) = true ↔ WithinTol x y := by
  unfold Num.isclose WithinTol
  by_cases hxy : x = y
  · subst hxy
    simp [Num.eq]
  · have h1 : Num.eq (.fin x) (.fin y) = false := by simp [Num.eq, hxy]
    simp only [h1, Num.isInf, relTol, Bool.or_eq_true, decide_eq_true_eq, abs_mul]
    rw [show |(1 / 1000000000 : ℚ)| = 1 / 1000000000 by norm_num]
    simp only [Bool.false_eq_true, if_false, or_self, Bool.or_eq_true, decide_eq_true_eq]
    rw [le_max_iff]
    constructor
    · rintro (h | h)
      · right; linarith
      · left; linarith
    · rintro (h | h)
      · right; linarith
      · left; linarith

/-- C03, exact region: for two finite Python-float fitnesses `a > b` means "a is better and the
two are not within the relative tolerance"; `a == b` means "within the tolerance". Hence
`GtMirrorsLt` fails exactly for distinct values within the tolerance. -/
theorem float_gt_iff (p : ScalarProblem) (coin : Bool) (x y : ℚ) :
    (indGt p coin (some ⟨true, .fin x⟩) (some ⟨true, .fin y⟩) = .ok true ↔
      (if p.maximize then y < x else x < y) ∧ ¬ WithinTol x y) ∧
    (indEq p (some ⟨true, .fin x⟩) (some ⟨true, .fin y⟩) = .ok true ↔ WithinTol x y) := by
  have hc := isclose_fin_iff x y
  refine ⟨?_, ?_⟩
  · by_cases hw : WithinTol x y
    · have : Num.isclose (.fin x) (.fin y) = true := hc.mpr hw
      obtain ⟨m⟩ := p
      cases m <;>
      simp [indGt, indLt, indEq, ScalarProblem.worseThan, ScalarProblem.equivalent, Num.isNan, this,
        hw, deriveGt, deriveLe, deriveGe, bind, Except.bind] <;> split <;> simp
    · have : Num.isclose (.fin x) (.fin y) = false := by
        cases h : Num.isclose (.fin x) (.fin y)
        · rfl
        · exact absurd (hc.mp h) hw
      have hne : x ≠ y := by
        rintro rfl
        exact hw (by simp [WithinTol])
      obtain ⟨m⟩ := p
      cases m <;>
      simp only [indGt, indLt, indEq, ScalarProblem.worseThan, ScalarProblem.equivalent,
        Num.isNan, this, Num.lt, deriveGt, deriveLe, deriveGe, bind, Except.bind, hw, not_false_eq_true, and_true,
        Bool.false_eq_true, if_false, if_true, Bool.and_self]
      · rcases lt_trichotomy x y with h | h | h
        · simp [h, h.not_gt]
        · exact absurd h hne
        · simp [h, h.not_gt]
      · rcases lt_trichotomy x y with h | h | h
        · simp [h, h.not_gt]
        · exact absurd h hne
        · simp [h, h.not_gt]
  · rw [← hc]
    simp [indEq, ScalarProblem.equivalent]

example : WithinTol 1 (1 - 1/10000000000) ∧ ¬ WithinTol 1 2 := by
  constructor <;> norm_num [WithinTol, abs_of_pos, abs_of_neg]

/-- C03, the part that holds: unless both fitnesses are Python floats, the operators agree:
`a > b` iff `b < a`, and exactly one of `<`, `==`, `>` holds. Missing: pairs of Python floats
(see `gt_does_not_mirror_lt`, `float_gt_iff`). -/
theorem gt_mirrors_lt_partial (p : ScalarProblem) (a b : SFit)
    (ha : a.val ≠ .nan) (hb : b.val ≠ .nan) (hf : a.pyFloat = false ∨ b.pyFloat = false) :
    GtMirrorsLt p a b ∧
    (∀ coin, CmpResults p coin a b true true false false false ∨
      CmpResults p coin a b false true true true false ∨
      CmpResults p coin a b false false false true true) ∧
    (indEq p (some a) (some b) = .ok true ↔ a.val = b.val) := by
  obtain ⟨fa, va⟩ := a
  obtain ⟨fb, vb⟩ := b
  obtain ⟨m⟩ := p
  have hff : (fa && fb) = false := by rcases hf with h | h <;> simp at h <;> simp [h]
  have hna : va.isNan = false := by cases va <;> simp_all [Num.isNan]
  have hnb : vb.isNan = false := by cases vb <;> simp_all [Num.isNan]
  have heq : Num.eq va vb = decide (va = vb) := by
    cases va <;> cases vb <;> simp_all [Num.eq]
  have tri : (Num.lt va vb = true ∧ va ≠ vb ∧ Num.lt vb va = false) ∨
      (Num.lt va vb = false ∧ va = vb ∧ Num.lt vb va = false) ∨
      (Num.lt va vb = false ∧ va ≠ vb ∧ Num.lt vb va = true) := by
    cases va <;> cases vb <;> simp_all [Num.lt]
    rename_i x y
    rcases lt_trichotomy x y with h | h | h
    · exact Or.inl ⟨h, h.ne, h.le⟩
    · exact Or.inr (Or.inl ⟨h.ge, h, h.le⟩)
    · exact Or.inr (Or.inr ⟨h.le, h.ne', h⟩)
  refine ⟨?_, ?_, ?_⟩
  · intro c₁ c₂
    rcases tri with ⟨t1, t2, t3⟩ | ⟨t1, t2, t3⟩ | ⟨t1, t2, t3⟩ <;> cases m <;>
    simp [indGt, indLt, indEq, ScalarProblem.worseThan, ScalarProblem.equivalent, hff, hna, hnb,
      heq, t1, t2, t3, deriveGt, deriveLe, deriveGe, bind, Except.bind]
    all_goals (subst t2; simp [t3, heq])
  · intro coin
    rcases tri with ⟨t1, t2, t3⟩ | ⟨t1, t2, t3⟩ | ⟨t1, t2, t3⟩ <;> cases m
    · right; right
      constructor <;> simp [indGt, indLt, indEq, indLe, indGe, ScalarProblem.worseThan,
        ScalarProblem.equivalent, hff, hna, hnb, heq, t1, t2, t3, deriveGt, deriveLe, deriveGe, bind, Except.bind]
    · left
      constructor <;> simp [indGt, indLt, indEq, indLe, indGe, ScalarProblem.worseThan,
        ScalarProblem.equivalent, hff, hna, hnb, heq, t1, t2, t3, deriveGt, deriveLe, deriveGe, bind, Except.bind]
    · right; left
      subst t2
      constructor <;> simp [indGt, indLt, indEq, indLe, indGe, ScalarProblem.worseThan,
        ScalarProblem.equivalent, hff, hna, heq, t1, deriveGt, deriveLe, deriveGe, bind, Except.bind]
    · right; left
      subst t2
      constructor <;> simp [indGt, indLt, indEq, indLe, indGe, ScalarProblem.worseThan,
        ScalarProblem.equivalent, hff, hna, heq, t1, deriveGt, deriveLe, deriveGe, bind, Except.bind]
    · left
      constructor <;> simp [indGt, indLt, indEq, indLe, indGe, ScalarProblem.worseThan,
        ScalarProblem.equivalent, hff, hna, hnb, heq, t1, t2, t3, deriveGt, deriveLe, deriveGe, bind, Except.bind]
    · right; right
      constructor <;> simp [indGt, indLt, indEq, indLe, indGe, ScalarProblem.worseThan,
        ScalarProblem.equivalent, hff, hna, hnb, heq, t1, t2, t3, deriveGt, deriveLe, deriveGe, bind, Except.bind]
  · simp [indEq, ScalarProblem.equivalent, hff, heq]

example : (⟨false, .fin 2⟩ : SFit).val ≠ .nan ∧ (⟨false, .fin 2⟩ : SFit).pyFloat = false := by
  decide

/-- C03: equality of Python-float fitnesses is not transitive, so it is no equivalence. -/
theorem float_eq_not_transitive :
    ∃ a b c : SFit, indEq ⟨true⟩ (some a) (some b) = .ok true ∧
      indEq ⟨true⟩ (some b) (some c) = .ok true ∧ indEq ⟨true⟩ (some a) (some c) = .ok false := by
  refine ⟨⟨true, .fin 1⟩, ⟨true, .fin (1 + 9/10000000000)⟩, ⟨true, .fin (1 + 18/10000000000)⟩, ?_⟩
  refine ⟨(float_gt_iff ⟨true⟩ true _ _).2.mpr ?_, (float_gt_iff ⟨true⟩ true _ _).2.mpr ?_, ?_⟩
  · norm_num [WithinTol, abs_of_pos, abs_of_neg]
  · norm_num [WithinTol, abs_of_pos, abs_of_neg]
  · have h : ¬ WithinTol 1 (1 + 18/10000000000) := by
      norm_num [WithinTol, abs_of_pos, abs_of_neg]
    have h2 := (isclose_fin_iff 1 (1 + 18/10000000000)).not.mpr h
    simp only [indEq, ScalarProblem.equivalent, Bool.and_self, if_true]
    simpa using h2

/-- C03: for finite Python floats `>` is still transitive, so "strictly better than" chains. -/
theorem float_gt_transitive (p : ScalarProblem) (c₁ c₂ c₃ : Bool) (x y z : ℚ)
    (h1 : indGt p c₁ (some ⟨true, .fin x⟩) (some ⟨true, .fin y⟩) = .ok true)
    (h2 : indGt p c₂ (some ⟨true, .fin y⟩) (some ⟨true, .fin z⟩) = .ok true) :
    indGt p c₃ (some ⟨true, .fin x⟩) (some ⟨true, .fin z⟩) = .ok true := by
  rw [(float_gt_iff p _ _ _).1] at *
  obtain ⟨a1, a2⟩ := h1
  obtain ⟨b1, b2⟩ := h2
  unfold WithinTol at *
  refine ⟨?_, ?_⟩
  · cases hm : p.maximize <;> simp only [hm, if_true, if_false, Bool.false_eq_true] at *
    · exact a1.trans b1
    · exact b1.trans a1
  · intro h
    have hx := le_max_left |x| |y|
    have hz := le_max_right |y| |z|
    have hxz : max |x| |z| ≤ max |x| |y| + max |y| |z| := by
      have h0 := abs_nonneg y
      have h3 := le_max_right |x| |y|
      have h4 := le_max_left |y| |z|
      refine max_le ?_ ?_ <;> linarith
    have key : |x - z| = |x - y| + |y - z| := by
      cases hm : p.maximize <;> simp only [hm, if_true, if_false, Bool.false_eq_true] at *
      · rw [abs_of_neg (by linarith), abs_of_neg (by linarith), abs_of_neg (by linarith)]; ring
      · rw [abs_of_pos (by linarith), abs_of_pos (by linarith), abs_of_pos (by linarith)]; ring
    rw [key] at h
    linarith

example : indGt ⟨true⟩ true (some ⟨true, .fin 3⟩) (some ⟨true, .fin 2⟩) = .ok true := by
  rw [(float_gt_iff _ _ _ _).1]
  norm_num [WithinTol, abs_of_pos, abs_of_neg]

/-- C01: any individual, evaluated or not, is better than and different from `None`, under all
five operators. -/
theorem none_is_worst (p : ScalarProblem) (coin : Bool) (a : FitSlot) :
    indLtOther p coin a none = .ok false ∧ indEqOther p a none = .ok false ∧
    deriveGt (indLtOther p coin a none) (indEqOther p a none) = .ok true ∧
    deriveLe (indLtOther p coin a none) (indEqOther p a none) = .ok false ∧
    deriveGe (indLtOther p coin a none) = .ok true := by
  simp [indLtOther, indEqOther, deriveGt, deriveLe, deriveGe, bind, Except.bind]

end Leap
