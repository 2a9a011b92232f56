import Mathlib.Algebra.BigOperators.Group.List.Lemmas
import Mathlib.Algebra.Order.BigOperators.Group.List
import Mathlib.Tactic.Linarith
import Mathlib.Tactic.FieldSimp
import Mathlib.Tactic.Ring
import Mathlib.Tactic.Positivity
import Verif.Model.Activation

/-!
# C71: activation functions
-/

namespace Leap

/-- **C71**. The overflow-safe formula of `sigmoid` is the logistic function: its exponents are never positive, its values lie
strictly between 0 and 1, it increases strictly, is 1/2 at 0 and symmetric. -/
theorem sigmoid_spec :
    (∀ x, sigmoid x = 1 / (1 + Real.exp (-x))) ∧
    (∀ x, min 0 x ≤ 0 ∧ -|x| ≤ 0) ∧
    (∀ x, 0 < sigmoid x ∧ sigmoid x < 1) ∧
    (∀ x y, x < y → sigmoid x < sigmoid y) ∧
    (sigmoid 0 = 1 / 2) ∧ (∀ x, sigmoid (-x) = 1 - sigmoid x) := by
  have h1 : ∀ x, sigmoid x = 1 / (1 + Real.exp (-x)) := by
    intro x
    unfold sigmoid
    rcases le_total 0 x with h | h
    · rw [min_eq_left h, abs_of_nonneg h, Real.exp_zero]
    · rw [min_eq_right h, abs_of_nonpos h, neg_neg, Real.exp_neg]
      have : 0 < Real.exp x := Real.exp_pos x
      field_simp
      ring
  have hpos : ∀ x : ℝ, 0 < Real.exp (-x) := fun x => Real.exp_pos _
  refine ⟨h1, fun x => ⟨min_le_left _ _, by simp⟩, ?_, ?_, ?_, ?_⟩
  · intro x
    rw [h1]
    have := hpos x
    constructor
    · positivity
    · rw [div_lt_one (by linarith)]
      linarith
  · intro x y hxy
    rw [h1, h1]
    have h2 : Real.exp (-y) < Real.exp (-x) := Real.exp_lt_exp.2 (by linarith)
    exact one_div_lt_one_div_of_lt (by linarith [hpos y]) (by linarith)
  · rw [h1]
    norm_num
  · intro x
    rw [h1, h1, neg_neg, Real.exp_neg]
    have : 0 < Real.exp x := Real.exp_pos x
    field_simp
    ring

/-- **C71**. `relu` is 0 on negative numbers and the identity on the others. -/
theorem relu_spec : (∀ x, x ≤ 0 → relu x = 0) ∧ (∀ x, 0 ≤ x → relu x = x) ∧ (∀ x y, x ≤ y → relu x ≤ relu y) :=
  ⟨fun _ h => max_eq_left h, fun _ h => max_eq_right h, fun _ _ h => max_le_max le_rfl h⟩

theorem foldl_max_real (l : List ℝ) (a : ℝ) :
    a ≤ l.foldl max a ∧ (∀ x ∈ l, x ≤ l.foldl max a) ∧ (l.foldl max a = a ∨ l.foldl max a ∈ l) := by
  induction l generalizing a with
  | nil => simp
  | cons b l ih =>
    obtain ⟨h1, h2, h3⟩ := ih (max a b)
    rw [List.foldl_cons]
    refine ⟨le_trans (le_max_left _ _) h1, ?_, ?_⟩
    · intro x hx
      rcases List.mem_cons.1 hx with rfl | hx
      · exact le_trans (le_max_right _ _) h1
      · exact h2 x hx
    · rcases h3 with h | h
      · rw [h]
        rcases max_choice a b with h' | h'
        · left; exact h'
        · right; rw [h']; simp
      · right; exact List.mem_cons_of_mem _ h

theorem real_sum_map_div (l : List ℝ) (c : ℝ) : (l.map fun a => a / c).sum = l.sum / c := by
  induction l with
  | nil => simp
  | cons a l ih => simp [ih, add_div]

theorem sum_map_mul_const (l : List ℝ) (f : ℝ → ℝ) (c : ℝ) : (l.map fun a => f a * c).sum = (l.map f).sum * c := by
  induction l with
  | nil => simp
  | cons a l ih => simp [ih, add_mul]

theorem sum_exp_pos (l : List ℝ) (h : l ≠ []) : 0 < (l.map Real.exp).sum := by
  cases l with
  | nil => exact absurd rfl h
  | cons a l =>
    have : 0 ≤ (l.map Real.exp).sum := by
      apply List.sum_nonneg
      intro x hx
      obtain ⟨y, _, rfl⟩ := List.mem_map.1 hx
      exact (Real.exp_pos y).le
    simp only [List.map_cons, List.sum_cons]
    linarith [Real.exp_pos a]

/-- **C71**. `softmax` of a non-empty vector divides each exponential by the sum of all of them, although it only takes
exponentials of non-positive numbers; of an empty one it raises. -/
theorem softmax_value (x : List ℝ) :
    (x = [] → softmax x = .error .valueError) ∧
    (x ≠ [] → softmax x = .ok (x.map fun a => Real.exp a / (x.map Real.exp).sum)) ∧
    (∀ m, npMaxReal x = .ok m → ∀ a ∈ x, a - m ≤ 0) := by
  refine ⟨?_, ?_, ?_⟩
  · rintro rfl
    rfl
  · intro hx
    obtain ⟨a, l, rfl⟩ := List.exists_cons_of_ne_nil hx
    simp only [softmax, npMaxReal]
    set m := l.foldl max a
    have hsum : ((a :: l).map fun b => Real.exp (b - m)).sum = ((a :: l).map Real.exp).sum * Real.exp (-m) := by
      rw [← sum_map_mul_const]
      congr 1
      apply List.map_congr_left
      intro b _
      rw [sub_eq_add_neg, Real.exp_add]
    rw [hsum, List.map_map]
    congr 1
    apply List.map_congr_left
    intro b _
    simp only [Function.comp, sub_eq_add_neg, Real.exp_add]
    rw [mul_div_mul_right _ _ (Real.exp_pos _).ne']
  · intro m hm a ha
    cases x with
    | nil => simp at ha
    | cons b l =>
      simp only [npMaxReal, Except.ok.injEq] at hm
      obtain ⟨h1, h2, _⟩ := foldl_max_real l b
      rw [hm] at h1 h2
      rcases List.mem_cons.1 ha with rfl | ha
      · linarith
      · linarith [h2 a ha]

/-- **C71**. The result of `softmax` is a distribution over the positions that ranks them as the input does, and adding a
constant to the input changes nothing. -/
theorem softmax_distribution (x y : List ℝ) (h : softmax x = .ok y) :
    y.length = x.length ∧ (∀ p ∈ y, 0 < p ∧ p ≤ 1) ∧ y.sum = 1 ∧
    (∀ (i j : Nat) (hi : i < x.length) (hj : j < x.length) (hi' : i < y.length) (hj' : j < y.length),
      (x[i] < x[j] ↔ y[i] < y[j])) ∧
    (∀ c, softmax (x.map fun a => a + c) = .ok y) := by
  have hx : x ≠ [] := by
    rintro rfl
    cases h
  have hval := (softmax_value x).2.1 hx
  rw [hval] at h
  have hy := (Except.ok.inj h).symm
  subst hy
  have hpos := sum_exp_pos x hx
  refine ⟨by simp, ?_, ?_, ?_, ?_⟩
  · intro p hp
    obtain ⟨a, ha, rfl⟩ := List.mem_map.1 hp
    refine ⟨div_pos (Real.exp_pos _) hpos, (div_le_one hpos).2 ?_⟩
    apply List.single_le_sum _ _ (List.mem_map.2 ⟨a, ha, rfl⟩)
    intro b hb
    obtain ⟨z, _, rfl⟩ := List.mem_map.1 hb
    exact (Real.exp_pos z).le
  · have : (x.map fun a => Real.exp a / (x.map Real.exp).sum) = (x.map Real.exp).map fun b => b / (x.map Real.exp).sum := by
      rw [List.map_map]
      rfl
    rw [this, real_sum_map_div, div_self hpos.ne']
  · intro i j hi hj hi' hj'
    simp only [List.getElem_map]
    rw [div_lt_div_iff_of_pos_right hpos, Real.exp_lt_exp]
  · intro c
    rw [(softmax_value _).2.1 (by simpa using hx)]
    congr 1
    rw [List.map_map, List.map_map]
    have hs : (x.map (Real.exp ∘ fun a => a + c)).sum = (x.map Real.exp).sum * Real.exp c := by
      rw [← sum_map_mul_const]
      congr 1
      apply List.map_congr_left
      intro b _
      simp [Real.exp_add]
    rw [hs]
    apply List.map_congr_left
    intro b _
    simp only [Function.comp, Real.exp_add]
    rw [mul_div_mul_right _ _ (Real.exp_pos _).ne']

/-! ## The hypotheses can be met -/

example : ∃ y, softmax [1, 2, 3] = .ok y ∧ y.length = 3 := ⟨_, (softmax_value _).2.1 (by simp), by simp⟩

end Leap
