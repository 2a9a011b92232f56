import Mathlib.Algebra.Order.BigOperators.Group.List
import Mathlib.Algebra.Order.Field.Basic
import Mathlib.Tactic.Linarith
import Mathlib.Tactic.Positivity
import Mathlib.Tactic.Ring
import Verif.Model.Ela

/-!
# Landscape features (C56)
-/

namespace Leap

namespace Spec

/-- The point `a x + (1 - a) y`. -/
def mix (a : ℚ) (x y : List ℚ) : List ℚ := List.zipWith (fun u v => a * u + (1 - a) * v) x y

/-- A convex function on points of dimension `n`. -/
def ConvexFn (n : Nat) (f : List ℚ → ℚ) : Prop :=
  ∀ (a : ℚ) (x y : List ℚ), x.length = n → y.length = n → 0 ≤ a → a ≤ 1 → f (mix a x y) ≤ a * f x + (1 - a) * f y

/-- An affine function on points of dimension `n`. -/
def AffineFn (n : Nat) (f : List ℚ → ℚ) : Prop :=
  ∀ (a : ℚ) (x y : List ℚ), x.length = n → y.length = n → 0 ≤ a → a ≤ 1 → f (mix a x y) = a * f x + (1 - a) * f y

/-- A draw the code can make: two different positions of the design and a coefficient in the unit interval. -/
def GoodDraw (size : Nat) (d : ElaDraw) : Prop := d.x < size ∧ d.y < size ∧ d.x ≠ d.y ∧ 0 ≤ d.a ∧ d.a ≤ 1

/-- A design of points of dimension `n` evaluated with `f`. -/
def EvaluatedDesign (n : Nat) (f : List ℚ → ℚ) (design : List ElaIndividual) : Prop :=
  ∀ ind ∈ design, ind.genome.length = n ∧ ind.fitness = f ind.genome

end Spec

open Spec

theorem elaCount_eq (p : ℚ → Bool) (n : Nat) (l : List ℚ) : elaCount p n l = n + (l.filter p).length := by
  induction l generalizing n with
  | nil => rfl
  | cons d ds ih =>
    rw [elaCount, ih]
    cases h : p d <;> simp [h]
    omega

theorem elaRatio_ok (c t : Nat) (h : c ≤ t) (ht : 0 < t) : elaRatio c t = .ok ((c : ℚ) / t) ∧ 0 ≤ (c : ℚ) / t ∧ (c : ℚ) / t ≤ 1 := by
  have hpos : (0 : ℚ) < t := by exact_mod_cast ht
  have h0 : 0 ≤ (c : ℚ) / t := by positivity
  have h1 : (c : ℚ) / t ≤ 1 := by rw [div_le_one hpos]; exact_mod_cast h
  refine ⟨?_, h0, h1⟩
  rw [elaRatio, if_neg (by omega)]
  simp only [h0, h1, and_self, if_true]

/-- C56: `convex_p` is the fraction of deltas below the threshold, between 0 and 1; thresholds that are not negative are
refused. -/
theorem convex_p_spec (deltas : List ℚ) (threshold : ℚ) :
    (0 ≤ threshold → convexP deltas threshold = .error .assertionError) ∧
    (threshold < 0 → deltas ≠ [] → ∃ r, convexP deltas threshold = .ok r ∧
      r * deltas.length = (deltas.filter fun d => d < threshold).length ∧ 0 ≤ r ∧ r ≤ 1) ∧
    (threshold < 0 → deltas = [] → convexP deltas threshold = .error .zeroDivisionError) := by
  refine ⟨?_, ?_, ?_⟩
  · intro h; rw [convexP, if_neg (not_lt.mpr h)]
  · intro h hne
    have hl := List.length_pos_iff.mpr hne
    have := elaRatio_ok (deltas.filter fun d => d < threshold).length deltas.length (List.length_filter_le ..) hl
    refine ⟨_, ?_, ?_, this.2⟩
    · rw [convexP, if_pos h, elaCount_eq, Nat.zero_add]; exact this.1
    · have : (deltas.length : ℚ) ≠ 0 := by positivity
      rw [div_mul_cancel₀ _ this]
  · rintro h rfl
    rw [convexP, if_pos h]; rfl

/-- C56, a disagreement: `linear_p` is 0 for every list of deltas and every threshold it accepts. -/
theorem linear_p_always_zero (deltas : List ℚ) (threshold : ℚ) :
    (0 ≤ threshold → linearP deltas threshold = .error .assertionError) ∧
    (threshold < 0 → deltas ≠ [] → linearP deltas threshold = .ok 0) := by
  constructor
  · intro h; rw [linearP, if_neg (not_lt.mpr h)]
  · intro h hne
    have hl := List.length_pos_iff.mpr hne
    rw [linearP, if_pos h, elaCount_eq]
    have : (deltas.filter fun d => decide (|d| < threshold)) = [] := by
      rw [List.filter_eq_nil_iff]
      intro d _
      have := abs_nonneg d
      simp only [decide_eq_true_eq, not_lt]
      linarith
    rw [this]
    have := (elaRatio_ok 0 deltas.length (Nat.zero_le _) hl).1
    simpa using this

theorem combineGenomes_mix (a : ℚ) (x y : List ℚ) (h : x.length = y.length) : combineGenomes a (1 - a) x y = .ok (mix a x y) := by
  rw [combineGenomes, if_pos h, mix]

theorem elaTests_ok (n : Nat) (f : List ℚ → ℚ) (evaluate : List ℚ → PyM ℚ)
    (hev : ∀ x : List ℚ, x.length = n → evaluate x = .ok (f x)) (design : List ElaIndividual)
    (hd : ∀ ind ∈ design, ind.genome.length = n) (draws : List ElaDraw) (hg : ∀ d ∈ draws, GoodDraw design.length d) :
    ∃ ts, elaTests evaluate design draws = .ok ts ∧ ts.length = draws.length ∧
      ∀ (i : Nat) (d : ElaDraw), draws[i]? = some d → ∃ x y, design[d.x]? = some x ∧ design[d.y]? = some y ∧
        ts[i]? = some (d.a * x.fitness + (1 - d.a) * y.fitness, mix d.a x.genome y.genome,
          f (mix d.a x.genome y.genome) - (d.a * x.fitness + (1 - d.a) * y.fitness)) := by
  induction draws with
  | nil => exact ⟨[], rfl, rfl, by simp⟩
  | cons d ds ih =>
    obtain ⟨ts, h1, h2, h3⟩ := ih fun e he => hg e (List.mem_cons_of_mem _ he)
    obtain ⟨gx, gy, -, -⟩ := hg d (List.mem_cons_self ..)
    have hx := hd _ (List.getElem_mem gx)
    have hy := hd _ (List.getElem_mem gy)
    have hm : (mix d.a design[d.x].genome design[d.y].genome).length = n := by simp [mix, hx, hy]
    have ht : elaTest evaluate design d = .ok (d.a * design[d.x].fitness + (1 - d.a) * design[d.y].fitness,
        mix d.a design[d.x].genome design[d.y].genome, f (mix d.a design[d.x].genome design[d.y].genome) -
          (d.a * design[d.x].fitness + (1 - d.a) * design[d.y].fitness)) := by
      rw [elaTest, List.getElem?_eq_getElem gx, List.getElem?_eq_getElem gy]
      simp only [combineGenomes_mix _ _ _ (hx.trans hy.symm), hev _ hm, bind, Except.bind]
    refine ⟨(d.a * design[d.x].fitness + (1 - d.a) * design[d.y].fitness,
        mix d.a design[d.x].genome design[d.y].genome, f (mix d.a design[d.x].genome design[d.y].genome) -
          (d.a * design[d.x].fitness + (1 - d.a) * design[d.y].fitness)) :: ts, ?_, by simp [h2], ?_⟩
    · rw [elaTests, ht, h1]; rfl
    intro i e he
    cases i with
    | zero =>
      simp only [List.getElem?_cons_zero, Option.some.injEq] at he
      subst he
      exact ⟨design[d.x], design[d.y], List.getElem?_eq_getElem gx, List.getElem?_eq_getElem gy, rfl⟩
    | succ i =>
      rw [List.getElem?_cons_succ] at he ⊢
      exact h3 i e he

/-- C56: each delta compares the function at a mixed point with the same mix of the two fitnesses; there is one for every
test asked for. -/
theorem ela_deltas (n : Nat) (f : List ℚ → ℚ) (evaluate : List ℚ → PyM ℚ)
    (hev : ∀ x : List ℚ, x.length = n → evaluate x = .ok (f x)) (design : List ElaIndividual)
    (hd : ∀ ind ∈ design, ind.genome.length = n) (tests : Int) (draws : Nat → ElaDraw)
    (hg : ∀ i, GoodDraw design.length (draws i)) :
    ((design.length ≤ 2 ∨ tests ≤ 0) → elaInit evaluate design tests draws = .error .assertionError) ∧
    (2 < design.length → 0 < tests → ∃ deltas, elaInit evaluate design tests draws = .ok deltas ∧
      (deltas.length : Int) = tests ∧
      ∀ (i : Nat) (δ : ℚ), deltas[i]? = some δ → ∃ x y, design[(draws i).x]? = some x ∧ design[(draws i).y]? = some y ∧
        δ = f (mix (draws i).a x.genome y.genome) - ((draws i).a * x.fitness + (1 - (draws i).a) * y.fitness)) := by
  constructor
  · intro h
    rw [elaInit]
    by_cases hl : 2 < design.length
    · rw [if_pos hl, if_neg (by omega)]
    · rw [if_neg hl]
  · intro hl ht
    obtain ⟨ts, h1, h2, h3⟩ := elaTests_ok n f evaluate hev design hd ((List.range tests.toNat).map draws) (by
      intro d hd
      obtain ⟨i, -, rfl⟩ := List.mem_map.mp hd
      exact hg i)
    refine ⟨ts.map fun t => t.2.2, ?_, ?_, ?_⟩
    · rw [elaInit, if_pos hl, if_pos ht, h1]; rfl
    · rw [List.length_map, h2]; simp; omega
    · intro i δ hi
      have hlen : i < tests.toNat := by
        have := (List.getElem?_eq_some_iff.mp hi).1
        rw [List.length_map, h2] at this
        simpa using this
      obtain ⟨x, y, hx, hy, hti⟩ := h3 i (draws i) (by rw [List.getElem?_map, List.getElem?_range hlen]; rfl)
      rw [List.getElem?_map, hti] at hi
      simp only [Option.map_some, Option.some.injEq] at hi
      exact ⟨x, y, hx, hy, hi.symm⟩

theorem sum_nonpos_of {l : List ℚ} (h : ∀ x ∈ l, x ≤ 0) : l.sum ≤ 0 := by
  induction l with
  | nil => simp
  | cons a l ih =>
    rw [List.sum_cons]
    linarith [h a (List.mem_cons_self ..), ih fun x hx => h x (List.mem_cons_of_mem _ hx)]

/-- C56: on a convex function, correctly evaluated, no delta is positive, the mean deviation is not positive, and the mean
absolute deviation is its negative. -/
theorem ela_convex (n : Nat) (f : List ℚ → ℚ) (hf : ConvexFn n f) (evaluate : List ℚ → PyM ℚ)
    (hev : ∀ x : List ℚ, x.length = n → evaluate x = .ok (f x)) (design : List ElaIndividual)
    (hd : EvaluatedDesign n f design) (tests : Int) (draws : Nat → ElaDraw) (hg : ∀ i, GoodDraw design.length (draws i))
    (hl : 2 < design.length) (ht : 0 < tests) :
    ∃ deltas, elaInit evaluate design tests draws = .ok deltas ∧ (∀ δ ∈ deltas, δ ≤ 0) ∧ linearDeviation deltas ≤ 0 ∧
      linearDeviationAbs deltas = - linearDeviation deltas := by
  obtain ⟨deltas, h1, -, h3⟩ := (ela_deltas n f evaluate hev design (fun i hi => (hd i hi).1) tests draws hg).2 hl ht
  have hneg : ∀ δ ∈ deltas, δ ≤ 0 := by
    intro δ hδ
    obtain ⟨i, hi, rfl⟩ := List.getElem_of_mem hδ
    obtain ⟨x, y, hx, hy, he⟩ := h3 i _ (List.getElem?_eq_getElem hi)
    have dx := hd x (List.mem_of_getElem? hx)
    have dy := hd y (List.mem_of_getElem? hy)
    obtain ⟨-, -, -, ha0, ha1⟩ := hg i
    have := hf (draws i).a x.genome y.genome dx.1 dy.1 ha0 ha1
    rw [he, dx.2, dy.2]
    linarith
  refine ⟨deltas, h1, hneg, ?_, ?_⟩
  · rw [linearDeviation, statMean]
    exact div_nonpos_of_nonpos_of_nonneg (sum_nonpos_of hneg) (by positivity)
  · rw [linearDeviation, linearDeviationAbs, statMean, statMean, List.length_map, ← neg_div]
    congr 1
    clear h1 h3
    induction deltas with
    | nil => simp
    | cons a l ih =>
      rw [List.map_cons, List.sum_cons, List.sum_cons, ih fun x hx => hneg x (List.mem_cons_of_mem _ hx),
        abs_of_nonpos (hneg a (List.mem_cons_self ..))]
      ring

/-- C56: on an affine function, correctly evaluated, every delta is 0, so every test supports linearity; `linear_p` still
answers 0. -/
theorem ela_affine (n : Nat) (f : List ℚ → ℚ) (hf : AffineFn n f) (evaluate : List ℚ → PyM ℚ)
    (hev : ∀ x : List ℚ, x.length = n → evaluate x = .ok (f x)) (design : List ElaIndividual)
    (hd : EvaluatedDesign n f design) (tests : Int) (draws : Nat → ElaDraw) (hg : ∀ i, GoodDraw design.length (draws i))
    (hl : 2 < design.length) (ht : 0 < tests) (threshold : ℚ) (hth : threshold < 0) :
    ∃ deltas, elaInit evaluate design tests draws = .ok deltas ∧ (∀ δ ∈ deltas, δ = 0) ∧
      linearDeviation deltas = 0 ∧ linearDeviationAbs deltas = 0 ∧ convexP deltas threshold = .ok 0 ∧
      linearP deltas threshold = .ok 0 := by
  obtain ⟨deltas, h1, h2, h3⟩ := (ela_deltas n f evaluate hev design (fun i hi => (hd i hi).1) tests draws hg).2 hl ht
  have hz : ∀ δ ∈ deltas, δ = 0 := by
    intro δ hδ
    obtain ⟨i, hi, rfl⟩ := List.getElem_of_mem hδ
    obtain ⟨x, y, hx, hy, he⟩ := h3 i _ (List.getElem?_eq_getElem hi)
    have dx := hd x (List.mem_of_getElem? hx)
    have dy := hd y (List.mem_of_getElem? hy)
    obtain ⟨-, -, -, ha0, ha1⟩ := hg i
    have := hf (draws i).a x.genome y.genome dx.1 dy.1 ha0 ha1
    rw [he, dx.2, dy.2]
    linarith
  have hne : deltas ≠ [] := by
    rintro rfl
    simp at h2; omega
  have hsum : deltas.sum = 0 := List.sum_eq_zero hz
  refine ⟨deltas, h1, hz, ?_, ?_, ?_, (linear_p_always_zero deltas threshold).2 hth hne⟩
  · rw [linearDeviation, statMean, hsum]; simp
  · rw [linearDeviationAbs, statMean, List.sum_eq_zero]
    · simp
    · intro x hx
      obtain ⟨y, hy, rfl⟩ := List.mem_map.mp hx
      rw [hz y hy]; simp
  · obtain ⟨r, hr, hr2, -⟩ := (convex_p_spec deltas threshold).2.1 hth hne
    rw [hr]
    have : (deltas.filter fun d => d < threshold) = [] := by
      rw [List.filter_eq_nil_iff]
      intro d hd
      rw [hz d hd]
      simp only [decide_eq_true_eq, not_lt]
      exact hth.le
    rw [this, List.length_nil, Nat.cast_zero] at hr2
    rcases mul_eq_zero.mp hr2 with h | h
    · rw [h]
    · exact absurd (by exact_mod_cast h) (List.length_pos_iff.mpr hne).ne'

/-- A convex function, for the hypotheses above. -/
theorem square_convex : ConvexFn 1 fun x => x.getD 0 0 ^ 2 := by
  intro a x y hx hy h0 h1
  match x, y, hx, hy with
  | [u], [v], _, _ =>
    simp only [mix, List.zipWith_cons_cons, List.zipWith_nil_left, List.getD_cons_zero]
    nlinarith [mul_nonneg (mul_nonneg h0 (sub_nonneg.mpr h1)) (sq_nonneg (u - v))]

/-- An affine function, for the hypotheses above. -/
theorem line_affine : AffineFn 1 fun x => 3 * x.getD 0 0 + 2 := by
  intro a x y hx hy _ _
  match x, y, hx, hy with
  | [u], [v], _, _ =>
    simp only [mix, List.zipWith_cons_cons, List.zipWith_nil_left, List.getD_cons_zero]
    ring

/-- A design of squares. -/
def exDesign : List ElaIndividual := [⟨[0], 0⟩, ⟨[2], 4⟩, ⟨[3], 9⟩]

example : EvaluatedDesign 1 (fun x => x.getD 0 0 ^ 2) exDesign := by
  intro ind h
  simp only [exDesign, List.mem_cons, List.not_mem_nil, or_false] at h
  rcases h with rfl | rfl | rfl <;> exact ⟨rfl, by norm_num⟩
example : GoodDraw 3 ⟨0, 2, 1/3⟩ := by unfold GoodDraw; norm_num
example : elaInit (fun x => .ok (x.getD 0 0 ^ 2)) exDesign 2 (fun i => ⟨i, 2, 1/3⟩) = .ok [-2, -2/9] := by decide +kernel
example : convexP [-2, -2/9, 0, 1] (-1/1000) = .ok (1/2) := by decide +kernel
example : linearP [0, 0, 0] (-1/1000) = .ok 0 := by decide +kernel

end Leap
