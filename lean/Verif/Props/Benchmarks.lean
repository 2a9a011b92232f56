import Mathlib.Algebra.BigOperators.Fin
import Mathlib.Algebra.Order.BigOperators.Group.Finset
import Mathlib.Algebra.Order.BigOperators.Ring.Finset
import Mathlib.Tactic.Linarith
import Mathlib.Tactic.FieldSimp
import Mathlib.Tactic.Ring
import Mathlib.Tactic.Positivity
import Mathlib.Tactic.FinCases
import Verif.Model.Benchmarks

/-!
# C72: the real-valued benchmark functions have the advertised formulas and optima

A vector is a function `x : Fin n → ℝ`; `List.ofFn x` is the Python sequence.
-/

namespace Leap

theorem sum_map_ofFn {n : Nat} (x : Fin n → ℝ) (f : ℝ → ℝ) : ((List.ofFn x).map f).sum = ∑ i, f (x i) := by
  rw [List.map_ofFn, List.sum_ofFn]
  rfl

theorem zipIdx_map_ofFn {n : Nat} {β : Type} (x : Fin n → ℝ) (g : ℝ × Nat → β) :
    (List.ofFn x).zipIdx.map g = List.ofFn fun i => g (x i, i.1) := by
  apply List.ext_getElem
  · simp
  · intro i h1 h2
    simp

theorem foldl_add_sum {α : Type} (l : List α) (f : α → ℝ) (a : ℝ) :
    l.foldl (fun acc y => acc + f y) a = a + (l.map f).sum := by
  induction l generalizing a with
  | nil => simp
  | cons b l ih => simp [ih, add_assoc]

theorem sum_sq_zero {n : Nat} (x : Fin n → ℝ) (h : ∑ i, x i ^ 2 = 0) : x = 0 := by
  funext i
  have := (Finset.sum_eq_zero_iff_of_nonneg (fun i _ => sq_nonneg (x i))).1 h i (Finset.mem_univ i)
  simpa using this

/-- **C72** (sphere). The sum of squares; the only minimum is the origin, with value 0. -/
theorem spheroid_spec {n : Nat} (x : Fin n → ℝ) :
    spheroid (.array (List.ofFn x)) = .ok (∑ i, x i ^ 2) ∧ spheroid (.list (List.ofFn x)) = .ok (∑ i, x i ^ 2) ∧
    0 ≤ ∑ i, x i ^ 2 ∧ (∑ i, x i ^ 2 = 0 ↔ x = 0) := by
  refine ⟨?_, ?_, Finset.sum_nonneg fun i _ => sq_nonneg _, sum_sq_zero x, by rintro rfl; simp⟩
  · simp only [spheroid, sum_map_ofFn]
  · simp only [spheroid]
    rw [foldl_add_sum, sum_map_ofFn, zero_add]

/-- **C72** (Rastrigin). The advertised formula, for arrays and lists; with `a ≥ 0` the only minimum is the origin, with
value 0. -/
theorem rastrigin_spec {n : Nat} (a : ℝ) (ha : 0 ≤ a) (x : Fin n → ℝ) :
    ∃ v, v = a * n + ∑ i, (x i ^ 2 - a * Real.cos (2 * Real.pi * x i)) ∧
      rastrigin a (.array (List.ofFn x)) = .ok v ∧ rastrigin a (.list (List.ofFn x)) = .ok v ∧
      0 ≤ v ∧ (v = 0 ↔ x = 0) := by
  refine ⟨_, rfl, ?_, ?_, ?_⟩
  · simp only [rastrigin, sum_map_ofFn, List.length_ofFn]
  · simp only [rastrigin]
    rw [foldl_add_sum, sum_map_ofFn, zero_add, List.length_ofFn]
  · have hrw : a * n + ∑ i, (x i ^ 2 - a * Real.cos (2 * Real.pi * x i)) =
        ∑ i, x i ^ 2 + ∑ i, a * (1 - Real.cos (2 * Real.pi * x i)) := by
      rw [← Finset.sum_add_distrib]
      have : a * n = ∑ _i : Fin n, a := by simp [mul_comm]
      rw [this, ← Finset.sum_add_distrib]
      apply Finset.sum_congr rfl
      intro i _
      ring
    have h1 : 0 ≤ ∑ i, x i ^ 2 := Finset.sum_nonneg fun i _ => sq_nonneg _
    have h2 : 0 ≤ ∑ i, a * (1 - Real.cos (2 * Real.pi * x i)) :=
      Finset.sum_nonneg fun i _ => mul_nonneg ha (by linarith [Real.cos_le_one (2 * Real.pi * x i)])
    rw [hrw]
    refine ⟨by linarith, fun h => sum_sq_zero x (by linarith), ?_⟩
    rintro rfl
    simp

/-- **C72** (Rosenbrock). The advertised formula, the same for arrays and lists; from two dimensions on the only minimum is
the vector of ones, with value 0. In one dimension the function is 0 everywhere. -/
theorem rosenbrock_spec {n : Nat} (x : Fin (n + 1) → ℝ) :
    ∃ v, v = ∑ i : Fin n, (100 * (x i.succ - x i.castSucc ^ 2) ^ 2 + (x i.castSucc - 1) ^ 2) ∧
      rosenbrock (.array (List.ofFn x)) = .ok v ∧ rosenbrock (.list (List.ofFn x)) = .ok v ∧
      0 ≤ v ∧ (0 < n → (v = 0 ↔ ∀ i, x i = 1)) ∧ (n = 0 → v = 0) := by
  refine ⟨_, rfl, ?_, ?_, ?_, ?_, ?_⟩
  · simp only [rosenbrock]
    rw [← List.sum_ofFn]
    congr 2
    apply List.ext_getElem
    · simp
    · intro i h1 h2
      rw [List.getElem_zipWith, List.getElem_drop, List.getElem_dropLast, List.getElem_ofFn, List.getElem_ofFn,
        List.getElem_ofFn]
      have e : (⟨1 + i, by simp at h2; omega⟩ : Fin (n + 1)) = Fin.succ ⟨i, by simpa using h2⟩ := by
        apply Fin.ext
        simp [add_comm]
      rw [e]
      rfl
  · simp only [rosenbrock]
    rw [foldl_add_sum, zero_add, ← List.sum_ofFn]
    congr 2
    apply List.ext_getElem
    · simp
    · intro i h1 h2
      have h3 : i < n := by simpa using h2
      rw [List.getElem_map, List.getElem_zipIdx, List.getElem_dropLast, List.getElem_ofFn, List.getElem_ofFn,
        List.getD_eq_getElem?_getD, List.getElem?_eq_getElem (by simp; omega), List.getElem_ofFn]
      have e : (⟨0 + i + 1, by omega⟩ : Fin (n + 1)) = Fin.succ ⟨i, h3⟩ := by
        apply Fin.ext
        simp
      simp only [Option.getD_some]
      rw [e]
      rfl
  · exact Finset.sum_nonneg fun i _ => by positivity
  · intro hn
    constructor
    · intro h
      have hall := fun i => (Finset.sum_eq_zero_iff_of_nonneg (fun (i : Fin n) _ => by positivity)).1 h i (Finset.mem_univ i)
      have h1 : ∀ i : Fin n, x i.castSucc = 1 := by
        intro i
        have := hall i
        have h' : (x i.castSucc - 1) ^ 2 = 0 := by
          have ha : 0 ≤ 100 * (x i.succ - x i.castSucc ^ 2) ^ 2 := by positivity
          have hb : 0 ≤ (x i.castSucc - 1) ^ 2 := by positivity
          linarith
        have := pow_eq_zero_iff (two_ne_zero) |>.1 h'
        linarith
      have h2 : ∀ i : Fin n, x i.succ = 1 := by
        intro i
        have := hall i
        rw [h1 i] at this
        have h' : (x i.succ - 1 ^ 2) ^ 2 = 0 := by linarith
        have := pow_eq_zero_iff (two_ne_zero) |>.1 h'
        linarith
      intro i
      rcases Fin.eq_zero_or_eq_succ i with rfl | ⟨j, rfl⟩
      · have := h1 ⟨0, hn⟩
        exact this
      · exact h2 j
    · intro h
      simp [h]
  · rintro rfl
    simp

/-- **C72** (step). The sum of the floors: constant on unit cubes; within the traditional bounds it lies between `-6n` and `5n`,
and the maximum is attained exactly where every coordinate is at least 5. -/
theorem step_spec {n : Nat} (x : Fin n → ℝ) :
    stepFunction (.array (List.ofFn x)) = .ok (∑ i, (⌊x i⌋ : ℝ)) ∧
    stepFunction (.list (List.ofFn x)) = .ok (∑ i, (⌊x i⌋ : ℝ)) ∧
    ((∀ i, -5.12 ≤ x i ∧ x i ≤ 5.12) →
      -6 * (n : ℝ) ≤ ∑ i, (⌊x i⌋ : ℝ) ∧ ∑ i, (⌊x i⌋ : ℝ) ≤ 5 * n ∧ (∑ i, (⌊x i⌋ : ℝ) = 5 * n ↔ ∀ i, 5 ≤ x i)) := by
  refine ⟨by simp only [stepFunction, Phenome.elements, sum_map_ofFn], by simp only [stepFunction, Phenome.elements, sum_map_ofFn],
    ?_⟩
  intro hb
  have hlo : ∀ i, (-6 : ℝ) ≤ (⌊x i⌋ : ℝ) := by
    intro i
    have : (-6 : ℤ) ≤ ⌊x i⌋ := Int.le_floor.2 (by have := (hb i).1; push_cast; linarith)
    exact_mod_cast this
  have hhi : ∀ i, (⌊x i⌋ : ℝ) ≤ 5 := by
    intro i
    have : ⌊x i⌋ < 6 := Int.floor_lt.2 (by have := (hb i).2; push_cast; linarith)
    have : ⌊x i⌋ ≤ 5 := by omega
    exact_mod_cast this
  have c1 : -6 * (n : ℝ) = ∑ _i : Fin n, (-6 : ℝ) := by simp [mul_comm]
  have c2 : 5 * (n : ℝ) = ∑ _i : Fin n, (5 : ℝ) := by simp [mul_comm]
  refine ⟨?_, ?_, ?_⟩
  · rw [c1]; exact Finset.sum_le_sum fun i _ => hlo i
  · rw [c2]; exact Finset.sum_le_sum fun i _ => hhi i
  · rw [c2, Finset.sum_eq_sum_iff_of_le fun i _ => hhi i]
    constructor
    · intro h i
      have := h i (Finset.mem_univ i)
      have h' := Int.floor_le (x i)
      rw [this] at h'
      exact h'
    · intro h i _
      apply le_antisymm (hhi i)
      have : (5 : ℤ) ≤ ⌊x i⌋ := Int.le_floor.2 (by push_cast; exact h i)
      exact_mod_cast this

/-- **C72** (noisy quartic). The weighted sum of fourth powers plus one draw of noise per dimension; without the noise its only
minimum is the origin. -/
theorem noisy_quartic_spec {n : Nat} (x noise : Fin n → ℝ) :
    noisyQuartic (List.ofFn noise) (.array (List.ofFn x)) = .ok (∑ i : Fin n, ((i : ℝ) + 1) * x i ^ 4 + ∑ i, noise i) ∧
    0 ≤ ∑ i : Fin n, ((i : ℝ) + 1) * x i ^ 4 ∧ (∑ i : Fin n, ((i : ℝ) + 1) * x i ^ 4 = 0 ↔ x = 0) := by
  have hnn : ∀ i : Fin n, 0 ≤ ((i : ℝ) + 1) * x i ^ 4 := fun i => by positivity
  refine ⟨?_, Finset.sum_nonneg fun i _ => hnn i, ?_, ?_⟩
  · simp only [noisyQuartic, Phenome.elements, zipIdx_map_ofFn, List.sum_ofFn]
  · intro h
    funext i
    have := (Finset.sum_eq_zero_iff_of_nonneg (fun i _ => hnn i)).1 h i (Finset.mem_univ i)
    have hpos : ((i : ℝ) + 1) ≠ 0 := by positivity
    rcases mul_eq_zero.1 this with h' | h'
    · exact absurd h' hpos
    · simpa using h'
  · rintro rfl
    simp

/-- Where the `j`-th foxhole is: on a grid of five by five, from (-32, -32) to (32, 32), row by row. -/
noncomputable def Spec.holeAt (j : Nat) : ℝ × ℝ := (16 * ((j % 5 : Nat) : ℝ) - 32, 16 * ((j / 5 : Nat) : ℝ) - 32)

theorem shekelPoints_grid : ∀ j < 25, shekelPoints.1.getD j 0 = 16 * ((j % 5 : Nat) : Int) - 32 ∧ shekelPoints.2.getD j 0 = 16 * ((j / 5 : Nat) : Int) - 32 := by decide

theorem holeAt_eq {j : Nat} (hj : j < 25) : Spec.holeAt j = ((shekelPoints.1.getD j 0 : ℝ), (shekelPoints.2.getD j 0 : ℝ)) := by
  rw [(shekelPoints_grid j hj).1, (shekelPoints_grid j hj).2, Spec.holeAt]
  push_cast
  rfl

/-- **C72** (Shekel's foxholes). The advertised formula. Only two-dimensional points are accepted. With positive parameters the value lies strictly
between 0 and `k`, and in the `j`-th foxhole it is below `c_j`. -/
theorem shekel_spec (k : ℝ) (hk : 0 < k) (c : List ℝ) (hc : c.length = 25) (hpos : ∀ j < 25, 0 < c.getD j 0) :
    (∀ x : List ℝ, x.length ≠ 2 → shekel k c (.array x) = .error .assertionError) ∧
    (∀ x0 x1, shekel k c (.array [x0, x1]) =
      .ok (1 / (1 / k + ∑ j : Fin 25, 1 / (c.getD j 0 + (x0 - (Spec.holeAt j).1) ^ 6 + (x1 - (Spec.holeAt j).2) ^ 6)))) ∧
    (∀ x0 x1, ∃ v, shekel k c (.array [x0, x1]) = .ok v ∧ 0 < v ∧ v < k) ∧
    (∀ j < 25, ∃ v, shekel k c (.array [(Spec.holeAt j).1, (Spec.holeAt j).2]) = .ok v ∧ v < c.getD j 0) := by
  have hterm : ∀ (x0 x1 : ℝ), ∀ j < 25,
      0 < 1 / (c.getD j 0 + (x0 - shekelPoints.1.getD j 0) ^ 6 + (x1 - shekelPoints.2.getD j 0) ^ 6) := by
    intro x0 x1 j hj
    have := hpos j hj
    positivity
  have hsumpos : ∀ (x0 x1 : ℝ), 0 < ((List.range 25).map fun j =>
      1 / (c.getD j 0 + (x0 - shekelPoints.1.getD j 0) ^ 6 + (x1 - shekelPoints.2.getD j 0) ^ 6)).sum := by
    intro x0 x1
    apply List.sum_pos
    · intro y hy
      obtain ⟨j, hj, rfl⟩ := List.mem_map.1 hy
      exact hterm x0 x1 j (List.mem_range.1 hj)
    · simp
  refine ⟨?_, ?_, ?_, ?_⟩
  · intro x hx
    simp only [shekel, Phenome.elements]
    split
    · simp at hx
    · rfl
  · intro x0 x1
    simp only [shekel, Phenome.elements]
    rw [if_pos (by omega)]
    congr 4
    rw [← List.map_coe_finRange_eq_range, List.map_map]
    refine List.map_congr_left fun j _ => ?_
    simp only [Function.comp_apply, holeAt_eq j.2]
  · intro x0 x1
    refine ⟨_, by simp only [shekel, Phenome.elements]; rw [if_pos (by omega)], ?_, ?_⟩
    · have := hsumpos x0 x1
      positivity
    · have := hsumpos x0 x1
      rw [div_lt_iff₀ (by positivity), mul_add]
      have h1 : k * (1 / k) = 1 := by field_simp
      rw [h1]
      have := mul_pos hk this
      linarith
  · intro j hj
    rw [holeAt_eq hj]
    refine ⟨_, by simp only [shekel, Phenome.elements]; rw [if_pos (by omega)], ?_⟩
    set x0 : ℝ := (shekelPoints.1.getD j 0 : ℝ)
    set x1 : ℝ := (shekelPoints.2.getD j 0 : ℝ)
    have hj0 := hpos j hj
    have hle : 1 / c.getD j 0 ≤ ((List.range 25).map fun j =>
        1 / (c.getD j 0 + (x0 - shekelPoints.1.getD j 0) ^ 6 + (x1 - shekelPoints.2.getD j 0) ^ 6)).sum := by
      have := List.single_le_sum (l := (List.range 25).map fun j =>
        1 / (c.getD j 0 + (x0 - shekelPoints.1.getD j 0) ^ 6 + (x1 - shekelPoints.2.getD j 0) ^ 6))
        (fun y hy => by
          obtain ⟨i, hi, rfl⟩ := List.mem_map.1 hy
          exact (hterm x0 x1 i (List.mem_range.1 hi)).le)
        _ (List.mem_map.2 ⟨j, List.mem_range.2 hj, rfl⟩)
      simpa [x0, x1] using this
    have hk' : 0 < 1 / k := by positivity
    have hpos' : 0 < 1 / c.getD j 0 := by positivity
    rw [div_lt_iff₀ (by linarith)]
    have h1 : c.getD j 0 * (1 / c.getD j 0) = 1 := by field_simp
    nlinarith

theorem abs_prod_cos_le {n : Nat} (f : Fin n → ℝ) : (List.ofFn fun i => Real.cos (f i)).prod ≤ 1 := by
  rw [List.prod_ofFn]
  apply le_trans (le_abs_self _)
  rw [Finset.abs_prod]
  exact Finset.prod_le_one (fun i _ => abs_nonneg _) fun i _ => Real.abs_cos_le_one _

/-- **C72** (Griewank). The advertised formula on arrays (lists are refused); the only minimum is the origin, with value 0. -/
theorem griewank_spec {n : Nat} (x : Fin n → ℝ) :
    ∃ v, v = ∑ i, x i ^ 2 / 4000 - ∏ i : Fin n, Real.cos (x i / Real.sqrt ((i : ℝ) + 1)) + 1 ∧
      griewank (.array (List.ofFn x)) = .ok v ∧ griewank (.list (List.ofFn x)) = .error .valueError ∧
      0 ≤ v ∧ (v = 0 ↔ x = 0) := by
  refine ⟨_, rfl, ?_, rfl, ?_⟩
  · simp only [griewank, needArray, sum_map_ofFn, zipIdx_map_ofFn, List.prod_ofFn]
  · have h1 := abs_prod_cos_le fun i : Fin n => x i / Real.sqrt ((i : ℝ) + 1)
    rw [List.prod_ofFn] at h1
    have h2 : 0 ≤ ∑ i, x i ^ 2 / 4000 := Finset.sum_nonneg fun i _ => by positivity
    refine ⟨by linarith, ?_, ?_⟩
    · intro h
      have h3 : ∑ i, x i ^ 2 / 4000 = 0 := by linarith
      apply sum_sq_zero
      simp only [div_eq_mul_inv] at h3
      rw [← Finset.sum_mul] at h3
      exact (mul_eq_zero.1 h3).resolve_right (by norm_num)
    · rintro rfl
      simp

/-- **C72** (Ackley). The advertised formula on non-empty arrays; with `a, b > 0` the only minimum is the origin, with value 0. An empty
array raises. -/
theorem ackley_spec {n : Nat} (hn : 0 < n) (a b c : ℝ) (ha : 0 < a) (hb : 0 < b) (x : Fin n → ℝ) :
    ∃ v, v = -a * Real.exp (-b * Real.sqrt (1 / n * ∑ i, x i ^ 2)) - Real.exp (1 / n * ∑ i, Real.cos (c * x i)) + a + Real.exp 1 ∧
      ackley a b c (.array (List.ofFn x)) = .ok v ∧ ackley a b c (.list (List.ofFn x)) = .error .valueError ∧
      ackley a b c (.array []) = .error .zeroDivisionError ∧ 0 ≤ v ∧ (v = 0 ↔ x = 0) := by
  have hn' : (0 : ℝ) < n := by exact_mod_cast hn
  refine ⟨_, rfl, ?_, rfl, rfl, ?_⟩
  · simp only [ackley, needArray, sum_map_ofFn, List.length_ofFn]
    rw [if_neg (by omega)]
  · have h1 : 1 / (n : ℝ) * ∑ i, Real.cos (c * x i) ≤ 1 := by
      rw [one_div, inv_mul_le_iff₀ hn', mul_one]
      calc ∑ i, Real.cos (c * x i) ≤ ∑ _i : Fin n, (1 : ℝ) := Finset.sum_le_sum fun i _ => Real.cos_le_one _
        _ = n := by simp
    have h2 : Real.exp (1 / (n : ℝ) * ∑ i, Real.cos (c * x i)) ≤ Real.exp 1 := Real.exp_le_exp.2 h1
    have h3 : 0 ≤ Real.sqrt (1 / (n : ℝ) * ∑ i, x i ^ 2) := Real.sqrt_nonneg _
    have h4 : Real.exp (-b * Real.sqrt (1 / (n : ℝ) * ∑ i, x i ^ 2)) ≤ 1 := Real.exp_le_one_iff.2 (by nlinarith)
    refine ⟨by nlinarith, ?_, ?_⟩
    · intro h
      have h5 : Real.exp (-b * Real.sqrt (1 / (n : ℝ) * ∑ i, x i ^ 2)) = 1 := by
        apply le_antisymm h4
        nlinarith
      rw [Real.exp_eq_one_iff] at h5
      have h6 : Real.sqrt (1 / (n : ℝ) * ∑ i, x i ^ 2) = 0 := by
        rcases mul_eq_zero.1 h5 with h' | h'
        · linarith
        · exact h'
      have h7 : 0 ≤ 1 / (n : ℝ) * ∑ i, x i ^ 2 := mul_nonneg (by positivity) (Finset.sum_nonneg fun i _ => sq_nonneg _)
      rw [Real.sqrt_eq_zero h7] at h6
      rcases mul_eq_zero.1 h6 with h' | h'
      · have : (0 : ℝ) < 1 / n := by positivity
        linarith
      · exact sum_sq_zero x h'
    · rintro rfl
      simp [hn'.ne']
      ring

/-- **C72** (Weierstrass). The Fourier sum with `kmax` terms (from 0 to `kmax - 1`); for an odd `b` and `a ≥ 0` it is never
negative. With at least one term it is 0 exactly at the vectors of integers, so in the traditional box `[-0.5, 0.5]` exactly at
the origin. -/
theorem weierstrass_spec {n : Nat} (kmax : Nat) (a : ℝ) (ha : 0 ≤ a) (b : Nat) (hb : Odd b) (x : Fin n → ℝ) :
    ∃ v, v = ∑ i, (∑ k ∈ Finset.range kmax, a ^ k * Real.cos (2 * Real.pi * (b : ℝ) ^ k * (x i + 1 / 2))) -
        n * ∑ k ∈ Finset.range kmax, a ^ k * Real.cos (Real.pi * (b : ℝ) ^ k) ∧
      weierstrass kmax a b (.array (List.ofFn x)) = .ok v ∧ weierstrass kmax a b (.list (List.ofFn x)) = .error .valueError ∧
      0 ≤ v ∧ (x = 0 → v = 0) ∧ (0 < kmax → (v = 0 ↔ ∀ i, ∃ m : ℤ, x i = m)) ∧
      (0 < kmax → (∀ i, |x i| ≤ 1 / 2) → (v = 0 ↔ x = 0)) := by
  have hterm : ∀ angle : Nat → ℝ, weierstrassTerm kmax a angle = ∑ k ∈ Finset.range kmax, a ^ k * Real.cos (angle k) := by
    intro angle
    unfold weierstrassTerm
    rw [foldl_add_sum, zero_add]
    rw [Finset.sum_range, ← List.sum_ofFn]
    congr 1
    apply List.ext_getElem
    · simp
    · intro i h1 h2
      simp
  have hodd : ∀ k : Nat, Real.cos (Real.pi * (b : ℝ) ^ k) = -1 := by
    intro k
    obtain ⟨m, hm⟩ := hb.pow (n := k)
    have : Real.pi * (b : ℝ) ^ k = Real.pi + m * (2 * Real.pi) := by
      have h : ((b : ℝ)) ^ k = 2 * m + 1 := by exact_mod_cast hm
      rw [h]
      ring
    rw [this, Real.cos_add_nat_mul_two_pi, Real.cos_pi]
  have hhalf : (0.5 : ℝ) = 1 / 2 := by norm_num
  have hint : ∀ (y : ℝ) (m : ℤ), y = m → ∀ k : Nat, Real.cos (2 * Real.pi * (b : ℝ) ^ k * (y + 1 / 2)) = -1 := by
    rintro y m rfl k
    have : 2 * Real.pi * (b : ℝ) ^ k * ((m : ℝ) + 1 / 2) =
        Real.pi * (b : ℝ) ^ k + ((m * (b : ℤ) ^ k : ℤ) : ℝ) * (2 * Real.pi) := by push_cast; ring
    rw [this, Real.cos_add_int_mul_two_pi, hodd]
  have hterms : ∀ y : ℝ, 0 ≤ ∑ k ∈ Finset.range kmax, a ^ k * (Real.cos (2 * Real.pi * (b : ℝ) ^ k * (y + 1 / 2)) + 1) := by
    intro y
    apply Finset.sum_nonneg
    intro k _
    have := Real.neg_one_le_cos (2 * Real.pi * (b : ℝ) ^ k * (y + 1 / 2))
    exact mul_nonneg (pow_nonneg ha k) (by linarith)
  have hsplit : ∑ i, (∑ k ∈ Finset.range kmax, a ^ k * Real.cos (2 * Real.pi * (b : ℝ) ^ k * (x i + 1 / 2))) -
        n * ∑ k ∈ Finset.range kmax, a ^ k * Real.cos (Real.pi * (b : ℝ) ^ k) =
      ∑ i, ∑ k ∈ Finset.range kmax, a ^ k * (Real.cos (2 * Real.pi * (b : ℝ) ^ k * (x i + 1 / 2)) + 1) := by
    have h2 : (n : ℝ) * ∑ k ∈ Finset.range kmax, a ^ k * Real.cos (Real.pi * (b : ℝ) ^ k) =
        ∑ _i : Fin n, ∑ k ∈ Finset.range kmax, a ^ k * Real.cos (Real.pi * (b : ℝ) ^ k) := by simp
    rw [h2, ← Finset.sum_sub_distrib]
    refine Finset.sum_congr rfl fun i _ => ?_
    rw [← Finset.sum_sub_distrib]
    refine Finset.sum_congr rfl fun k _ => ?_
    rw [hodd]; ring
  have hiff : 0 < kmax → (∑ i, (∑ k ∈ Finset.range kmax, a ^ k * Real.cos (2 * Real.pi * (b : ℝ) ^ k * (x i + 1 / 2))) -
        n * ∑ k ∈ Finset.range kmax, a ^ k * Real.cos (Real.pi * (b : ℝ) ^ k) = 0 ↔ ∀ i, ∃ m : ℤ, x i = m) := by
    intro hk
    rw [hsplit, Finset.sum_eq_zero_iff_of_nonneg fun i _ => hterms (x i)]
    constructor
    · intro h i
      have h0 := h i (Finset.mem_univ i)
      rw [Finset.sum_eq_zero_iff_of_nonneg] at h0
      · have h00 := h0 0 (Finset.mem_range.2 hk)
        simp only [pow_zero, one_mul, mul_one] at h00
        have hc : Real.cos (2 * Real.pi * x i) = 1 := by
          have : 2 * Real.pi * (x i + 1 / 2) = 2 * Real.pi * x i + Real.pi := by ring
          rw [this, Real.cos_add_pi] at h00
          linarith
        obtain ⟨m, hm⟩ := (Real.cos_eq_one_iff _).1 hc
        refine ⟨m, ?_⟩
        have hpi := Real.pi_pos
        have : 2 * Real.pi * (x i - m) = 0 := by linarith
        rcases mul_eq_zero.1 this with h | h
        · linarith
        · linarith
      · intro k _
        have := Real.neg_one_le_cos (2 * Real.pi * (b : ℝ) ^ k * (x i + 1 / 2))
        exact mul_nonneg (pow_nonneg ha k) (by linarith)
    · intro h i _
      obtain ⟨m, hm⟩ := h i
      apply Finset.sum_eq_zero
      intro k _
      rw [hint (x i) m hm k]; ring
  refine ⟨_, rfl, ?_, rfl, ?_, ?_, hiff, ?_⟩
  · simp only [weierstrass, needArray]
    rw [foldl_add_sum, zero_add, sum_map_ofFn, List.length_ofFn]
    simp only [hterm, hhalf]
  · have h1 : ∀ y : ℝ, ∑ k ∈ Finset.range kmax, a ^ k * Real.cos (Real.pi * (b : ℝ) ^ k) ≤
        ∑ k ∈ Finset.range kmax, a ^ k * Real.cos (2 * Real.pi * (b : ℝ) ^ k * (y + 1 / 2)) := by
      intro y
      apply Finset.sum_le_sum
      intro k _
      rw [hodd]
      exact mul_le_mul_of_nonneg_left (Real.neg_one_le_cos _) (pow_nonneg ha k)
    have h2 : (n : ℝ) * ∑ k ∈ Finset.range kmax, a ^ k * Real.cos (Real.pi * (b : ℝ) ^ k) =
        ∑ _i : Fin n, ∑ k ∈ Finset.range kmax, a ^ k * Real.cos (Real.pi * (b : ℝ) ^ k) := by simp
    rw [h2, sub_nonneg]
    exact Finset.sum_le_sum fun i _ => h1 (x i)
  · rintro rfl
    have : ∀ k : Nat, 2 * Real.pi * (b : ℝ) ^ k * (0 + 1 / 2) = Real.pi * (b : ℝ) ^ k := fun k => by ring
    simp only [Pi.zero_apply, this]
    simp
  · intro hk hbox
    rw [hiff hk]
    constructor
    · intro h
      funext i
      obtain ⟨m, hm⟩ := h i
      have hb := abs_le.1 (hbox i)
      have h1 : (m : ℝ) < 1 := by rw [← hm]; linarith [hb.2]
      have h2 : (-1 : ℝ) < m := by rw [← hm]; linarith [hb.1]
      have h1' : m < 1 := by exact_mod_cast h1
      have h2' : -1 < m := by exact_mod_cast h2
      have : m = 0 := by omega
      rw [hm, this]; simp
    · rintro rfl i
      exact ⟨0, by simp⟩

theorem langermann_fold (ps : List (ℝ × List ℝ)) (x : List ℝ) (r : ℝ) :
    ps.foldl (fun result p =>
      result - p.1 * Real.exp (-1 / Real.pi * squaredDistance x p.2) * Real.cos (Real.pi * squaredDistance x p.2)) r =
    r - (ps.map fun p =>
      p.1 * Real.exp (-1 / Real.pi * squaredDistance x p.2) * Real.cos (Real.pi * squaredDistance x p.2)).sum := by
  induction ps generalizing r with
  | nil => simp
  | cons p ps ih =>
    rw [List.foldl_cons, ih, List.map_cons, List.sum_cons]
    ring

theorem squaredDistance_ofFn {d : Nat} (x p : Fin d → ℝ) :
    squaredDistance (List.ofFn x) (List.ofFn p) = ∑ j, (x j - p j) ^ 2 := by
  unfold squaredDistance
  rw [← List.sum_ofFn]
  congr 1
  apply List.ext_getElem
  · simp
  · intro i h1 h2
    simp

/-- **C72** (Langermann). The advertised formula for points of the matrix's dimension, others are refused; the value never
exceeds the sum of the constants' magnitudes. -/
theorem langermann_spec {m d : Nat} (c : Fin m → ℝ) (a : Fin m → Fin d → ℝ) (x : Fin d → ℝ) :
    ∃ v, v = -∑ i, c i * Real.exp (-(1 / Real.pi) * ∑ j, (x j - a i j) ^ 2) * Real.cos (Real.pi * ∑ j, (x j - a i j) ^ 2) ∧
      langermann (List.ofFn c) (List.ofFn fun i => List.ofFn (a i)) d (.array (List.ofFn x)) = .ok v ∧
      |v| ≤ ∑ i, |c i| ∧
      (∀ y : List ℝ, y.length ≠ d →
        langermann (List.ofFn c) (List.ofFn fun i => List.ofFn (a i)) d (.array y) = .error .valueError) ∧
      (∀ y, langermann (List.ofFn c) (List.ofFn fun i => List.ofFn (a i)) d (.list y) = .error .valueError) := by
  refine ⟨_, rfl, ?_, ?_, ?_, fun _ => rfl⟩
  · simp only [langermann, needArray]
    rw [if_neg (by simp), if_neg (by simp), langermann_fold, zero_sub]
    congr 2
    rw [← List.sum_ofFn]
    congr 1
    apply List.ext_getElem
    · simp
    · intro i h1 h2
      simp [squaredDistance_ofFn, neg_div]
  · rw [abs_neg]
    apply le_trans (Finset.abs_sum_le_sum_abs _ _)
    apply Finset.sum_le_sum
    intro i _
    rw [abs_mul, abs_mul]
    have h1 : |Real.exp (-(1 / Real.pi) * ∑ j, (x j - a i j) ^ 2)| ≤ 1 := by
      rw [abs_of_pos (Real.exp_pos _), Real.exp_le_one_iff]
      have : 0 ≤ ∑ j, (x j - a i j) ^ 2 := Finset.sum_nonneg fun j _ => sq_nonneg _
      have hpi : 0 < 1 / Real.pi := by positivity
      nlinarith
    have h2 := Real.abs_cos_le_one (Real.pi * ∑ j, (x j - a i j) ^ 2)
    have h3 := abs_nonneg (c i)
    have h4 := abs_nonneg (Real.exp (-(1 / Real.pi) * ∑ j, (x j - a i j) ^ 2))
    have h5 := abs_nonneg (Real.cos (Real.pi * ∑ j, (x j - a i j) ^ 2))
    calc |c i| * |Real.exp (-(1 / Real.pi) * ∑ j, (x j - a i j) ^ 2)| * |Real.cos (Real.pi * ∑ j, (x j - a i j) ^ 2)|
        ≤ |c i| * 1 * 1 := by gcongr
      _ = |c i| := by ring
  · intro y hy
    simp only [langermann, needArray]
    rw [if_pos hy]

/-- **C72** (Lunacek). The double funnel plus ripples; with `d, s ≥ 0` its minimum is 0, at the vector of `mu1`, and nowhere
else when `d > 0`. -/
theorem lunacek_spec {n : Nat} (d mu1 mu2 s : ℝ) (hd : 0 < d) (hs : 0 ≤ s) (x : Fin n → ℝ) :
    ∃ v, v = min (∑ i, (x i - mu1) ^ 2) (d * n + s * ∑ i, (x i - mu2) ^ 2) +
        10 * ∑ i, (1 - Real.cos (2 * Real.pi * (x i - mu1))) ∧
      lunacek d mu1 mu2 s (.array (List.ofFn x)) = .ok v ∧ lunacek d mu1 mu2 s (.list (List.ofFn x)) = .error .valueError ∧
      0 ≤ v ∧ (v = 0 ↔ ∀ i, x i = mu1) := by
  refine ⟨_, rfl, ?_, rfl, ?_⟩
  · simp only [lunacek, needArray, sum_map_ofFn, List.length_ofFn]
  · have h1 : 0 ≤ ∑ i, (x i - mu1) ^ 2 := Finset.sum_nonneg fun i _ => sq_nonneg _
    have h2 : 0 ≤ ∑ i, (x i - mu2) ^ 2 := Finset.sum_nonneg fun i _ => sq_nonneg _
    have h3 : 0 ≤ d * n := by positivity
    have h4 : 0 ≤ d * n + s * ∑ i, (x i - mu2) ^ 2 := add_nonneg h3 (mul_nonneg hs h2)
    have h5 : 0 ≤ ∑ i, (1 - Real.cos (2 * Real.pi * (x i - mu1))) :=
      Finset.sum_nonneg fun i _ => by linarith [Real.cos_le_one (2 * Real.pi * (x i - mu1))]
    have h6 := le_min h1 h4
    refine ⟨by linarith, ?_, ?_⟩
    · intro h
      have h7 : min (∑ i, (x i - mu1) ^ 2) (d * n + s * ∑ i, (x i - mu2) ^ 2) = 0 := by linarith
      rcases Nat.eq_zero_or_pos n with rfl | hn
      · exact fun i => i.elim0
      · have h8 : 0 < d * n + s * ∑ i, (x i - mu2) ^ 2 := by
          have : (0 : ℝ) < n := by exact_mod_cast hn
          have := mul_pos hd this
          have := mul_nonneg hs h2
          linarith
        have h9 : ∑ i, (x i - mu1) ^ 2 = 0 := by
          rcases min_choice (∑ i, (x i - mu1) ^ 2) (d * n + s * ∑ i, (x i - mu2) ^ 2) with h' | h'
          · rw [← h', h7]
          · linarith
        intro i
        have := congrFun (sum_sq_zero (fun i => x i - mu1) h9) i
        simp only [Pi.zero_apply] at this
        linarith
    · intro h
      simp only [h, sub_self]
      simp only [ne_eq, OfNat.ofNat_ne_zero, not_false_eq_true, zero_pow, Finset.sum_const_zero, mul_zero, Real.cos_zero, sub_self, add_zero]
      apply min_eq_left
      have : 0 ≤ ∑ _i : Fin n, (mu1 - mu2) ^ 2 := Finset.sum_nonneg fun _ _ => sq_nonneg _
      have := mul_nonneg hs this
      linarith

/-- **C72** (Lunacek). The inferred `s` is a positive factor below 1 for every dimension from 2 on; in one dimension it is
negative, and the square root that gives `mu_2` is then taken of a negative number. -/
theorem lunacek_default_s :
    (∀ n : Nat, 2 ≤ n → 0 < lunacekS n ∧ lunacekS n < 1) ∧ lunacekS 1 < 0 := by
  constructor
  · intro n hn
    have hn' : (2 : ℝ) ≤ n := by exact_mod_cast hn
    have h1 : (4.69 : ℝ) ≤ Real.sqrt (n + 20) := by
      apply Real.le_sqrt_of_sq_le
      norm_num
      linarith
    have h2 : (1 : ℝ) < 2 * Real.sqrt (n + 20) - 8.2 := by linarith
    have h3 : 1 / (2 * Real.sqrt (n + 20) - 8.2) < 1 := by
      rw [div_lt_one (by linarith)]
      exact h2
    have h4 : 0 < 1 / (2 * Real.sqrt (n + 20) - 8.2) := by
      apply div_pos one_pos
      linarith
    unfold lunacekS
    constructor
    · linarith
    · linarith
  · have h1 : Real.sqrt ((1 : Nat) + 20) < 4.59 := by
      rw [Real.sqrt_lt' (by norm_num)]
      norm_num
    have h0 : (4.5 : ℝ) ≤ Real.sqrt ((1 : Nat) + 20) := by
      apply Real.le_sqrt_of_sq_le
      norm_num
    have h2 : 0 < 2 * Real.sqrt ((1 : Nat) + 20) - 8.2 := by linarith
    have h3 : 1 < 1 / (2 * Real.sqrt ((1 : Nat) + 20) - 8.2) := by
      rw [lt_div_iff₀ h2]
      linarith
    unfold lunacekS
    linarith

/-- **C72** (Schwefel). The advertised formula on arrays; every coordinate contributes independently, and at most its own
magnitude either way. -/
theorem schwefel_spec {n : Nat} (alpha : ℝ) (x : Fin n → ℝ) :
    ∃ v, v = ∑ i, (-(x i) * Real.sin (Real.sqrt |x i|)) + alpha * n ∧
      schwefel alpha (.array (List.ofFn x)) = .ok v ∧ schwefel alpha (.list (List.ofFn x)) = .error .valueError ∧
      |v - alpha * n| ≤ ∑ i, |x i| := by
  refine ⟨_, rfl, ?_, rfl, ?_⟩
  · simp only [schwefel, needArray, sum_map_ofFn, List.length_ofFn]
  · rw [add_sub_cancel_right]
    apply le_trans (Finset.abs_sum_le_sum_abs _ _)
    apply Finset.sum_le_sum
    intro i _
    rw [abs_mul, abs_neg]
    have := Real.abs_sin_le_one (Real.sqrt |x i|)
    nlinarith [abs_nonneg (x i)]

/-- **C72** (Gaussian, disagreement). Width and height are checked and then ignored: every Gaussian problem has width 1 and
height 1, whatever was asked for.
Missing from the full claim: the documented width and height. -/
theorem gaussian_spec_partial {n : Nat} (width height : ℝ) (x : Fin n → ℝ) :
    (0 < width → gaussian width height (.array (List.ofFn x)) = .ok (Real.exp (-∑ i, x i ^ 2)) ∧
      gaussian width height (.list (List.ofFn x)) = .error .valueError) ∧
    (width ≤ 0 → ∀ y, gaussian width height y = .error .assertionError) ∧
    Real.exp (-∑ i, x i ^ 2) ≤ 1 ∧ (Real.exp (-∑ i, x i ^ 2) = 1 ↔ x = 0) := by
  refine ⟨?_, ?_, ?_, ?_⟩
  · intro h
    have h0 : gaussianInit width height = .ok (1, 1) := by
      unfold gaussianInit
      rw [if_pos h]
    constructor
    · simp only [gaussian, h0, gaussianEvaluate, needArray, sum_map_ofFn, div_one, one_mul]
    · simp only [gaussian, h0, gaussianEvaluate, needArray]
  · intro h y
    have h0 : gaussianInit width height = .error .assertionError := by
      unfold gaussianInit
      rw [if_neg (not_lt.2 h)]
    simp only [gaussian, h0]
  · rw [Real.exp_le_one_iff, neg_nonpos]
    exact Finset.sum_nonneg fun i _ => sq_nonneg _
  · rw [Real.exp_eq_one_iff, neg_eq_zero]
    exact ⟨sum_sq_zero x, by rintro rfl; simp⟩

/-- **C72** (Gaussian, disagreement). A Gaussian asked to have height 5 has value 1, not 5, at its centre, and the advertised
formula gives another value than the code for every width other than 1. -/
theorem gaussian_ignores_parameters :
    gaussian 1 5 (.array [0]) = .ok 1 ∧ gaussian 1 5 (.array [0]) ≠ .ok (5 * Real.exp (-(0 / 1) ^ 2)) ∧
    (∀ width : ℝ, 0 < width → width ≠ 1 → gaussian width 1 (.array [1]) ≠ .ok (1 * Real.exp (-(1 / width) ^ 2))) := by
  have key := fun (w h y : ℝ) (hw : 0 < w) => ((gaussian_spec_partial w h (fun _ : Fin 1 => y)).1 hw).1
  have e1 : gaussian 1 5 (.array [0]) = .ok 1 := by
    have := key 1 5 0 one_pos
    simpa using this
  refine ⟨e1, ?_, ?_⟩
  · rw [e1]
    intro h
    have := Except.ok.inj h
    norm_num at this
  · intro w hw hne h
    have h1 := key w 1 1 hw
    simp only [List.ofFn_succ, List.ofFn_zero, Finset.univ_unique, Finset.sum_singleton, one_pow] at h1
    rw [h1] at h
    have h2 := Except.ok.inj h
    rw [one_mul, Real.exp_eq_exp, neg_inj, one_div, inv_pow, eq_comm, inv_eq_one] at h2
    exact hne ((pow_eq_one_iff_of_nonneg hw.le (by norm_num)).1 h2)

theorem cos_eq_one_int (y : ℝ) : Real.cos (2 * Real.pi * y) = 1 ↔ ∃ k : ℤ, y = k := by
  rw [Real.cos_eq_one_iff]
  have hpi := Real.pi_pos
  constructor
  · rintro ⟨k, hk⟩
    refine ⟨k, ?_⟩
    have : 2 * Real.pi * (y - k) = 0 := by linarith
    rcases mul_eq_zero.1 this with h | h
    · linarith
    · linarith
  · rintro ⟨k, rfl⟩
    exact ⟨k, by ring⟩

/-- **C72** (cosine family). With `alpha ≥ 0` the value is never below `-(1 + alpha) / 2`. A point of the unit box has that value
exactly when each coordinate is one of the `G_i` equally spaced numbers `0, 1/(G_i - 1), ..., 1`: the global optima are the
advertised number in each dimension. -/
theorem cosine_family_spec {n : Nat} (hn : 0 < n) (alpha : ℝ) (ha : 0 ≤ alpha) (G L : Fin n → Int) (hG : ∀ i, 2 ≤ G i)
    (x : Fin n → ℝ) :
    ∃ v, v = (∑ i, (-Real.cos (((G i : ℝ) - 1) * 2 * Real.pi * x i) -
        alpha * Real.cos (((G i : ℝ) - 1) * 2 * Real.pi * L i * x i))) / (2 * n) ∧
      cosineFamily alpha (List.ofFn G) (List.ofFn L) (.array (List.ofFn x)) = .ok v ∧
      cosineFamily alpha (List.ofFn G) (List.ofFn L) (.list (List.ofFn x)) = .error .valueError ∧
      -(1 + alpha) / 2 ≤ v ∧
      ((∀ i, 0 ≤ x i ∧ x i ≤ 1) →
        (v = -(1 + alpha) / 2 ↔ ∀ i, ∃ k : Nat, (k : Int) < G i ∧ x i = k / ((G i : ℝ) - 1))) := by
  have hn' : (0 : ℝ) < n := by exact_mod_cast hn
  refine ⟨_, rfl, ?_, rfl, ?_⟩
  · simp only [cosineFamily, needArray, List.length_ofFn]
    congr 2
    rw [← List.sum_ofFn]
    congr 1
    apply List.ext_getElem
    · simp
    · intro i h1 h2
      simp [sub_eq_add_neg]
  · have hterm : ∀ i, -(1 + alpha) ≤ -Real.cos (((G i : ℝ) - 1) * 2 * Real.pi * x i) -
        alpha * Real.cos (((G i : ℝ) - 1) * 2 * Real.pi * L i * x i) := by
      intro i
      have h1 := Real.cos_le_one (((G i : ℝ) - 1) * 2 * Real.pi * x i)
      have h2 := Real.cos_le_one (((G i : ℝ) - 1) * 2 * Real.pi * L i * x i)
      nlinarith
    have hconst : ∑ _i : Fin n, -(1 + alpha) = -(1 + alpha) / 2 * (2 * n) := by
      simp only [Finset.sum_const, Finset.card_univ, Fintype.card_fin, nsmul_eq_mul]
      ring
    have h2n : (0 : ℝ) < 2 * n := by linarith
    refine ⟨?_, ?_⟩
    · rw [le_div_iff₀ h2n, ← hconst]
      exact Finset.sum_le_sum fun i _ => hterm i
    · intro hbox
      rw [div_eq_iff h2n.ne', ← hconst, eq_comm, Finset.sum_eq_sum_iff_of_le fun i _ => hterm i]
      have hone : ∀ i, (-(1 + alpha) = -Real.cos (((G i : ℝ) - 1) * 2 * Real.pi * x i) -
          alpha * Real.cos (((G i : ℝ) - 1) * 2 * Real.pi * L i * x i)) ↔
          ∃ k : Nat, (k : Int) < G i ∧ x i = k / ((G i : ℝ) - 1) := by
        intro i
        have hGi : (1 : ℝ) ≤ (G i : ℝ) - 1 := by
          have : ((2 : Int) : ℝ) ≤ (G i : ℝ) := by exact_mod_cast hG i
          push_cast at this
          linarith
        have e1 : ((G i : ℝ) - 1) * 2 * Real.pi * x i = 2 * Real.pi * (((G i : ℝ) - 1) * x i) := by ring
        have e2 : ((G i : ℝ) - 1) * 2 * Real.pi * L i * x i = 2 * Real.pi * (L i * (((G i : ℝ) - 1) * x i)) := by ring
        rw [e1, e2]
        have b1 := Real.cos_le_one (2 * Real.pi * (((G i : ℝ) - 1) * x i))
        have b2 := Real.cos_le_one (2 * Real.pi * (L i * (((G i : ℝ) - 1) * x i)))
        constructor
        · intro h
          have hc : Real.cos (2 * Real.pi * (((G i : ℝ) - 1) * x i)) = 1 := by
            apply le_antisymm b1
            nlinarith
          obtain ⟨k, hk⟩ := (cos_eq_one_int _).1 hc
          have hk0 : (0 : ℝ) ≤ k := by
            rw [← hk]
            exact mul_nonneg (by linarith) (hbox i).1
          have hk1 : (k : ℝ) ≤ (G i : ℝ) - 1 := by
            rw [← hk]
            nlinarith [(hbox i).2]
          have hk0' : 0 ≤ k := by exact_mod_cast hk0
          have hk1' : k ≤ G i - 1 := by exact_mod_cast hk1
          refine ⟨k.toNat, by omega, ?_⟩
          have hkk : ((k.toNat : Nat) : ℝ) = (k : ℝ) := by
            have : ((k.toNat : Nat) : ℤ) = k := Int.toNat_of_nonneg hk0'
            exact_mod_cast this
          rw [hkk, eq_div_iff (by linarith), mul_comm]
          exact hk
        · rintro ⟨k, _, hk⟩
          have hk' : ((G i : ℝ) - 1) * x i = ((k : Int) : ℝ) := by
            rw [hk, mul_div_cancel₀ _ (by linarith : (G i : ℝ) - 1 ≠ 0)]
            simp
          have hc : Real.cos (2 * Real.pi * (((G i : ℝ) - 1) * x i)) = 1 := (cos_eq_one_int _).2 ⟨k, hk'⟩
          have hc2 : Real.cos (2 * Real.pi * (L i * (((G i : ℝ) - 1) * x i))) = 1 :=
            (cos_eq_one_int _).2 ⟨L i * k, by rw [hk']; push_cast; ring⟩
          rw [hc, hc2]
          ring
      constructor
      · intro h i
        exact (hone i).1 (h i (Finset.mem_univ i))
      · intro h i _
        exact (hone i).2 (h i)

/-! The defaults of the classes meet the hypotheses. -/

example : (∀ x : Fin 3 → ℝ, ∃ v, rastrigin 1 (.array (List.ofFn x)) = .ok v ∧ 0 ≤ v) := fun x =>
  let ⟨v, h⟩ := rastrigin_spec 1 zero_le_one x
  ⟨v, h.2.1, h.2.2.2.1⟩

example : ∃ v, shekel 500 (List.replicate 25 1) (.array [-32, -32]) = .ok v ∧ v < 1 := by
  obtain ⟨v, h1, h2⟩ := (shekel_spec 500 (by norm_num) (List.replicate 25 1) (by simp) (by
    intro j hj
    rw [List.getD_eq_getElem?_getD, List.getElem?_replicate, if_pos hj]
    exact one_pos)).2.2.2 0 (by norm_num)
  refine ⟨v, ?_, ?_⟩
  · simpa [Spec.holeAt] using h1
  · simpa using h2

example : ∃ v, ackley 20 0.2 (2 * Real.pi) (.array [1, 2]) = .ok v ∧ 0 ≤ v ∧ v ≠ 0 := by
  obtain ⟨v, -, h1, -, -, h2, h3⟩ := ackley_spec (n := 2) (by norm_num) 20 0.2 (2 * Real.pi) (by norm_num) (by norm_num) ![1, 2]
  refine ⟨v, by simpa using h1, h2, fun h => ?_⟩
  have := congrFun (h3.1 h) 0
  simp at this

example : ∃ v, weierstrass 20 0.5 (3 : Nat) (.array [1, 2]) = .ok v ∧ 0 ≤ v := by
  obtain ⟨v, -, h1, -, h2, -, -⟩ := weierstrass_spec (n := 2) 20 0.5 (by norm_num) 3 ⟨1, rfl⟩ ![1, 2]
  exact ⟨v, by simpa using h1, h2⟩

/-- Two by three optima: `(1/2, 0)` is not one in a 2-by-2 grid, but is one in a 3-by-2 grid. -/
example : ∃ v, cosineFamily 1 [3, 2] [2, 2] (.array [1 / 2, 0]) = .ok v ∧ v = -1 := by
  obtain ⟨v, -, h1, -, -, h2⟩ := cosine_family_spec (n := 2) (by norm_num) 1 (by norm_num) ![3, 2] ![2, 2]
    (by intro i; fin_cases i <;> simp) ![1 / 2, 0]
  refine ⟨v, by simpa using h1, ?_⟩
  have := (h2 (by intro i; fin_cases i <;> norm_num)).2 (by
    intro i
    fin_cases i
    · exact ⟨1, by norm_num⟩
    · exact ⟨0, by norm_num⟩)
  rw [this]
  norm_num

end Leap
