import Mathlib.Topology.Order.Compact
import Mathlib.Topology.Algebra.Order.Field
import Mathlib.Analysis.SpecialFunctions.Sqrt
import Mathlib.Tactic.FinCases
import Verif.Model.Defaults
import Verif.Props.Benchmarks
import Verif.Props.Schwefel
import Verif.Props.Binary

/-!
# C81: problems built with default arguments prefer the advertised optimum
-/

namespace Leap

namespace Spec

/-- Every coordinate lies within the problem's `bounds`. -/
def WithinBounds {n : Nat} (b : ℝ × ℝ) (x : Fin n → ℝ) : Prop := ∀ i, b.1 ≤ x i ∧ x i ≤ b.2

/-- `best` lies within the bounds, and `worse_than` never prefers another point within the bounds to it. -/
def IsBest {n : Nat} (p : BenchProblem (Phenome ℝ)) (b : ℝ × ℝ) (best : Fin n → ℝ) : Prop :=
  WithinBounds b best ∧ ∃ v, p.evaluate (.array (List.ofFn best)) = .ok v ∧
    ∀ x : Fin n → ℝ, WithinBounds b x → ∃ w, p.evaluate (.array (List.ofFn x)) = .ok w ∧ ¬ p.worseThan v w

/-- `best` lies within the bounds, and every other point within the bounds is `worse_than` it. -/
def OnlyBest {n : Nat} (p : BenchProblem (Phenome ℝ)) (b : ℝ × ℝ) (best : Fin n → ℝ) : Prop :=
  WithinBounds b best ∧ ∃ v, p.evaluate (.array (List.ofFn best)) = .ok v ∧
    ∀ x : Fin n → ℝ, WithinBounds b x → x ≠ best → ∃ w, p.evaluate (.array (List.ofFn x)) = .ok w ∧ p.worseThan w v

/-- `best` is among the bit strings of its length, and every other one is `worse_than` it. -/
def OnlyBestString (p : BenchProblem (List Int)) (best : List Int) : Prop :=
  Binary best ∧ ∃ v, p.evaluate best = .ok v ∧
    ∀ x, Binary x → x.length = best.length → x ≠ best → ∃ w, p.evaluate x = .ok w ∧ p.worseThan w v

end Spec

open Spec

/-- A problem that minimises a function which is zero in exactly one point. -/
theorem onlyBest_of_zero {n : Nat} (p : BenchProblem (Phenome ℝ)) (hp : p.maximize = false) (b : ℝ × ℝ) (best : Fin n → ℝ)
    (hb : WithinBounds b best)
    (h : ∀ x : Fin n → ℝ, WithinBounds b x → ∃ v, p.evaluate (.array (List.ofFn x)) = .ok v ∧ 0 ≤ v ∧ (v = 0 ↔ x = best)) :
    OnlyBest p b best := by
  obtain ⟨v, e, -, h0⟩ := h best hb
  have hv : v = 0 := h0.2 rfl
  refine ⟨hb, v, e, fun x hx hne => ?_⟩
  obtain ⟨w, ew, hw, h1⟩ := h x hx
  refine ⟨w, ew, ?_⟩
  rw [BenchProblem.worseThan, hp, hv]
  rcases lt_or_eq_of_le hw with h2 | h2
  · simpa using h2
  · exact absurd (h1.1 h2.symm) hne

theorem inBox_zero {n : Nat} {b : ℝ × ℝ} (h0 : b.1 ≤ 0) (h1 : 0 ≤ b.2) : WithinBounds b (0 : Fin n → ℝ) := fun _ => ⟨h0, h1⟩

/-- C81: the functions with their optimum at the origin: the origin lies within the bounds and every other point within them
is worse. For the noisy function this holds whatever the noise, as long as it is the same for both. -/
theorem default_best_origin (n : Nat) (noise : Fin n → ℝ) :
    OnlyBest spheroidProblem spheroidBounds (0 : Fin n → ℝ) ∧
    OnlyBest rastriginProblem rastriginBounds (0 : Fin n → ℝ) ∧
    OnlyBest griewankProblem griewankBounds (0 : Fin n → ℝ) ∧
    (0 < n → OnlyBest ackleyProblem ackleyBounds (0 : Fin n → ℝ)) ∧
    OnlyBest weierstrassProblem weierstrassBounds (0 : Fin n → ℝ) ∧
    OnlyBest gaussianProblem gaussianBounds (0 : Fin n → ℝ) ∧
    OnlyBest (noisyQuarticProblem (List.ofFn noise)) noisyQuarticBounds (0 : Fin n → ℝ) := by
  refine ⟨?_, ?_, ?_, fun hn => ?_, ?_, ?_, ?_⟩
  · refine onlyBest_of_zero _ rfl _ _ (inBox_zero (by norm_num [spheroidBounds]) (by norm_num [spheroidBounds])) fun x _ => ?_
    obtain ⟨h1, -, h2, h3⟩ := spheroid_spec x
    exact ⟨_, h1, h2, h3⟩
  · refine onlyBest_of_zero _ rfl _ _ (inBox_zero (by norm_num [rastriginBounds]) (by norm_num [rastriginBounds])) fun x _ => ?_
    obtain ⟨v, -, h1, -, h2, h3⟩ := rastrigin_spec 1 (by norm_num) x
    exact ⟨v, h1, h2, h3⟩
  · refine onlyBest_of_zero _ rfl _ _ (inBox_zero (by norm_num [griewankBounds]) (by norm_num [griewankBounds])) fun x _ => ?_
    obtain ⟨v, -, h1, -, h2, h3⟩ := griewank_spec x
    exact ⟨v, h1, h2, h3⟩
  · refine onlyBest_of_zero _ rfl _ _ (inBox_zero (by norm_num [ackleyBounds]) (by norm_num [ackleyBounds])) fun x _ => ?_
    obtain ⟨v, -, h1, -, -, h2, h3⟩ := ackley_spec hn 20 0.2 (2 * Real.pi) (by norm_num) (by norm_num) x
    exact ⟨v, h1, h2, h3⟩
  · refine onlyBest_of_zero _ rfl _ _ (inBox_zero (by norm_num [weierstrassBounds]) (by norm_num [weierstrassBounds])) fun x hx => ?_
    obtain ⟨v, -, h1, -, h2, -, -, h3⟩ := weierstrass_spec 20 0.5 (by norm_num) 3 (by decide) x
    refine ⟨v, by simpa [weierstrassProblem] using h1, h2, h3 (by norm_num) fun i => ?_⟩
    have := hx i
    norm_num [weierstrassBounds] at this
    rw [abs_le]
    constructor <;> linarith
  · obtain ⟨h1, -, h2, h3⟩ := gaussian_spec_partial 1 1 (0 : Fin n → ℝ)
    refine ⟨inBox_zero (by norm_num [gaussianBounds]) (by norm_num [gaussianBounds]), _, (h1 (by norm_num)).1, fun x _ hne => ?_⟩
    obtain ⟨k1, -, k2, k3⟩ := gaussian_spec_partial 1 1 x
    refine ⟨_, (k1 (by norm_num)).1, ?_⟩
    rw [h3.2 rfl]
    have : Real.exp (-∑ i, x i ^ 2) < 1 := lt_of_le_of_ne k2 fun h => hne (k3.1 h)
    simpa [BenchProblem.worseThan, gaussianProblem] using this
  · have h := fun x : Fin n → ℝ => noisy_quartic_spec x noise
    obtain ⟨e0, -, z0⟩ := h 0
    refine ⟨inBox_zero (by norm_num [noisyQuarticBounds]) (by norm_num [noisyQuarticBounds]), _, e0, fun x _ hne => ?_⟩
    obtain ⟨e1, p1, z1⟩ := h x
    refine ⟨_, e1, ?_⟩
    rw [z0.2 rfl]
    have : 0 < ∑ i : Fin n, ((i : ℝ) + 1) * x i ^ 4 := lt_of_le_of_ne p1 fun h => hne (z1.1 h.symm)
    simpa [BenchProblem.worseThan, noisyQuarticProblem] using this

/-- C81: Rosenbrock's valley and Lunacek's double funnel from two dimensions on: the only best points are the vector of
ones and the vector of 2.5. -/
theorem default_best_valleys (n : Nat) (hn : 2 ≤ n) :
    OnlyBest rosenbrockProblem rosenbrockBounds (fun _ : Fin n => (1 : ℝ)) ∧
    OnlyBest (lunacekProblem n) lunacekBounds (fun _ : Fin n => (2.5 : ℝ)) := by
  constructor
  · obtain ⟨n, rfl⟩ : ∃ m, n = m + 1 := ⟨n - 1, by omega⟩
    refine onlyBest_of_zero _ rfl _ _ (fun i => by norm_num [rosenbrockBounds]) fun x _ => ?_
    obtain ⟨v, -, h1, -, h2, h3, -⟩ := rosenbrock_spec x
    exact ⟨v, h1, h2, (h3 (by omega)).trans funext_iff.symm⟩
  · refine onlyBest_of_zero _ rfl _ _ (fun i => by norm_num [lunacekBounds]) fun x _ => ?_
    have hs := (lunacek_default_s.1 n hn).1
    obtain ⟨v, -, h1, -, h2, h3⟩ := lunacek_spec 1 2.5 (-Real.sqrt ((2.5 ^ 2 - 1) / lunacekS n)) (lunacekS n) (by norm_num) hs.le x
    exact ⟨v, h1, h2, h3.trans funext_iff.symm⟩

/-- C81: the step function is maximised; the best points within the bounds are exactly those with all coordinates from 5 on. -/
theorem default_best_step {n : Nat} (x : Fin n → ℝ) (hx : WithinBounds stepBounds x) :
    IsBest stepProblem stepBounds x ↔ ∀ i, 5 ≤ x i := by
  have hb : ∀ y : Fin n → ℝ, WithinBounds stepBounds y → ∀ i, -5.12 ≤ y i ∧ y i ≤ 5.12 := fun y hy i => hy i
  obtain ⟨e, -, h⟩ := step_spec x
  obtain ⟨-, h1, h2⟩ := h (hb x hx)
  constructor
  · rintro ⟨-, v, ev, hv⟩
    obtain ⟨w, ew, hw⟩ := hv (fun _ => 5) (fun i => by norm_num [stepBounds])
    obtain ⟨e5, -, h5⟩ := step_spec (fun _ : Fin n => (5 : ℝ))
    obtain ⟨-, -, h6⟩ := h5 (fun i => by norm_num)
    rw [show stepProblem.evaluate = stepFunction from rfl] at ev ew
    rw [e, Except.ok.injEq] at ev
    rw [e5, Except.ok.injEq] at ew
    rw [h6.2 (fun _ => le_refl _)] at ew
    rw [← h2]
    simp only [BenchProblem.worseThan, stepProblem, if_true, not_lt] at hw
    linarith
  · intro h5
    refine ⟨hx, _, e, fun y hy => ?_⟩
    obtain ⟨ey, -, hy'⟩ := step_spec y
    refine ⟨_, ey, ?_⟩
    rw [h2.2 h5]
    simpa [BenchProblem.worseThan, stepProblem] using (hy' (hb y hy)).2.1

example : WithinBounds stepBounds ![5.1, 5] ∧ WithinBounds stepBounds ![5.1, 4.9] := by
  constructor <;> intro i <;> fin_cases i <;> norm_num [stepBounds]

/-- C81: the cosine family is minimised and lists of different lengths are refused; with at least two optima per dimension
and `alpha ≥ 0` the best points of the unit box are exactly the points whose `i`-th coordinate is one of `G_i` equally spaced
numbers. -/
theorem default_best_cosine {n : Nat} (hn : 0 < n) (alpha : ℝ) (ha : 0 ≤ alpha) (G L : Fin n → Int) (hG : ∀ i, 2 ≤ G i)
    (x : Fin n → ℝ) (hx : WithinBounds cosineFamilyBounds x) :
    (∃ p, cosineFamilyProblem alpha (List.ofFn G) (List.ofFn L) = .ok p ∧
      (IsBest p cosineFamilyBounds x ↔ ∀ i, ∃ k : Nat, (k : Int) < G i ∧ x i = k / ((G i : ℝ) - 1))) ∧
    (∀ g l : List Int, l.length ≠ g.length → cosineFamilyProblem alpha g l = .error .assertionError) := by
  refine ⟨⟨⟨false, cosineFamily alpha (List.ofFn G) (List.ofFn L)⟩, by simp [cosineFamilyProblem], ?_⟩,
    fun g l h => by rw [cosineFamilyProblem, if_neg h]⟩
  have hb : ∀ y : Fin n → ℝ, WithinBounds cosineFamilyBounds y → ∀ i, 0 ≤ y i ∧ y i ≤ 1 := fun y hy i => hy i
  obtain ⟨v, -, e, -, h1, h2⟩ := cosine_family_spec hn alpha ha G L hG x
  have h2 := h2 (hb x hx)
  rw [← h2]
  constructor
  · rintro ⟨-, v', ev, hv⟩
    have ev := e.symm.trans ev
    rw [Except.ok.injEq] at ev
    subst ev
    obtain ⟨w, ew, hw⟩ := hv (fun _ => 0) (fun i => by norm_num [cosineFamilyBounds])
    obtain ⟨w', -, e', -, -, h3⟩ := cosine_family_spec hn alpha ha G L hG (fun _ => 0)
    have ew := e'.symm.trans ew
    rw [Except.ok.injEq] at ew
    subst ew
    have := (h3 (fun i => by norm_num)).2 fun i => ⟨0, by have := hG i; push_cast; omega, by simp⟩
    rw [this] at hw
    simp only [BenchProblem.worseThan, Bool.false_eq_true, if_false, not_lt] at hw
    linarith
  · intro hv
    refine ⟨hx, v, e, fun y hy => ?_⟩
    obtain ⟨w, -, e', -, h3, -⟩ := cosine_family_spec hn alpha ha G L hG y
    refine ⟨w, e', ?_⟩
    simp only [BenchProblem.worseThan, Bool.false_eq_true, if_false, not_lt]
    linarith

example : (∀ i, (2 : Int) ≤ (![3, 2] : Fin 2 → Int) i) ∧ WithinBounds cosineFamilyBounds (![0.5, 1] : Fin 2 → ℝ) ∧
    ∀ i, ∃ k : Nat, (k : Int) < (![3, 2] : Fin 2 → Int) i ∧
      (![0.5, 1] : Fin 2 → ℝ) i = k / (((![3, 2] : Fin 2 → Int) i : ℝ) - 1) := by
  refine ⟨by decide, fun i => ?_, fun i => ⟨1, ?_, ?_⟩⟩ <;> fin_cases i <;> norm_num [cosineFamilyBounds]

/-! ### Shekel's foxholes -/

/-- The denominator of the `j`-th term. -/
noncomputable def foxhole (x0 x1 : ℝ) (j : Nat) : ℝ :=
  (j : ℝ) + 1 + (x0 - shekelPoints.1.getD j 0) ^ 6 + (x1 - shekelPoints.2.getD j 0) ^ 6

theorem shekel_default_eval (x0 x1 : ℝ) :
    shekelProblem.evaluate (.array [x0, x1]) =
      .ok (1 / (1 / 500 + ((List.range 25).map fun j => 1 / foxhole x0 x1 j).sum)) := by
  have hc : ∀ j ∈ List.range 25, shekelDefaultC.getD j 0 = (j : ℝ) + 1 := by
    intro j hj
    have : j < 25 := by simpa using hj
    simp [shekelDefaultC, List.getD_eq_getElem?_getD, this]
  have hl : shekelDefaultC.length = 25 := by simp [shekelDefaultC]
  simp only [shekelProblem, shekel, Phenome.elements, hl, le_refl, if_true]
  have hmap : ((List.range 25).map fun j => 1 / (shekelDefaultC.getD j 0 + (x0 - shekelPoints.1.getD j 0) ^ 6 +
      (x1 - shekelPoints.2.getD j 0) ^ 6)) = (List.range 25).map fun j => 1 / foxhole x0 x1 j :=
    List.map_congr_left fun j hj => by rw [hc j hj, foxhole]
  rw [hmap]

theorem foxhole_pos (x0 x1 : ℝ) (j : Nat) : (j : ℝ) + 1 ≤ foxhole x0 x1 j := by
  have h0 : 0 ≤ (x0 - shekelPoints.1.getD j 0) ^ 6 := by positivity
  have h1 : 0 ≤ (x1 - shekelPoints.2.getD j 0) ^ 6 := by positivity
  unfold foxhole; linarith

theorem foxhole_one_le (x0 x1 : ℝ) (j : Nat) : 1 ≤ foxhole x0 x1 j := by
  have := foxhole_pos x0 x1 j
  have hj : (0 : ℝ) ≤ j := by positivity
  linarith

/-- `|t| ≥ 8` makes the sixth power large. -/
theorem six_large {t : ℝ} (h : 8 ≤ |t|) : 262144 ≤ t ^ 6 := by
  have : (8 : ℝ) ^ 6 ≤ |t| ^ 6 := pow_le_pow_left₀ (by norm_num) h 6
  have e : |t| ^ 6 = t ^ 6 := by
    rw [show (6 : ℕ) = 2 * 3 by norm_num, pow_mul, pow_mul, sq_abs]
  rw [e] at this
  norm_num at this
  exact this

theorem foxhole_far {x0 x1 : ℝ} {j : Nat}
    (h : 8 ≤ |x0 - shekelPoints.1.getD j 0| ∨ 8 ≤ |x1 - shekelPoints.2.getD j 0|) : 262144 ≤ foxhole x0 x1 j := by
  have h0 : 0 ≤ (x0 - shekelPoints.1.getD j 0) ^ 6 := by positivity
  have h1 : 0 ≤ (x1 - shekelPoints.2.getD j 0) ^ 6 := by positivity
  have hj : (0 : ℝ) ≤ j := by positivity
  rcases h with h | h
  · have := six_large h; unfold foxhole; linarith
  · have := six_large h; unfold foxhole; linarith

/-- Two foxholes are at least 16 apart in one coordinate. -/
theorem foxholes_apart : ∀ i < 25, ∀ j < 25, i ≠ j →
    16 ≤ |shekelPoints.1.getD i 0 - shekelPoints.1.getD j 0| ∨ 16 ≤ |shekelPoints.2.getD i 0 - shekelPoints.2.getD j 0| := by
  decide

/-- At most one foxhole is near. -/
theorem foxhole_near_unique {x0 x1 : ℝ} {i j : Nat} (hi : i < 25) (hj : j < 25) (hij : i ≠ j)
    (h : foxhole x0 x1 i < 262144) : 262144 ≤ foxhole x0 x1 j := by
  have hn : ¬ (8 ≤ |x0 - shekelPoints.1.getD i 0| ∨ 8 ≤ |x1 - shekelPoints.2.getD i 0|) :=
    fun h' => absurd (foxhole_far h') (not_le.2 h)
  push Not at hn
  apply foxhole_far
  have key : ∀ (x : ℝ) (p q : Int), |x - p| < 8 → 16 ≤ |p - q| → 8 ≤ |x - q| := by
    intro x p q h1 h2
    have h2' : (16 : ℝ) ≤ |(p : ℝ) - q| := by exact_mod_cast h2
    have : |(p : ℝ) - q| ≤ |x - p| + |x - q| := by
      have := abs_sub_le (p : ℝ) x q
      rwa [abs_sub_comm (p : ℝ) x] at this
    linarith
  rcases foxholes_apart i hi j hj hij with h' | h'
  · exact Or.inl (key x0 _ _ hn.1 h')
  · exact Or.inr (key x1 _ _ hn.2 h')

theorem sum_recip_le (l : List Nat) (f : Nat → ℝ) (B : ℝ) (hB : 0 < B) (h : ∀ j ∈ l, B ≤ f j) :
    (l.map fun j => 1 / f j).sum ≤ l.length * (1 / B) := by
  induction l with
  | nil => simp
  | cons a l ih =>
    have h1 := ih fun j hj => h j (by simp [hj])
    have h2 : 1 / f a ≤ 1 / B := one_div_le_one_div_of_le hB (h a (by simp))
    simp only [List.map_cons, List.sum_cons, List.length_cons]
    push_cast
    linarith

theorem sum_recip_one (l : List Nat) (hl : l.Nodup) (f : Nat → ℝ) (B c : ℝ) (hB : 0 < B) (hc : 0 < c) (i : Nat)
    (hi : c ≤ f i) (h : ∀ j ∈ l, j ≠ i → B ≤ f j) :
    (l.map fun j => 1 / f j).sum ≤ 1 / c + l.length * (1 / B) := by
  induction l with
  | nil => simp; positivity
  | cons a l ih =>
    rw [List.nodup_cons] at hl
    simp only [List.map_cons, List.sum_cons, List.length_cons]
    push_cast
    have hB' : 0 < 1 / B := by positivity
    by_cases ha : a = i
    · have h1 := sum_recip_le l f B hB fun j hj => h j (by simp [hj]) (by rintro rfl; exact hl.1 (ha ▸ hj))
      have h2 : 1 / f a ≤ 1 / c := by rw [ha]; exact one_div_le_one_div_of_le hc hi
      linarith
    · have h1 := ih hl.2 fun j hj => h j (by simp [hj])
      have h2 : 1 / f a ≤ 1 / B := one_div_le_one_div_of_le hB (h a (by simp) ha)
      linarith

/-- Away from the first foxhole the fitness exceeds 1. -/
theorem shekel_elsewhere (x0 x1 : ℝ) (h : 1 ≤ |x0 + 32| ∨ 1 ≤ |x1 + 32|) :
    1 < 1 / (1 / 500 + ((List.range 25).map fun j => 1 / foxhole x0 x1 j).sum) := by
  have hpos : 0 ≤ ((List.range 25).map fun j => 1 / foxhole x0 x1 j).sum := by
    apply List.sum_nonneg
    intro y hy
    obtain ⟨j, -, rfl⟩ := List.mem_map.1 hy
    have := foxhole_one_le x0 x1 j
    positivity
  suffices hs : ((List.range 25).map fun j => 1 / foxhole x0 x1 j).sum ≤ 1 / 2 + 25 * (1 / 262144) by
    rw [lt_div_iff₀ (by linarith)]
    norm_num at hs ⊢
    linarith
  have h2 : ∀ i : Nat, 2 ≤ foxhole x0 x1 i := by
    intro i
    rcases Nat.eq_zero_or_pos i with rfl | hi
    · have e : foxhole x0 x1 0 = 1 + (x0 + 32) ^ 6 + (x1 + 32) ^ 6 := by
        simp [foxhole, shekelPoints]
      have h6 : ∀ t : ℝ, 1 ≤ |t| → 1 ≤ t ^ 6 := by
        intro t ht
        have : (1 : ℝ) ^ 6 ≤ |t| ^ 6 := pow_le_pow_left₀ (by norm_num) ht 6
        rw [show |t| ^ 6 = t ^ 6 by rw [show (6 : ℕ) = 2 * 3 by norm_num, pow_mul, pow_mul, sq_abs]] at this
        simpa using this
      have p0 : 0 ≤ (x0 + 32) ^ 6 := by positivity
      have p1 : 0 ≤ (x1 + 32) ^ 6 := by positivity
      rw [e]
      rcases h with h | h
      · have := h6 _ h; linarith
      · have := h6 _ h; linarith
    · have := foxhole_pos x0 x1 i
      have hi' : (1 : ℝ) ≤ i := by exact_mod_cast hi
      linarith
  by_cases hnear : ∃ i < 25, foxhole x0 x1 i < 262144
  · obtain ⟨i, hi, hlt⟩ := hnear
    have := sum_recip_one (List.range 25) List.nodup_range (foxhole x0 x1) 262144 2 (by norm_num) (by norm_num) i (h2 i)
      fun j hj hne => foxhole_near_unique hi (by simpa using hj) (Ne.symm hne) hlt
    simpa using this
  · push Not at hnear
    have := sum_recip_le (List.range 25) (foxhole x0 x1) 262144 (by norm_num) fun j hj => hnear j (by simpa using hj)
    simp only [List.length_range] at this
    push_cast at this
    linarith

/-- The points of a box form a compact set. -/
theorem box_compact (n : Nat) (b : ℝ × ℝ) : IsCompact {x : Fin n → ℝ | WithinBounds b x} := by
  have : {x : Fin n → ℝ | WithinBounds b x} = Set.pi Set.univ fun _ => Set.Icc b.1 b.2 := by
    ext x; simp only [WithinBounds, Set.mem_setOf_eq, Set.mem_pi, Set.mem_univ, true_imp_iff, Set.mem_Icc]
  rw [this]
  exact isCompact_univ_pi fun _ => isCompact_Icc

/-- A problem that minimises a continuous function has a best point in its box. -/
theorem exists_isBest {n : Nat} (p : BenchProblem (Phenome ℝ)) (hp : p.maximize = false) (b : ℝ × ℝ) (hb : b.1 ≤ b.2)
    (f : (Fin n → ℝ) → ℝ) (hf : Continuous f) (h : ∀ x, p.evaluate (.array (List.ofFn x)) = .ok (f x)) :
    ∃ best : Fin n → ℝ, IsBest p b best := by
  obtain ⟨x, hx, hmin⟩ := (box_compact n b).exists_isMinOn ⟨fun _ => b.1, fun _ => ⟨le_refl _, hb⟩⟩ hf.continuousOn
  refine ⟨x, hx, f x, h x, fun y hy => ⟨f y, h y, ?_⟩⟩
  rw [BenchProblem.worseThan, hp]
  simpa using hmin hy

/-- C81: Shekel's foxholes are minimised. There is a best point within the bounds; its fitness is below 1, and it lies in the
first and deepest foxhole, less than 1 away from (-32, -32) in both coordinates. -/
theorem default_best_shekel :
    (∃ best : Fin 2 → ℝ, IsBest shekelProblem shekelBounds best) ∧
    ∀ best : Fin 2 → ℝ, IsBest shekelProblem shekelBounds best →
      |best 0 + 32| < 1 ∧ |best 1 + 32| < 1 ∧
        ∃ v, shekelProblem.evaluate (.array (List.ofFn best)) = .ok v ∧ 0 < v ∧ v < 1 := by
  have hofFn : ∀ x : Fin 2 → ℝ, List.ofFn x = [x 0, x 1] := fun x => by simp [List.ofFn_succ]
  have heval : ∀ x : Fin 2 → ℝ, shekelProblem.evaluate (.array (List.ofFn x)) =
      .ok (1 / (1 / 500 + ((List.range 25).map fun j => 1 / foxhole (x 0) (x 1) j).sum)) := fun x => by
    rw [hofFn, shekel_default_eval]
  have hsum : ∀ x0 x1 : ℝ, 0 ≤ ((List.range 25).map fun j => 1 / foxhole x0 x1 j).sum := by
    intro x0 x1
    apply List.sum_nonneg
    intro y hy
    obtain ⟨j, -, rfl⟩ := List.mem_map.1 hy
    have := foxhole_one_le x0 x1 j
    positivity
  constructor
  · refine exists_isBest _ rfl _ (by norm_num [shekelBounds]) _ ?_ heval
    refine Continuous.div continuous_const ?_ fun x => ?_
    · refine continuous_const.add ?_
      have : ∀ l : List Nat, Continuous fun x : Fin 2 → ℝ => (l.map fun j => 1 / foxhole (x 0) (x 1) j).sum := by
        intro l
        induction l with
        | nil => simpa using continuous_const
        | cons a l ih =>
          simp only [List.map_cons, List.sum_cons]
          refine Continuous.add (Continuous.div continuous_const ?_ fun x => ?_) ih
          · unfold foxhole; fun_prop
          · have := foxhole_one_le (x 0) (x 1) a
            linarith
      exact this _
    · have := hsum (x 0) (x 1)
      positivity
  · intro best hbest
    obtain ⟨hb, v, ev, hv⟩ := hbest
    obtain ⟨w, ew, hw⟩ := hv (fun _ => -32) (fun i => by norm_num [shekelBounds])
    have h1 : w < 1 := by
      obtain ⟨-, -, -, h3⟩ := shekel_spec 500 (by norm_num) shekelDefaultC (by simp [shekelDefaultC]) (by
        intro j hj
        simp [shekelDefaultC, List.getD_eq_getElem?_getD, hj]
        positivity)
      obtain ⟨w', ew', hw'⟩ := h3 0 (by norm_num)
      have e0 : shekelDefaultC.getD 0 0 = 1 := by simp [shekelDefaultC, List.getD_eq_getElem?_getD]
      rw [e0] at hw'
      have : shekelProblem.evaluate (.array (List.ofFn fun _ : Fin 2 => (-32 : ℝ))) = .ok w' := by
        rw [← ew', hofFn]
        simp [shekelProblem, Spec.holeAt]
      rw [ew, Except.ok.injEq] at this
      linarith
    have h2 : v < 1 := by
      simp only [BenchProblem.worseThan, shekelProblem, Bool.false_eq_true, if_false, not_lt] at hw
      linarith
    have e := heval best
    rw [ev, Except.ok.injEq] at e
    have h3 : ¬ (1 ≤ |best 0 + 32| ∨ 1 ≤ |best 1 + 32|) := by
      intro h
      have := shekel_elsewhere _ _ h
      rw [← e] at this
      linarith
    push Not at h3
    refine ⟨h3.1, h3.2, v, ev, ?_, h2⟩
    rw [e]
    have := hsum (best 0) (best 1)
    positivity

/-- C81: Schwefel's function is minimised; there is a best point within the bounds, and its fitness is 0 up to 1e-6 per
dimension. -/
theorem default_best_schwefel (n : Nat) :
    (∃ best : Fin n → ℝ, IsBest schwefelProblem schwefelBounds best) ∧
    ∀ best : Fin n → ℝ, IsBest schwefelProblem schwefelBounds best →
      ∃ v, schwefelProblem.evaluate (.array (List.ofFn best)) = .ok v ∧ -(1e-6) * n ≤ v ∧ v ≤ 0 := by
  have hbox : ∀ x : Fin n → ℝ, WithinBounds schwefelBounds x ↔ ∀ i, |x i| ≤ 512 := by
    intro x
    simp only [WithinBounds, schwefelBounds, abs_le]
  constructor
  · refine exists_isBest _ rfl _ (by norm_num [schwefelBounds])
      (fun x => ∑ i, (-(x i) * Real.sin (Real.sqrt |x i|)) + 418.982887 * n) (by fun_prop) fun x => ?_
    obtain ⟨v, hv, e, -⟩ := schwefel_spec 418.982887 x
    rw [← hv]; exact e
  · rintro best ⟨hb, v, ev, hv⟩
    obtain ⟨h1, h2⟩ := schwefel_default_optimum n
    refine ⟨v, ev, ?_, ?_⟩
    · obtain ⟨v', e', h⟩ := h1 best ((hbox best).1 hb)
      rw [show schwefelProblem.evaluate = schwefel 418.982887 from rfl, e', Except.ok.injEq] at ev
      linarith
    · rcases Nat.eq_zero_or_pos n with rfl | hn
      · have e : schwefelProblem.evaluate (.array (List.ofFn best)) = .ok 0 := by
          simp [schwefelProblem, schwefel, needArray]
        rw [e, Except.ok.injEq] at ev
        linarith
      · obtain ⟨x, hx, w, ew, hw⟩ := h2 hn
        obtain ⟨w', ew', hw'⟩ := hv x ((hbox x).2 hx)
        rw [show schwefelProblem.evaluate = schwefel 418.982887 from rfl, ew, Except.ok.injEq] at ew'
        simp only [BenchProblem.worseThan, schwefelProblem, Bool.false_eq_true, if_false, not_lt] at hw'
        linarith

/-- C81: Langermann's function takes exactly the matrices with `m` rows of one length; the default arguments are accepted and
give a function of two variables that is minimised and has a best point within its bounds, 0 and 10. -/
theorem default_langermann :
    (∃ p, langermannProblem = .ok p ∧ p.maximize = false ∧ ∃ best : Fin 2 → ℝ, IsBest p (0, 10) best) ∧
    langermannBounds = (0, 10) ∧
    (∀ (m : Int) (c : List ℝ) (a : List (List ℝ)),
      ((∃ d, a ≠ [] ∧ (∀ r ∈ a, r.length = d) ∧ (a.length : Int) = m) → ∃ p, langermannProblem m c a = .ok p) ∧
      ((¬ ∃ d, a ≠ [] ∧ (∀ r ∈ a, r.length = d) ∧ (a.length : Int) = m) → langermannProblem m c a = .error .valueError)) := by
  refine ⟨?_, rfl, ?_⟩
  · refine ⟨⟨false, langermann langermannDefaultC langermannDefaultA 2⟩, by simp [langermannProblem, langermannDefaultA], rfl, ?_⟩
    let c : Fin 5 → ℝ := ![1, 2, 5, 2, 3]
    let a : Fin 5 → Fin 2 → ℝ := ![![3, 5], ![5, 2], ![2, 1], ![1, 4], ![7, 9]]
    have ec : langermannDefaultC = List.ofFn c := by simp [langermannDefaultC, c]
    have ea : langermannDefaultA = List.ofFn fun i => List.ofFn (a i) := by
      simp [langermannDefaultA, a, List.ofFn_succ]
    refine exists_isBest _ rfl _ (by norm_num)
      (fun x => -∑ i, c i * Real.exp (-(1 / Real.pi) * ∑ j, (x j - a i j) ^ 2) * Real.cos (Real.pi * ∑ j, (x j - a i j) ^ 2))
      (by fun_prop) fun x => ?_
    obtain ⟨v, hv, e, -⟩ := langermann_spec c a x
    rw [← hv, ec, ea]; exact e
  · intro m c a
    cases a with
    | nil => simp [langermannProblem]
    | cons r rs =>
      by_cases h1 : rs.all (fun q => decide (q.length = r.length)) = true
      · by_cases h2 : ((r :: rs).length : Int) = m
        · refine ⟨fun _ => ⟨_, by simp only [langermannProblem]; rw [if_pos h1, if_pos h2]⟩, fun h => ?_⟩
          refine absurd ⟨r.length, by simp, ?_, h2⟩ h
          intro q hq
          rcases List.mem_cons.1 hq with rfl | hq
          · rfl
          · simpa using List.all_eq_true.1 h1 q hq
        · refine ⟨fun ⟨_, _, _, h⟩ => absurd h h2, fun _ => by simp only [langermannProblem]; rw [if_pos h1, if_neg h2]⟩
      · refine ⟨fun ⟨d, _, h, _⟩ => absurd ?_ h1, fun _ => by simp only [langermannProblem]; rw [if_neg h1]⟩
        rw [List.all_eq_true]
        intro q hq
        simp [h q (by simp [hq]), h r (by simp)]

/-! ### Bit strings -/

/-- C81: the bit-string problems are maximised. For every length the only best bit string is all ones, for the plain counts and
the trap; the target, if one is given; for `TwoMax` both constant strings are best and every other string is worse. -/
theorem default_best_strings (n : Nat) (hn : 0 < n) (target : List Int) (ht : Binary target) (htn : target.length = n) :
    OnlyBestString maxOnesProblem (List.replicate n 1) ∧
    OnlyBestString (maxOnesProblem (some target)) target ∧
    OnlyBestString leadingOnesProblem (List.replicate n 1) ∧
    OnlyBestString (leadingOnesProblem (some target)) target ∧
    OnlyBestString deceptiveTrapProblem (List.replicate n 1) ∧
    (∀ best, Binary best → best.length = n → ((∀ x ∈ best, x = 1) ∨ (∀ x ∈ best, x = 0)) →
      ∀ x, Binary x → x.length = n → ∃ v w, twoMaxProblem.evaluate best = .ok v ∧ twoMaxProblem.evaluate x = .ok w ∧
        ¬ twoMaxProblem.worseThan v w ∧
        (¬ ((∀ y ∈ x, y = 1) ∨ (∀ y ∈ x, y = 0)) → twoMaxProblem.worseThan w v)) := by
  have hones : Binary (List.replicate n 1) := fun x hx => Or.inr (List.eq_of_mem_replicate hx)
  have hne1 : ∀ x : List Int, x.length = (List.replicate n (1 : Int)).length → x ≠ List.replicate n 1 → ¬ ∀ y ∈ x, y = 1 := by
    intro x hl hne h
    exact hne (List.eq_replicate_iff.2 ⟨by simpa using hl, h⟩)
  have hlp : ∀ {α : Type} (P : α → Prop) (l : List α) (k : Nat), LongestPrefix P l k →
      k ≤ l.length ∧ ((∀ y ∈ l, P y) ↔ k = l.length) := by
    intro α P l k ⟨h1, h2, h3⟩
    refine ⟨h1, fun h => ?_, fun h y hy => ?_⟩
    · by_contra hk
      have hlt : k < l.length := lt_of_le_of_ne h1 hk
      exact h3 l[k] (List.getElem?_eq_getElem hlt) (h _ (List.getElem_mem hlt))
    · obtain ⟨i, hi, rfl⟩ := List.getElem_of_mem hy
      exact h2 i _ (by omega) (List.getElem?_eq_getElem hi)
  have hzip : ∀ x t : List Int, x.length = t.length → ((∀ p ∈ x.zip t, p.1 = p.2) ↔ x = t) := by
    intro x
    induction x with
    | nil => intro t h; cases t <;> simp_all
    | cons a x ih =>
      intro t h
      cases t with
      | nil => simp at h
      | cons b t =>
        have := ih t (by simpa using h)
        rw [List.zip_cons_cons, List.forall_mem_cons, this, List.cons.injEq]
  refine ⟨?_, ?_, ?_, ?_, ?_, ?_⟩
  · obtain ⟨e, -, h⟩ := max_ones_value (List.replicate n 1)
    refine ⟨hones, n, ?_, fun x _ hl hne => ?_⟩
    · have : ones (List.replicate n 1) = n := by
        rw [h.2 fun y hy => List.eq_of_mem_replicate hy]; simp
      simp only [maxOnesProblem, asFitness, e, this]; rfl
    · obtain ⟨e', h1, h2⟩ := max_ones_value x
      refine ⟨ones x, by simp only [maxOnesProblem, asFitness, e']; rfl, ?_⟩
      have hlt : ones x < n := by
        have hl' : x.length = n := by simpa using hl
        exact lt_of_le_of_ne (by omega) fun h => hne1 x hl hne (h2.1 (by omega))
      have : (ones x : ℝ) < n := by exact_mod_cast hlt
      simpa [BenchProblem.worseThan, maxOnesProblem] using this
  · obtain ⟨e, -, h⟩ := (max_ones_target target target).1 rfl
    refine ⟨ht, target.length, ?_, fun x _ hl hne => ?_⟩
    · simp only [maxOnesProblem, asFitness, e, h.2 rfl]; rfl
    · obtain ⟨e', h1, h2⟩ := (max_ones_target x target).1 hl
      refine ⟨agreements x target, by simp only [maxOnesProblem, asFitness, e']; rfl, ?_⟩
      have hlt : agreements x target < target.length := lt_of_le_of_ne h1 fun h => hne (h2.1 h)
      have : (agreements x target : ℝ) < target.length := by exact_mod_cast hlt
      simpa [BenchProblem.worseThan, maxOnesProblem] using this
  · obtain ⟨k, e, hk⟩ := (leading_ones_value (List.replicate n 1)).1 (by simp; omega)
    have hkn : k = n := by
      have := ((hlp _ _ _ hk).2).1 fun y hy => List.eq_of_mem_replicate hy
      simpa using this
    subst hkn
    refine ⟨hones, k, by simp only [leadingOnesProblem, asFitness, e]; rfl, fun x _ hl hne => ?_⟩
    have hl' : x.length = k := by simpa using hl
    obtain ⟨j, e', hj⟩ := (leading_ones_value x).1 (by rintro rfl; simp at hl'; omega)
    refine ⟨j, by simp only [leadingOnesProblem, asFitness, e']; rfl, ?_⟩
    obtain ⟨j1, j2⟩ := hlp _ _ _ hj
    have hlt : j < k := lt_of_le_of_ne (by omega) fun h => hne1 x hl hne (j2.2 (by omega))
    have : (j : ℝ) < k := by exact_mod_cast hlt
    simpa [BenchProblem.worseThan, leadingOnesProblem] using this
  · have htne : target ≠ [] := by rintro rfl; simp at htn; omega
    obtain ⟨k, e, hk⟩ := (leading_ones_target target target htne).1 rfl
    have hkn : k = n := by
      have := ((hlp _ _ _ hk).2).1 ((hzip target target rfl).2 rfl)
      simpa [htn] using this
    refine ⟨ht, k, by simp only [leadingOnesProblem, asFitness, e]; rfl, fun x _ hl hne => ?_⟩
    obtain ⟨j, e', hj⟩ := (leading_ones_target x target (by rintro rfl; simp at hl; omega)).1 hl
    refine ⟨j, by simp only [leadingOnesProblem, asFitness, e']; rfl, ?_⟩
    obtain ⟨j1, j2⟩ := hlp _ _ _ hj
    simp only [List.length_zip, hl, min_self] at j1 j2
    have hlt : j < k := lt_of_le_of_ne (by omega) fun h => hne ((hzip x target hl).1 (j2.2 (by omega)))
    have : (j : ℝ) < k := by exact_mod_cast hlt
    simpa [BenchProblem.worseThan, leadingOnesProblem] using this
  · obtain ⟨h1, -⟩ := deceptive_trap_shape (List.replicate n 1)
    refine ⟨hones, n, ?_, fun x _ hl hne => ?_⟩
    · simp only [deceptiveTrapProblem, h1 fun y hy => List.eq_of_mem_replicate hy]
      simp
    · obtain ⟨-, h2⟩ := deceptive_trap_shape x
      obtain ⟨-, h3, -⟩ := h2 (hne1 x hl hne)
      refine ⟨deceptiveTrap x, rfl, ?_⟩
      have hl' : x.length = n := by simpa using hl
      rw [hl'] at h3
      have : (deceptiveTrap x : ℝ) < n := by exact_mod_cast h3
      simpa [BenchProblem.worseThan, deceptiveTrapProblem] using this
  · intro best hb hbn hbest x hx hxn
    obtain ⟨-, -, h1⟩ := two_max_value best hb
    obtain ⟨-, h2, h3⟩ := two_max_value x hx
    have e1 : twoMax best = n := by rw [h1.2 hbest, hbn]
    refine ⟨(n : ℝ), twoMax x, by simp [twoMaxProblem, e1], rfl, ?_, fun hno => ?_⟩
    · rw [hxn] at h2
      have : (twoMax x : ℝ) ≤ n := by exact_mod_cast h2
      simpa [BenchProblem.worseThan, twoMaxProblem] using this
    · rw [hxn] at h2 h3
      have : twoMax x < n := lt_of_le_of_ne h2 fun h => hno (h3.1 h)
      have : (twoMax x : ℝ) < n := by exact_mod_cast this
      simpa [BenchProblem.worseThan, twoMaxProblem] using this

example : 0 < 3 ∧ Binary [1, 0, 1] ∧ [1, 0, 1].length = 3 ∧ Binary [0, 0, 0] := by
  refine ⟨by decide, ?_, rfl, ?_⟩ <;> intro x hx <;> simp at hx <;> omega

/-- C81: the argument `maximize` turns the comparison around, for every problem. -/
theorem maximize_reverses {X : Type} (f : X → PyM ℝ) (a b : ℝ) :
    (⟨true, f⟩ : BenchProblem X).worseThan a b ↔ (⟨false, f⟩ : BenchProblem X).worseThan b a := Iff.rfl

end Leap
