import Mathlib.Algebra.BigOperators.Fin
import Mathlib.Algebra.Order.BigOperators.Group.Finset
import Mathlib.LinearAlgebra.Matrix.DotProduct
import Mathlib.LinearAlgebra.Matrix.NonsingularInverse
import Mathlib.Tactic.Linarith
import Mathlib.Tactic.Ring
import Mathlib.Tactic.Positivity
import Mathlib.Tactic.FinCases
import Mathlib.Tactic.IntervalCases
import Verif.Model.Quadratic
import Verif.Props.Transform

/-!
# C73: the quadratic family has the minima it was built with
-/

namespace Leap

open Spec Matrix

theorem mapM_ofFn_ok {n : Nat} {α β : Type} (a : Fin n → α) (g : α → PyM β) (r : Fin n → β) (h : ∀ k, g (a k) = .ok (r k)) :
    (List.ofFn a).mapM g = .ok (List.ofFn r) := by
  induction n with
  | zero => simp [pure, Except.pure]
  | succ n ih =>
    rw [List.ofFn_succ, List.ofFn_succ, List.mapM_cons, h 0, ih (fun k => a k.succ) (fun k => r k.succ) fun k => h k.succ]
    rfl

theorem zip_ofFn {n : Nat} {α β : Type} (a : Fin n → α) (c : Fin n → β) :
    (List.ofFn a).zip (List.ofFn c) = List.ofFn fun k => (a k, c k) := by
  apply List.ext_getElem
  · simp
  · intro i h1 h2
    simp

theorem transposeRows_rowsOf {n : Nat} (M : Matrix (Fin n) (Fin n) ℝ) : transposeRows (rowsOf M) = rowsOf Mᵀ := by
  have hh : ((rowsOf M).headD []).length = n := by
    cases n with
    | zero => simp [rowsOf]
    | succ n => simp [rowsOf, List.ofFn_succ]
  rw [transposeRows, hh]
  apply List.ext_getElem
  · simp [rowsOf]
  · intro i h1 h2
    have hi : i < n := by simpa using h1
    rw [List.getElem_map, List.getElem_range]
    apply List.ext_getElem
    · simp [rowsOf]
    · intro j h3 h4
      have hj : j < n := by simpa [rowsOf] using h3
      simp [rowsOf, List.getD_eq_getElem?_getD, hi]

theorem matMul_rowsOf {n : Nat} (A B : Matrix (Fin n) (Fin n) ℝ) : matMul (rowsOf A) (rowsOf B) = rowsOf (A * B) := by
  rw [matMul, transposeRows_rowsOf]
  apply List.ext_getElem
  · simp [rowsOf]
  · intro i h1 h2
    have hi : i < n := by simpa [rowsOf] using h1
    apply List.ext_getElem
    · simp [rowsOf]
    · intro j h3 h4
      simp only [rowsOf, List.getElem_map, List.getElem_ofFn, vecDot_ofFn]
      rfl

theorem closeToDiagonal_rowsOf {n : Nat} (D : Matrix (Fin n) (Fin n) ℝ) :
    closeToDiagonal (rowsOf D) ↔ ∀ i j, i ≠ j → |D i j| ≤ 1 / 10 ^ 8 := by
  have key : ∀ i j : Fin n, ((rowsOf D).getD i.1 []).getD j.1 0 = D i j := by
    intro i j
    simp [rowsOf, List.getD_eq_getElem?_getD]
  constructor
  · intro h i j hij
    rw [← key]
    exact h i.1 (by simp [rowsOf]) j.1 (by simp [rowsOf]) fun e => hij (Fin.ext e)
  · intro h i hi j hj hij
    have hi' : i < n := by simpa [rowsOf] using hi
    have hj' : j < n := by simpa [rowsOf] using hj
    have := key ⟨i, hi'⟩ ⟨j, hj'⟩
    simp only at this
    rw [this]
    exact h _ _ fun e => hij (by simpa using e)

/-- **C73** (paraboloid). A matrix with an off-diagonal element further than 1e-8 from 0 is refused. Otherwise the problem is
the documented quadratic form `xᵀ (Rᵀ D R) x`, for arrays of the right length only. -/
theorem parabaloid_spec {n : Nat} (D R : Matrix (Fin n) (Fin n) ℝ) (mx : Bool) :
    ((∃ i j, i ≠ j ∧ 1 / 10 ^ 8 < |D i j|) → parabaloidProblem (rowsOf D) (rowsOf R) mx = .error .assertionError) ∧
    ((∀ i j, i ≠ j → |D i j| ≤ 1 / 10 ^ 8) → ∃ p, parabaloidProblem (rowsOf D) (rowsOf R) mx = .ok p ∧ p.maximize = mx ∧
      p.bounds = none ∧
      (∀ x : Fin n → ℝ, p.evaluate (.array (List.ofFn x)) = .ok (x ⬝ᵥ ((Rᵀ * D * R) *ᵥ x))) ∧
      (∀ x : List ℝ, x.length ≠ n → p.evaluate (.array x) = .error .valueError) ∧
      (∀ x, p.evaluate (.list x) = .error .attributeError)) := by
  constructor
  · rintro ⟨i, j, hij, h⟩
    rw [parabaloidProblem, if_neg]
    rw [closeToDiagonal_rowsOf]
    intro hc
    exact absurd (hc i j hij) (not_le.2 h)
  · intro h
    refine ⟨⟨parabaloidEvaluate (rowsOf (Rᵀ * D * R)), mx, none⟩, ?_, rfl, rfl, ?_, ?_, fun _ => rfl⟩
    · rw [parabaloidProblem, if_pos ((closeToDiagonal_rowsOf D).2 h), if_pos (by simp [rowsOf])]
      rw [transposeRows_rowsOf, matMul_rowsOf, matMul_rowsOf]
    · intro x
      simp only [parabaloidEvaluate]
      rw [if_pos (by simp [rowsOf]), transposeRows_rowsOf, matVec_ofFn, vecDot_ofFn, dotProduct_comm, mulVec_transpose,
        dotProduct_comm, dotProduct_mulVec]
    · intro x hx
      simp only [parabaloidEvaluate]
      rw [if_neg (by simpa [rowsOf] using hx)]

/-- **C73** (paraboloid). A diagonal matrix and a rotation for different numbers of dimensions are refused. -/
theorem parabaloid_sizes {n k : Nat} (hnk : n ≠ k) (D : Matrix (Fin n) (Fin n) ℝ) (R : Matrix (Fin k) (Fin k) ℝ) (mx : Bool) :
    parabaloidProblem (rowsOf D) (rowsOf R) mx =
      .error (if ∀ i j, i ≠ j → |D i j| ≤ 1 / 10 ^ 8 then .valueError else .assertionError) := by
  rw [parabaloidProblem, if_neg (show ¬ (rowsOf R).length = (rowsOf D).length by simpa [rowsOf] using hnk.symm)]
  simp only [closeToDiagonal_rowsOf]
  split <;> rfl

example : parabaloidProblem (rowsOf (1 : Matrix (Fin 2) (Fin 2) ℝ)) (rowsOf (1 : Matrix (Fin 3) (Fin 3) ℝ)) true = .error .valueError := by
  rw [parabaloid_sizes (by decide), if_pos]
  intro i j hij
  rw [Matrix.one_apply_ne hij]
  norm_num

theorem form_diagonal {n : Nat} (d : Fin n → ℝ) (R : Matrix (Fin n) (Fin n) ℝ) (x : Fin n → ℝ) :
    x ⬝ᵥ ((Rᵀ * Matrix.diagonal d * R) *ᵥ x) = ∑ i, d i * (R *ᵥ x) i ^ 2 := by
  rw [← mulVec_mulVec, ← mulVec_mulVec, dotProduct_mulVec, vecMul_transpose, dotProduct]
  apply Finset.sum_congr rfl
  intro i _
  rw [mulVec_diagonal]
  ring

theorem form_pos {n : Nat} (d : Fin n → ℝ) (hd : ∀ i, 0 < d i) (R : Matrix (Fin n) (Fin n) ℝ) (hR : R * Rᵀ = 1) (x : Fin n → ℝ) :
    0 ≤ x ⬝ᵥ ((Rᵀ * Matrix.diagonal d * R) *ᵥ x) ∧ (x ⬝ᵥ ((Rᵀ * Matrix.diagonal d * R) *ᵥ x) = 0 ↔ x = 0) := by
  rw [form_diagonal]
  have hnn : ∀ i ∈ Finset.univ, 0 ≤ d i * (R *ᵥ x) i ^ 2 := fun i _ => mul_nonneg (hd i).le (sq_nonneg _)
  refine ⟨Finset.sum_nonneg hnn, ?_, ?_⟩
  · intro h
    have h0 : R *ᵥ x = 0 := by
      funext i
      have := (Finset.sum_eq_zero_iff_of_nonneg hnn).1 h i (Finset.mem_univ i)
      rcases mul_eq_zero.1 this with h' | h'
      · exact absurd h' (hd i).ne'
      · simpa using h'
    have hR' : Rᵀ * R = 1 := mul_eq_one_comm.1 hR
    have := congrArg (fun v => Rᵀ *ᵥ v) h0
    simpa [mulVec_mulVec, hR'] using this
  · rintro rfl
    simp

/-- **C73** (paraboloid). With positive diagonal and a rotation, the only minimum is the origin, with value 0; with a negative
diagonal element it is a saddle, unbounded below along a line through the origin. -/
theorem parabaloid_shape {n : Nat} (d : Fin n → ℝ) (R : Matrix (Fin n) (Fin n) ℝ) (hR : R * Rᵀ = 1) (mx : Bool) :
    ∃ p, parabaloidProblem (rowsOf (Matrix.diagonal d)) (rowsOf R) mx = .ok p ∧
      ((∀ i, 0 < d i) → ∀ x : Fin n → ℝ, ∃ y, p.evaluate (.array (List.ofFn x)) = .ok y ∧ 0 ≤ y ∧ (y = 0 ↔ x = 0)) ∧
      (∀ i, ∃ x : Fin n → ℝ, ∀ t : ℝ, p.evaluate (.array (List.ofFn (t • x))) = .ok (d i * t ^ 2)) := by
  obtain ⟨p, hp, _, _, he, _⟩ := (parabaloid_spec (Matrix.diagonal d) R mx).2 (by
    intro i j hij
    rw [Matrix.diagonal_apply_ne d hij]
    norm_num)
  refine ⟨p, hp, fun hd x => ⟨_, he x, form_pos d hd R hR x⟩, fun i => ⟨Rᵀ *ᵥ Pi.single i 1, fun t => ?_⟩⟩
  rw [he, form_diagonal]
  congr 1
  rw [mulVec_smul, mulVec_mulVec, hR, one_mulVec, Finset.sum_eq_single i]
  · simp
  · intro j _ hj
    simp [hj]
  · simp

namespace Spec

/-- The `i`-th term of the documented formula: `(x - p)ᵀ B (x - p) + v` with `B = Rᵀ D R`. -/
noncomputable def basin {n : Nat} (D R : Matrix (Fin n) (Fin n) ℝ) (p : Fin n → ℝ) (v : ℝ) (x : Fin n → ℝ) : ℝ :=
  (x - p) ⬝ᵥ ((Rᵀ * D * R) *ᵥ (x - p)) + v

end Spec

theorem npMinReal_spec (l : List ℝ) (y : ℝ) : npMinReal l = .ok y ↔ y ∈ l ∧ ∀ z ∈ l, y ≤ z := by
  cases l with
  | nil => simp [npMinReal]
  | cons a l =>
    have key : ∀ (l : List ℝ) (a : ℝ), l.foldl min a ∈ a :: l ∧ ∀ z ∈ a :: l, l.foldl min a ≤ z := by
      intro l
      induction l with
      | nil => simp
      | cons b l ih =>
        intro a
        obtain ⟨h1, h2⟩ := ih (min a b)
        rw [List.foldl_cons]
        refine ⟨?_, ?_⟩
        · rcases List.mem_cons.1 h1 with h | h
          · rw [h]
            rcases min_choice a b with h' | h' <;> simp [h']
          · exact List.mem_cons_of_mem _ (List.mem_cons_of_mem _ h)
        · intro z hz
          have h0 := h2 _ List.mem_cons_self
          rcases List.mem_cons.1 hz with rfl | hz
          · exact le_trans h0 (min_le_left _ _)
          · rcases List.mem_cons.1 hz with rfl | hz
            · exact le_trans h0 (min_le_right _ _)
            · exact h2 z (List.mem_cons_of_mem _ hz)
    have hk := key l a
    simp only [npMinReal, Except.ok.injEq]
    constructor
    · rintro rfl
      exact hk
    · rintro ⟨h1, h2⟩
      exact le_antisymm (hk.2 y h1) (h2 _ hk.1)

theorem npMinReal_ok (l : List ℝ) (h : l ≠ []) : ∃ y, npMinReal l = .ok y := by
  cases l with
  | nil => exact absurd rfl h
  | cons a l => exact ⟨_, rfl⟩

/-- **C73** (value). The family evaluates to the least of its basins' documented terms; without basins it cannot be evaluated.
Lists of different lengths are refused, and so are off-diagonal elements. -/
theorem quadratic_family_value {q n : Nat} (D R : Fin q → Matrix (Fin n) (Fin n) ℝ) (p : Fin q → Fin n → ℝ) (v : Fin q → ℝ)
    (mx : Bool) (hD : ∀ k i j, i ≠ j → |D k i j| ≤ 1 / 10 ^ 8) :
    ∃ f, quadraticFamily (List.ofFn fun k => rowsOf (D k)) (List.ofFn fun k => rowsOf (R k)) (List.ofFn fun k => List.ofFn (p k))
        (List.ofFn v) mx = .ok f ∧ f.maximize = mx ∧
      (∀ x : Fin n → ℝ, ∀ y, f.evaluate (.array (List.ofFn x)) = .ok y ↔
        (∃ k, y = basin (D k) (R k) (p k) (v k) x) ∧ ∀ k, y ≤ basin (D k) (R k) (p k) (v k) x) ∧
      (0 < q → ∀ x : Fin n → ℝ, ∃ y, f.evaluate (.array (List.ofFn x)) = .ok y) ∧
      (q = 0 → ∀ x, f.evaluate x = .error .valueError) ∧
      (0 < q → ∀ x : Phenome ℝ, x.len ≠ n → f.evaluate x = .error .assertionError) ∧
      (0 < q → ∀ x : List ℝ, x.length = n → f.evaluate (.list x) = .error .valueError) := by
  choose par hpar hmx hbd hev _ _ using fun k => (parabaloid_spec (D k) (R k) false).2 (hD k)
  let pr : Fin q → RealProblem ℝ ℝ := fun k => realOffsetProblem (translatedProblem (par k) (List.ofFn (p k)) none) (v k)
  refine ⟨⟨quadraticEvaluate (List.ofFn pr), mx, none⟩, ?_, rfl, ?_⟩
  · rw [quadraticFamily, if_pos (by simp), zip_ofFn,
      mapM_ofFn_ok (fun k => (rowsOf (D k), rowsOf (R k))) (fun dr => parabaloidProblem dr.1 dr.2 false) par hpar]
    show Except.ok _ = _
    rw [zip_ofFn, List.map_ofFn, zip_ofFn, List.map_ofFn]
    rfl
  · have hval : ∀ k (x : Fin n → ℝ), (pr k).evaluate (.array (List.ofFn x)) = .ok (basin (D k) (R k) (p k) (v k) x) := by
      intro k x
      show ((translatedProblem (par k) (List.ofFn (p k)) none).evaluate (.array (List.ofFn x))).map (fun w => w + v k) = _
      have h := (translated_spec (par k) (List.ofFn (p k)) none).1 (List.ofFn (x - p k)) (by simp)
      have e : List.zipWith (fun a b => a + b) (List.ofFn (x - p k)) (List.ofFn (p k)) = List.ofFn x := by
        apply List.ext_getElem
        · simp
        · intro i h1 h2
          simp
      rw [e, hev k] at h
      rw [h]
      rfl
    have hall : ∀ x : Fin n → ℝ, quadraticEvaluate (List.ofFn pr) (.array (List.ofFn x)) =
        npMinReal (List.ofFn fun k => basin (D k) (R k) (p k) (v k) x) := by
      intro x
      rw [quadraticEvaluate, mapM_ofFn_ok pr (fun p => p.evaluate (.array (List.ofFn x))) _ fun k => hval k x]
      rfl
    have hfail : ∀ (x : Phenome ℝ) (e : PyErr), (∀ k, (pr k).evaluate x = .error e) → 0 < q →
        quadraticEvaluate (List.ofFn pr) x = .error e := by
      intro x e h hq
      obtain ⟨m, rfl⟩ : ∃ m, q = m + 1 := ⟨q - 1, by omega⟩
      rw [quadraticEvaluate, List.ofFn_succ, List.mapM_cons, h 0]
      rfl
    refine ⟨?_, ?_, ?_, ?_, ?_⟩
    · intro x y
      show quadraticEvaluate (List.ofFn pr) (.array (List.ofFn x)) = _ ↔ _
      rw [hall, npMinReal_spec]
      simp only [List.mem_ofFn, forall_exists_index, forall_apply_eq_imp_iff]
      constructor
      · rintro ⟨⟨k, hk⟩, h⟩
        exact ⟨⟨k, hk.symm⟩, h⟩
      · rintro ⟨⟨k, hk⟩, h⟩
        exact ⟨⟨k, hk.symm⟩, h⟩
    · intro hq x
      show ∃ y, quadraticEvaluate (List.ofFn pr) (.array (List.ofFn x)) = _
      rw [hall]
      exact npMinReal_ok _ (by simp; omega)
    · rintro rfl x
      rfl
    · intro hq x hx
      refine hfail x _ (fun k => ?_) hq
      show ((translatedProblem (par k) (List.ofFn (p k)) none).evaluate x).map (fun w => w + v k) = _
      rw [(translated_spec (par k) (List.ofFn (p k)) none).2.1 x (by simpa using hx)]
      rfl
    · intro hq x hx
      refine hfail (.list x) _ (fun k => ?_) hq
      show ((translatedProblem (par k) (List.ofFn (p k)) none).evaluate (.list x)).map (fun w => w + v k) = _
      rw [(translated_spec (par k) (List.ofFn (p k)) none).2.2.1 x (by simpa using hx)]
      rfl

/-- **C73** (refusals). Different numbers of matrices, vectors and fitness values fail the assertions. -/
theorem quadratic_family_lengths (ds rs : List (List (List ℝ))) (os : List (List ℝ)) (vs : List ℝ) (mx : Bool)
    (h : ds.length ≠ rs.length ∨ os.length ≠ rs.length ∨ vs.length ≠ rs.length) :
    quadraticFamily ds rs os vs mx = .error .assertionError := by
  rw [quadraticFamily, if_neg]
  rintro ⟨h1, h2, h3⟩
  rcases h with h | h | h <;> contradiction

/-- **C73** (optima). With positive diagonals and rotations, the least value is the least of the fitness values, and it is
taken exactly at the centres of the basins that have it. The value at a centre never exceeds that basin's fitness value. -/
theorem quadratic_family_optima {q n : Nat} (d : Fin q → Fin n → ℝ) (hd : ∀ k i, 0 < d k i) (R : Fin q → Matrix (Fin n) (Fin n) ℝ)
    (hR : ∀ k, R k * (R k)ᵀ = 1) (p : Fin q → Fin n → ℝ) (v : Fin q → ℝ) (mx : Bool) (best : Fin q)
    (hbest : ∀ k, v best ≤ v k) :
    ∃ f, quadraticFamily (List.ofFn fun k => rowsOf (Matrix.diagonal (d k))) (List.ofFn fun k => rowsOf (R k))
        (List.ofFn fun k => List.ofFn (p k)) (List.ofFn v) mx = .ok f ∧
      ∀ x : Fin n → ℝ, ∃ y, f.evaluate (.array (List.ofFn x)) = .ok y ∧ v best ≤ y ∧
        (y = v best ↔ ∃ k, x = p k ∧ v k = v best) ∧ ∀ k, x = p k → y ≤ v k := by
  obtain ⟨f, hf, _, hv, hex, _⟩ := quadratic_family_value (fun k => Matrix.diagonal (d k)) R p v mx (by
    intro k i j hij
    rw [Matrix.diagonal_apply_ne _ hij]
    norm_num)
  refine ⟨f, hf, fun x => ?_⟩
  obtain ⟨y, hy⟩ := hex (by have := best.2; omega) x
  obtain ⟨⟨k, hk⟩, hle⟩ := (hv x y).1 hy
  have hform := fun k => form_pos (d k) (hd k) (R k) (hR k) (x - p k)
  have hkk := hform k
  have hbk := hbest k
  simp only [basin] at hk
  refine ⟨y, hy, by linarith [hkk.1], ?_, ?_⟩
  · constructor
    · intro h
      refine ⟨k, ?_, by linarith [hkk.1]⟩
      have h0 := hkk.2.1 (by linarith [hkk.1])
      exact sub_eq_zero.1 h0
    · rintro ⟨j, hj, hvj⟩
      have h1 := hle j
      have h2 := (hform j).2.2 (sub_eq_zero.2 hj)
      simp only [basin] at h1
      linarith [hkk.1]
  · intro j hj
    have h1 := hle j
    have h2 := (hform j).2.2 (sub_eq_zero.2 hj)
    simp only [basin] at h1
    linarith

theorem diagRows_ofFn {n : Nat} (v : Fin n → ℝ) : diagRows (List.ofFn v) = rowsOf (Matrix.diagonal v) := by
  rw [diagRows]
  apply List.ext_getElem
  · simp [rowsOf]
  · intro i h1 h2
    have hi : i < n := by simpa [rowsOf] using h2
    apply List.ext_getElem
    · simp [rowsOf]
    · intro j h3 h4
      have hj : j < n := by simpa using h3
      simp [rowsOf, Matrix.diagonal_apply, List.getD_eq_getElem?_getD, hi]

theorem map_range_ofFn {α : Type} (n : Nat) (f : Nat → α) : (List.range n).map f = List.ofFn fun i : Fin n => f i := by
  apply List.ext_getElem
  · simp
  · intro i h1 h2
    simp

namespace Spec

/-- A number drawn uniformly between the bounds, from the unit draw `u`. -/
noncomputable def between (b : ℝ × ℝ) (u : ℝ) : ℝ := b.1 + u * (b.2 - b.1)

/-- The widths of the basin `k`. -/
noncomputable def genWidth (n : Nat) (wb : ℝ × ℝ) (draws : QuadraticDraws) (k : Nat) : Fin n → ℝ := fun i => between wb (draws.width k i)

/-- The centre of the basin `k`. -/
noncomputable def genCentre (n : Nat) (ob : ℝ × ℝ) (draws : QuadraticDraws) (k : Nat) : Fin n → ℝ := fun i => between ob (draws.offset k i)

/-- The fitness at the centre of the basin `k`: 0 for the first `g`. -/
noncomputable def genFitness (g : Nat) (fb : ℝ × ℝ) (draws : QuadraticDraws) (k : Nat) : ℝ :=
  if k < g then 0 else between fb (draws.fitness (k - g))

end Spec

theorem between_mem (b : ℝ × ℝ) (h : b.1 ≤ b.2) (u : ℝ) (hu : 0 ≤ u ∧ u < 1) : b.1 ≤ between b u ∧ between b u ≤ b.2 := by
  unfold between
  constructor <;> nlinarith [hu.1, hu.2]

theorem uniformIn_eq (b : ℝ × ℝ) (u : ℝ) : uniformIn b u = between b u := by
  unfold uniformIn between
  ring

/-- **C73** (generator). For at least two dimensions and draws that do not give a singular matrix, the generator makes the
minimisation problem of the documented formula, with random widths, centres and fitness values between the given bounds, with
`num_global_optima` fitness values 0, and with rotations. The first centre is recorded as optimum.
Missing from the full claim, because it is false of the code: that the recorded optimum is within the bounds. -/
theorem quadratic_generate_spec_partial {n q g : Nat} (hn : 2 ≤ n) (hg : g ≤ q) (wb ob fb : ℝ × ℝ) (hw : wb.1 ≤ wb.2)
    (ho : ob.1 ≤ ob.2) (draws : QuadraticDraws) (hrot : ∀ b, (Matrix.of fun i j : Fin n => draws.rotation b i j).det ≠ 0) :
    ∃ (f : RealProblem ℝ ℝ) (R : Nat → Matrix (Fin n) (Fin n) ℝ), (∀ k, R k * (R k)ᵀ = 1) ∧
      quadraticGenerate n q g wb ob fb draws = .ok (f, if 0 < g then some (List.ofFn (genCentre n ob draws 0)) else none) ∧
      f.maximize = false ∧ f.bounds = some (-2 * wb.2, 2 * wb.2) ∧
      quadraticFamily (List.ofFn fun k : Fin q => rowsOf (Matrix.diagonal (genWidth n wb draws k)))
        (List.ofFn fun k : Fin q => rowsOf (R k)) (List.ofFn fun k : Fin q => List.ofFn (genCentre n ob draws k))
        (List.ofFn fun k : Fin q => genFitness g fb draws k) false = .ok ⟨f.evaluate, false, none⟩ ∧
      (∀ x : Fin n → ℝ, ∀ y, f.evaluate (.array (List.ofFn x)) = .ok y ↔
        (∃ k, k < q ∧ y = basin (Matrix.diagonal (genWidth n wb draws k)) (R k) (genCentre n ob draws k)
          (genFitness g fb draws k) x) ∧
        ∀ k, k < q → y ≤ basin (Matrix.diagonal (genWidth n wb draws k)) (R k) (genCentre n ob draws k)
          (genFitness g fb draws k) x) := by
  choose R hR hRo _ _ using fun b => (random_orthonormal_spec hn
    (Matrix.of fun i j : Fin n => draws.rotation b i j)).1 (hrot b)
  have hvl : (List.replicate (Int.toNat (g : Int)) (0 : ℝ)) ++
      (List.range ((q : Int) - g).toNat).map (fun b => uniformIn fb (draws.fitness b)) =
        List.ofFn fun k : Fin q => genFitness g fb draws k := by
    apply List.ext_getElem
    · simp
      omega
    · intro i h1 h2
      have hi : i < q := by simpa using h2
      by_cases hig : i < g
      · rw [List.getElem_append_left (by simpa using hig)]
        simp [genFitness, hig]
      · rw [List.getElem_append_right (by simpa using hig)]
        simp [genFitness, hig, uniformIn_eq]
  have hdiag : ∀ (k : Fin q) i j, i ≠ j → |Matrix.diagonal (genWidth n wb draws k) i j| ≤ 1 / 10 ^ 8 := by
    intro k i j hij
    rw [Matrix.diagonal_apply_ne _ hij]
    norm_num
  obtain ⟨f, hf, hfm, hval, _⟩ := quadratic_family_value (fun k : Fin q => Matrix.diagonal (genWidth n wb draws k))
    (fun k : Fin q => R k) (fun k : Fin q => genCentre n ob draws k) (fun k : Fin q => genFitness g fb draws k) false hdiag
  have hfb : f = ⟨f.evaluate, false, none⟩ := by
    have h0 := hf
    rw [quadraticFamily] at h0
    split_ifs at h0
    cases hm : List.mapM (fun dr : List (List ℝ) × List (List ℝ) => parabaloidProblem dr.1 dr.2 false)
        ((List.ofFn fun k : Fin q => rowsOf (Matrix.diagonal (genWidth n wb draws k))).zip (List.ofFn fun k : Fin q => rowsOf (R k))) with
    | error e => rw [hm] at h0; cases h0
    | ok ps =>
      rw [hm] at h0
      have := Except.ok.inj h0
      rw [← this]
  refine ⟨⟨f.evaluate, f.maximize, some (-2 * wb.2, 2 * wb.2)⟩, R, hRo, ?_, hfm, rfl, by rw [hf]; exact congrArg _ hfb, ?_⟩
  · rw [quadraticGenerate, if_pos ⟨by omega, hw, ho, by omega⟩]
    have hm : (List.range (Int.toNat (q : Int))).mapM (fun b => randomOrthonormalMatrix
        ((List.range n).map fun i => (List.range n).map fun j => draws.rotation b i j)) = .ok (List.ofFn fun k : Fin q => rowsOf (R k)) := by
      have e : List.range (Int.toNat (q : Int)) = List.ofFn fun k : Fin q => k.1 := by
        apply List.ext_getElem
        · simp
        · intro i h1 h2
          simp
      rw [e]
      apply mapM_ofFn_ok
      intro k
      rw [← hR k]
      congr 1
      rw [map_range_ofFn]
      simp only [map_range_ofFn]
      rfl
    have e1 : ((List.range (Int.toNat (q : Int))).map fun b => diagRows ((List.range n).map fun i => uniformIn wb (draws.width b i))) =
        List.ofFn fun k : Fin q => rowsOf (Matrix.diagonal (genWidth n wb draws k)) := by
      rw [Int.toNat_natCast, map_range_ofFn]
      congr 1
      funext k
      simp only [uniformIn_eq]
      rw [map_range_ofFn, diagRows_ofFn]
      rfl
    have e2 : ((List.range (Int.toNat (q : Int))).map fun b => (List.range n).map fun i => uniformIn ob (draws.offset b i)) =
        List.ofFn fun k : Fin q => List.ofFn (genCentre n ob draws k) := by
      rw [Int.toNat_natCast, map_range_ofFn]
      congr 1
      funext k
      simp only [uniformIn_eq]
      rw [map_range_ofFn]
      rfl
    have hneg : ¬ (g : Int) < 0 := by omega
    simp only [hm, e1, e2, hvl, hf, if_neg hneg, bind, Except.bind]
    congr 2
    by_cases h : 0 < g
    · rw [if_pos (by omega), if_pos h]
      obtain ⟨m, rfl⟩ : ∃ m, q = m + 1 := ⟨q - 1, by omega⟩
      rw [List.ofFn_succ]
      rfl
    · rw [if_neg (by omega), if_neg h]
  · intro x y
    rw [hval x y]
    constructor
    · rintro ⟨⟨k, hk⟩, h⟩
      exact ⟨⟨k.1, k.2, hk⟩, fun j hj => h ⟨j, hj⟩⟩
    · rintro ⟨⟨k, hk, he⟩, h⟩
      exact ⟨⟨⟨k, hk⟩, he⟩, fun j => h j.1 j.2⟩

/-- **C73** (generator). With positive widths and uniform draws, the least value is the least fitness value and is taken exactly at
the centres that have it. If the fitness bounds are positive, this is 0, and it is taken exactly at the first
`num_global_optima` centres; the recorded one is among them, and all lie within the offset bounds. -/
theorem quadratic_generate_optima {n q g : Nat} (hn : 2 ≤ n) (hg : g ≤ q) (wb ob fb : ℝ × ℝ) (hw0 : 0 < wb.1) (hw : wb.1 ≤ wb.2)
    (ho : ob.1 ≤ ob.2) (draws : QuadraticDraws) (hdw : ∀ b i, 0 ≤ draws.width b i ∧ draws.width b i < 1)
    (hdo : ∀ b i, 0 ≤ draws.offset b i ∧ draws.offset b i < 1) (hdf : ∀ b, 0 ≤ draws.fitness b ∧ draws.fitness b < 1)
    (hrot : ∀ b, (Matrix.of fun i j : Fin n => draws.rotation b i j).det ≠ 0) :
    ∃ f : RealProblem ℝ ℝ,
      quadraticGenerate n q g wb ob fb draws = .ok (f, if 0 < g then some (List.ofFn (genCentre n ob draws 0)) else none) ∧
      f.maximize = false ∧ f.bounds = some (-2 * wb.2, 2 * wb.2) ∧
      (∀ k i, ob.1 ≤ genCentre n ob draws k i ∧ genCentre n ob draws k i ≤ ob.2) ∧
      (∀ best < q, (∀ k < q, genFitness g fb draws best ≤ genFitness g fb draws k) → ∀ x : Fin n → ℝ,
        ∃ y, f.evaluate (.array (List.ofFn x)) = .ok y ∧ genFitness g fb draws best ≤ y ∧
        (y = genFitness g fb draws best ↔ ∃ k < q, x = genCentre n ob draws k ∧
          genFitness g fb draws k = genFitness g fb draws best)) ∧
      (0 < fb.1 → 0 < fb.2 → 0 < g → ∀ x : Fin n → ℝ, ∃ y, f.evaluate (.array (List.ofFn x)) = .ok y ∧ 0 ≤ y ∧
        (y = 0 ↔ ∃ k < g, x = genCentre n ob draws k)) := by
  obtain ⟨f, R, hRo, hgen, hmx, hb, hfam, _⟩ := quadratic_generate_spec_partial hn hg wb ob fb hw ho draws hrot
  have hgenopt : ∀ best < q, (∀ k < q, genFitness g fb draws best ≤ genFitness g fb draws k) → ∀ x : Fin n → ℝ,
        ∃ y, f.evaluate (.array (List.ofFn x)) = .ok y ∧ genFitness g fb draws best ≤ y ∧
        (y = genFitness g fb draws best ↔ ∃ k < q, x = genCentre n ob draws k ∧
          genFitness g fb draws k = genFitness g fb draws best) := by
    intro best hbq hbest x
    obtain ⟨f', hf', hopt⟩ := quadratic_family_optima (fun k : Fin q => genWidth n wb draws k)
      (fun k i => lt_of_lt_of_le hw0 (between_mem wb hw _ (hdw k i)).1)
      (fun k : Fin q => R k) (fun k => hRo k) (fun k : Fin q => genCentre n ob draws k)
      (fun k : Fin q => genFitness g fb draws k) false ⟨best, hbq⟩ (fun k => hbest k.1 k.2)
    rw [hfam] at hf'
    obtain rfl := Except.ok.inj hf'
    obtain ⟨y, hy, hy0, hyeq, _⟩ := hopt x
    refine ⟨y, hy, hy0, hyeq.trans ⟨?_, ?_⟩⟩
    · rintro ⟨k, hx, hvk⟩
      exact ⟨k.1, k.2, hx, hvk⟩
    · rintro ⟨k, hk, hx, hvk⟩
      exact ⟨⟨k, hk⟩, hx, hvk⟩
  refine ⟨f, hgen, hmx, hb, fun k i => between_mem ob ho _ (hdo k i), hgenopt, ?_⟩
  intro hf1 hf2 hgpos x
  have hpos : ∀ b, 0 < between fb (draws.fitness b) := by
    intro b
    unfold between
    have := hdf b
    nlinarith
  have hv0 : genFitness g fb draws 0 = 0 := by simp [genFitness, hgpos]
  have hvk : ∀ k, 0 ≤ genFitness g fb draws k := by
    intro k
    unfold genFitness
    split_ifs
    · exact le_refl _
    · exact (hpos _).le
  obtain ⟨y, hy, hy0, hyeq⟩ := hgenopt 0 (by omega) (fun k _ => by rw [hv0]; exact hvk k) x
  rw [hv0] at hy0 hyeq
  refine ⟨y, hy, hy0, hyeq.trans ⟨?_, ?_⟩⟩
  · rintro ⟨k, _, hx, hk⟩
    refine ⟨k, ?_, hx⟩
    by_contra hkg
    simp only [genFitness, if_neg hkg] at hk
    exact absurd hk (hpos _).ne'
  · rintro ⟨k, hk, hx⟩
    exact ⟨k, by omega, hx, by simp [genFitness, hk]⟩

theorem identity_draw_det : (Matrix.of fun i j : Fin 2 => if i.1 = j.1 then (1 : ℝ) else 0).det ≠ 0 := by
  rw [Matrix.det_fin_two]
  simp

/-- **C73** (disagreement). The recorded optimum, and with it every optimum, can lie outside the bounds the generated problem
advertises: those are twice the largest *width*, not the bounds of the offsets. -/
theorem quadratic_generate_outside_bounds :
    ∃ (draws : QuadraticDraws) (f : RealProblem ℝ ℝ), quadraticGenerate 2 1 1 (1, 2) (-10, 10) (10, 100) draws =
        .ok (f, some [8, 8]) ∧ f.bounds = some (-4, 4) ∧ f.evaluate (.array [8, 8]) = .ok 0 ∧
      ∀ x y : ℝ, -4 ≤ x → x ≤ 4 → -4 ≤ y → y ≤ 4 → ∃ z, f.evaluate (.array [x, y]) = .ok z ∧ 0 < z := by
  let draws : QuadraticDraws := ⟨fun _ _ => 0, fun _ i j => if i = j then 1 else 0, fun _ _ => 9 / 10, fun _ => 0⟩
  obtain ⟨f, hf, _, hb, _, _, hopt⟩ := quadratic_generate_optima (n := 2) (q := 1) (g := 1) (le_refl 2) (le_refl 1) (1, 2) (-10, 10)
    (10, 100) (by norm_num) (by norm_num) (by norm_num) draws (fun _ _ => by simp [draws]) (fun _ _ => by simp [draws]; norm_num)
    (fun _ => by simp [draws]) (fun _ => identity_draw_det)
  have hopt := hopt (by norm_num) (by norm_num) (by norm_num)
  have hc8 : ∀ k, genCentre 2 (-10, 10) draws k = ![8, 8] := by
    intro k
    funext i
    fin_cases i <;> simp [genCentre, between, draws] <;> norm_num
  have hl : List.ofFn (![8, 8] : Fin 2 → ℝ) = [8, 8] := by simp
  refine ⟨draws, f, ?_, ?_, ?_, ?_⟩
  · have h2 : quadraticGenerate 2 1 1 (1, 2) (-10, 10) (10, 100) draws = .ok (f, some (List.ofFn (genCentre 2 (-10, 10) draws 0))) := hf
    rw [h2, hc8, hl]
  · rw [hb]
    norm_num
  · obtain ⟨y, hy, _, h0⟩ := hopt ![8, 8]
    rw [h0.2 ⟨0, by norm_num, (hc8 0).symm⟩, hl] at hy
    exact hy
  · intro x y _ hx _ _
    obtain ⟨z, hz, hz0, hiff⟩ := hopt ![x, y]
    refine ⟨z, by simpa using hz, lt_of_le_of_ne hz0 fun h => ?_⟩
    obtain ⟨k, _, hk⟩ := hiff.1 h.symm
    have := congrFun hk 0
    rw [hc8] at this
    simp at this
    linarith

/-- **C73** (disagreement). Fitness bounds are not checked: with negative ones, the recorded `global_optimum` is not an optimum. -/
theorem quadratic_generate_not_optimum :
    ∃ (draws : QuadraticDraws) (f : RealProblem ℝ ℝ) (opt x : List ℝ), quadraticGenerate 2 2 1 (1, 2) (-1, 1) (-5, -4) draws =
        .ok (f, some opt) ∧ ∃ y z, f.evaluate (.array opt) = .ok y ∧ f.evaluate (.array x) = .ok z ∧ z < y := by
  let draws : QuadraticDraws :=
    ⟨fun _ _ => 0, fun _ i j => if i = j then 1 else 0, fun b _ => if b = 0 then 0 else 1 / 2, fun _ => 0⟩
  obtain ⟨f, hf, _, _, _, hopt, _⟩ := quadratic_generate_optima (n := 2) (q := 2) (g := 1) (le_refl 2) (by norm_num) (1, 2) (-1, 1)
    (-5, -4) (by norm_num) (by norm_num) (by norm_num) draws (fun _ _ => by simp [draws])
    (fun b _ => by simp only [draws]; split_ifs <;> norm_num) (fun _ => by simp [draws]) (fun _ => identity_draw_det)
  have hv1 : genFitness 1 (-5, -4) draws 1 = -5 := by simp [genFitness, between, draws]
  have hv0 : genFitness 1 (-5, -4) draws 0 = 0 := by simp [genFitness]
  have hopt := hopt 1 (by norm_num) (by
    intro k hk
    interval_cases k
    · rw [hv0, hv1]; norm_num
    · exact le_refl _)
  obtain ⟨y, hy, hy0, hyeq⟩ := hopt (genCentre 2 (-1, 1) draws 0)
  obtain ⟨z, hz, _, hzeq⟩ := hopt (genCentre 2 (-1, 1) draws 1)
  refine ⟨draws, f, List.ofFn (genCentre 2 (-1, 1) draws 0), List.ofFn (genCentre 2 (-1, 1) draws 1), hf, y, z, hy, hz, ?_⟩
  rw [hzeq.2 ⟨1, by norm_num, rfl, rfl⟩]
  refine lt_of_le_of_ne hy0 fun h => ?_
  obtain ⟨k, hk, hx, hvk⟩ := hyeq.1 h.symm
  interval_cases k
  · rw [hv0, hv1] at hvk
    norm_num at hvk
  · have := congrFun hx 0
    simp [genCentre, between, draws] at this

/-- **C73** (disagreement). In one dimension no problem with a basin can be generated. -/
theorem quadratic_generate_one_dimension (q g : Int) (hq : 0 < q) (wb ob fb : ℝ × ℝ) (draws : QuadraticDraws) :
    ∃ e, quadraticGenerate 1 q g wb ob fb draws = .error e := by
  rw [quadraticGenerate]
  by_cases hc : 0 ≤ q ∧ wb.1 ≤ wb.2 ∧ ob.1 ≤ ob.2 ∧ g ≤ q
  · rw [if_pos hc]
    have hm : ∃ e, (List.range q.toNat).mapM (fun b => randomOrthonormalMatrix
        ((List.range 1).map fun i => (List.range 1).map fun j => draws.rotation b i j)) = .error e := by
      obtain ⟨m, h1⟩ : ∃ m : Nat, q.toNat = m + 1 := ⟨q.toNat - 1, by omega⟩
      have h3 : List.range (m + 1) = 0 :: (List.range m).map Nat.succ := List.range_succ_eq_map
      rw [h1, h3, List.mapM_cons]
      have := (random_orthonormal_one_dimension (V := ℝ) (draws.rotation 0 0 0) ⟨fun _ => .ok 0, true, none⟩ none).1
      have h2 : randomOrthonormalMatrix ((List.range 1).map fun i => (List.range 1).map fun j => draws.rotation 0 i j) =
          randomOrthonormalMatrix [[draws.rotation 0 0 0]] := rfl
      rw [h2, this]
      split_ifs
      · exact ⟨_, rfl⟩
      · exact ⟨_, rfl⟩
    obtain ⟨e, he⟩ := hm
    exact ⟨e, by simp only [he, bind, Except.bind]⟩
  · rw [if_neg hc]
    exact ⟨_, rfl⟩

/-- **C73** (refusals). The checks of the generator. -/
theorem quadratic_generate_refused (n : Nat) (q g : Int) (wb ob fb : ℝ × ℝ) (draws : QuadraticDraws)
    (h : q < 0 ∨ wb.2 < wb.1 ∨ ob.2 < ob.1 ∨ q < g) : quadraticGenerate n q g wb ob fb draws = .error .assertionError := by
  rw [quadraticGenerate, if_neg]
  rintro ⟨h1, h2, h3, h4⟩
  rcases h with h | h | h | h
  · omega
  · linarith
  · linarith
  · omega

end Leap
