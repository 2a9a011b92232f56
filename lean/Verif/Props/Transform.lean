import Mathlib.LinearAlgebra.Matrix.NonsingularInverse
import Mathlib.LinearAlgebra.Matrix.Block
import Mathlib.LinearAlgebra.Matrix.DotProduct
import Mathlib.LinearAlgebra.Matrix.ToLin
import Mathlib.Tactic.Ring
import Mathlib.Tactic.FieldSimp
import Mathlib.Tactic.Linarith
import Verif.Model.Transform
import Verif.Props.Compare

/-!
# C59: problem wrappers; C68: random rotations
-/

namespace Leap

namespace Spec

/-- A square matrix as Python's list of rows. -/
def rowsOf {n m : Nat} (M : Matrix (Fin n) (Fin m) R) : List (List R) := List.ofFn fun i => List.ofFn (M i)

end Spec
open Spec

/-! ## Translation -/

theorem vecSub_add [CommRing R] (x o : List R) (h : x.length = o.length) :
    vecSub (List.zipWith (fun a b => a + b) x o) o = x := by
  induction x generalizing o with
  | nil => simp [vecSub]
  | cons a x ih =>
    cases o with
    | nil => simp at h
    | cons b o =>
      simp only [List.length_cons, add_left_inj] at h
      have := ih o h
      simp only [vecSub] at this
      simp [vecSub, this]

theorem add_vecSub [CommRing R] (x o : List R) (h : x.length = o.length) :
    List.zipWith (fun a b => a + b) (vecSub x o) o = x := by
  induction x generalizing o with
  | nil => simp [vecSub]
  | cons a x ih =>
    cases o with
    | nil => simp at h
    | cons b o =>
      simp only [List.length_cons, add_left_inj] at h
      have := ih o h
      simp only [vecSub] at this
      simp [vecSub, this]

/-- **C59** (translation). The translated problem has at `x + offset` the value the original has at `x`, keeps the bounds and
the direction (unless told otherwise), and rejects vectors of another length and anything but arrays. -/
theorem translated_spec [CommRing R] (p : RealProblem R V) (offset : List R) (mx : Option Bool) :
    (∀ x, x.length = offset.length →
      (translatedProblem p offset mx).evaluate (.array (List.zipWith (fun a b => a + b) x offset)) = p.evaluate (.array x)) ∧
    (∀ x : Phenome R, x.len ≠ offset.length → (translatedProblem p offset mx).evaluate x = .error .assertionError) ∧
    (∀ x : List R, x.length = offset.length → (translatedProblem p offset mx).evaluate (.list x) = .error .valueError) ∧
    (translatedProblem p offset mx).bounds = p.bounds ∧
    (translatedProblem p offset mx).maximize = (match mx with | none => p.maximize | some b => b) := by
  refine ⟨?_, ?_, ?_, rfl, by cases mx <;> rfl⟩
  · intro x hx
    have hl : (Phenome.array (List.zipWith (fun a b => a + b) x offset)).len = offset.length := by simp [Phenome.len, hx]
    show translatedEvaluate p offset _ = _
    unfold translatedEvaluate
    rw [if_pos hl]
    simp only [vecSub_add x offset hx]
  · intro x hx
    simp [translatedProblem, translatedEvaluate, hx]
  · intro x hx
    simp [translatedProblem, translatedEvaluate, Phenome.len, hx]

/-- **C59** (translation). Whatever "at least as good" means, `x` is an optimum of the original problem among the vectors of
the offset's length exactly when `x + offset` is one of the translated problem. -/
theorem translated_optimum [CommRing R] (p : RealProblem R V) (offset : List R) (mx : Option Bool)
    (atLeast : PyM V → PyM V → Prop) (x : List R) (hx : x.length = offset.length) :
    (∀ y, y.length = offset.length → atLeast (p.evaluate (.array x)) (p.evaluate (.array y))) ↔
    (∀ y, y.length = offset.length →
      atLeast ((translatedProblem p offset mx).evaluate (.array (List.zipWith (fun a b => a + b) x offset)))
        ((translatedProblem p offset mx).evaluate (.array y))) := by
  have key := (translated_spec p offset mx).1
  rw [key x hx]
  constructor
  · intro h y hy
    have := key (vecSub y offset) (by simp [vecSub, hy])
    rw [add_vecSub y offset hy] at this
    rw [this]
    exact h _ (by simp [vecSub, hy])
  · intro h y hy
    have := h (List.zipWith (fun a b => a + b) y offset) (by simp [hy])
    rwa [key y hy] at this

/-- **C59** (random translation). The random offset lies between the given bounds in every dimension, and the dimension is
the one asked for. -/
theorem translated_random_spec (p : RealProblem ℚ V) (lo hi : ℚ) (hb : lo ≤ hi) (draws : List ℚ)
    (hd : ∀ u ∈ draws, 0 ≤ u ∧ u < 1) (mx : Option Bool) :
    ∃ offset, offset.length = draws.length ∧ (∀ o ∈ offset, lo ≤ o ∧ o ≤ hi) ∧
      translatedRandom p (lo, hi) draws mx = translatedProblem p offset mx := by
  refine ⟨_, ?_, ?_, rfl⟩
  · simp
  · intro o ho
    obtain ⟨u, hu, rfl⟩ := List.mem_map.1 ho
    obtain ⟨h0, h1⟩ := hd u hu
    constructor
    · nlinarith
    · nlinarith

/-! ## Scaling -/

/-- **C59** (scaling). A problem without bounds is refused. Otherwise the point at relative position `t` of the new box has
the value of the point at the same relative position of the old box, coordinate by coordinate; the new bounds are advertised. -/
theorem scaled_spec [Field R] (p : RealProblem R V) (new : R × R) (mx : Option Bool) :
    (p.bounds = none → scaledProblem p new mx = .error .valueError) ∧
    (∀ old, p.bounds = some old → ∃ q, scaledProblem p new mx = .ok q ∧ q.bounds = some new ∧
      q.maximize = (match mx with | none => p.maximize | some b => b) ∧
      (∀ x, q.evaluate (.list x) = .error .valueError) ∧
      (new.1 ≠ new.2 → ∀ t : List R,
        q.evaluate (.array (t.map fun a => new.1 + a * (new.2 - new.1))) =
          p.evaluate (.array (t.map fun a => old.1 + a * (old.2 - old.1))))) := by
  constructor
  · intro h
    simp [scaledProblem, h]
  · intro old h
    refine ⟨⟨scaledEvaluate p old new, inheritMaximize p mx, some new⟩, by simp [scaledProblem, h], rfl,
      by cases mx <;> rfl, fun _ => rfl, ?_⟩
    intro hne t
    have hne' : new.2 - new.1 ≠ 0 := sub_ne_zero.2 (Ne.symm hne)
    simp only [scaledEvaluate, List.map_map]
    congr 2
    apply List.map_congr_left
    intro a _
    simp only [Function.comp]
    field_simp
    ring

/-- **C59** (scaling). Every point of the new box is sent to a point of the old box, and the corners to the corners. -/
theorem scaled_box (p : RealProblem ℚ V) (old new : ℚ × ℚ) (mx : Option Bool) (hb : p.bounds = some old)
    (ho : old.1 ≤ old.2) (hn : new.1 < new.2) :
    ∃ q, scaledProblem p new mx = .ok q ∧
      (∀ x : List ℚ, (∀ a ∈ x, new.1 ≤ a ∧ a ≤ new.2) → ∃ y : List ℚ, y.length = x.length ∧
        (∀ a ∈ y, old.1 ≤ a ∧ a ≤ old.2) ∧ q.evaluate (.array x) = p.evaluate (.array y)) ∧
      (∀ n, q.evaluate (.array (List.replicate n new.1)) = p.evaluate (.array (List.replicate n old.1)) ∧
        q.evaluate (.array (List.replicate n new.2)) = p.evaluate (.array (List.replicate n old.2))) := by
  obtain ⟨q, hq, _, _, _, hrel⟩ := (scaled_spec p new mx).2 old hb
  have hrel := hrel (ne_of_lt hn)
  have hpos : 0 < new.2 - new.1 := by linarith
  refine ⟨q, hq, ?_, ?_⟩
  · intro x hx
    refine ⟨(x.map fun a => (a - new.1) / (new.2 - new.1)).map fun a => old.1 + a * (old.2 - old.1), by simp, ?_, ?_⟩
    · intro a ha
      simp only [List.map_map, List.mem_map, Function.comp] at ha
      obtain ⟨b, hb, rfl⟩ := ha
      have h1 := hx b hb
      have h2 : 0 ≤ (b - new.1) / (new.2 - new.1) := div_nonneg (by linarith) hpos.le
      have h3 : (b - new.1) / (new.2 - new.1) ≤ 1 := (div_le_one hpos).2 (by linarith)
      constructor
      · nlinarith
      · nlinarith
    · rw [← hrel]
      congr 2
      rw [List.map_map]
      conv_lhs => rw [← List.map_id x]
      apply List.map_congr_left
      intro a _
      simp only [Function.comp, id]
      field_simp
      ring
  · intro n
    have h0 := hrel (List.replicate n 0)
    have h1 := hrel (List.replicate n 1)
    simp only [List.map_replicate, zero_mul, add_zero, one_mul, add_sub_cancel] at h0 h1
    exact ⟨h0, h1⟩

/-! ## Linear maps -/

theorem vecDot_ofFn [CommRing R] {n : Nat} (u v : Fin n → R) : vecDot (List.ofFn u) (List.ofFn v) = u ⬝ᵥ v := by
  simp only [vecDot, dotProduct]
  rw [← List.sum_ofFn]
  congr 1
  apply List.ext_getElem
  · simp
  · intro i h1 h2
    simp

theorem matVec_ofFn [CommRing R] {n m : Nat} (M : Matrix (Fin n) (Fin m) R) (v : Fin m → R) :
    matVec (rowsOf M) (List.ofFn v) = List.ofFn (M.mulVec v) := by
  simp only [matVec, rowsOf, List.map_ofFn]
  congr 1
  funext i
  simp only [Function.comp, vecDot_ofFn]
  rfl

/-- **C59** (matrix). A matrix is accepted exactly when it is square and not empty; an empty one has no first row, a first row
of the wrong length fails the assertion. -/
theorem matrix_constructor [CommRing R] (p : RealProblem R V) (matrix : List (List R)) (mx : Option Bool) :
    ((∃ q, matrixProblem p matrix mx = .ok q) ↔ matrix ≠ [] ∧ ∀ row ∈ matrix, row.length = matrix.length) ∧
    (matrixProblem p [] mx = .error .indexError) ∧
    (∀ row0 rest, matrix = row0 :: rest → row0.length ≠ matrix.length → matrixProblem p matrix mx = .error .assertionError) := by
  refine ⟨?_, rfl, ?_⟩
  · cases matrix with
    | nil => simp [matrixProblem]
    | cons row0 rest =>
      simp only [matrixProblem, List.head?_cons]
      by_cases h : (row0 :: rest).length = row0.length
      · rw [if_pos h]
        by_cases h2 : ((row0 :: rest).all fun row => row.length == row0.length) = true
        · rw [if_pos h2]
          refine ⟨fun _ => ⟨by simp, fun row hr => ?_⟩, fun _ => ⟨_, rfl⟩⟩
          have := List.all_eq_true.1 h2 row hr
          rw [h]
          simpa using this
        · rw [if_neg h2]
          constructor
          · rintro ⟨q, hq⟩
            cases hq
          · rintro ⟨_, hr⟩
            refine absurd (List.all_eq_true.2 fun row hrow => ?_) h2
            rw [hr row hrow, h]
            simp
      · rw [if_neg h]
        constructor
        · rintro ⟨q, hq⟩
          cases hq
        · rintro ⟨_, hr⟩
          exact absurd (hr row0 (by simp)).symm h
  · rintro row0 rest rfl h
    simp only [matrixProblem, List.head?_cons]
    rw [if_neg (fun h' => h h'.symm)]

theorem matrixProblem_rowsOf [CommRing R] {n : Nat} (hn : 0 < n) (p : RealProblem R V) (M : Matrix (Fin n) (Fin n) R)
    (mx : Option Bool) :
    matrixProblem p (rowsOf M) mx = .ok ⟨matrixEvaluate p (rowsOf M), inheritMaximize p mx, p.bounds⟩ := by
  obtain ⟨k, rfl⟩ : ∃ k, n = k + 1 := ⟨n - 1, by omega⟩
  have hh : (rowsOf M).head? = some (List.ofFn (M 0)) := by simp [rowsOf, List.ofFn_succ]
  simp only [matrixProblem, hh]
  rw [if_pos (by simp [rowsOf]), if_pos ?_]
  rw [List.all_eq_true]
  intro row hr
  simp only [rowsOf, List.mem_ofFn] at hr
  obtain ⟨i, rfl⟩ := hr
  simp

/-- **C59** (matrix). The transformed problem has at `v` the value the original has at the matrix times `v`; vectors of
another dimension are rejected; lists are accepted as well as arrays. -/
theorem matrix_spec [CommRing R] {n : Nat} (hn : 0 < n) (p : RealProblem R V) (M : Matrix (Fin n) (Fin n) R)
    (mx : Option Bool) :
    ∃ q, matrixProblem p (rowsOf M) mx = .ok q ∧ q.bounds = p.bounds ∧
      q.maximize = (match mx with | none => p.maximize | some b => b) ∧
      (∀ v : Fin n → R, q.evaluate (.array (List.ofFn v)) = p.evaluate (.array (List.ofFn (M.mulVec v))) ∧
        q.evaluate (.list (List.ofFn v)) = p.evaluate (.array (List.ofFn (M.mulVec v)))) ∧
      (∀ x : Phenome R, x.len ≠ n → q.evaluate x = .error .assertionError) := by
  refine ⟨_, matrixProblem_rowsOf hn p M mx, rfl, by cases mx <;> rfl, ?_, ?_⟩
  · intro v
    constructor
    all_goals
      simp only [matrixEvaluate, Phenome.len, Phenome.elements, List.length_ofFn, matVec_ofFn]
      rw [if_pos (by simp [rowsOf])]
  · intro x hx
    simp only [matrixEvaluate]
    rw [if_neg (by simpa [rowsOf] using hx)]

/-- **C59** (matrix). Transforming twice is transforming once by the product, and by the identity is not transforming. -/
theorem matrix_compose [CommRing R] {n : Nat} (hn : 0 < n) (p : RealProblem R V) (A B : Matrix (Fin n) (Fin n) R)
    (mx mx' : Option Bool) :
    (∃ q r s, matrixProblem p (rowsOf A) mx = .ok q ∧ matrixProblem q (rowsOf B) mx' = .ok r ∧
      matrixProblem p (rowsOf (A * B)) mx = .ok s ∧
      ∀ v : Fin n → R, r.evaluate (.array (List.ofFn v)) = s.evaluate (.array (List.ofFn v))) ∧
    (∃ q, matrixProblem p (rowsOf (1 : Matrix (Fin n) (Fin n) R)) mx = .ok q ∧
      ∀ v : Fin n → R, q.evaluate (.array (List.ofFn v)) = p.evaluate (.array (List.ofFn v))) := by
  constructor
  · obtain ⟨q, hq, _, _, hqe, _⟩ := matrix_spec hn p A mx
    obtain ⟨r, hr, _, _, hre, _⟩ := matrix_spec hn q B mx'
    obtain ⟨s, hs, _, _, hse, _⟩ := matrix_spec hn p (A * B) mx
    refine ⟨q, r, s, hq, hr, hs, fun v => ?_⟩
    rw [(hre v).1, (hqe _).1, (hse v).1, Matrix.mulVec_mulVec]
  · obtain ⟨q, hq, _, _, hqe, _⟩ := matrix_spec hn p 1 mx
    exact ⟨q, hq, fun v => by rw [(hqe v).1, Matrix.one_mulVec]⟩

/-! ## Adding a constant to the fitness -/

theorem addFin_lt (c : ℚ) (a b : Num) : Num.lt (a.addFin c) (b.addFin c) = Num.lt a b := by
  cases a <;> cases b <;> simp [Num.addFin, Num.lt]

theorem addFin_eq (c : ℚ) (a b : Num) : Num.eq (a.addFin c) (b.addFin c) = Num.eq a b := by
  cases a <;> cases b <;> simp [Num.addFin, Num.eq]

theorem addFin_isNan (c : ℚ) (a : Num) : (a.addFin c).isNan = a.isNan := by
  cases a <;> rfl

/-- **C59** (offset). The constant is added to the fitness (NaN and infinities stay what they are), errors pass through, and
which of two individuals is worse, by `<` and `>=`, never changes. -/
theorem offset_spec (p : RealProblem R SFit) (isFloat : SFit → Bool) (c : ℚ) (mx : Option Bool) :
    (∀ x e, p.evaluate x = .error e → (offsetProblem p isFloat c mx).evaluate x = .error e) ∧
    (∀ x fl q, p.evaluate x = .ok ⟨fl, .fin q⟩ →
      ∃ fl', (offsetProblem p isFloat c mx).evaluate x = .ok ⟨fl', .fin (q + c)⟩) ∧
    (∀ x fl v, v = .nan ∨ v = .negInf ∨ v = .posInf → p.evaluate x = .ok ⟨fl, v⟩ →
      ∃ fl', (offsetProblem p isFloat c mx).evaluate x = .ok ⟨fl', v⟩) ∧
    (offsetProblem p isFloat c mx).bounds = p.bounds ∧
    (offsetProblem p isFloat c mx).maximize = (match mx with | none => p.maximize | some b => b) ∧
    (∀ (mxm coin : Bool) x y f g f' g', p.evaluate x = .ok f → p.evaluate y = .ok g →
      (offsetProblem p isFloat c mx).evaluate x = .ok f' → (offsetProblem p isFloat c mx).evaluate y = .ok g' →
      indLt ⟨mxm⟩ coin (some f') (some g') = indLt ⟨mxm⟩ coin (some f) (some g) ∧
      indGe ⟨mxm⟩ coin (some f') (some g') = indGe ⟨mxm⟩ coin (some f) (some g)) := by
  refine ⟨?_, ?_, ?_, rfl, by cases mx <;> rfl, ?_⟩
  · intro x e h
    simp [offsetProblem, h, Except.map]
  · intro x fl q h
    exact ⟨isFloat ⟨fl, .fin q⟩, by simp [offsetProblem, h, Except.map, offsetFitness, Num.addFin]⟩
  · intro x fl v hv h
    refine ⟨isFloat ⟨fl, v⟩, ?_⟩
    rcases hv with rfl | rfl | rfl <;> simp [offsetProblem, h, Except.map, offsetFitness, Num.addFin]
  · intro mxm coin x y f g f' g' hf hg hf' hg'
    simp only [offsetProblem, hf, hg, Except.map, Except.ok.injEq] at hf' hg'
    subst hf' hg'
    have : ScalarProblem.worseThan ⟨mxm⟩ coin (offsetFitness isFloat c f) (offsetFitness isFloat c g) =
        ScalarProblem.worseThan ⟨mxm⟩ coin f g := by
      simp [ScalarProblem.worseThan, offsetFitness, addFin_isNan, addFin_lt]
    simp [indLt, indGe, deriveGe, this]

/-- **C59** (offset). When the fitnesses are compared exactly before and after (not both are Python floats), no comparison at
all changes. -/
theorem offset_exact_partial (isFloat : SFit → Bool) (c : ℚ) (mxm coin : Bool) (f g : SFit)
    (h : (f.pyFloat && g.pyFloat) = false) (h' : (isFloat f && isFloat g) = false) :
    indEq ⟨mxm⟩ (some (offsetFitness isFloat c f)) (some (offsetFitness isFloat c g)) = indEq ⟨mxm⟩ (some f) (some g) ∧
    indGt ⟨mxm⟩ coin (some (offsetFitness isFloat c f)) (some (offsetFitness isFloat c g)) =
      indGt ⟨mxm⟩ coin (some f) (some g) ∧
    indLe ⟨mxm⟩ coin (some (offsetFitness isFloat c f)) (some (offsetFitness isFloat c g)) =
      indLe ⟨mxm⟩ coin (some f) (some g) := by
  have hw : ScalarProblem.worseThan ⟨mxm⟩ coin (offsetFitness isFloat c f) (offsetFitness isFloat c g) =
      ScalarProblem.worseThan ⟨mxm⟩ coin f g := by
    simp [ScalarProblem.worseThan, offsetFitness, addFin_isNan, addFin_lt]
  have he : ScalarProblem.equivalent ⟨mxm⟩ (offsetFitness isFloat c f) (offsetFitness isFloat c g) =
      ScalarProblem.equivalent ⟨mxm⟩ f g := by
    simp [ScalarProblem.equivalent, offsetFitness, h, h', addFin_eq]
  simp [indEq, indGt, indLe, indLt, deriveGt, deriveLe, hw, he]

/-- **C59** (disagreement). With Python floats, shifting the fitness does change comparisons: 1.0 and 2.0 are different
fitnesses, and with 10¹⁰ added they count as equal, so `==`, `<=` and `>` change. -/
theorem offset_changes_equality :
    let f : SFit := ⟨true, .fin 1⟩
    let g : SFit := ⟨true, .fin 2⟩
    let shift := offsetFitness (fun x => x.pyFloat) 10000000000
    indEq ⟨true⟩ (some f) (some g) = .ok false ∧ indEq ⟨true⟩ (some (shift f)) (some (shift g)) = .ok true ∧
    indGt ⟨true⟩ false (some g) (some f) = .ok true ∧ indGt ⟨true⟩ false (some (shift g)) (some (shift f)) = .ok false ∧
    indLe ⟨true⟩ false (some g) (some f) = .ok false ∧ indLe ⟨true⟩ false (some (shift g)) (some (shift f)) = .ok true := by
  decide +kernel

/-! ## Random rotations -/

/-- Gram–Schmidt on vectors as functions; `orthonormalRows` in the mathematician's notation. -/
noncomputable def gsV {n : Nat} (done : List (Fin n → ℝ)) : List (Fin n → ℝ) → Option (List (Fin n → ℝ))
  | [] => some done
  | row :: rows =>
    let r := row - (done.map fun prev => (row ⬝ᵥ prev) • prev).sum
    if Real.sqrt (r ⬝ᵥ r) = 0 then none else gsV (done ++ [(Real.sqrt (r ⬝ᵥ r))⁻¹ • r]) rows

theorem foldl_add_ofFn {n : Nat} (vs : List (Fin n → ℝ)) (acc : Fin n → ℝ) :
    (vs.map List.ofFn).foldl (fun acc v => List.zipWith (fun x y => x + y) acc v) (List.ofFn acc) =
      List.ofFn (acc + vs.sum) := by
  induction vs generalizing acc with
  | nil => simp
  | cons v vs ih =>
    have : List.zipWith (fun x y => x + y) (List.ofFn acc) (List.ofFn v) = List.ofFn (acc + v) := by
      apply List.ext_getElem
      · simp
      · intro i h1 h2
        simp
    simp only [List.map_cons, List.foldl_cons, this, ih, List.sum_cons, add_assoc]

theorem removeProjections_ofFn {n : Nat} (done : List (Fin n → ℝ)) (row : Fin n → ℝ) :
    removeProjections (done.map List.ofFn) (List.ofFn row) =
      List.ofFn (row - (done.map fun prev => (row ⬝ᵥ prev) • prev).sum) := by
  have h1 : ((done.map List.ofFn).map fun prev => prev.map fun x => vecDot (List.ofFn row) prev * x) =
      (done.map fun prev => (row ⬝ᵥ prev) • prev).map List.ofFn := by
    simp only [List.map_map]
    apply List.map_congr_left
    intro v _
    simp only [Function.comp, vecDot_ofFn, List.map_ofFn]
    congr 1
  have h2 : List.replicate (List.ofFn row).length (0 : ℝ) = List.ofFn (0 : Fin n → ℝ) := by
    simp [← List.ofFn_const]
    rfl
  simp only [removeProjections, h1, h2, foldl_add_ofFn, zero_add, vecSub]
  apply List.ext_getElem
  · simp
  · intro i h1 h2
    simp

theorem orthonormalRows_ofFn {n : Nat} (rows done : List (Fin n → ℝ)) :
    orthonormalRows (done.map List.ofFn) (rows.map List.ofFn) = (gsV done rows).map (List.map List.ofFn) := by
  induction rows generalizing done with
  | nil => simp [orthonormalRows, gsV]
  | cons row rows ih =>
    simp only [List.map_cons, orthonormalRows, gsV, removeProjections_ofFn, vecNorm, vecDot_ofFn]
    split_ifs with h
    · rfl
    · rw [← ih]
      congr 1
      simp only [List.map_append, List.map_cons, List.map_nil, List.map_ofFn]
      congr 3
      funext i
      simp [div_eq_inv_mul]

/-- What holds between the rows taken so far and the rows made of them. -/
structure GS {n : Nat} (taken done : List (Fin n → ℝ)) : Prop where
  len : done.length = taken.length
  unit : ∀ i (h : i < done.length), done[i] ⬝ᵥ done[i] = 1
  orth : ∀ i j (hi : i < done.length) (hj : j < done.length), i ≠ j → done[i] ⬝ᵥ done[j] = 0
  back : ∀ v ∈ done, v ∈ Submodule.span ℝ {w | w ∈ taken}
  forth : ∀ v ∈ taken, v ∈ Submodule.span ℝ {w | w ∈ done}
  lower : ∀ i j (hi : i < taken.length) (hj : j < done.length), i < j → taken[i] ⬝ᵥ done[j] = 0
  diag : ∀ i (hi : i < taken.length) (hj : i < done.length), 0 < taken[i] ⬝ᵥ done[i]

theorem sum_mem_span {n : Nat} (done : List (Fin n → ℝ)) (c : (Fin n → ℝ) → ℝ) :
    (done.map fun v => c v • v).sum ∈ Submodule.span ℝ {w | w ∈ done} := by
  apply list_sum_mem
  intro x hx
  obtain ⟨v, hv, rfl⟩ := List.mem_map.1 hx
  exact Submodule.smul_mem _ _ (Submodule.subset_span hv)

theorem dot_list_sum {n : Nat} (vs : List (Fin n → ℝ)) (w : Fin n → ℝ) :
    vs.sum ⬝ᵥ w = (vs.map fun v => v ⬝ᵥ w).sum := by
  induction vs with
  | nil => simp
  | cons v vs ih => simp [add_dotProduct, ih]

theorem sum_single_index (l : List ℝ) (j : Nat) (hj : j < l.length) (x : ℝ) (hx : l[j] = x)
    (h : ∀ i (hi : i < l.length), i ≠ j → l[i] = 0) : l.sum = x := by
  induction l generalizing j with
  | nil => simp at hj
  | cons a l ih =>
    cases j with
    | zero =>
      have h0 : l.sum = 0 := by
        apply List.sum_eq_zero
        intro y hy
        obtain ⟨i, hi, rfl⟩ := List.getElem_of_mem hy
        exact h (i + 1) (by simpa using hi) (by omega)
      simp only [List.getElem_cons_zero] at hx
      simp [h0, hx]
    | succ j =>
      have h0 : a = 0 := h 0 (by simp) (by omega)
      rw [List.sum_cons, h0, zero_add]
      exact ih j (by simpa using hj) (by simpa using hx) fun i hi hne => h (i + 1) (by simpa using hi) (by omega)

theorem GS.residual_orth {n : Nat} {taken done : List (Fin n → ℝ)} (g : GS taken done) (row : Fin n → ℝ)
    (j : Nat) (hj : j < done.length) :
    (row - (done.map fun prev => (row ⬝ᵥ prev) • prev).sum) ⬝ᵥ done[j] = 0 := by
  rw [sub_dotProduct, dot_list_sum]
  rw [sum_single_index _ j (by simpa using hj) (row ⬝ᵥ done[j])]
  · simp
  · simp [g.unit j hj]
  · intro i hi hne
    simp only [List.length_map] at hi
    simp [g.orth i j hi hj hne]

theorem orth_span {n : Nat} (done : List (Fin n → ℝ)) (q : Fin n → ℝ) (h : ∀ v ∈ done, v ⬝ᵥ q = 0)
    (w : Fin n → ℝ) (hw : w ∈ Submodule.span ℝ {w | w ∈ done}) : w ⬝ᵥ q = 0 := by
  induction hw using Submodule.span_induction with
  | mem x hx => exact h x hx
  | zero => simp
  | add x y _ _ hx hy => simp [add_dotProduct, hx, hy]
  | smul a x _ hx => simp [hx]

theorem GS.step {n : Nat} {taken done : List (Fin n → ℝ)} (g : GS taken done) (row : Fin n → ℝ)
    (r : Fin n → ℝ) (hr : r = row - (done.map fun prev => (row ⬝ᵥ prev) • prev).sum)
    (hne : Real.sqrt (r ⬝ᵥ r) ≠ 0) : GS (taken ++ [row]) (done ++ [(Real.sqrt (r ⬝ᵥ r))⁻¹ • r]) := by
  set c := Real.sqrt (r ⬝ᵥ r) with hc
  have hcpos : 0 < c := lt_of_le_of_ne (Real.sqrt_nonneg _) (Ne.symm hne)
  have hrr : r ⬝ᵥ r = c * c := by
    rw [hc, Real.mul_self_sqrt]
    simp only [dotProduct]
    exact Finset.sum_nonneg fun i _ => mul_self_nonneg _
  have horth : ∀ j (hj : j < done.length), r ⬝ᵥ done[j] = 0 := fun j hj => by
    rw [hr]; exact g.residual_orth row j hj
  have hq : ∀ v ∈ done, v ⬝ᵥ (c⁻¹ • r) = 0 := by
    intro v hv
    obtain ⟨j, hj, rfl⟩ := List.getElem_of_mem hv
    rw [dotProduct_smul, dotProduct_comm, horth j hj]
    simp
  have hqq : (c⁻¹ • r) ⬝ᵥ (c⁻¹ • r) = 1 := by
    rw [dotProduct_smul, smul_dotProduct, hrr]
    simp only [smul_eq_mul]
    field_simp
  have hsum := sum_mem_span done fun prev => row ⬝ᵥ prev
  have hrow : row = r + (done.map fun prev => (row ⬝ᵥ prev) • prev).sum := by rw [hr]; simp
  have hrowq : row ⬝ᵥ (c⁻¹ • r) = c := by
    have h1 := orth_span done _ hq _ hsum
    have h2 : row ⬝ᵥ (c⁻¹ • r) = r ⬝ᵥ (c⁻¹ • r) + (done.map fun prev => (row ⬝ᵥ prev) • prev).sum ⬝ᵥ (c⁻¹ • r) := by
      rw [← add_dotProduct, ← hrow]
    rw [h2, h1, dotProduct_smul, hrr]
    simp only [smul_eq_mul, add_zero]
    field_simp
  have hmono1 : Submodule.span ℝ {w | w ∈ taken} ≤ Submodule.span ℝ {w | w ∈ taken ++ [row]} :=
    Submodule.span_mono fun w hw => List.mem_append_left _ hw
  have hmono2 : Submodule.span ℝ {w | w ∈ done} ≤ Submodule.span ℝ {w | w ∈ done ++ [c⁻¹ • r]} :=
    Submodule.span_mono fun w hw => List.mem_append_left _ hw
  have hdt : Submodule.span ℝ {w | w ∈ done} ≤ Submodule.span ℝ {w | w ∈ taken} :=
    Submodule.span_le.2 g.back
  refine ⟨by simp [g.len], ?_, ?_, ?_, ?_, ?_, ?_⟩
  · intro i hi
    rcases Nat.lt_or_ge i done.length with h | h
    · rw [List.getElem_append_left h]; exact g.unit i h
    · rw [List.getElem_append_right h]
      simpa using hqq
  · intro i j hi hj hij
    simp only [List.length_append, List.length_cons, List.length_nil] at hi hj
    rcases Nat.lt_or_ge i done.length with h | h <;> rcases Nat.lt_or_ge j done.length with h' | h'
    · rw [List.getElem_append_left h, List.getElem_append_left h']; exact g.orth i j h h' hij
    · rw [List.getElem_append_left h, List.getElem_append_right h']
      simpa using hq _ (List.getElem_mem h)
    · rw [List.getElem_append_right h, List.getElem_append_left h', dotProduct_comm]
      simpa using hq _ (List.getElem_mem h')
    · omega
  · intro v hv
    rcases List.mem_append.1 hv with h | h
    · exact hmono1 (g.back v h)
    · simp only [List.mem_cons, List.not_mem_nil, or_false] at h
      rw [h, hr]
      refine Submodule.smul_mem _ _ (Submodule.sub_mem _ (Submodule.subset_span (by simp)) ?_)
      exact hmono1 (hdt hsum)
  · intro v hv
    rcases List.mem_append.1 hv with h | h
    · exact hmono2 (g.forth v h)
    · simp only [List.mem_cons, List.not_mem_nil, or_false] at h
      rw [h]
      suffices hs : r + (done.map fun prev => (row ⬝ᵥ prev) • prev).sum ∈ Submodule.span ℝ {w | w ∈ done ++ [c⁻¹ • r]} by
        rwa [← hrow] at hs
      refine Submodule.add_mem _ ?_ (hmono2 hsum)
      have : r = c • (c⁻¹ • r) := by rw [smul_smul, mul_inv_cancel₀ hne, one_smul]
      rw [this]
      refine Submodule.smul_mem _ _ (Submodule.subset_span ?_)
      rw [← this]
      simp
  · intro i j hi hj hij
    simp only [List.length_append, List.length_cons, List.length_nil] at hi hj
    have hl := g.len
    rcases Nat.lt_or_ge j done.length with h' | h'
    · rw [List.getElem_append_left h', List.getElem_append_left (by omega)]
      exact g.lower i j (by omega) h' hij
    · rw [List.getElem_append_right h', List.getElem_append_left (by omega)]
      simp only [List.getElem_singleton]
      exact orth_span done _ hq _ (g.forth _ (List.getElem_mem _))
  · intro i hi hj
    simp only [List.length_append, List.length_cons, List.length_nil] at hi hj
    have hl := g.len
    rcases Nat.lt_or_ge i done.length with h' | h'
    · rw [List.getElem_append_left h', List.getElem_append_left (by omega)]
      exact g.diag i (by omega) h'
    · rw [List.getElem_append_right h', List.getElem_append_right (by omega)]
      simp only [List.getElem_singleton, hrowq]
      exact hcpos

theorem gsV_some {n : Nat} (rows taken done out : List (Fin n → ℝ)) (g : GS taken done)
    (h : gsV done rows = some out) : GS (taken ++ rows) out := by
  induction rows generalizing taken done with
  | nil =>
    simp only [gsV, Option.some.injEq] at h
    subst h
    simpa using g
  | cons row rows ih =>
    simp only [gsV] at h
    split_ifs at h with hz
    have := ih (taken ++ [row]) _ (g.step row _ rfl hz) h
    simpa using this

theorem gsV_none {n : Nat} (rows taken done : List (Fin n → ℝ)) (g : GS taken done)
    (h : gsV done rows = none) :
    ∃ a row b, rows = a ++ row :: b ∧ row ∈ Submodule.span ℝ {w | w ∈ taken ++ a} := by
  induction rows generalizing taken done with
  | nil => simp [gsV] at h
  | cons row rows ih =>
    simp only [gsV] at h
    split_ifs at h with hz
    · refine ⟨[], row, rows, rfl, ?_⟩
      rw [Real.sqrt_eq_zero (by simp only [dotProduct]; exact Finset.sum_nonneg fun i _ => mul_self_nonneg _)] at hz
      have h0 := dotProduct_self_eq_zero.1 hz
      rw [sub_eq_zero] at h0
      rw [h0]
      have hdt : Submodule.span ℝ {w | w ∈ done} ≤ Submodule.span ℝ {w | w ∈ taken} := Submodule.span_le.2 g.back
      rw [List.append_nil]
      exact hdt (sum_mem_span done fun prev => row ⬝ᵥ prev)
    · obtain ⟨a, row', b, hr, hm⟩ := ih (taken ++ [row]) _ (g.step row _ rfl hz) h
      exact ⟨row :: a, row', b, by simp [hr], by simpa using hm⟩

theorem GS.nil {n : Nat} : GS ([] : List (Fin n → ℝ)) [] := by
  constructor <;> simp

theorem rowsOf_getD {n m : Nat} (M : Matrix (Fin n) (Fin m) R) (i : Nat) (hi : i < n) :
    (rowsOf M).getD i [] = List.ofFn (M ⟨i, hi⟩) := by
  rw [List.getD_eq_getElem?_getD, List.getElem?_eq_getElem (by simpa [rowsOf] using hi)]
  simp [rowsOf]

theorem orthonormalRows_rowsOf {n : Nat} (D : Matrix (Fin n) (Fin n) ℝ) :
    orthonormalRows [] (rowsOf D) = (gsV [] (List.ofFn fun i => D i)).map (List.map List.ofFn) := by
  rw [← orthonormalRows_ofFn]
  simp only [List.map_nil, rowsOf, List.map_ofFn]
  rfl

theorem det_zero_of_span {n : Nat} (D : Matrix (Fin n) (Fin n) ℝ) (a : List (Fin n → ℝ)) (row : Fin n → ℝ)
    (b : List (Fin n → ℝ)) (h : (List.ofFn fun i => D i) = a ++ row :: b)
    (hs : row ∈ Submodule.span ℝ {w | w ∈ a}) : D.det = 0 := by
  by_contra hdet
  have hli : LinearIndependent ℝ (fun i => D i) :=
    Matrix.linearIndependent_rows_iff_isUnit.2 ((Matrix.isUnit_iff_isUnit_det D).2 (Ne.isUnit hdet))
  have hlen : n = a.length + (b.length + 1) := by
    have := congrArg List.length h
    simpa using this
  have hget : ∀ i (hi : i < n), D ⟨i, hi⟩ = (a ++ row :: b)[i]'(by simp; omega) := by
    intro i hi
    have : (List.ofFn fun i => D i)[i]'(by simpa using hi) = D ⟨i, hi⟩ := by simp
    rw [← this]
    exact getElem_congr_coll h
  have hrow : row = D ⟨a.length, by omega⟩ := by
    rw [hget]
    simp
  have := hli.notMem_span_image (s := {i | i.1 < a.length}) (x := ⟨a.length, by omega⟩) (by simp)
  apply this
  rw [← hrow]
  refine Submodule.span_mono ?_ hs
  intro w hw
  obtain ⟨i, hi, rfl⟩ := List.getElem_of_mem hw
  refine ⟨⟨i, by omega⟩, hi, ?_⟩
  show D ⟨i, _⟩ = a[i]
  rw [hget, List.getElem_append_left hi]

/-- **C68**. For at least two dimensions, the random matrix is made whenever the draw is not singular. It is orthonormal, and it
is the one obtained from the draw by Gram–Schmidt: the draw is a lower triangular matrix with a positive diagonal times it.
A singular draw (probability zero) ends in an `AssertionError`, never in a wrong matrix. -/
theorem random_orthonormal_spec {n : Nat} (hn : 2 ≤ n) (D : Matrix (Fin n) (Fin n) ℝ) :
    (D.det ≠ 0 → ∃ Q : Matrix (Fin n) (Fin n) ℝ, randomOrthonormalMatrix (rowsOf D) = .ok (rowsOf Q) ∧
      Q * Q.transpose = 1 ∧ (∀ i j, i < j → (D * Q.transpose) i j = 0) ∧ ∀ i, 0 < (D * Q.transpose) i i) ∧
    (D.det = 0 → randomOrthonormalMatrix (rowsOf D) = .error .assertionError) := by
  have hrows := orthonormalRows_rowsOf D
  cases hg : gsV [] (List.ofFn fun i => D i) with
  | none =>
    obtain ⟨a, row, b, hab, hs⟩ := gsV_none _ [] [] GS.nil hg
    have hdet := det_zero_of_span D a row b hab (by simpa using hs)
    refine ⟨fun h => absurd hdet h, fun _ => ?_⟩
    simp [randomOrthonormalMatrix, hrows, hg]
  | some out =>
    have g := gsV_some _ [] [] out GS.nil hg
    rw [List.nil_append] at g
    have hlen : out.length = n := by simpa using g.len
    let Q : Matrix (Fin n) (Fin n) ℝ := fun i => out[i.1]'(by omega)
    have hout : out.map List.ofFn = rowsOf Q := by
      apply List.ext_getElem
      · simp [rowsOf, hlen]
      · intro i h1 h2
        simp [rowsOf, Q]
    have hQ : ∀ i j : Fin n, Q i ⬝ᵥ Q j = if i = j then 1 else 0 := by
      intro i j
      split_ifs with hij
      · subst hij
        exact g.unit i.1 _
      · exact g.orth i.1 j.1 _ _ (fun h => hij (Fin.ext h))
    have hQQ : Q * Q.transpose = 1 := by
      ext i j
      rw [Matrix.mul_apply', Matrix.one_apply]
      exact hQ i j
    have hlow : ∀ i j : Fin n, i < j → (D * Q.transpose) i j = 0 := by
      intro i j hij
      rw [Matrix.mul_apply']
      have := g.lower i.1 j.1 (by simp) (by omega) hij
      simpa using this
    have hdiag : ∀ i : Fin n, 0 < (D * Q.transpose) i i := by
      intro i
      rw [Matrix.mul_apply']
      have := g.diag i.1 (by simp) (by omega)
      simpa using this
    have hdet : D.det ≠ 0 := by
      have h1 : (D * Q.transpose).det ≠ 0 := by
        rw [Matrix.det_of_lowerTriangular _ (fun i j hij => hlow i j hij)]
        exact Finset.prod_ne_zero_iff.2 fun i _ => ne_of_gt (hdiag i)
      rw [Matrix.det_mul] at h1
      exact left_ne_zero_of_mul h1
    refine ⟨fun _ => ⟨Q, ?_, hQQ, hlow, hdiag⟩, fun h => absurd h hdet⟩
    obtain ⟨k, rfl⟩ : ∃ k, n = k + 2 := ⟨n - 2, by omega⟩
    have hl : rowsOf Q = List.ofFn (Q 0) :: List.ofFn (Q 1) :: (List.ofFn fun i : Fin k => List.ofFn (Q i.succ.succ)) := by
      simp [rowsOf, List.ofFn_succ]
    have hall : ∀ i < (rowsOf Q).length, ∀ j < (rowsOf Q).length,
        vecDot ((rowsOf Q).getD i []) ((rowsOf Q).getD j []) = if i = j then 1 else 0 := by
      intro i hi j hj
      have hi' : i < k + 2 := by rwa [rowsOf, List.length_ofFn] at hi
      have hj' : j < k + 2 := by rwa [rowsOf, List.length_ofFn] at hj
      have e1 : (rowsOf Q).getD i [] = List.ofFn (Q ⟨i, hi'⟩) := rowsOf_getD Q i hi'
      have e2 : (rowsOf Q).getD j [] = List.ofFn (Q ⟨j, hj'⟩) := rowsOf_getD Q j hj'
      rw [e1, e2, vecDot_ofFn, hQ]
      simp
    have h0 : vecNorm (List.ofFn (Q 0)) = 1 := by
      rw [vecNorm, vecDot_ofFn, hQ]
      simp
    have h1 : vecDot (List.ofFn (Q 0)) (List.ofFn (Q 1)) = 0 := by
      rw [vecDot_ofFn, hQ]
      simp
    unfold randomOrthonormalMatrix
    rw [hrows, hg, Option.map_some, hout]
    rw [hl] at hall ⊢
    simp only
    rw [if_pos h0, if_pos h1, if_pos hall]

/-- **C68**. Rotating a problem by a random orthonormal matrix `Q` keeps lengths: the transformed problem has at `Qᵀ x` the value
the original has at `x`, `Qᵀ x` is as long as `x`, every point is such a `Qᵀ x`, and so optima are moved but neither made nor
lost. -/
theorem random_rotation_spec {n : Nat} (hn : 2 ≤ n) (D : Matrix (Fin n) (Fin n) ℝ) (hD : D.det ≠ 0)
    (p : RealProblem ℝ V) (mx : Option Bool) :
    ∃ (Q : Matrix (Fin n) (Fin n) ℝ) (q : RealProblem ℝ V),
      randomOrthonormalMatrix (rowsOf D) = .ok (rowsOf Q) ∧ randomOrthonormalProblem p (rowsOf D) mx = .ok q ∧
      (∀ x : Fin n → ℝ, q.evaluate (.array (List.ofFn (Q.transpose.mulVec x))) = p.evaluate (.array (List.ofFn x)) ∧
        Q.transpose.mulVec x ⬝ᵥ Q.transpose.mulVec x = x ⬝ᵥ x) ∧
      (∀ y : Fin n → ℝ, ∃ x, y = Q.transpose.mulVec x) ∧
      (∀ (atLeast : PyM V → PyM V → Prop) (x : Fin n → ℝ),
        (∀ y : Fin n → ℝ, atLeast (p.evaluate (.array (List.ofFn x))) (p.evaluate (.array (List.ofFn y)))) ↔
        (∀ y : Fin n → ℝ, atLeast (q.evaluate (.array (List.ofFn (Q.transpose.mulVec x))))
          (q.evaluate (.array (List.ofFn y))))) := by
  obtain ⟨Q, hQ, hQQ, _, _⟩ := (random_orthonormal_spec hn D).1 hD
  obtain ⟨q, hq, _, _, hqe, _⟩ := matrix_spec (by omega : 0 < n) p Q mx
  have hQQ' : Q.transpose * Q = 1 := mul_eq_one_comm.1 hQQ
  have hval : ∀ x : Fin n → ℝ,
      q.evaluate (.array (List.ofFn (Q.transpose.mulVec x))) = p.evaluate (.array (List.ofFn x)) := by
    intro x
    rw [(hqe _).1, Matrix.mulVec_mulVec, hQQ, Matrix.one_mulVec]
  have hsurj : ∀ y : Fin n → ℝ, ∃ x, y = Q.transpose.mulVec x := fun y =>
    ⟨Q.mulVec y, by rw [Matrix.mulVec_mulVec, hQQ', Matrix.one_mulVec]⟩
  refine ⟨Q, q, hQ, by simp [randomOrthonormalProblem, hQ, hq], fun x => ⟨hval x, ?_⟩, hsurj, ?_⟩
  · rw [Matrix.dotProduct_mulVec, Matrix.vecMul_transpose, Matrix.mulVec_mulVec, hQQ, Matrix.one_mulVec]
  · intro atLeast x
    rw [hval]
    constructor
    · intro h y
      obtain ⟨z, rfl⟩ := hsurj y
      rw [hval]
      exact h z
    · intro h y
      have := h (Q.transpose.mulVec y)
      rwa [hval] at this

/-- **C68** (disagreement). No one-dimensional rotation can be made: whatever is drawn, the call fails, because the check for
orthogonality looks at a second row. -/
theorem random_orthonormal_one_dimension (x : ℝ) (p : RealProblem ℝ V) (mx : Option Bool) :
    randomOrthonormalMatrix [[x]] = (if x = 0 then .error .assertionError else .error .indexError) ∧
    ∃ e, randomOrthonormalProblem p [[x]] mx = .error e := by
  have h1 : randomOrthonormalMatrix [[x]] = (if x = 0 then .error .assertionError else .error .indexError) := by
    have hr : removeProjections [] [x] = [x] := by simp [removeProjections, vecSub]
    have hnorm : vecNorm [x] = |x| := by simp [vecNorm, vecDot, Real.sqrt_mul_self_eq_abs]
    simp only [randomOrthonormalMatrix, orthonormalRows, hr, hnorm, abs_eq_zero]
    split_ifs with hx
    · rfl
    · have : vecNorm [x / |x|] = 1 := by
        have hx' : |x| ≠ 0 := by simpa using hx
        simp [vecNorm, vecDot, Real.sqrt_mul_self_eq_abs, abs_div, div_self hx']
      simp [this]
  refine ⟨h1, ?_⟩
  rw [randomOrthonormalProblem, h1]
  split_ifs <;> exact ⟨_, rfl⟩

/-! ## The hypotheses can be met -/

example : ∃ q, scaledProblem (⟨fun x => .ok (x.elements.sum), true, some (-5, 5)⟩ : RealProblem ℚ ℚ) (0, 1) none = .ok q ∧
    q.evaluate (.array [1/2, 1]) = .ok 5 := ⟨_, rfl, by decide +kernel⟩

example : (translatedProblem (⟨fun x => .ok ((x.elements.map fun a => a * a).sum), false, none⟩ : RealProblem ℚ ℚ)
    [-1, 2] none).evaluate (.array [0, 4]) = .ok 5 := by decide +kernel

example : ∃ q, matrixProblem (⟨fun x => .ok (x.elements.headD 0), true, none⟩ : RealProblem ℚ ℚ) [[0, 1], [1, 0]] none = .ok q ∧
    q.evaluate (.list [3, 7]) = .ok 7 := ⟨_, rfl, by decide +kernel⟩

example : (!![1, 2; 3, 4] : Matrix (Fin 2) (Fin 2) ℝ).det ≠ 0 := by
  rw [Matrix.det_fin_two_of]
  norm_num

end Leap
