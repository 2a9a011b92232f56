import Mathlib.Algebra.Order.BigOperators.Group.List
import Mathlib.Tactic.Linarith
import Mathlib.Tactic.FieldSimp
import Mathlib.Tactic.Ring
import Mathlib.Tactic.Positivity
import Mathlib.Tactic.ByContra
import Verif.Model.Zdt

/-!
# C74: the multiobjective benchmarks have the advertised Pareto-optimal sets
-/

namespace Leap

namespace Spec

/-- Pareto dominance for two minimised objectives. -/
def Dominates2 {K : Type} [LT K] [LE K] (a b : K × K) : Prop := a.1 ≤ b.1 ∧ a.2 ≤ b.2 ∧ (a.1 < b.1 ∨ a.2 < b.2)

/-- `x` is Pareto-optimal for `f` among the points of `S`: it has a value, and no point of `S` has a value that dominates it. -/
def ParetoOptimal {α K : Type} [LT K] [LE K] (S : α → Prop) (f : α → PyM (K × K)) (x : α) : Prop :=
  S x ∧ ∃ v, f x = .ok v ∧ ∀ y w, S y → f y = .ok w → ¬ Dominates2 w v

/-- The vectors with `n` elements, all in `[0, 1]`. -/
def UnitBox (n : Nat) (x : List ℝ) : Prop := x.length = n ∧ ∀ a ∈ x, 0 ≤ a ∧ a ≤ 1

/-- The vectors with `n` elements, the first in `[0, 1]` and the others in `[-5, 5]`. -/
def Zdt4Box (n : Nat) (x : List ℝ) : Prop := x.length = n ∧ (∀ a ∈ x.head?, 0 ≤ a ∧ a ≤ 1) ∧ ∀ a ∈ x.tail, -5 ≤ a ∧ a ≤ 5

/-- The bit strings of 30 bits and `n - 1` blocks of 5 bits. -/
def Zdt5Bits (n : Nat) (x : List Int) : Prop := x.length = 30 + 5 * (n - 1) ∧ ∀ a ∈ x, a = 0 ∨ a = 1

end Spec
open Spec

/-- The shape the problems have in common: the second objective grows with `g`, and falls with the first objective where `g` is
least. Then exactly the points with the least `g` are Pareto-optimal. -/
theorem pareto_by_g {α K : Type} [LinearOrder K] (S : α → Prop) (f : α → PyM (K × K)) (f1 g : α → K) (phi : K → K → K) (g0 : K)
    (hf : ∀ x, S x → f x = .ok (f1 x, phi (f1 x) (g x))) (hg : ∀ x, S x → g0 ≤ g x)
    (hreach : ∀ x, S x → ∃ x', S x' ∧ f1 x' = f1 x ∧ g x' = g0)
    (hmono : ∀ x, S x → g0 < g x → phi (f1 x) g0 < phi (f1 x) (g x))
    (hanti : ∀ x y, S x → S y → f1 x < f1 y → phi (f1 y) g0 < phi (f1 x) g0) (x : α) (hx : S x) :
    ParetoOptimal S f x ↔ g x = g0 := by
  have hge : ∀ y, S y → phi (f1 y) g0 ≤ phi (f1 y) (g y) := by
    intro y hy
    rcases eq_or_lt_of_le (hg y hy) with h | h
    · rw [← h]
    · exact (hmono y hy h).le
  constructor
  · rintro ⟨_, v, hv, hnd⟩
    rw [hf x hx] at hv
    obtain rfl := Except.ok.inj hv
    by_contra hne
    have hlt : g0 < g x := lt_of_le_of_ne (hg x hx) (Ne.symm hne)
    obtain ⟨x', hx', h1, h2⟩ := hreach x hx
    refine hnd x' _ hx' (hf x' hx') ?_
    rw [h1, h2]
    exact ⟨le_refl _, (hmono x hx hlt).le, Or.inr (hmono x hx hlt)⟩
  · intro h0
    refine ⟨hx, _, hf x hx, ?_⟩
    rintro y w hy hw ⟨h1, h2, h3⟩
    rw [hf y hy] at hw
    obtain rfl := Except.ok.inj hw
    simp only at h1 h2 h3
    rw [h0] at h2 h3
    have hgey := hge y hy
    rcases eq_or_lt_of_le h1 with h | h
    · rw [h] at h2 h3 hgey
      rcases h3 with h' | h'
      · exact lt_irrefl _ h'
      · exact absurd (lt_of_lt_of_le h' hgey) (lt_irrefl _)
    · have := hanti y x hy hx h
      exact absurd (lt_of_lt_of_le this (le_trans hgey h2)) (lt_irrefl _)

/-- **C74** (SCH). Exactly the numbers from 0 to 2 are Pareto-optimal, among all numbers. -/
theorem sch_front (x : ℝ) : ParetoOptimal (fun _ : ℝ => True) (fun y => .ok (sch y)) x ↔ 0 ≤ x ∧ x ≤ 2 := by
  have e : (2.0 : ℝ) = 2 := by norm_num
  constructor
  · rintro ⟨_, v, hv, h⟩
    obtain rfl := Except.ok.inj hv
    constructor
    · by_contra hx
      refine h 0 _ trivial rfl ⟨?_, ?_, Or.inl ?_⟩ <;> simp only [sch, e] <;> nlinarith
    · by_contra hx
      refine h 2 _ trivial rfl ⟨?_, ?_, Or.inl ?_⟩ <;> simp only [sch, e] <;> nlinarith
  · rintro ⟨h0, h2⟩
    refine ⟨trivial, _, rfl, ?_⟩
    rintro y w - hw ⟨h3, h4, h5⟩
    obtain rfl := Except.ok.inj hw
    simp only [sch, e] at h3 h4 h5
    have hyx : y ≤ x := abs_le_of_sq_le_sq' h3 h0 |>.2
    have hxy : x ≤ y := by
      have : (2 - y) ^ 2 ≤ (2 - x) ^ 2 := by nlinarith
      have := abs_le_of_sq_le_sq' this (by linarith) |>.2
      linarith
    have : y = x := le_antisymm hyx hxy
    subst this
    rcases h5 with h | h <;> exact lt_irrefl _ h

theorem nonneg_sum_zero (l : List ℝ) (h : ∀ a ∈ l, 0 ≤ a) : 0 ≤ l.sum ∧ (l.sum = 0 ↔ ∀ a ∈ l, a = 0) := by
  induction l with
  | nil => simp
  | cons a l ih =>
    obtain ⟨h1, h2⟩ := ih fun b hb => h b (List.mem_cons_of_mem _ hb)
    have ha := h a List.mem_cons_self
    rw [List.sum_cons]
    refine ⟨by linarith, ?_, ?_⟩
    · intro h0
      have ha0 : a = 0 := by linarith
      have hl : l.sum = 0 := by linarith
      intro b hb
      rcases List.mem_cons.1 hb with rfl | hb
      · exact ha0
      · exact h2.1 hl b hb
    · intro hall
      rw [hall a List.mem_cons_self, h2.2 fun b hb => hall b (List.mem_cons_of_mem _ hb)]
      simp

theorem zdtLinearG_spec (n : Nat) (hn : 2 ≤ n) (rest : List ℝ) (h : ∀ a ∈ rest, 0 ≤ a) :
    1 ≤ zdtLinearG n rest ∧ (zdtLinearG n rest = 1 ↔ ∀ a ∈ rest, a = 0) := by
  have hn' : (0 : ℝ) < (n : ℝ) - 1 := by
    have : (2 : ℝ) ≤ n := by exact_mod_cast hn
    linarith
  obtain ⟨h1, h2⟩ := nonneg_sum_zero rest h
  unfold zdtLinearG
  have h3 : 0 ≤ 9 * rest.sum / ((n : ℝ) - 1) := by positivity
  refine ⟨by linarith, ?_⟩
  rw [← h2]
  constructor
  · intro h4
    have h5 : 9 * rest.sum / ((n : ℝ) - 1) = 0 := by linarith
    rw [div_eq_zero_iff] at h5
    rcases h5 with h5 | h5 <;> linarith
  · intro h4
    rw [h4]
    simp

theorem zdtCheck_ok (check : Bool) (lo hi : ℝ) (x : List ℝ) (h : ∀ a ∈ x, lo ≤ a ∧ a ≤ hi) : zdtCheck check lo hi x = .ok () := by
  unfold zdtCheck
  rw [if_neg]
  rintro ⟨_, h'⟩
  exact h' h

theorem zdtCheck_off (lo hi : ℝ) (x : List ℝ) : zdtCheck false lo hi x = .ok () := by
  unfold zdtCheck
  rw [if_neg]
  rintro ⟨h, _⟩
  cases h

theorem zdtCheck_refuses (lo hi : ℝ) (x : List ℝ) (h : ¬ ∀ a ∈ x, lo ≤ a ∧ a ≤ hi) :
    zdtCheck true lo hi x = .error .assertionError := by
  unfold zdtCheck
  rw [if_pos ⟨rfl, h⟩]

/-- `g * (1 - sqrt (f / g))` grows with `g` from 1 on, for `f` in `[0, 1]`. -/
theorem sqrt_shape_mono (f g : ℝ) (hf0 : 0 ≤ f) (hf1 : f ≤ 1) (hg : 1 < g) :
    1 * (1 - Real.sqrt (f / 1)) < g * (1 - Real.sqrt (f / g)) := by
  have hgpos : 0 < g := by linarith
  have hs : g * Real.sqrt (f / g) = Real.sqrt f * Real.sqrt g := by
    rw [Real.sqrt_div hf0]
    have h1 : g = Real.sqrt g * Real.sqrt g := (Real.mul_self_sqrt hgpos.le).symm
    have h2 : Real.sqrt g ≠ 0 := (Real.sqrt_pos.2 hgpos).ne'
    rw [mul_div_assoc', div_eq_iff h2, mul_assoc, ← h1, mul_comm]
  rw [mul_sub g, hs, one_mul, div_one, mul_one]
  have ha : Real.sqrt f ≤ 1 := (Real.sqrt_le_left zero_le_one).2 (by linarith)
  have ha0 : 0 ≤ Real.sqrt f := Real.sqrt_nonneg _
  have hb : 1 < Real.sqrt g := by
    rw [Real.lt_sqrt (by norm_num)]
    linarith
  have hb2 : Real.sqrt g * Real.sqrt g = g := Real.mul_self_sqrt hgpos.le
  nlinarith

theorem sqrt_shape_anti (a b : ℝ) (ha : 0 ≤ a) (hab : a < b) :
    1 * (1 - Real.sqrt (b / 1)) < 1 * (1 - Real.sqrt (a / 1)) := by
  rw [div_one, div_one, one_mul, one_mul]
  have := Real.sqrt_lt_sqrt ha hab
  linarith

theorem sq_shape_mono (f g : ℝ) (hg : 1 < g) : 1 * (1 - (f / 1) ^ 2) < g * (1 - (f / g) ^ 2) := by
  have hgpos : 0 < g := by linarith
  have h1 : g * (1 - (f / g) ^ 2) = g - f ^ 2 / g := by
    field_simp
  have h2 : f ^ 2 / g ≤ f ^ 2 := div_le_self (sq_nonneg f) hg.le
  rw [h1, div_one, one_mul]
  linarith

theorem sq_shape_anti (a b : ℝ) (ha : 0 ≤ a) (hab : a < b) : 1 * (1 - (b / 1) ^ 2) < 1 * (1 - (a / 1) ^ 2) := by
  rw [div_one, div_one]
  nlinarith

theorem Spec.UnitBox.cons {n : Nat} (hn : 2 ≤ n) {x : List ℝ} (h : UnitBox n x) :
    ∃ x0 rest, x = x0 :: rest ∧ rest.length + 1 = n ∧ 0 ≤ x0 ∧ x0 ≤ 1 ∧ ∀ a ∈ rest, 0 ≤ a ∧ a ≤ 1 := by
  cases x with
  | nil => have := h.1; simp at this; omega
  | cons a x =>
    exact ⟨a, x, rfl, by simpa using h.1, (h.2 a List.mem_cons_self).1, (h.2 a List.mem_cons_self).2,
      fun b hb => h.2 b (List.mem_cons_of_mem _ hb)⟩

theorem Spec.UnitBox.zeros {n : Nat} (hn : 2 ≤ n) {x : List ℝ} (h : UnitBox n x) :
    UnitBox n (x.headD 0 :: List.replicate (n - 1) 0) := by
  obtain ⟨x0, rest, rfl, hl, h0, h1, hr⟩ := h.cons hn
  refine ⟨by simp; omega, ?_⟩
  intro a ha
  rcases List.mem_cons.1 ha with rfl | ha
  · exact ⟨h0, h1⟩
  · rw [(List.mem_replicate.1 ha).2]
    norm_num

/-- **C74** (what is not a nonempty array). An array without elements has no first one. A list is refused: with the check on it cannot be compared with a number; without
the check, there is nothing to add up the elements of a list with. ZDT4 looks at the first element of a list before it fails. -/
theorem zdt_refusals (n : Nat) (check : Bool) (x : List ℝ) :
    zdt1 n check (.array []) = .error .indexError ∧ zdt2 n check (.array []) = .error .indexError ∧ zdt3 n check (.array []) = .error .indexError ∧
    zdt4 n check (.array []) = .error .indexError ∧ zdt6 n check (.array []) = .error .indexError ∧
    (∀ e : PyErr, e = (if check = true then .typeError else if x = [] then .indexError else .attributeError) →
      zdt1 n check (.list x) = .error e ∧ zdt2 n check (.list x) = .error e ∧ zdt3 n check (.list x) = .error e ∧ zdt6 n check (.list x) = .error e) ∧
    (x = [] → zdt4 n check (.list x) = .error .indexError) ∧
    (∀ x0 rest, x = x0 :: rest → check = true → ¬ (0 ≤ x0 ∧ x0 ≤ 1) → zdt4 n check (.list x) = .error .assertionError) ∧
    (∀ x0 rest, x = x0 :: rest → check = false ∨ (0 ≤ x0 ∧ x0 ≤ 1) → zdt4 n check (.list x) = .error .typeError) := by
  have hc : zdtCheck check 0 1 [] = .ok () := zdtCheck_ok _ _ _ _ (by simp)
  refine ⟨?_, ?_, ?_, rfl, ?_, ?_, ?_, ?_, ?_⟩
  · simp only [zdt1, zdtArray, bind, Except.bind, hc]
  · simp only [zdt2, zdtArray, bind, Except.bind, hc]
  · simp only [zdt3, zdtArray, bind, Except.bind, hc]
  · simp only [zdt6, zdtArray, bind, Except.bind, hc]
  · rintro e rfl
    cases check <;> cases x <;> exact ⟨rfl, rfl, rfl, rfl⟩
  · rintro rfl
    rfl
  · rintro x0 rest rfl rfl h
    have := zdtCheck_refuses 0 1 [x0] (by simpa using h)
    simp only [zdt4, Phenome.elements, this, bind, Except.bind]
  · rintro x0 rest rfl h
    have : zdtCheck check 0 1 [x0] = .ok () := by
      rcases h with rfl | h
      · exact zdtCheck_off _ _ _
      · exact zdtCheck_ok _ _ _ _ (by simpa using h)
    simp only [zdt4, Phenome.elements, this, bind, Except.bind]

/-- **C74** (values). On arrays within the box ZDT1, 2, 3 and 6 give the documented pair; with the check on, anything out of the box is
refused. -/
theorem zdt_values (n : Nat) (check : Bool) (x0 : ℝ) (rest : List ℝ) :
    let g := 1 + 9 * rest.sum / ((n : ℝ) - 1)
    let g6 := 1 + 9 * (rest.sum / ((n : ℝ) - 1)) ^ (0.25 : ℝ)
    let f6 := 1 - Real.exp (-4 * x0) * Real.sin (6 * Real.pi * x0) ^ 6
    ((check = false ∨ ∀ a ∈ x0 :: rest, 0 ≤ a ∧ a ≤ 1) →
      zdt1 n check (.array (x0 :: rest)) = .ok (x0, g * (1 - Real.sqrt (x0 / g))) ∧
      zdt2 n check (.array (x0 :: rest)) = .ok (x0, g * (1 - (x0 / g) ^ 2)) ∧
      zdt3 n check (.array (x0 :: rest)) = .ok (x0, g * (1 - Real.sqrt (x0 / g) - x0 / g * Real.sin (10 * Real.pi * x0))) ∧
      zdt6 n check (.array (x0 :: rest)) = .ok (f6, g6 * (1 - (f6 / g6) ^ 2))) ∧
    (check = true → (¬ ∀ a ∈ x0 :: rest, 0 ≤ a ∧ a ≤ 1) →
      zdt1 n check (.array (x0 :: rest)) = .error .assertionError ∧ zdt2 n check (.array (x0 :: rest)) = .error .assertionError ∧
      zdt3 n check (.array (x0 :: rest)) = .error .assertionError ∧ zdt6 n check (.array (x0 :: rest)) = .error .assertionError) := by
  refine ⟨?_, ?_⟩
  · intro h
    have hc : zdtCheck check 0 1 (x0 :: rest) = .ok () := by
      rcases h with rfl | h
      · exact zdtCheck_off _ _ _
      · exact zdtCheck_ok _ _ _ _ h
    refine ⟨?_, ?_, ?_, ?_⟩
    · simp only [zdt1, zdtArray, bind, Except.bind, hc]; rfl
    · simp only [zdt2, zdtArray, bind, Except.bind, hc]; rfl
    · simp only [zdt3, zdtArray, bind, Except.bind, hc]; rfl
    · simp only [zdt6, zdtArray, bind, Except.bind, hc]
  · rintro rfl h
    have hc := zdtCheck_refuses _ _ _ h
    refine ⟨?_, ?_, ?_, ?_⟩
    · simp only [zdt1, zdtArray, bind, Except.bind, hc]
    · simp only [zdt2, zdtArray, bind, Except.bind, hc]
    · simp only [zdt3, zdtArray, bind, Except.bind, hc]
    · simp only [zdt6, zdtArray, bind, Except.bind, hc]

theorem linear_front (n : Nat) (hn : 2 ≤ n) (f : Phenome ℝ → PyM (ℝ × ℝ)) (phi : ℝ → ℝ → ℝ)
    (hf : ∀ x0 rest, UnitBox n (x0 :: rest) → f (.array (x0 :: rest)) = .ok (x0, phi x0 (zdtLinearG n rest)))
    (hmono : ∀ a g, 0 ≤ a → a ≤ 1 → 1 < g → phi a 1 < phi a g)
    (hanti : ∀ a b, 0 ≤ a → a < b → phi b 1 < phi a 1) (x : List ℝ) (hx : UnitBox n x) :
    ParetoOptimal (UnitBox n) (fun y => f (.array y)) x ↔ ∀ a ∈ x.tail, a = 0 := by
  have key := pareto_by_g (UnitBox n) (fun y => f (.array y)) (fun y => y.headD 0) (fun y => zdtLinearG n y.tail) phi 1
    (by
      intro y hy
      obtain ⟨y0, rest, rfl, _⟩ := hy.cons hn
      exact hf y0 rest hy)
    (by
      intro y hy
      obtain ⟨y0, rest, rfl, _, _, _, hr⟩ := hy.cons hn
      exact (zdtLinearG_spec n hn rest fun a ha => (hr a ha).1).1)
    (by
      intro y hy
      refine ⟨_, hy.zeros hn, rfl, ?_⟩
      exact (zdtLinearG_spec n hn _ fun a ha => by rw [(List.mem_replicate.1 ha).2]).2.2
        fun a ha => (List.mem_replicate.1 ha).2)
    (by
      intro y hy h
      obtain ⟨y0, rest, rfl, _, h0, h1, _⟩ := hy.cons hn
      exact hmono y0 _ h0 h1 h)
    (by
      intro y z hy hz h
      obtain ⟨y0, rest, rfl, _, h0, _⟩ := hy.cons hn
      exact hanti y0 _ h0 h) x hx
  rw [key]
  obtain ⟨x0, rest, rfl, _, _, _, hr⟩ := hx.cons hn
  exact (zdtLinearG_spec n hn rest fun a ha => (hr a ha).1).2

/-- **C74** (ZDT1). Exactly the points with all but the first coordinate 0 are Pareto-optimal. -/
theorem zdt1_front (n : Nat) (hn : 2 ≤ n) (check : Bool) (x : List ℝ) (hx : UnitBox n x) :
    ParetoOptimal (UnitBox n) (fun y => zdt1 n check (.array y)) x ↔ ∀ a ∈ x.tail, a = 0 :=
  linear_front n hn (zdt1 n check) (fun f g => g * (1 - Real.sqrt (f / g)))
    (fun x0 rest h => ((zdt_values n check x0 rest).1 (Or.inr h.2)).1)
    (fun a g h0 h1 hg => sqrt_shape_mono a g h0 h1 hg) (fun a b h0 h => sqrt_shape_anti a b h0 h) x hx

/-- **C74** (ZDT2). Exactly the points with all but the first coordinate 0 are Pareto-optimal. -/
theorem zdt2_front (n : Nat) (hn : 2 ≤ n) (check : Bool) (x : List ℝ) (hx : UnitBox n x) :
    ParetoOptimal (UnitBox n) (fun y => zdt2 n check (.array y)) x ↔ ∀ a ∈ x.tail, a = 0 :=
  linear_front n hn (zdt2 n check) (fun f g => g * (1 - (f / g) ^ 2))
    (fun x0 rest h => ((zdt_values n check x0 rest).1 (Or.inr h.2)).2.1)
    (fun a g _ _ hg => sq_shape_mono a g hg) (fun a b h0 h => sq_shape_anti a b h0 h) x hx

/-- **C74** (ZDT3). A point is Pareto-optimal exactly when all but the first coordinate are 0 and no smaller first coordinate gives
as low a second objective: the front has gaps where a smaller first coordinate does. -/
theorem zdt3_front (n : Nat) (hn : 2 ≤ n) (check : Bool) (x : List ℝ) (hx : UnitBox n x) :
    ParetoOptimal (UnitBox n) (fun y => zdt3 n check (.array y)) x ↔
      (∀ a ∈ x.tail, a = 0) ∧ ∀ x0 ∈ x.head?, ∀ t, 0 ≤ t → t < x0 →
        1 - Real.sqrt x0 - x0 * Real.sin (10 * Real.pi * x0) < 1 - Real.sqrt t - t * Real.sin (10 * Real.pi * t) := by
  have hval : ∀ y0 rest, UnitBox n (y0 :: rest) → zdt3 n check (.array (y0 :: rest)) =
      .ok (y0, zdtLinearG n rest * (1 - Real.sqrt (y0 / zdtLinearG n rest)) - y0 * Real.sin (10 * Real.pi * y0)) := by
    intro y0 rest h
    rw [((zdt_values n check y0 rest).1 (Or.inr h.2)).2.2.1]
    have h1 := (zdtLinearG_spec n hn rest fun a ha => (h.2 a (List.mem_cons_of_mem _ ha)).1).1
    have hgpos : zdtLinearG n rest ≠ 0 := by linarith
    congr 2
    rw [show 1 + 9 * rest.sum / ((n : ℝ) - 1) = zdtLinearG n rest from rfl]
    field_simp
  have hge : ∀ y0 rest, UnitBox n (y0 :: rest) →
      1 - Real.sqrt y0 ≤ zdtLinearG n rest * (1 - Real.sqrt (y0 / zdtLinearG n rest)) ∧
      ((∃ a ∈ rest, a ≠ 0) → 1 - Real.sqrt y0 < zdtLinearG n rest * (1 - Real.sqrt (y0 / zdtLinearG n rest))) ∧
      ((∀ a ∈ rest, a = 0) → 1 - Real.sqrt y0 = zdtLinearG n rest * (1 - Real.sqrt (y0 / zdtLinearG n rest))) := by
    intro y0 rest h
    obtain ⟨h1, h2⟩ := zdtLinearG_spec n hn rest fun a ha => (h.2 a (List.mem_cons_of_mem _ ha)).1
    have hy := h.2 y0 List.mem_cons_self
    have heq : zdtLinearG n rest = 1 → 1 - Real.sqrt y0 = zdtLinearG n rest * (1 - Real.sqrt (y0 / zdtLinearG n rest)) := by
      intro h
      rw [h, div_one, one_mul]
    have hlt : 1 < zdtLinearG n rest → 1 - Real.sqrt y0 < zdtLinearG n rest * (1 - Real.sqrt (y0 / zdtLinearG n rest)) := by
      intro h
      have := sqrt_shape_mono y0 _ hy.1 hy.2 h
      rwa [div_one, one_mul] at this
    refine ⟨?_, ?_, fun h => heq (h2.2 h)⟩
    · rcases eq_or_lt_of_le h1 with h | h
      · exact (heq h.symm).le
      · exact (hlt h).le
    · rintro ⟨a, ha, hne⟩
      exact hlt (lt_of_le_of_ne h1 fun h => hne (h2.1 h.symm a ha))
  obtain ⟨x0, rest, rfl, hl, hx0, hx1, hr⟩ := hx.cons hn
  have hz : ∀ t, 0 ≤ t → t ≤ 1 → UnitBox n (t :: List.replicate (n - 1) 0) := by
    intro t ht0 ht1
    refine ⟨by simp; omega, fun a ha => ?_⟩
    rcases List.mem_cons.1 ha with rfl | ha
    · exact ⟨ht0, ht1⟩
    · rw [(List.mem_replicate.1 ha).2]; norm_num
  have hzval : ∀ t, 0 ≤ t → t ≤ 1 → zdt3 n check (.array (t :: List.replicate (n - 1) 0)) =
      .ok (t, 1 - Real.sqrt t - t * Real.sin (10 * Real.pi * t)) := by
    intro t ht0 ht1
    rw [hval t _ (hz t ht0 ht1), ← (hge t _ (hz t ht0 ht1)).2.2 fun a ha => (List.mem_replicate.1 ha).2]
  constructor
  · rintro ⟨_, v, hv, hnd⟩
    simp only [hval x0 rest hx] at hv
    obtain rfl := Except.ok.inj hv
    have hzero : ∀ a ∈ rest, a = 0 := by
      by_contra hne
      have hne : ∃ a ∈ rest, a ≠ 0 := by
        by_contra h
        apply hne
        intro a ha
        by_contra h'
        exact h ⟨a, ha, h'⟩
      have := (hge x0 rest hx).2.1 hne
      refine hnd _ _ (hz x0 hx0 hx1) (hzval x0 hx0 hx1) ⟨le_refl _, ?_, Or.inr ?_⟩ <;> simp only <;> linarith
    refine ⟨hzero, ?_⟩
    rintro y hy t ht0 htx
    obtain rfl : x0 = y := by simpa using hy
    by_contra hle
    have := (hge x0 rest hx).2.2 hzero
    refine hnd _ _ (hz t ht0 (by linarith)) (hzval t ht0 (by linarith)) ⟨htx.le, ?_, Or.inl htx⟩
    simp only
    rw [← this]
    linarith
  · rintro ⟨hzero, hgap⟩
    refine ⟨hx, _, hval x0 rest hx, ?_⟩
    rintro y w hy hw ⟨h1, h2, h3⟩
    obtain ⟨y0, yr, rfl, _, hy0, hy1, _⟩ := hy.cons hn
    simp only [hval y0 yr hy] at hw
    obtain rfl := Except.ok.inj hw
    simp only at h1 h2 h3
    rw [← (hge x0 rest hx).2.2 hzero] at h2 h3
    have hgy := (hge y0 yr hy).1
    rcases eq_or_lt_of_le h1 with h | h
    · subst h
      rcases h3 with h' | h'
      · exact lt_irrefl _ h'
      · linarith
    · have := hgap x0 (by simp) y0 hy0 h
      linarith

/-- **C74** (ZDT6). Exactly the points with all but the first coordinate 0 are Pareto-optimal. -/
theorem zdt6_front (n : Nat) (hn : 2 ≤ n) (check : Bool) (x : List ℝ) (hx : UnitBox n x) :
    ParetoOptimal (UnitBox n) (fun y => zdt6 n check (.array y)) x ↔ ∀ a ∈ x.tail, a = 0 := by
  let f1 : List ℝ → ℝ := fun y => 1 - Real.exp (-4 * y.headD 0) * Real.sin (6 * Real.pi * y.headD 0) ^ 6
  let g : List ℝ → ℝ := fun y => 1 + 9 * (y.tail.sum / ((n : ℝ) - 1)) ^ (0.25 : ℝ)
  have hn' : (0 : ℝ) < (n : ℝ) - 1 := by
    have : (2 : ℝ) ≤ n := by exact_mod_cast hn
    linarith
  have hg : ∀ y, UnitBox n y → 1 ≤ g y ∧ (g y = 1 ↔ ∀ a ∈ y.tail, a = 0) := by
    intro y hy
    obtain ⟨y0, rest, rfl, _, _, _, hr⟩ := hy.cons hn
    obtain ⟨h1, h2⟩ := nonneg_sum_zero rest fun a ha => (hr a ha).1
    simp only [g, List.tail_cons]
    have h3 : 0 ≤ rest.sum / ((n : ℝ) - 1) := by positivity
    have h4 : 0 ≤ (rest.sum / ((n : ℝ) - 1)) ^ (0.25 : ℝ) := Real.rpow_nonneg h3 _
    refine ⟨by linarith, ?_⟩
    rw [← h2]
    constructor
    · intro h5
      have h6 : (rest.sum / ((n : ℝ) - 1)) ^ (0.25 : ℝ) = 0 := by linarith
      rw [Real.rpow_eq_zero h3 (by norm_num), div_eq_zero_iff] at h6
      rcases h6 with h6 | h6
      · exact h6
      · linarith
    · intro h5
      rw [h5, zero_div, Real.zero_rpow (by norm_num)]
      ring
  have hf0 : ∀ y, UnitBox n y → 0 ≤ f1 y := by
    intro y hy
    obtain ⟨y0, rest, rfl, _, h0, _, _⟩ := hy.cons hn
    simp only [f1, List.headD_cons]
    have h1 : Real.exp (-4 * y0) ≤ 1 := Real.exp_le_one_iff.2 (by linarith)
    have h2 : Real.sin (6 * Real.pi * y0) ^ 6 ≤ 1 := by
      have : Real.sin (6 * Real.pi * y0) ^ 6 = (Real.sin (6 * Real.pi * y0) ^ 2) ^ 3 := by ring
      rw [this]
      exact pow_le_one₀ (sq_nonneg _) (Real.sin_sq_le_one _)
    have h3 : 0 ≤ Real.sin (6 * Real.pi * y0) ^ 6 := by positivity
    have h4 := Real.exp_pos (-4 * y0)
    nlinarith
  have key := pareto_by_g (UnitBox n) (fun y => zdt6 n check (.array y)) f1 g (fun f g => g * (1 - (f / g) ^ 2)) 1
    (by
      intro y hy
      obtain ⟨y0, rest, rfl, _⟩ := hy.cons hn
      exact ((zdt_values n check y0 rest).1 (Or.inr hy.2)).2.2.2)
    (fun y hy => (hg y hy).1)
    (by
      intro y hy
      exact ⟨_, hy.zeros hn, rfl, (hg _ (hy.zeros hn)).2.2 fun a ha => (List.mem_replicate.1 ha).2⟩)
    (fun y hy h => sq_shape_mono _ _ h)
    (fun y z hy hz h => sq_shape_anti _ _ (hf0 y hy) h) x hx
  rw [key]
  exact (hg x hx).2

/-- **C74** (ZDT4). The documented pair within the box, refusal outside it, and exactly the points with all but the first
coordinate 0 are Pareto-optimal. -/
theorem zdt4_front (n : Nat) (hn : 2 ≤ n) :
    (∀ x, Zdt4Box n x → ∀ check, ∃ x0, x.head? = some x0 ∧
      ∃ g, g = 1 + 10 * ((n : ℝ) - 1) + (x.tail.map fun a => a ^ 2 - 10 * Real.cos (4 * Real.pi * a)).sum ∧
        zdt4 n check (.array x) = .ok (x0, g * (1 - Real.sqrt (x0 / g)))) ∧
    (∀ x, x.length = n → ¬ Zdt4Box n x → zdt4 n true (.array x) = .error .assertionError) ∧
    (∀ x, Zdt4Box n x → ∀ check,
      (ParetoOptimal (Zdt4Box n) (fun y => zdt4 n check (.array y)) x ↔ ∀ a ∈ x.tail, a = 0)) := by
  let g : List ℝ → ℝ := fun y => 1 + 10 * ((n : ℝ) - 1) + (y.tail.map fun a => a ^ 2 - 10 * Real.cos (4 * Real.pi * a)).sum
  have hcons : ∀ y, Zdt4Box n y → ∃ y0 rest, y = y0 :: rest ∧ rest.length + 1 = n ∧ 0 ≤ y0 ∧ y0 ≤ 1 ∧
      ∀ a ∈ rest, -5 ≤ a ∧ a ≤ 5 := by
    rintro y ⟨h1, h2, h3⟩
    cases y with
    | nil => simp at h1; omega
    | cons a y =>
      have := h2 a (by simp)
      exact ⟨a, y, rfl, by simpa using h1, this.1, this.2, by simpa using h3⟩
  have hval : ∀ check y, Zdt4Box n y → zdt4 n check (.array y) =
      .ok (y.headD 0, g y * (1 - Real.sqrt (y.headD 0 / g y))) := by
    intro check y hy
    obtain ⟨y0, rest, rfl, _, h0, h1, hr⟩ := hcons y hy
    have c1 := zdtCheck_ok check 0 1 [y0] (by simp [h0, h1])
    have c2 := zdtCheck_ok check (-5) 5 rest hr
    simp only [zdt4, Phenome.elements, c1, c2, bind, Except.bind]
    rfl
  have hsum : ∀ rest : List ℝ, (rest.map fun a => a ^ 2 - 10 * Real.cos (4 * Real.pi * a)).sum + 10 * (rest.length : ℝ) =
      (rest.map fun a => a ^ 2 + 10 * (1 - Real.cos (4 * Real.pi * a))).sum := by
    intro rest
    induction rest with
    | nil => simp
    | cons a l ih =>
      simp only [List.map_cons, List.sum_cons, List.length_cons]
      rw [← ih]
      push_cast
      ring
  have hg : ∀ y, Zdt4Box n y → 1 ≤ g y ∧ (g y = 1 ↔ ∀ a ∈ y.tail, a = 0) := by
    intro y hy
    obtain ⟨y0, rest, rfl, hl, _⟩ := hcons y hy
    have hln : (n : ℝ) - 1 = rest.length := by
      rw [← hl]
      push_cast
      ring
    have hgy : g (y0 :: rest) = 1 + (rest.map fun a => a ^ 2 + 10 * (1 - Real.cos (4 * Real.pi * a))).sum := by
      rw [← hsum rest]
      simp only [g, List.tail_cons, hln]
      ring
    have hnn : ∀ b ∈ rest.map fun a => a ^ 2 + 10 * (1 - Real.cos (4 * Real.pi * a)), 0 ≤ b := by
      intro b hb
      obtain ⟨a, _, rfl⟩ := List.mem_map.1 hb
      have := Real.cos_le_one (4 * Real.pi * a)
      nlinarith [sq_nonneg a]
    obtain ⟨h1, h2⟩ := nonneg_sum_zero _ hnn
    rw [hgy]
    refine ⟨by linarith, ?_⟩
    rw [List.tail_cons]
    constructor
    · intro h a ha
      have h3 := h2.1 (by linarith) _ (List.mem_map.2 ⟨a, ha, rfl⟩)
      have h4 := Real.cos_le_one (4 * Real.pi * a)
      have h5 := sq_nonneg a
      have h6 : a ^ 2 = 0 := by linarith
      simpa using h6
    · intro h
      rw [h2.2]
      · ring
      · intro b hb
        obtain ⟨a, ha, rfl⟩ := List.mem_map.1 hb
        rw [h a ha]
        simp
  refine ⟨?_, ?_, ?_⟩
  · intro x hx check
    obtain ⟨x0, rest, rfl, _⟩ := hcons x hx
    exact ⟨x0, rfl, g (x0 :: rest), rfl, hval check _ hx⟩
  · intro x hl hx
    cases x with
    | nil => simp at hl; omega
    | cons x0 rest =>
      by_cases h0 : 0 ≤ x0 ∧ x0 ≤ 1
      · have hr : ¬ ∀ a ∈ rest, -5 ≤ a ∧ a ≤ 5 := by
          intro hr
          exact hx ⟨hl, by simpa using h0, by simpa using hr⟩
        have c1 := zdtCheck_ok true 0 1 [x0] (by simpa using h0)
        simp only [zdt4, Phenome.elements, c1, zdtCheck_refuses _ _ _ hr, bind, Except.bind]
      · have c1 := zdtCheck_refuses 0 1 [x0] (by simpa using h0)
        simp only [zdt4, Phenome.elements, c1, bind, Except.bind]
  · intro x hx check
    have key := pareto_by_g (Zdt4Box n) (fun y => zdt4 n check (.array y)) (fun y => y.headD 0) g
      (fun f g => g * (1 - Real.sqrt (f / g))) 1 (hval check) (fun y hy => (hg y hy).1)
      (by
        intro y hy
        obtain ⟨y0, rest, rfl, _, h0, h1, _⟩ := hcons y hy
        have hz : Zdt4Box n (y0 :: List.replicate (n - 1) 0) := by
          refine ⟨by simp; omega, by simp [h0, h1], ?_⟩
          intro a ha
          rw [(List.mem_replicate.1 ha).2]
          norm_num
        exact ⟨_, hz, rfl, (hg _ hz).2.2 fun a ha => (List.mem_replicate.1 ha).2⟩)
      (by
        intro y hy h
        obtain ⟨y0, rest, rfl, _, h0, h1, _⟩ := hcons y hy
        exact sqrt_shape_mono _ _ h0 h1 h)
      (by
        intro y z hy hz h
        obtain ⟨y0, rest, rfl, _, h0, _⟩ := hcons y hy
        exact sqrt_shape_anti _ _ h0 h) x hx
    rw [key]
    exact (hg x hx).2

theorem bits_sum (l : List Int) (h : ∀ a ∈ l, a = 0 ∨ a = 1) :
    0 ≤ l.sum ∧ l.sum ≤ l.length ∧ (l.sum = l.length ↔ ∀ a ∈ l, a = 1) := by
  induction l with
  | nil => simp
  | cons a l ih =>
    obtain ⟨h1, h2, h3⟩ := ih fun b hb => h b (List.mem_cons_of_mem _ hb)
    rw [List.sum_cons, List.length_cons]
    push_cast
    rcases h a List.mem_cons_self with rfl | rfl
    · refine ⟨by omega, by omega, fun h => by omega, fun h => ?_⟩
      have := h 0 List.mem_cons_self
      omega
    · refine ⟨by omega, by omega, fun h => ?_, fun h => ?_⟩
      · have := h3.1 (by omega)
        intro b hb
        rcases List.mem_cons.1 hb with rfl | hb
        · rfl
        · exact this b hb
      · have := h3.2 fun b hb => h b (List.mem_cons_of_mem _ hb)
        omega

theorem sum_ge_length (l : List Int) (h : ∀ a ∈ l, 1 ≤ a) : (l.length : Int) ≤ l.sum ∧ (l.sum = l.length ↔ ∀ a ∈ l, a = 1) := by
  induction l with
  | nil => simp
  | cons a l ih =>
    obtain ⟨h1, h2⟩ := ih fun b hb => h b (List.mem_cons_of_mem _ hb)
    have ha := h a List.mem_cons_self
    rw [List.sum_cons, List.length_cons]
    push_cast
    refine ⟨by omega, fun h => ?_, fun h => ?_⟩
    · have := h2.1 (by omega)
      intro b hb
      rcases List.mem_cons.1 hb with rfl | hb
      · omega
      · exact this b hb
    · have := h2.2 fun b hb => h b (List.mem_cons_of_mem _ hb)
      have := h a List.mem_cons_self
      omega

theorem zdt5Blocks_spec (m : Nat) (x : List Int) (hl : x.length = 30 + 5 * m) :
    (zdt5Blocks x).length = m ∧ (∀ b ∈ zdt5Blocks x, b.length = 5 ∧ ∀ a ∈ b, a ∈ x) ∧
    ((∀ b ∈ zdt5Blocks x, ∀ a ∈ b, a = 1) ↔ ∀ a ∈ x.drop 30, a = 1) := by
  have hcount : (x.length - 30 + 4) / 5 = m := by omega
  have hmem : ∀ b, b ∈ zdt5Blocks x ↔ ∃ k < m, b = (x.drop (30 + 5 * k)).take 5 := by
    intro b
    simp only [zdt5Blocks, hcount, List.mem_map, List.mem_range]
    constructor
    · rintro ⟨k, hk, rfl⟩; exact ⟨k, hk, rfl⟩
    · rintro ⟨k, hk, rfl⟩; exact ⟨k, hk, rfl⟩
  refine ⟨by simp [zdt5Blocks, hcount], ?_, ?_⟩
  · intro b hb
    obtain ⟨k, hk, rfl⟩ := (hmem b).1 hb
    refine ⟨by rw [List.length_take, List.length_drop]; omega, fun a ha => ?_⟩
    exact List.mem_of_mem_drop (List.mem_of_mem_take ha)
  · constructor
    · intro h a ha
      obtain ⟨i, hi, rfl⟩ := List.getElem_of_mem ha
      rw [List.length_drop] at hi
      have hk : i / 5 < m := by omega
      apply h _ ((hmem _).2 ⟨i / 5, hk, rfl⟩)
      rw [List.mem_iff_getElem]
      refine ⟨i % 5, by rw [List.length_take, List.length_drop]; omega, ?_⟩
      rw [List.getElem_take, List.getElem_drop, List.getElem_drop]
      congr 1
      omega
    · intro h b hb a ha
      obtain ⟨k, hk, rfl⟩ := (hmem b).1 hb
      apply h
      have := List.mem_of_mem_take ha
      rw [← List.drop_drop] at this
      exact List.mem_of_mem_drop this

theorem flatten_block (blocks : List (List Int)) (h : ∀ b ∈ blocks, b.length = 5) (k : Nat) (hk : k < blocks.length) :
    (blocks.flatten.drop (5 * k)).take 5 = blocks[k] := by
  induction blocks generalizing k with
  | nil => simp at hk
  | cons b bs ih =>
    have hb := h b List.mem_cons_self
    cases k with
    | zero =>
      rw [List.flatten_cons, Nat.mul_zero, List.drop_zero, List.take_append_of_le_length (by omega),
        List.take_of_length_le (by omega)]
      rfl
    | succ k =>
      rw [List.flatten_cons, List.drop_append, List.drop_of_length_le (by omega), List.nil_append,
        show 5 * (k + 1) - b.length = 5 * k by omega]
      exact ih (fun c hc => h c (List.mem_cons_of_mem _ hc)) k (by simpa using hk)

theorem flatten_length5 (blocks : List (List Int)) (h : ∀ b ∈ blocks, b.length = 5) : blocks.flatten.length = 5 * blocks.length := by
  induction blocks with
  | nil => rfl
  | cons b bs ih =>
    rw [List.flatten_cons, List.length_append, ih fun c hc => h c (List.mem_cons_of_mem _ hc), h b List.mem_cons_self,
      List.length_cons]
    omega

theorem zdt5Blocks_flatten (first : List Int) (blocks : List (List Int)) (hf : first.length = 30)
    (h : ∀ b ∈ blocks, b.length = 5) : zdt5Blocks (first ++ blocks.flatten) = blocks := by
  have hl : (first ++ blocks.flatten).length = 30 + 5 * blocks.length := by
    rw [List.length_append, hf, flatten_length5 blocks h]
  have hc : ((first ++ blocks.flatten).length - 30 + 4) / 5 = blocks.length := by omega
  unfold zdt5Blocks
  rw [hc]
  apply List.ext_getElem
  · simp
  · intro k h1 h2
    rw [List.getElem_map, List.getElem_range, ← flatten_block blocks h k h2, ← List.drop_drop,
      List.drop_append_of_le_length (by omega), List.drop_of_length_le (l := first) (by omega), List.nil_append]

theorem bits_count (l : List Int) (h : ∀ a ∈ l, a = 0 ∨ a = 1) : l.sum = l.count 1 := by
  induction l with
  | nil => rfl
  | cons a l ih =>
    rw [List.sum_cons, ih fun b hb => h b (List.mem_cons_of_mem _ hb), List.count_cons]
    rcases h a List.mem_cons_self with rfl | rfl
    · simp
    · simp [add_comm]

/-- **C74** (ZDT5). The documented pair (the blocks' values added up, over 1 plus the ones among the first 30 bits), refusal of
anything but bit strings of the right length, and exactly the strings with all ones after the first 30 bits are
Pareto-optimal. -/
theorem zdt5_front (n : Nat) (hn : 2 ≤ n) :
    (∀ (first : List Int) (blocks : List (List Int)) (check : Bool), first.length = 30 → (∀ b ∈ blocks, b.length = 5) →
      Zdt5Bits n (first ++ blocks.flatten) → ∃ v, zdt5 n check (first ++ blocks.flatten) = .ok v ∧
        v.1 = 1 + (first.count 1 : ℚ) ∧
        v.2 = (blocks.map fun b => if b.count 1 = 5 then (1 : ℚ) else 2 + b.count 1).sum / (1 + first.count 1)) ∧
    (∀ x, ¬ Zdt5Bits n x → zdt5 n true x = .error .assertionError) ∧
    (∀ x check, Zdt5Bits n x → (ParetoOptimal (Zdt5Bits n) (zdt5 n check) x ↔ ∀ a ∈ x.drop 30, a = 1)) := by
  have hlen : ∀ x : List Int, x.length = 30 + 5 * (n - 1) ↔ (x.length : Int) = zdt5Length n := by
    intro x
    unfold zdt5Length
    constructor
    · intro h; omega
    · intro h; omega
  have hval : ∀ x check, Zdt5Bits n x → zdt5 n check x = .ok ((1 + ((x.take 30).sum : Int) : ℚ),
      (((zdt5Blocks x).map zdt5V).sum : Int) * (1 / (1 + ((x.take 30).sum : Int) : ℚ))) := by
    intro x check h
    rw [zdt5, if_neg (fun h' => h'.2 ((hlen x).1 h.1)), if_neg (fun h' => h'.2 h.2)]
  have hf1 : ∀ x, Zdt5Bits n x → (1 : ℚ) ≤ 1 + ((x.take 30).sum : Int) := by
    intro x h
    have := (bits_sum (x.take 30) fun a ha => h.2 a (List.mem_of_mem_take ha)).1
    have : (0 : ℚ) ≤ ((x.take 30).sum : Int) := by exact_mod_cast this
    linarith
  have hV : ∀ x, Zdt5Bits n x → ∀ b ∈ zdt5Blocks x, 1 ≤ zdt5V b ∧ (zdt5V b = 1 ↔ ∀ a ∈ b, a = 1) := by
    intro x h b hb
    obtain ⟨hb5, hbm⟩ := (zdt5Blocks_spec (n - 1) x h.1).2.1 b hb
    obtain ⟨h1, h2, h3⟩ := bits_sum b fun a ha => h.2 a (hbm a ha)
    rw [hb5] at h2 h3
    unfold zdt5V
    split_ifs with hlt
    · refine ⟨by omega, fun h => by omega, fun h => ?_⟩
      have := h3.2 h
      omega
    · exact ⟨le_refl _, fun _ => h3.1 (by omega), fun _ => rfl⟩
  have hg : ∀ x, Zdt5Bits n x → ((n - 1 : Nat) : Int) ≤ ((zdt5Blocks x).map zdt5V).sum ∧
      (((zdt5Blocks x).map zdt5V).sum = ((n - 1 : Nat) : Int) ↔ ∀ a ∈ x.drop 30, a = 1) := by
    intro x h
    obtain ⟨h1, h2, h3⟩ := zdt5Blocks_spec (n - 1) x h.1
    obtain ⟨h4, h5⟩ := sum_ge_length ((zdt5Blocks x).map zdt5V) (by
      intro a ha
      obtain ⟨b, hb, rfl⟩ := List.mem_map.1 ha
      exact (hV x h b hb).1)
    rw [List.length_map, h1] at h4 h5
    refine ⟨h4, h5.trans ⟨?_, ?_⟩⟩
    · intro hall
      rw [← h3]
      intro b hb
      exact (hV x h b hb).2.1 (hall _ (List.mem_map.2 ⟨b, hb, rfl⟩))
    · intro hall a ha
      obtain ⟨b, hb, rfl⟩ := List.mem_map.1 ha
      exact (hV x h b hb).2.2 (h3.2 hall b hb)
  refine ⟨?_, ?_, ?_⟩
  · intro first blocks check hfl hbl h
    have hfb : ∀ a ∈ first, a = 0 ∨ a = 1 := fun a ha => h.2 a (List.mem_append_left _ ha)
    have htake : (first ++ blocks.flatten).take 30 = first := by
      rw [List.take_append_of_le_length (by omega), List.take_of_length_le (by omega)]
    have hv := hval _ check h
    rw [htake, bits_count first hfb, zdt5Blocks_flatten first blocks hfl hbl] at hv
    refine ⟨_, hv, by push_cast; rfl, ?_⟩
    have hsum : ((blocks.map zdt5V).sum : ℚ) = (blocks.map fun b => if b.count 1 = 5 then (1 : ℚ) else 2 + b.count 1).sum := by
      have hbb : ∀ b ∈ blocks, b.length = 5 ∧ ∀ a ∈ b, a = 0 ∨ a = 1 := fun b hb =>
        ⟨hbl b hb, fun a ha => h.2 a (List.mem_append_right _ (List.mem_flatten.2 ⟨b, hb, ha⟩))⟩
      clear hv h hbl
      induction blocks with
      | nil => simp
      | cons b bs ih =>
        rw [List.map_cons, List.map_cons, List.sum_cons, List.sum_cons, Int.cast_add]
        rw [ih (by
          rw [List.take_append_of_le_length (by omega), List.take_of_length_le (by omega)])
          fun c hc => hbb c (List.mem_cons_of_mem _ hc)]
        congr 1
        obtain ⟨hb5, hb01⟩ := hbb b List.mem_cons_self
        have hle : b.count 1 ≤ 5 := hb5 ▸ List.count_le_length
        unfold zdt5V
        rw [bits_count b hb01]
        by_cases h5 : b.count 1 = 5
        · rw [if_neg (by omega), if_pos h5]
          simp
        · rw [if_pos (by omega), if_neg h5]
          push_cast
          rfl
    simp only
    rw [hsum]
    push_cast
    rw [mul_one_div]
  · intro x h
    rw [zdt5]
    by_cases hl : (x.length : Int) = zdt5Length n
    · rw [if_neg (fun h' => h'.2 hl), if_pos ⟨rfl, fun h' => h ⟨(hlen x).2 hl, h'⟩⟩]
    · rw [if_pos ⟨rfl, hl⟩]
  · intro x check hx
    have key := pareto_by_g (Zdt5Bits n) (zdt5 n check) (fun y => (1 + ((y.take 30).sum : Int) : ℚ))
      (fun y => (((zdt5Blocks y).map zdt5V).sum : Int)) (fun f g => g * (1 / f)) ((n - 1 : Nat) : ℚ)
      (fun y hy => hval y check hy) (fun y hy => by exact_mod_cast (hg y hy).1)
      (by
        intro y hy
        have hz : Zdt5Bits n (y.take 30 ++ List.replicate (5 * (n - 1)) 1) := by
          refine ⟨by rw [List.length_append, List.length_take, List.length_replicate, hy.1]; omega, ?_⟩
          intro a ha
          rcases List.mem_append.1 ha with ha | ha
          · exact hy.2 a (List.mem_of_mem_take ha)
          · right; exact (List.mem_replicate.1 ha).2
        have hl30 : (y.take 30).length = 30 := by rw [List.length_take, hy.1]; omega
        refine ⟨_, hz, ?_, ?_⟩
        · rw [List.take_append_of_le_length (by omega), List.take_of_length_le (by omega)]
        · have := (hg _ hz).2.2 (by
            intro a ha
            rw [List.drop_append_of_le_length (by omega), List.drop_of_length_le (by omega)] at ha
            exact (List.mem_replicate.1 (by simpa using ha)).2)
          exact_mod_cast this)
      (by
        intro y hy h
        have := hf1 y hy
        exact mul_lt_mul_of_pos_right h (by positivity))
      (by
        intro y z hy hz h
        have := hf1 y hy
        have hn' : (0 : ℚ) < ((n - 1 : Nat) : ℚ) := by
          have : 0 < n - 1 := by omega
          exact_mod_cast this
        exact mul_lt_mul_of_pos_left (one_div_lt_one_div_of_lt (by linarith) h) hn') x hx
    rw [key, ← (hg x hx).2]
    constructor
    · intro h; exact_mod_cast h
    · intro h; exact_mod_cast h

/-! ## The hypotheses can be met -/

example : ParetoOptimal (UnitBox 3) (fun y => zdt1 3 true (.array y)) [1 / 2, 0, 0] :=
  (zdt1_front 3 (by norm_num) true _ ⟨rfl, by intro a ha; simp at ha; rcases ha with rfl | rfl <;> norm_num⟩).2 (by simp)

example : ¬ ParetoOptimal (UnitBox 3) (fun y => zdt2 3 true (.array y)) [1 / 2, 0, 1] := by
  rw [zdt2_front 3 (by norm_num) true _ ⟨rfl, by intro a ha; simp at ha; rcases ha with rfl | rfl | rfl <;> norm_num⟩]
  simp

example : Zdt5Bits 2 (List.replicate 30 0 ++ [1, 1, 0, 1, 1]) := ⟨rfl, by decide +kernel⟩

example : Zdt4Box 2 [1 / 2, -4] := ⟨rfl, by simp; norm_num, by simp; norm_num⟩

/-! ### The advertised bounds -/

/-- One number per pair of bounds, each within its pair. -/
def Spec.BetweenEach (bounds : List (Int × Int)) (x : List ℝ) : Prop :=
  List.Forall₂ (fun (b : Int × Int) a => (b.1 : ℝ) ≤ a ∧ a ≤ b.2) bounds x

theorem within_replicate (k : Nat) (lo hi : Int) (x : List ℝ) :
    BetweenEach (List.replicate k (lo, hi)) x ↔ x.length = k ∧ ∀ a ∈ x, (lo : ℝ) ≤ a ∧ a ≤ hi := by
  unfold BetweenEach
  induction k generalizing x with
  | zero => cases x <;> simp
  | succ k ih =>
    cases x with
    | nil => simp [List.replicate_succ]
    | cons a x =>
      rw [List.replicate_succ, List.forall₂_cons, ih]
      simp only [List.length_cons, List.mem_cons, forall_eq_or_imp]
      constructor
      · rintro ⟨h1, h2, h3⟩; exact ⟨by omega, h1, h3⟩
      · rintro ⟨h1, h2, h3⟩; exact ⟨h2, by omega, h3⟩

/-- **C74** (bounds). The vectors within the advertised bounds are exactly the boxes (bit strings) on which the problems are
defined: they are all accepted, whether or not phenomes are checked. -/
theorem zdt_bounds (n : Nat) (hn : 2 ≤ n) :
    (∀ x, BetweenEach (zdtUnitBounds n) x ↔ UnitBox n x) ∧ (∀ x, BetweenEach (zdt4Bounds n) x ↔ Zdt4Box n x) ∧
    (∀ x : List Int, Zdt5Bits n x ↔ BetweenEach (zdt5Bounds n) (x.map fun a : Int => (a : ℝ))) ∧
    (∀ x check, BetweenEach (zdtUnitBounds n) x → (∃ v, zdt1 n check (.array x) = .ok v) ∧ (∃ v, zdt2 n check (.array x) = .ok v) ∧
      (∃ v, zdt3 n check (.array x) = .ok v) ∧ ∃ v, zdt6 n check (.array x) = .ok v) ∧
    (∀ x check, BetweenEach (zdt4Bounds n) x → ∃ v, zdt4 n check (.array x) = .ok v) ∧
    (∀ (x : List Int) check, Zdt5Bits n x → ∃ v, zdt5 n check x = .ok v) := by
  have h1 : ∀ x, BetweenEach (zdtUnitBounds n) x ↔ UnitBox n x := by
    intro x
    unfold zdtUnitBounds
    rw [within_replicate]
    simp [UnitBox]
  have h4 : ∀ x, BetweenEach (zdt4Bounds n) x ↔ Zdt4Box n x := by
    intro x
    unfold zdt4Bounds Zdt4Box
    cases x with
    | nil =>
      constructor
      · intro h; cases h
      · rintro ⟨h, _⟩; simp at h; omega
    | cons a x =>
      have := within_replicate ((n : Int) - 1).toNat (-5) 5 x
      unfold BetweenEach at this ⊢
      rw [List.forall₂_cons, this]
      simp only [List.length_cons, List.head?_cons, Option.mem_def, Option.some.injEq, forall_eq', List.tail_cons]
      push_cast
      constructor
      · rintro ⟨h1, h2, h3⟩; exact ⟨by omega, h1, h3⟩
      · rintro ⟨h1, h2, h3⟩; exact ⟨h2, by omega, h3⟩
  have hunit : ∀ x, UnitBox n x → ∃ x0 rest, x = x0 :: rest := by
    rintro x ⟨hl, _⟩
    cases x with
    | nil => simp at hl; omega
    | cons a x => exact ⟨a, x, rfl⟩
  refine ⟨h1, h4, ?_, ?_, ?_, ?_⟩
  · intro x
    unfold zdt5Bounds
    rw [within_replicate]
    unfold Zdt5Bits zdt5Length
    simp only [List.length_map, List.mem_map, forall_exists_index, and_imp, forall_apply_eq_imp_iff₂]
    constructor
    · rintro ⟨h, hb⟩
      refine ⟨by omega, fun a ha => ?_⟩
      rcases hb a ha with rfl | rfl <;> norm_num
    · rintro ⟨h, hb⟩
      refine ⟨by omega, fun a ha => ?_⟩
      obtain ⟨h0, h1⟩ := hb a ha
      have h0' : (0 : Int) ≤ a := by exact_mod_cast h0
      have h1' : a ≤ 1 := by exact_mod_cast h1
      omega
  · intro x check hx
    obtain ⟨x0, rest, rfl⟩ := hunit x ((h1 x).1 hx)
    obtain ⟨e1, e2, e3, e6⟩ := (zdt_values n check x0 rest).1 (.inr ((h1 _).1 hx).2)
    exact ⟨⟨_, e1⟩, ⟨_, e2⟩, ⟨_, e3⟩, ⟨_, e6⟩⟩
  · intro x check hx
    obtain ⟨x0, -, g, -, h⟩ := (zdt4_front n hn).1 x ((h4 x).1 hx) check
    exact ⟨_, h⟩
  · intro x check hx
    have hl : (x.length : Int) = zdt5Length n := by
      unfold zdt5Length; have := hx.1; omega
    unfold zdt5
    rw [if_neg (by rintro ⟨_, h⟩; exact h hl), if_neg (by rintro ⟨_, h⟩; exact h hx.2)]
    exact ⟨_, rfl⟩

/-- C74: the check of ZDT1, 2, 3 and 6 looks at the elements only: vectors of any length but 0 within `[0, 1]` are accepted, although
the problem was made for another number of dimensions. -/
theorem zdt_length_unchecked (n : Nat) (x : List ℝ) (hne : x ≠ []) (h : ∀ a ∈ x, 0 ≤ a ∧ a ≤ 1) :
    (∃ v, zdt1 n true (.array x) = .ok v) ∧ (∃ v, zdt2 n true (.array x) = .ok v) ∧
    (∃ v, zdt3 n true (.array x) = .ok v) ∧ ∃ v, zdt6 n true (.array x) = .ok v := by
  cases x with
  | nil => exact absurd rfl hne
  | cons x0 rest =>
    obtain ⟨e1, e2, e3, e6⟩ := (zdt_values n true x0 rest).1 (.inr h)
    exact ⟨⟨_, e1⟩, ⟨_, e2⟩, ⟨_, e3⟩, ⟨_, e6⟩⟩

/-- **C74** (ranges). BetweenEach the bounds both objectives of ZDT1 and ZDT2 lie between 0 and 10, the first at most 1. -/
theorem zdt_ranges (n : Nat) (hn : 2 ≤ n) (check : Bool) (x : List ℝ) (hx : UnitBox n x) (v : ℝ × ℝ)
    (h : zdt1 n check (.array x) = .ok v ∨ zdt2 n check (.array x) = .ok v) : 0 ≤ v.1 ∧ v.1 ≤ 1 ∧ 0 ≤ v.2 ∧ v.2 ≤ 10 := by
  have hn' : (1 : ℝ) ≤ (n : ℝ) - 1 := by
    have : (2 : ℝ) ≤ n := by exact_mod_cast hn
    linarith
  cases x with
  | nil => have := hx.1; simp at this; omega
  | cons x0 rest =>
    obtain ⟨e1, e2, -, -⟩ := (zdt_values n check x0 rest).1 (.inr hx.2)
    have hx0 := hx.2 x0 (by simp)
    have hrest : ∀ a ∈ rest, 0 ≤ a ∧ a ≤ 1 := fun a ha => hx.2 a (by simp [ha])
    have hs : ∀ l : List ℝ, (∀ a ∈ l, 0 ≤ a ∧ a ≤ 1) → 0 ≤ l.sum ∧ l.sum ≤ l.length := by
      intro l
      induction l with
      | nil => simp
      | cons a l ih =>
        intro h
        obtain ⟨i1, i2⟩ := ih fun b hb => h b (by simp [hb])
        have := h a (by simp)
        simp only [List.sum_cons, List.length_cons]
        push_cast
        constructor <;> linarith
    obtain ⟨s0, s1⟩ := hs rest hrest
    have hl : (rest.length : ℝ) = (n : ℝ) - 1 := by
      have := hx.1
      simp only [List.length_cons] at this
      rw [← this]; push_cast; ring
    have hg : 1 ≤ 1 + 9 * rest.sum / ((n : ℝ) - 1) ∧ 1 + 9 * rest.sum / ((n : ℝ) - 1) ≤ 10 := by
      have h0 : 0 ≤ 9 * rest.sum / ((n : ℝ) - 1) := by positivity
      have h1 : 9 * rest.sum / ((n : ℝ) - 1) ≤ 9 := by
        rw [div_le_iff₀ (by linarith)]; rw [hl] at s1; linarith
      constructor <;> linarith
    set g := 1 + 9 * rest.sum / ((n : ℝ) - 1) with hgd
    obtain ⟨g0, g1⟩ := hg
    have hgp : 0 < g := by linarith
    have hq0 : 0 ≤ x0 / g := div_nonneg hx0.1 hgp.le
    have hq1 : x0 / g ≤ 1 := by rw [div_le_one hgp]; linarith
    rcases h with h | h
    · rw [e1] at h
      cases h
      have hr0 := Real.sqrt_nonneg (x0 / g)
      have hr1 : Real.sqrt (x0 / g) ≤ 1 := Real.sqrt_le_one.2 hq1
      refine ⟨hx0.1, hx0.2, ?_, ?_⟩
      · show 0 ≤ g * (1 - Real.sqrt (x0 / g))
        exact mul_nonneg hgp.le (by linarith)
      · show g * (1 - Real.sqrt (x0 / g)) ≤ 10
        nlinarith
    · rw [e2] at h
      cases h
      have hr0 : 0 ≤ (x0 / g) ^ 2 := sq_nonneg _
      have hr1 : (x0 / g) ^ 2 ≤ 1 := by nlinarith
      refine ⟨hx0.1, hx0.2, ?_, ?_⟩
      · show 0 ≤ g * (1 - (x0 / g) ^ 2)
        exact mul_nonneg hgp.le (by linarith)
      · show g * (1 - (x0 / g) ^ 2) ≤ 10
        nlinarith

example : BetweenEach (zdtUnitBounds 3) [1, 0, 1/2] ∧ ¬ BetweenEach (zdtUnitBounds 3) [1, 0] ∧ BetweenEach (zdt4Bounds 3) [1, -5, 4] := by
  refine ⟨?_, ?_, ?_⟩
  · exact .cons (by norm_num) (.cons (by norm_num) (.cons (by norm_num) .nil))
  · intro h; have := h.length_eq; simp [zdtUnitBounds] at this
  · exact .cons (by norm_num) (.cons (by norm_num) (.cons (by norm_num) .nil))

end Leap
