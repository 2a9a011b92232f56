import Mathlib.Tactic.Linarith
import Mathlib.Tactic.FieldSimp
import Mathlib.Tactic.Ring
import Verif.Model.Plot2d

/-!
# C92: plots of two-dimensional problems show the problem's values
-/

namespace Leap

/-- The numbers `lo, lo + step, lo + 2 step, ...` below `hi`. -/
def Spec.StepsBelow (lo hi step : ℚ) (l : List ℚ) : Prop :=
  (∀ (k : Nat) (a : ℚ), l[k]? = some a → a = lo + k * step ∧ a < hi) ∧ hi ≤ lo + l.length * step

/-- The points evaluated one after the other, with these results. -/
inductive Spec.PointsEvaluated {σ : Type} (f : List ℚ → σ → PyM PlotNum × σ) (pad : List ℚ) :
    List (ℚ × ℚ) → σ → List PlotNum → σ → Prop
  | nil {s} : Spec.PointsEvaluated f pad [] s [] s
  | cons {a b ps s v s1 vs s2} : f (a :: b :: pad) s = (.ok v, s1) → Spec.PointsEvaluated f pad ps s1 vs s2 →
      Spec.PointsEvaluated f pad ((a, b) :: ps) s (v :: vs) s2

open Spec

/-- **C92** (grid lines). With a positive step the grid lines are the multiples of the step from the lower limit on that lie below the upper
limit: the upper limit itself is never on the grid. With a negative step upwards, and downwards with a positive one, there are
none; a zero step is an error. -/
theorem arange_spec (lo hi step : ℚ) :
    (0 < step → lo ≤ hi → ∃ l, arange lo hi step = .ok l ∧ StepsBelow lo hi step l) ∧
    (step ≠ 0 → (hi - lo) / step ≤ 0 → arange lo hi step = .ok []) ∧
    arange lo hi 0 = .error .zeroDivisionError := by
  refine ⟨fun hs hl => ?_, fun hs h => ?_, by simp [arange]⟩
  · refine ⟨_, by simp only [arange]; rw [if_neg hs.ne'], ?_, ?_⟩
    · intro k a hk
      rw [List.getElem?_map] at hk
      have hk' : k < (⌈(hi - lo) / step⌉).toNat := by
        by_contra hc
        rw [List.getElem?_eq_none (by simpa using hc)] at hk
        simp at hk
      rw [List.getElem?_range hk'] at hk
      simp only [Option.map_some, Option.some.injEq] at hk
      subst hk
      refine ⟨rfl, ?_⟩
      have h1 : (k : Int) < ⌈(hi - lo) / step⌉ := by omega
      have h2 := Int.lt_ceil.1 h1
      rw [lt_div_iff₀ hs] at h2
      push_cast at h2
      linarith
    · simp only [List.length_map, List.length_range]
      have h0 : 0 ≤ (hi - lo) / step := div_nonneg (by linarith) hs.le
      have h1 : 0 ≤ ⌈(hi - lo) / step⌉ := Int.ceil_nonneg h0
      have h2 : (((⌈(hi - lo) / step⌉).toNat : Int) : ℚ) = (⌈(hi - lo) / step⌉ : ℚ) := by rw [Int.toNat_of_nonneg h1]
      have h3 := Int.le_ceil ((hi - lo) / step)
      rw [div_le_iff₀ hs] at h3
      have h4 : (((⌈(hi - lo) / step⌉).toNat : Nat) : ℚ) = (⌈(hi - lo) / step⌉ : ℚ) := by exact_mod_cast h2
      rw [h4]
      linarith
  · have h1 : ⌈(hi - lo) / step⌉ ≤ 0 := Int.ceil_le.2 (by simpa using h)
    have h2 : (⌈(hi - lo) / step⌉).toNat = 0 := by omega
    simp [arange, hs, h2]

/-- C92: the numbers below a limit are determined by the limits and the step. -/
theorem stepsBelow_unique (lo hi step : ℚ) (hs : 0 < step) (l l' : List ℚ) (h : StepsBelow lo hi step l) (h' : StepsBelow lo hi step l') :
    l = l' := by
  have key : ∀ l l' : List ℚ, StepsBelow lo hi step l → StepsBelow lo hi step l' → l.length ≤ l'.length := by
    intro l l' h h'
    by_contra hc
    have hlt : l'.length < l.length := by omega
    obtain ⟨e1, e2⟩ := h.1 l'.length _ (List.getElem?_eq_getElem hlt)
    have := h'.2
    rw [e1] at e2
    linarith
  have hlen : l.length = l'.length := le_antisymm (key l l' h h') (key l' l h' h)
  apply List.ext_getElem hlen
  intro k h1 h2
  rw [(h.1 k _ (List.getElem?_eq_getElem h1)).1, (h'.1 k _ (List.getElem?_eq_getElem h2)).1]

theorem evalPoints_iff {σ : Type} (f : List ℚ → σ → PyM PlotNum × σ) (pad : List ℚ) (ps : List (ℚ × ℚ)) (s : σ) (vs : List PlotNum) (s' : σ) :
    evalPoints f pad ps s = (.ok vs, s') ↔ PointsEvaluated f pad ps s vs s' := by
  constructor
  · induction ps generalizing s vs with
    | nil =>
      intro h
      simp only [evalPoints, Prod.mk.injEq, Except.ok.injEq] at h
      obtain ⟨rfl, rfl⟩ := h
      exact .nil
    | cons p ps ih =>
      obtain ⟨a, b⟩ := p
      intro h
      simp only [evalPoints] at h
      rcases h1 : f ([a, b] ++ pad) s with ⟨r, s1⟩
      rw [h1] at h
      cases r with
      | error e => simp at h
      | ok v =>
        simp only at h
        rcases h2 : evalPoints f pad ps s1 with ⟨r2, s2⟩
        rw [h2] at h
        cases r2 with
        | error e => simp at h
        | ok ws =>
          simp only [Prod.mk.injEq, Except.ok.injEq] at h
          obtain ⟨rfl, rfl⟩ := h
          exact .cons h1 (ih s1 ws h2)
  · intro h
    induction h with
    | nil => rfl
    | @cons a b ps s v s1 vs s2 h1 _ ih =>
      simp only [evalPoints]
      rw [show [a, b] ++ pad = a :: b :: pad from rfl, h1]
      simp only [ih]

/-- **C92** (heights). When a plot is drawn, its grid consists of the crossings of the grid lines, rows upwards and columns to the
right. The function was called once at the first point and then once at every point, row by row, always with the two
coordinates followed by the padding. If the first call returned a `float`, every height is the value at its point; if it
returned an `int`, every height is the value with its fraction cut off. -/
theorem plot_heights {σ : Type} (f : List ℚ → σ → PyM PlotNum × σ) (x0 x1 y0 y1 g : ℚ) (hg : 0 < g) (hx : x0 ≤ x1) (hy : y0 ≤ y1)
    (pad : PadArg) (padding : List ℚ) (hpad : (pad = .none ∧ padding = []) ∨ pad = .array padding) (s s' : σ) (p : Plot2d) :
    plotGrid f [x0, x1] [y0, y1] g pad s = (.ok p, s') ↔
      ∃ xs ys first s1 vs, StepsBelow x0 x1 g xs ∧ StepsBelow y0 y1 g ys ∧
        p.grid = ys.map (fun b => xs.map fun a => (a, b)) ∧
        (∃ a b, xs.head? = some a ∧ ys.head? = some b ∧ f (a :: b :: padding) s = (.ok first, s1)) ∧
        PointsEvaluated f padding p.grid.flatten s1 vs s' ∧
        p.heights = vs.map (fun v => match first, v with
          | .int _, .float q => if 0 ≤ q then (⌊q⌋ : ℚ) else ⌈q⌉
          | _, .int z => z
          | _, .float q => q) := by
  obtain ⟨xs, ex, hxs⟩ := (arange_spec x0 x1 g).1 hg hx
  obtain ⟨ys, ey, hys⟩ := (arange_spec y0 y1 g).1 hg hy
  have hp : pad.value = some padding := by
    rcases hpad with ⟨rfl, rfl⟩ | rfl <;> rfl
  have hcast : ∀ first : PlotNum, (castLike first) = fun v => (match first, v with
          | .int _, .float q => if 0 ≤ q then (⌊q⌋ : ℚ) else ⌈q⌉
          | _, .int z => z
          | _, .float q => q) := by
    intro first; funext v; cases first <;> cases v <;> rfl
  simp only [plotGrid, hp, ex, ey]
  have hflat : (∃ a b t, xs.head? = some a ∧ ys.head? = some b ∧ (meshgrid xs ys).flatten = (a, b) :: t) ∨
      ((meshgrid xs ys).flatten = [] ∧ (xs = [] ∨ ys = [])) := by
    cases ys with
    | nil => exact .inr ⟨rfl, .inr rfl⟩
    | cons b ys =>
      cases xs with
      | nil => exact .inr ⟨by simp [meshgrid], .inl rfl⟩
      | cons a xs => exact .inl ⟨a, b, _, rfl, rfl, by simp [meshgrid]; rfl⟩
  rcases hflat with ⟨a, b, t, ha, hb, hm⟩ | ⟨hm, he⟩
  · simp only [vectorized, hm]
    constructor
    · intro h
      rcases h1 : f ([a, b] ++ padding) s with ⟨r, s1⟩
      rw [h1] at h
      cases r with
      | error e => simp at h
      | ok first =>
        simp only at h
        rcases h2 : evalPoints f padding ((a, b) :: t) s1 with ⟨r2, s2⟩
        rw [h2] at h
        cases r2 with
        | error e => simp at h
        | ok vs =>
          simp only [Prod.mk.injEq, Except.ok.injEq] at h
          obtain ⟨rfl, rfl⟩ := h
          refine ⟨xs, ys, first, s1, vs, hxs, hys, rfl, ⟨a, b, ha, hb, h1⟩, ?_, by rw [hcast]⟩
          rw [← evalPoints_iff]
          show evalPoints f padding (meshgrid xs ys).flatten s1 = _
          rw [hm]
          exact h2
    · rintro ⟨xs', ys', first, s1, vs, hxs', hys', hgrid, ⟨a', b', ha', hb', h1⟩, h2, hh⟩
      have e1 := stepsBelow_unique _ _ _ hg _ _ hxs' hxs
      have e2 := stepsBelow_unique _ _ _ hg _ _ hys' hys
      subst e1 e2
      rw [ha] at ha'; rw [hb] at hb'
      cases ha'; cases hb'
      have h1' : f ([a, b] ++ padding) s = (.ok first, s1) := h1
      have hgm : p.grid = meshgrid xs' ys' := hgrid
      rw [hgm, ← evalPoints_iff, hm] at h2
      rw [h1']
      simp only [h2, Prod.mk.injEq, Except.ok.injEq, and_true]
      obtain ⟨pg, ph⟩ := p
      simp only at hgm hh
      rw [hgm, hh, hcast]
  · simp only [vectorized, hm]
    constructor
    · intro h; simp at h
    · rintro ⟨xs', ys', first, s1, vs, hxs', hys', hgrid, ⟨a', b', ha', hb', h1⟩, h2, hh⟩
      have e1 := stepsBelow_unique _ _ _ hg _ _ hxs' hxs
      have e2 := stepsBelow_unique _ _ _ hg _ _ hys' hys
      subst e1 e2
      rcases he with rfl | rfl <;> simp at ha' hb'

/-- **C92** (deterministic problems). A problem that returns the `float` `r x` at every point is drawn with exactly these heights: the number
of heights is the product of the numbers of grid lines, and the one in row `i` and column `j` is the value there. -/
theorem plot_deterministic {σ : Type} (r : List ℚ → ℚ) (x0 x1 y0 y1 g : ℚ) (hg : 0 < g) (hx : x0 < x1) (hy : y0 < y1) (padding : List ℚ) (s : σ) :
    ∃ p xs ys, plotGrid (fun x s => (.ok (.float (r x)), s)) [x0, x1] [y0, y1] g (.array padding) s = (.ok p, s) ∧
      StepsBelow x0 x1 g xs ∧ StepsBelow y0 y1 g ys ∧ xs ≠ [] ∧ ys ≠ [] ∧
      p.heights = (ys.map fun b => xs.map fun a => r (a :: b :: padding)).flatten := by
  obtain ⟨xs, ex, hxs⟩ := (arange_spec x0 x1 g).1 hg hx.le
  obtain ⟨ys, ey, hys⟩ := (arange_spec y0 y1 g).1 hg hy.le
  have hxn : xs ≠ [] := by
    rintro rfl
    have := hxs.2
    simp at this
    linarith
  have hyn : ys ≠ [] := by
    rintro rfl
    have := hys.2
    simp at this
    linarith
  obtain ⟨a, xs', rfl⟩ := List.exists_cons_of_ne_nil hxn
  obtain ⟨b, ys', rfl⟩ := List.exists_cons_of_ne_nil hyn
  have hev : ∀ ps : List (ℚ × ℚ), PointsEvaluated (fun x (s : σ) => ((.ok (.float (r x)) : PyM PlotNum), s)) padding ps s
      (ps.map fun q => .float (r (q.1 :: q.2 :: padding))) s := by
    intro ps
    induction ps with
    | nil => exact .nil
    | cons q ps ih => obtain ⟨u, v⟩ := q; exact .cons rfl ih
  refine ⟨⟨(b :: ys').map fun d => (a :: xs').map fun c => (c, d),
    ((b :: ys').map fun d => (a :: xs').map fun c => r (c :: d :: padding)).flatten⟩, a :: xs', b :: ys', ?_, hxs, hys, by simp, by simp, ?_⟩
  · refine (plot_heights _ x0 x1 y0 y1 g hg hx.le hy.le (.array padding) padding (.inr rfl) s s _).2
      ⟨a :: xs', b :: ys', .float (r (a :: b :: padding)), s, _, hxs, hys, rfl, ⟨a, b, rfl, rfl, rfl⟩, hev _, ?_⟩
    simp only [List.map_map]
    have : ∀ ds cs : List ℚ, (ds.map fun d => cs.map fun c => r (c :: d :: padding)).flatten =
        (ds.map fun d => cs.map fun c => (c, d)).flatten.map (fun q => r (q.1 :: q.2 :: padding)) := by
      intro ds cs
      induction ds with
      | nil => rfl
      | cons d ds ih => rw [List.map_cons, List.flatten_cons, ih, List.map_cons, List.flatten_cons, List.map_append, List.map_map]; rfl
    rw [this]
    rfl
  · rfl

/-- **C92** (defaults). Without limits the problem's bounds are used, and without a granularity a fiftieth of their width: exactly fifty grid lines
each way over the bounds. A problem without bounds needs limits (`AttributeError`) and a granularity (`ValueError`); a kind
other than surface and contour is a `ValueError`. -/
theorem plot_problem_defaults {σ : Type} (f : List ℚ → σ → PyM PlotNum × σ) (pad : PadArg) (extra : Bool) (s : σ) :
    (∀ lo hi, plotProblem f (some (lo, hi)) none none .surface none pad extra s = plotGrid f [lo, hi] [lo, hi] ((hi - lo) / 50) pad s) ∧
    (∀ lo hi : ℚ, lo < hi → ∃ l, arange lo hi ((hi - lo) / 50) = .ok l ∧ l.length = 50) ∧
    (∀ b xl yl g, plotProblem f b (some xl) (some yl) .surface (some g) pad extra s = plotGrid f xl yl g pad s) ∧
    (∀ b xl yl g, plotProblem f b (some xl) (some yl) .contour (some g) pad false s = plotGrid f xl yl g pad s) ∧
    (∀ xl yl k g, xl = none ∨ yl = none → plotProblem f none xl yl k g pad extra s = (.error .attributeError, s)) ∧
    (∀ xl yl k, plotProblem f none (some xl) (some yl) k none pad extra s = (.error .valueError, s)) ∧
    (∀ b xl yl g, plotProblem f b (some xl) (some yl) .other (some g) pad extra s = (.error .valueError, s)) := by
  refine ⟨fun lo hi => rfl, fun lo hi h => ?_, fun _ _ _ _ => rfl, fun _ _ _ _ => rfl, ?_, fun _ _ _ => rfl, fun _ _ _ _ => rfl⟩
  · have hd : (hi - lo) ≠ 0 := by linarith
    have hs : (hi - lo) / 50 ≠ 0 := by
      intro hc; rw [div_eq_zero_iff] at hc; rcases hc with hc | hc
      · exact hd hc
      · norm_num at hc
    have hq : (hi - lo) / ((hi - lo) / 50) = 50 := by field_simp
    refine ⟨_, by simp only [arange]; rw [if_neg hs], ?_⟩
    rw [hq]
    have : ⌈(50 : ℚ)⌉ = 50 := by exact_mod_cast Int.ceil_intCast (R := ℚ) 50
    rw [this]
    simp
  · rintro xl yl k g (rfl | rfl)
    · simp [plotProblem]
    · cases xl <;> simp [plotProblem]

/-- C92: further keyword arguments, documented as passed along, make every contour plot of a problem fail with `TypeError`. -/
theorem contour_keywords_fail {σ : Type} (f : List ℚ → σ → PyM PlotNum × σ) (lo hi : ℚ) (xlim ylim : Option (List ℚ)) (g : Option ℚ)
    (pad : PadArg) (s : σ) : plotProblem f (some (lo, hi)) xlim ylim .contour g pad true s = (.error .typeError, s) := by
  cases xlim <;> cases ylim <;> cases g <;> rfl

/-- C92: refusals: limits that are not pairs, a padding that is not an array, a zero granularity, limits with no grid line between them. The function
is not called. -/
theorem plot_refusals {σ : Type} (f : List ℚ → σ → PyM PlotNum × σ) (x0 x1 y0 y1 g : ℚ) (xlim ylim : List ℚ) (pad : PadArg) (s : σ) :
    (xlim.length ≠ 2 ∨ ylim.length ≠ 2 ∨ pad = .other → plotGrid f xlim ylim g pad s = (.error .assertionError, s)) ∧
    (pad ≠ .other → plotGrid f [x0, x1] [y0, y1] 0 pad s = (.error .zeroDivisionError, s)) ∧
    (pad ≠ .other → 0 < g → x1 ≤ x0 ∨ y1 ≤ y0 → plotGrid f [x0, x1] [y0, y1] g pad s = (.error .valueError, s)) := by
  have hpad : pad ≠ .other → ∃ v, pad.value = some v := by
    intro h; cases pad <;> simp_all [PadArg.value]
  refine ⟨fun h => ?_, fun h => ?_, fun h hg hxy => ?_⟩
  · unfold plotGrid
    split
    · simp only [List.length_cons, List.length_nil] at h
      have : pad = .other := by simpa using h
      subst this
      rfl
    · rfl
  · obtain ⟨v, hv⟩ := hpad h
    simp [plotGrid, hv, arange]
  · obtain ⟨v, hv⟩ := hpad h
    have key : ∀ lo hi : ℚ, hi ≤ lo → arange lo hi g = .ok [] := fun lo hi hl =>
      (arange_spec lo hi g).2.1 hg.ne' (div_nonpos_of_nonpos_of_nonneg (by linarith) hg.le)
    have some' : ∀ lo hi : ℚ, ∃ l, arange lo hi g = .ok l := fun lo hi => ⟨_, by simp only [arange]; rw [if_neg hg.ne']⟩
    rcases hxy with hx | hy
    · obtain ⟨ys, h2⟩ := some' y0 y1
      have h3 : (meshgrid [] ys).flatten = [] := by simp [meshgrid]
      simp only [plotGrid, hv, key _ _ hx, h2, h3, vectorized]
    · obtain ⟨xs, h2⟩ := some' x0 x1
      simp only [plotGrid, hv, key _ _ hy, h2, meshgrid, List.map_nil, List.flatten_nil, vectorized]

/-- A function that returns an `int` at the first point: the fractions of all other heights are lost. -/
example : plotGrid (fun x (n : Nat) => (.ok (if x = [0, 0, 7] then .int 0 else .float (x.sum - 9)), n + 1)) [0, 1] [0, 1] (1/2) (.array [7]) 0 =
    (.ok ⟨[[(0, 0), (1/2, 0)], [(0, 1/2), (1/2, 1/2)]], [0, -1, -1, -1]⟩, 5) := by decide +kernel

example : plotProblem (fun x (n : Nat) => (.ok (.float x.sum), n + 1)) (some (0, 1)) (some [0, 1]) none .contour (some (1/2)) .none false 0 =
    (.ok ⟨[[(0, 0), (1/2, 0)], [(0, 1/2), (1/2, 1/2)]], [0, 1/2, 1/2, 1]⟩, 5) := by decide +kernel

end Leap
