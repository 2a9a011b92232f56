import Verif.Model.PlotProbes
import Verif.Props.Probe
import Mathlib.Tactic.Linarith
import Mathlib.Tactic.FinCases
import Mathlib.Tactic.FieldSimp
import Mathlib.Tactic.Positivity

/-!
# C83: plotting probes show exactly the data of the measured generations
-/

namespace Leap

variable {α : Type}

namespace Spec

/-- The calls at generations that are multiples of the interval. -/
def measured (modulo : Int) (calls : List (PlotCall α)) : List (PlotCall α) :=
  calls.filter fun c => match c.generation with | some g => decide (modulo ∣ g) | none => false

/-- `lo` and `hi` are the smallest and largest of the values and, if given, the limits. -/
def Extent (lim : Option (ℚ × ℚ)) (values : List ℚ) (lo hi : ℚ) : Prop :=
  lo ∈ values ++ (lim.map Prod.fst).toList ∧ (∀ v ∈ values ++ (lim.map Prod.fst).toList, lo ≤ v) ∧
  hi ∈ values ++ (lim.map Prod.snd).toList ∧ (∀ v ∈ values ++ (lim.map Prod.snd).toList, v ≤ hi)

/-- The point lies in the rectangle. -/
def Rect.Has (r : Rect) (p : ℚ × ℚ) : Prop := r.left ≤ p.1 ∧ p.1 ≤ r.right ∧ r.bottom ≤ p.2 ∧ p.2 ≤ r.top

/-- One rectangle lies in the other. -/
def Rect.Within (a b : Rect) : Prop := b.left ≤ a.left ∧ a.right ≤ b.right ∧ b.bottom ≤ a.bottom ∧ a.top ≤ b.top

end Spec

open Spec

/-! ### Smallest and largest -/

theorem statMin_spec {l : List ℚ} (h : l ≠ []) : statMin l ∈ l ∧ ∀ v ∈ l, statMin l ≤ v := by
  cases l with
  | nil => exact absurd rfl h
  | cons x xs => exact foldl_min_spec xs x

theorem statMax_spec {l : List ℚ} (h : l ≠ []) : statMax l ∈ l ∧ ∀ v ∈ l, v ≤ statMax l := by
  cases l with
  | nil => exact absurd rfl h
  | cons x xs => exact foldl_max_spec xs x

theorem extent_of (lim : Option (ℚ × ℚ)) {l : List ℚ} (h : l ≠ []) :
    Extent lim l (match lim with | none => statMin l | some lm => min lm.1 (statMin l))
      (match lim with | none => statMax l | some lm => max lm.2 (statMax l)) := by
  obtain ⟨a, b⟩ := statMin_spec h
  obtain ⟨c, d⟩ := statMax_spec h
  cases lim with
  | none => simpa [Extent] using ⟨a, b, c, d⟩
  | some lm =>
    refine ⟨?_, ?_, ?_, ?_⟩
    · rcases min_choice lm.1 (statMin l) with e | e <;> simp only [e] <;> simp [a]
    · intro v hv
      simp only [Option.map_some, Option.toList_some, List.mem_append, List.mem_singleton] at hv
      rcases hv with hv | rfl
      · exact (min_le_right _ _).trans (b v hv)
      · exact min_le_left _ _
    · rcases max_choice lm.2 (statMax l) with e | e <;> simp only [e] <;> simp [c]
    · intro v hv
      simp only [Option.map_some, Option.toList_some, List.mem_append, List.mem_singleton] at hv
      rcases hv with hv | rfl
      · exact (d v hv).trans (le_max_right _ _)
      · exact le_max_left _ _

theorem rescaleRect_spec (xlim ylim : Option (ℚ × ℚ)) {x y : List ℚ} (hx : x ≠ []) (hy : y ≠ []) :
    ∃ r, rescaleRect xlim ylim x (.ok y) = .ok r ∧ Extent xlim x r.left r.right ∧ Extent ylim y r.bottom r.top := by
  refine ⟨⟨_, _, _, _⟩, ?_, extent_of xlim hx, extent_of ylim hy⟩
  simp only [rescaleRect, arrayMin, arrayMax, if_neg hx, if_neg hy, bind, Except.bind, pure, Except.pure]
  cases xlim <;> cases ylim <;> rfl

/-! ### The metrics plot -/

theorem measuring_ok (g modulo : Int) (h : modulo ≠ 0) : measuring (some g) modulo = .ok (decide (modulo ∣ g)) := by
  rw [measuring, if_neg h]
  simp [Int.dvd_iff_emod_eq_zero]

/-- Metrics that do not raise. -/
def totalMetrics (fs : List (List α → ℚ)) : List (List α → PyM ℚ) := fs.map fun f pop => .ok (f pop)

theorem addMetrics_total (pop : List α) (x : List ℚ) (fs : List (List α → ℚ)) (col : (List α → ℚ) → List ℚ)
    (ys0 : List (List ℚ)) (ls0 ls1 : List (List ℚ × List ℚ)) (lim : Option Rect) (i : Nat) (hy : ys0.length = i)
    (hl : ls0.length = i) (h1 : fs.length ≤ ls1.length) :
    addMetrics pop x (totalMetrics fs) i (ys0 ++ fs.map col) ⟨ls0 ++ ls1, lim⟩ =
      (.ok (), ys0 ++ fs.map (fun f => col f ++ [f pop]),
        ⟨ls0 ++ fs.map (fun f => (x, col f ++ [f pop])) ++ ls1.drop fs.length, lim⟩) := by
  induction fs generalizing i ys0 ls0 ls1 with
  | nil => simp [totalMetrics, addMetrics]
  | cons f fs ih =>
    cases ls1 with
    | nil => simp at h1
    | cons l ls1 =>
      have e1 : (ys0 ++ (f :: fs).map col)[i]? = some (col f) := by
        rw [List.getElem?_append_right (by omega), hy]; simp
      have e2 : (ys0 ++ (f :: fs).map col).set i (col f ++ [f pop]) = (ys0 ++ [col f ++ [f pop]]) ++ fs.map col := by
        rw [List.set_append_right _ _ (by omega), hy]; simp
      have e3 : (ls0 ++ l :: ls1).set i (x, col f ++ [f pop]) = (ls0 ++ [(x, col f ++ [f pop])]) ++ ls1 := by
        rw [List.set_append_right _ _ (by omega), hl]; simp
      have e4 : i < (ls0 ++ l :: ls1).length := by simp; omega
      have := ih (ys0 ++ [col f ++ [f pop]]) (ls0 ++ [(x, col f ++ [f pop])]) ls1 (i + 1) (by simp [hy]) (by simp [hl])
        (by simpa using h1)
      rw [totalMetrics, List.map_cons, addMetrics]
      simp only [e1, e2, e3, e4, if_true]
      rw [totalMetrics] at this
      rw [this]
      simp

theorem stackRows_same (y : List (List ℚ)) (n : Nat) (h : ∀ r ∈ y, r.length = n) : stackRows y = .ok y.flatten := by
  rw [stackRows, if_pos]
  intro r hr
  cases y with
  | nil => cases hr
  | cons a y => rw [h r hr, List.headD_cons, h a (by simp)]

/-- A measured call with metrics that do not raise. -/
theorem metricsCall_measured (fs : List (List α → ℚ)) (hfs : fs ≠ []) (modulo : Int) (hm : modulo ≠ 0)
    (xlim ylim : Option (ℚ × ℚ)) (xs : List ℚ) (pops : List (List α)) (hlen : xs.length = pops.length)
    (lines : List (List ℚ × List ℚ)) (lim : Option Rect) (hl : fs.length ≤ lines.length)
    (hok : ∀ l ∈ lines.drop fs.length, lineOk l = true) (g : Int) (hg : modulo ∣ g) (v : ℚ) (pop : List α) :
    ∃ r, Extent xlim (xs ++ [v]) r.left r.right ∧
      Extent ylim (fs.flatMap fun f => (pops ++ [pop]).map f) r.bottom r.top ∧
      MetricsProbe.call ⟨totalMetrics fs, modulo, xlim, ylim, xs, fs.map fun f => pops.map f⟩ ⟨lines, lim⟩
        ⟨some g, .ok v, pop⟩ =
      (.ok pop, ⟨totalMetrics fs, modulo, xlim, ylim, xs ++ [v], fs.map fun f => (pops ++ [pop]).map f⟩,
        ⟨fs.map (fun f => (xs ++ [v], (pops ++ [pop]).map f)) ++ lines.drop fs.length, some r⟩) := by
  have ha := addMetrics_total pop (xs ++ [v]) fs (fun f => pops.map f) [] [] lines lim 0 rfl rfl hl
  simp only [List.nil_append] at ha
  have hcol : ∀ f : List α → ℚ, pops.map f ++ [f pop] = (pops ++ [pop]).map f := by intro f; simp
  simp only [hcol] at ha
  have hst := stackRows_same (fs.map fun f => (pops ++ [pop]).map f) (pops.length + 1) (by
    intro r hr
    obtain ⟨f, -, rfl⟩ := List.mem_map.1 hr
    simp)
  have hne : (fs.flatMap fun f => (pops ++ [pop]).map f) ≠ [] := by
    cases fs with
    | nil => exact absurd rfl hfs
    | cons f fs => simp
  obtain ⟨r, hr, h1, h2⟩ := rescaleRect_spec xlim ylim (x := xs ++ [v]) (by simp) hne
  refine ⟨r, h1, h2, ?_⟩
  have hall : (fs.map (fun f => (xs ++ [v], (pops ++ [pop]).map f)) ++ lines.drop fs.length).all lineOk = true := by
    rw [List.all_eq_true]
    intro l hl'
    rcases List.mem_append.1 hl' with h | h
    · obtain ⟨f, -, rfl⟩ := List.mem_map.1 h
      simp [lineOk, hlen]
    · exact hok l h
  have hfl : (fs.map fun f => (pops ++ [pop]).map f).flatten = fs.flatMap fun f => (pops ++ [pop]).map f := rfl
  rw [MetricsProbe.call]
  simp only [measuring_ok g modulo hm, hg, decide_true, ha, hst, hfl, rescaleAxes, hr, hall, if_true]

theorem measured_cons (modulo : Int) (c : PlotCall α) (cs : List (PlotCall α)) (g : Int) (hg : c.generation = some g) :
    measured modulo (c :: cs) = (if modulo ∣ g then [c] else []) ++ measured modulo cs := by
  unfold measured
  rw [List.filter_cons]
  simp only [hg]
  by_cases h : modulo ∣ g <;> simp [h]

/-- A call in order: there is a generation, and the value for the x axis. -/
def PlotCall.Good (c : PlotCall α) : Prop := ∃ g v, c.generation = some g ∧ c.xValue = .ok v

/-- The value for the x axis. -/
def PlotCall.xv (c : PlotCall α) : ℚ := match c.xValue with | .ok v => v | .error _ => 0

theorem metricsRun_spec (fs : List (List α → ℚ)) (hfs : fs ≠ []) (modulo : Int) (hm : modulo ≠ 0)
    (xlim ylim : Option (ℚ × ℚ)) (calls : List (PlotCall α)) (hc : ∀ c ∈ calls, c.Good)
    (xs : List ℚ) (pops : List (List α)) (hlen : xs.length = pops.length)
    (lines : List (List ℚ × List ℚ)) (lim : Option Rect) (hl : fs.length ≤ lines.length)
    (hok : ∀ l ∈ lines.drop fs.length, lineOk l = true) :
    let p := MetricsProbe.mk (totalMetrics fs) modulo xlim ylim xs (fs.map fun f => pops.map f)
    let shown := measured modulo calls
    let out := MetricsProbe.run p ⟨lines, lim⟩ calls
    out.1 = calls.map (fun c => .ok c.population) ∧
    out.2.1 = ⟨totalMetrics fs, modulo, xlim, ylim, xs ++ shown.map PlotCall.xv,
      fs.map fun f => (pops ++ shown.map PlotCall.population).map f⟩ ∧
    (shown = [] → out.2.2 = ⟨lines, lim⟩) ∧
    (shown ≠ [] →
      out.2.2.lines = fs.map (fun f => (xs ++ shown.map PlotCall.xv, (pops ++ shown.map PlotCall.population).map f)) ++
        lines.drop fs.length ∧
      ∃ r, out.2.2.dataLim = some r ∧ Extent xlim (xs ++ shown.map PlotCall.xv) r.left r.right ∧
        Extent ylim (fs.flatMap fun f => (pops ++ shown.map PlotCall.population).map f) r.bottom r.top) := by
  induction calls generalizing xs pops lines lim with
  | nil => simp [measured, MetricsProbe.run]
  | cons c cs ih =>
    obtain ⟨g, v, hg, hv⟩ := hc c (by simp)
    have hcs : ∀ c ∈ cs, c.Good := fun c' h => hc c' (by simp [h])
    obtain ⟨cg, cx, cp⟩ := c
    simp only at hg hv
    subst hg hv
    rw [measured_cons modulo _ cs g rfl]
    by_cases hd : modulo ∣ g
    · obtain ⟨r, h1, h2, hcall⟩ := metricsCall_measured fs hfs modulo hm xlim ylim xs pops hlen lines lim hl hok g hd v cp
      have hdrop : (fs.map (fun f => (xs ++ [v], (pops ++ [cp]).map f)) ++ lines.drop fs.length).drop fs.length =
          lines.drop fs.length := by
        rw [List.drop_append_of_le_length (by simp)]; simp
      have := ih hcs (xs ++ [v]) (pops ++ [cp]) (by simp [hlen])
        (fs.map (fun f => (xs ++ [v], (pops ++ [cp]).map f)) ++ lines.drop fs.length) (some r)
        (by simp) (by rw [hdrop]; exact hok)
      simp only [hdrop] at this
      obtain ⟨a1, a2, a3, a4⟩ := this
      simp only [if_pos hd, MetricsProbe.run, hcall]
      refine ⟨?_, ?_, ?_, ?_⟩
      · rw [a1]; rfl
      · rw [a2]; simp [PlotCall.xv]
      · simp
      · intro _
        by_cases he : measured modulo cs = []
        · rw [a3 he, he]
          refine ⟨by simp [PlotCall.xv], r, rfl, ?_, ?_⟩
          · simpa [PlotCall.xv] using h1
          · simpa using h2
        · obtain ⟨b1, r', b2, b3, b4⟩ := a4 he
          refine ⟨?_, r', b2, ?_, ?_⟩
          · rw [b1]; simp [PlotCall.xv]
          · simpa [PlotCall.xv] using b3
          · simpa using b4
    · have hcall : MetricsProbe.call ⟨totalMetrics fs, modulo, xlim, ylim, xs, fs.map fun f => pops.map f⟩ ⟨lines, lim⟩
          ⟨some g, .ok v, cp⟩ =
          (.ok cp, ⟨totalMetrics fs, modulo, xlim, ylim, xs, fs.map fun f => pops.map f⟩, ⟨lines, lim⟩) := by
        rw [MetricsProbe.call]
        simp only [measuring_ok g modulo hm, hd, decide_false]
      obtain ⟨a1, a2, a3, a4⟩ := ih hcs xs pops hlen lines lim hl hok
      simp only [if_neg hd, MetricsProbe.run, hcall, List.nil_append]
      exact ⟨by rw [a1]; rfl, a2, a3, a4⟩

theorem metricsInit_eq (a : Option PlotAxes) (fs : List (List α → ℚ)) (xlim ylim : Option (ℚ × ℚ)) (modulo : Int) :
    MetricsProbe.init a (some (totalMetrics fs)) xlim ylim modulo =
      .ok (⟨totalMetrics fs, modulo, xlim, ylim, [], fs.map fun f => ([] : List (List α)).map f⟩,
        ⟨(a.getD {}).lines ++ fs.map fun _ => ([], []), (a.getD {}).dataLim⟩) := by
  simp only [MetricsProbe.init, MetricsProbe.reset, totalMetrics, List.map_map, Function.comp_def, List.map_nil]

/-- C83: a metrics plot on its own axes. For metrics that do not raise, over any history of calls, every call returns its
population; each metric has one line, and it shows the values of the metric on the populations of exactly the measured calls
in order, over what `x_axis_value` gave at these calls. The data limits enclose the data and the given limits, and nothing
more.
Missing from the full claim, because it is false of the code: axes that already hold lines, and metrics that raise. -/
theorem metrics_plot_history_partial (fs : List (List α → ℚ)) (hfs : fs ≠ []) (modulo : Int) (hm : modulo ≠ 0)
    (xlim ylim : Option (ℚ × ℚ)) (ax : Option PlotAxes) (hax : ax = none ∨ ax = some {}) (calls : List (PlotCall α))
    (hc : ∀ c ∈ calls, c.Good) :
    ∃ p ax0, MetricsProbe.init ax (some (totalMetrics fs)) xlim ylim modulo = .ok (p, ax0) ∧
      let shown := measured modulo calls
      let out := p.run ax0 calls
      out.1 = calls.map (fun c => .ok c.population) ∧
      out.2.2.lines = fs.map (fun f => (shown.map PlotCall.xv, shown.map fun c => f c.population)) ∧
      (shown ≠ [] → ∃ r, out.2.2.dataLim = some r ∧ Extent xlim (shown.map PlotCall.xv) r.left r.right ∧
        Extent ylim (fs.flatMap fun f => shown.map fun c => f c.population) r.bottom r.top) := by
  have hax' : ax.getD {} = {} := by rcases hax with h | h <;> rw [h] <;> rfl
  refine ⟨_, _, metricsInit_eq _ _ _ _ _, ?_⟩
  simp only [hax', List.nil_append]
  obtain ⟨a1, -, a3, a4⟩ := metricsRun_spec fs hfs modulo hm xlim ylim calls hc [] [] rfl (fs.map fun _ => ([], [])) none
    (by simp) (by intro l hl; rw [List.drop_of_length_le (by simp)] at hl; cases hl)
  refine ⟨a1, ?_, ?_⟩
  · by_cases he : measured modulo calls = []
    · rw [a3 he, he]; rfl
    · rw [(a4 he).1]
      rw [List.drop_of_length_le (by simp)]
      simp [Function.comp_def]
  · intro he
    obtain ⟨-, r, b1, b2, b3⟩ := a4 he
    exact ⟨r, b1, by simpa using b2, by simpa [Function.comp_def] using b3⟩

example : let calls : List (PlotCall Nat) := [⟨some 0, .ok 10, [1, 2]⟩, ⟨some 1, .ok 11, [5]⟩, ⟨some 2, .ok 12, [3]⟩]
    (∀ c ∈ calls, c.Good) ∧ ((measured 2 calls).map PlotCall.population = [[1, 2], [3]]) := by
  refine ⟨?_, by decide⟩
  intro c hc
  fin_cases hc
  exacts [⟨0, 10, rfl, rfl⟩, ⟨1, 11, rfl, rfl⟩, ⟨2, 12, rfl, rfl⟩]

/-- Matplotlib can draw a line if its x and y data have equally many values, or one of them has a single value. -/
def Spec.Drawable (line : List ℚ × List ℚ) : Prop :=
  line.1.length = line.2.length ∨ line.1.length = 1 ∨ line.2.length = 1

theorem lineOk_iff (line : List ℚ × List ℚ) : lineOk line = true ↔ Spec.Drawable line := by
  simp [lineOk, Spec.Drawable]

theorem undrawable_refused (xlim ylim : Option (ℚ × ℚ)) (x : List ℚ) (y : PyM (List ℚ)) (ax : PlotAxes) (r : Rect) (hr : rescaleRect xlim ylim x y = .ok r)
    (line : List ℚ × List ℚ) (hl : line ∈ ax.lines) (hd : ¬ Spec.Drawable line) : rescaleAxes xlim ylim x y ax = (.error .valueError, ax) := by
  have : ax.lines.all lineOk = false := by
    rw [List.all_eq_false]
    exact ⟨line, hl, by rw [lineOk_iff]; exact hd⟩
  simp [rescaleAxes, hr, this]

/-- C83: the probe takes the *first* lines of its axes for its own. On axes that already have lines, the first measured call
overwrites them, and the lines the probe made stay as they are, except for those it happens to reach. -/
theorem metrics_plot_shared_axes (fs : List (List α → ℚ)) (hfs : fs ≠ []) (modulo : Int) (hm : modulo ≠ 0)
    (xlim ylim : Option (ℚ × ℚ)) (ax : PlotAxes) (hok : ∀ l ∈ ax.lines, Spec.Drawable l) (calls : List (PlotCall α))
    (hc : ∀ c ∈ calls, c.Good) (hne : measured modulo calls ≠ []) :
    ∃ p ax0, MetricsProbe.init (some ax) (some (totalMetrics fs)) xlim ylim modulo = .ok (p, ax0) ∧
      (p.run ax0 calls).2.2.lines =
        fs.map (fun f => ((measured modulo calls).map PlotCall.xv, (measured modulo calls).map fun c => f c.population)) ++
        (ax.lines ++ fs.map fun _ => ([], [])).drop fs.length := by
  refine ⟨_, _, metricsInit_eq _ _ _ _ _, ?_⟩
  simp only [Option.getD_some]
  obtain ⟨-, -, -, a4⟩ := metricsRun_spec fs hfs modulo hm xlim ylim calls hc [] [] rfl
    (ax.lines ++ fs.map fun _ => ([], [])) ax.dataLim (by simp) (by
      intro l hl
      rcases List.mem_append.1 (List.mem_of_mem_drop hl) with h | h
      · exact (lineOk_iff l).2 (hok l h)
      · obtain ⟨f, -, rfl⟩ := List.mem_map.1 h
        rfl)
  rw [(a4 hne).1]
  simp [Function.comp_def]

/-- Two probes on the same axes: after one call of each, the line of the first shows the data of the second, and the line of
the second is empty. -/
example :
    let first : List Nat → ℚ := fun pop => pop.length
    let second : List Nat → ℚ := fun pop => pop.headD 0
    ∃ p1 ax1 p2 ax2,
      MetricsProbe.init none (some (totalMetrics [first])) none none 1 = .ok (p1, ax1) ∧
      MetricsProbe.init (some ax1) (some (totalMetrics [second])) none none 1 = .ok (p2, ax2) ∧
      let (_, _, ax3) := p1.call ax2 ⟨some 0, .ok 0, [7, 8]⟩
      let (_, _, ax4) := p2.call ax3 ⟨some 0, .ok 0, [7, 8]⟩
      ax3.lines = [([0], [2]), ([], [])] ∧ ax4.lines = [([0], [7]), ([], [])] := by
  exact ⟨_, _, _, _, rfl, rfl, by decide +kernel⟩

/-- C83: what is refused. No generation in the context; an interval of 0 (only when called); no metrics. With an empty list of
metrics every measured call raises. -/
theorem metrics_plot_refusals (p : MetricsProbe α) (ax : PlotAxes) (xv : PyM ℚ) (pop : List α) :
    (p.call ax ⟨none, xv, pop⟩).1 = .error .assertionError ∧
    (∀ g, p.modulo = 0 → (p.call ax ⟨some g, xv, pop⟩).1 = .error .zeroDivisionError) ∧
    (∀ a xlim ylim modulo, MetricsProbe.init (α := α) a none xlim ylim modulo = .error .typeError) ∧
    (∀ g v, p.metrics = [] → p.y = [] → p.modulo ≠ 0 → p.modulo ∣ g →
      (p.call ax ⟨some g, .ok v, pop⟩).1 = .error .valueError) := by
  refine ⟨rfl, ?_, fun _ _ _ _ => rfl, ?_⟩
  · intro g h; simp [MetricsProbe.call, measuring, h]
  · intro g v h hy hm hd
    rw [MetricsProbe.call]
    simp only [measuring_ok g _ hm, hd, decide_true, h, addMetrics, hy]
    simp only [rescaleAxes, rescaleRect, arrayMin, arrayMax, stackRows, bind, Except.bind]
    simp

/-- C83: a metric that raises leaves the plot out of step: the x data have one more value, the data of that metric and of all
later ones have not. -/
theorem metrics_plot_out_of_step (before after : List (List α → PyM ℚ)) (fs : List (List α → ℚ)) (hb : before = totalMetrics fs)
    (bad : List α → PyM ℚ) (pop : List α) (e : PyErr) (hbad : bad pop = .error e) (modulo : Int) (hm : modulo ≠ 0)
    (xlim ylim : Option (ℚ × ℚ)) (xs : List ℚ) (col : (List α → ℚ) → List ℚ) (rest : List (List ℚ)) (hr : rest ≠ [])
    (lines : List (List ℚ × List ℚ)) (hl : fs.length ≤ lines.length) (lim : Option Rect) (g : Int) (hg : modulo ∣ g) (v : ℚ) :
    let out := MetricsProbe.call ⟨before ++ bad :: after, modulo, xlim, ylim, xs, fs.map col ++ rest⟩ ⟨lines, lim⟩
      ⟨some g, .ok v, pop⟩
    out.1 = .error e ∧ out.2.1.x = xs ++ [v] ∧ out.2.1.y = fs.map (fun f => col f ++ [f pop]) ++ rest := by
  have key : ∀ (fs : List (List α → ℚ)) (ys0 : List (List ℚ)) (i : Nat) (ax : PlotAxes), ys0.length = i →
      i + fs.length ≤ ax.lines.length →
      ∃ ax', addMetrics pop (xs ++ [v]) (totalMetrics fs ++ bad :: after) i (ys0 ++ (fs.map col ++ rest)) ax =
        (.error e, ys0 ++ (fs.map (fun f => col f ++ [f pop]) ++ rest), ax') := by
    intro fs
    induction fs with
    | nil =>
      intro ys0 i ax hi _
      cases rest with
      | nil => exact absurd rfl hr
      | cons r rest =>
        refine ⟨ax, ?_⟩
        have : (ys0 ++ r :: rest)[i]? = some r := by rw [List.getElem?_append_right (by omega), hi]; simp
        simp only [totalMetrics, List.map_nil, List.nil_append, addMetrics, this, hbad]
    | cons f fs ih =>
      intro ys0 i ax hi hlen
      have e1 : (ys0 ++ ((f :: fs).map col ++ rest))[i]? = some (col f) := by
        rw [List.getElem?_append_right (by omega), hi]; simp
      have e2 : (ys0 ++ ((f :: fs).map col ++ rest)).set i (col f ++ [f pop]) =
          (ys0 ++ [col f ++ [f pop]]) ++ (fs.map col ++ rest) := by
        rw [List.set_append_right _ _ (by omega), hi]; simp
      have e4 : i < ax.lines.length := by simp at hlen; omega
      obtain ⟨ax', h⟩ := ih (ys0 ++ [col f ++ [f pop]]) (i + 1) { ax with lines := ax.lines.set i (xs ++ [v], col f ++ [f pop]) }
        (by simp [hi]) (by simp at hlen ⊢; omega)
      refine ⟨ax', ?_⟩
      rw [totalMetrics, List.map_cons, List.cons_append, addMetrics]
      simp only [e1, e2, e4, if_true]
      rw [totalMetrics] at h
      rw [h]; simp
  obtain ⟨ax', h⟩ := key fs [] 0 ⟨lines, lim⟩ rfl (by simpa using hl)
  simp only [List.nil_append] at h
  subst hb
  simp only [MetricsProbe.call, measuring_ok g modulo hm, hg, decide_true, h]
  exact ⟨trivial, trivial, trivial⟩

/-- C83: the fitness plot shows, for every measured call, the fitness of a best individual of the population. -/
theorem fitness_plot_history {gt : α → α → Bool} (h : StrictPartial gt) (fitness : α → ℚ) (modulo : Int) (hm : modulo ≠ 0)
    (xlim ylim : Option (ℚ × ℚ)) (calls : List (PlotCall α)) (hc : ∀ c ∈ calls, c.Good) (hp : ∀ c ∈ calls, c.population ≠ []) :
    ∃ p ax0 ys, fitnessProbeInit gt fitness none xlim ylim modulo = .ok (p, ax0) ∧
      (p.run ax0 calls).1 = calls.map (fun c => .ok c.population) ∧
      (p.run ax0 calls).2.2.lines = [((measured modulo calls).map PlotCall.xv, ys)] ∧
      List.Forall₂ (fun c y => ∃ b, Champion gt c.population b ∧ y = fitness b) (measured modulo calls) ys := by
  classical
  -- a total metric that agrees with the probe's on non-empty populations
  let f : List α → ℚ := fun pop => match bestOfGen gt pop with | .ok b => fitness b | .error _ => 0
  have hag : ∀ pop : List α, pop ≠ [] →
      (do let b ← bestOfGen gt pop; return fitness b : PyM ℚ) = .ok (f pop) := by
    intro pop hne
    obtain ⟨b, hb, -⟩ := (best_of_gen_spec h pop).1 hne
    simp only [f, hb, bind, Except.bind, pure, Except.pure]
  have hcall : ∀ (xs : List ℚ) (y : List (List ℚ)) (ax : PlotAxes) (c : PlotCall α), c.population ≠ [] →
      ∃ xs' y', (MetricsProbe.call ⟨totalMetrics [f], modulo, xlim, ylim, xs, y⟩ ax c).2.1 =
          ⟨totalMetrics [f], modulo, xlim, ylim, xs', y'⟩ ∧
        MetricsProbe.call ⟨[fun pop => do let b ← bestOfGen gt pop; return fitness b], modulo, xlim, ylim, xs, y⟩ ax c =
          ((MetricsProbe.call ⟨totalMetrics [f], modulo, xlim, ylim, xs, y⟩ ax c).1,
            ⟨[fun pop => do let b ← bestOfGen gt pop; return fitness b], modulo, xlim, ylim, xs', y'⟩,
            (MetricsProbe.call ⟨totalMetrics [f], modulo, xlim, ylim, xs, y⟩ ax c).2.2) := by
    intro xs y ax c hne
    have hadd : ∀ x i y ax, addMetrics c.population x [fun pop => do let b ← bestOfGen gt pop; return fitness b] i y ax =
        addMetrics c.population x (totalMetrics [f]) i y ax := by
      intro x i y ax
      simp only [totalMetrics, List.map_cons, List.map_nil, addMetrics, hag _ hne]
    unfold MetricsProbe.call
    simp only [hadd]
    cases measuring c.generation modulo with
    | error e => exact ⟨_, _, rfl, rfl⟩
    | ok b =>
      cases b with
      | false => exact ⟨_, _, rfl, rfl⟩
      | true =>
        cases c.xValue with
        | error e => exact ⟨_, _, rfl, rfl⟩
        | ok v =>
          simp only
          rcases addMetrics c.population (xs ++ [v]) (totalMetrics [f]) 0 y ax with ⟨r, y', ax'⟩
          cases r with
          | error e => exact ⟨_, _, rfl, rfl⟩
          | ok u =>
            simp only
            rcases rescaleAxes xlim ylim (xs ++ [v]) (stackRows y') ax' with ⟨r, ax''⟩
            cases r with
            | error e => exact ⟨_, _, rfl, rfl⟩
            | ok u => exact ⟨_, _, rfl, rfl⟩
  have hrun : ∀ (cs : List (PlotCall α)), (∀ c ∈ cs, c.population ≠ []) → ∀ (xs : List ℚ) (y : List (List ℚ)) (ax : PlotAxes),
      (MetricsProbe.run ⟨[fun pop => do let b ← bestOfGen gt pop; return fitness b], modulo, xlim, ylim, xs, y⟩ ax cs).1 =
        (MetricsProbe.run ⟨totalMetrics [f], modulo, xlim, ylim, xs, y⟩ ax cs).1 ∧
      (MetricsProbe.run ⟨[fun pop => do let b ← bestOfGen gt pop; return fitness b], modulo, xlim, ylim, xs, y⟩ ax cs).2.2 =
        (MetricsProbe.run ⟨totalMetrics [f], modulo, xlim, ylim, xs, y⟩ ax cs).2.2 := by
    intro cs
    induction cs with
    | nil => intro _ xs y ax; exact ⟨rfl, rfl⟩
    | cons c cs ih =>
      intro hne xs y ax
      obtain ⟨xs', y', e1, e2⟩ := hcall xs y ax c (hne c (by simp))
      have := ih (fun c' h' => hne c' (by simp [h'])) xs' y'
        (MetricsProbe.call ⟨totalMetrics [f], modulo, xlim, ylim, xs, y⟩ ax c).2.2
      simp only [MetricsProbe.run, e1, e2]
      exact ⟨by rw [this.1], this.2⟩
  obtain ⟨p, ax0, hi, a1, a2, -⟩ := metrics_plot_history_partial [f] (by simp) modulo hm xlim ylim none (.inl rfl) calls hc
  have hp0 : p = ⟨totalMetrics [f], modulo, xlim, ylim, [], [[]]⟩ ∧ ax0 = ⟨[([], [])], none⟩ := by
    simp only [MetricsProbe.init, MetricsProbe.reset, totalMetrics, Except.ok.injEq, Prod.mk.injEq] at hi
    exact ⟨hi.1.symm, hi.2.symm⟩
  obtain ⟨rfl, rfl⟩ := hp0
  refine ⟨⟨[fun pop => do let b ← bestOfGen gt pop; return fitness b], modulo, xlim, ylim, [], [[]]⟩, ⟨[([], [])], none⟩,
    (measured modulo calls).map fun c => f c.population, rfl, ?_, ?_, ?_⟩
  · rw [(hrun calls hp _ _ _).1, a1]
  · rw [(hrun calls hp _ _ _).2, a2]; rfl
  · rw [List.forall₂_map_right_iff, List.forall₂_same]
    intro c hc'
    have hne := hp c (List.mem_of_mem_filter hc')
    obtain ⟨b, hb, hb'⟩ := (best_of_gen_spec h c.population).1 hne
    exact ⟨b, hb', by simp only [f, hb]⟩

/-! ### Scatter plots -/

theorem mapM_total {β : Type} (f : α → PyM β) (g : α → β) (l : List α) (h : ∀ x ∈ l, f x = .ok (g x)) :
    pyMapM f l = .ok (l.map g) := by
  induction l with
  | nil => rfl
  | cons x l ih =>
    simp only [pyMapM, h x (by simp), ih fun y hy => h y (by simp [hy]), bind, Except.bind, List.map_cons]

theorem rescaleX_spec (window view : Rect) (x : List ℚ) (hx : x ≠ []) (hw : Rect.Within window view) :
    ∃ v', rescaleX window view x = .ok v' ∧ v'.bottom = view.bottom ∧ v'.top = view.top ∧ v'.left ≤ window.left ∧
      window.right ≤ v'.right ∧ (∀ a ∈ x, v'.left ≤ a ∧ a ≤ v'.right) ∧
      (v'.left = view.left ∨ v'.left ∈ x) ∧ (v'.right = view.right ∨ v'.right ∈ x) := by
  obtain ⟨a, b⟩ := statMin_spec hx
  obtain ⟨c, d⟩ := statMax_spec hx
  obtain ⟨w1, w2, -, -⟩ := hw
  refine ⟨_, by simp only [rescaleX, arrayMin, arrayMax, if_neg hx, bind, Except.bind, pure, Except.pure]; rfl, ?_⟩
  by_cases h1 : statMin x < window.left <;> by_cases h2 : window.right < statMax x <;> simp only [h1, h2, if_true, if_false]
  · exact ⟨(by trivial), (by trivial), h1.le, h2.le, fun v hv => ⟨b v hv, d v hv⟩, .inr a, .inr c⟩
  · exact ⟨(by trivial), (by trivial), h1.le, w2, fun v hv => ⟨b v hv, (d v hv).trans ((not_lt.1 h2).trans w2)⟩, .inr a, .inl (by trivial)⟩
  · exact ⟨(by trivial), (by trivial), w1, h2.le, fun v hv => ⟨w1.trans ((not_lt.1 h1).trans (b v hv)), d v hv⟩, .inl (by trivial), .inr c⟩
  · exact ⟨(by trivial), (by trivial), w1, w2, fun v hv => ⟨w1.trans ((not_lt.1 h1).trans (b v hv)), (d v hv).trans ((not_lt.1 h2).trans w2)⟩,
      .inl (by trivial), .inl (by trivial)⟩

theorem rescaleY_spec (window view : Rect) (y : List ℚ) (hy : y ≠ []) (hw : Rect.Within window view) :
    ∃ v', rescaleY window view y = .ok v' ∧ v'.left = view.left ∧ v'.right = view.right ∧ v'.bottom ≤ window.bottom ∧
      window.top ≤ v'.top ∧ (∀ a ∈ y, v'.bottom ≤ a ∧ a ≤ v'.top) ∧
      (v'.bottom = view.bottom ∨ v'.bottom ∈ y) ∧ (v'.top = view.top ∨ v'.top ∈ y) := by
  obtain ⟨a, b⟩ := statMin_spec hy
  obtain ⟨c, d⟩ := statMax_spec hy
  obtain ⟨-, -, w1, w2⟩ := hw
  refine ⟨_, by simp only [rescaleY, arrayMin, arrayMax, if_neg hy, bind, Except.bind, pure, Except.pure]; rfl, ?_⟩
  by_cases h1 : statMin y < window.bottom <;> by_cases h2 : window.top < statMax y <;> simp only [h1, h2, if_true, if_false]
  · exact ⟨(by trivial), (by trivial), h1.le, h2.le, fun v hv => ⟨b v hv, d v hv⟩, .inr a, .inr c⟩
  · exact ⟨(by trivial), (by trivial), h1.le, w2, fun v hv => ⟨b v hv, (d v hv).trans ((not_lt.1 h2).trans w2)⟩, .inr a, .inl (by trivial)⟩
  · exact ⟨(by trivial), (by trivial), w1, h2.le, fun v hv => ⟨w1.trans ((not_lt.1 h1).trans (b v hv)), d v hv⟩, .inl (by trivial), .inr c⟩
  · exact ⟨(by trivial), (by trivial), w1, w2, fun v hv => ⟨w1.trans ((not_lt.1 h1).trans (b v hv)), (d v hv).trans ((not_lt.1 h2).trans w2)⟩,
      .inl (by trivial), .inl (by trivial)⟩

/-- The populations of the calls at generations that are multiples of the interval. -/
def Spec.shownPops (modulo : Int) (calls : List (Option Int × List α)) : List (List α) :=
  (calls.filter fun c => match c.1 with | some g => decide (modulo ∣ g) | none => false).map Prod.snd

theorem scatterRun_spec (getX getY : List α → PyM (List ℚ)) (xsOf ysOf : List α → List ℚ) (calls : List (Option Int × List α))
    (hgood : ∀ c ∈ calls, (∃ g, c.1 = some g) ∧ getX c.2 = .ok (xsOf c.2) ∧ getY c.2 = .ok (ysOf c.2) ∧
      xsOf c.2 ≠ [] ∧ ysOf c.2 ≠ [])
    (p : ScatterProbe) (hm : p.modulo ≠ 0) (hw : Rect.Within p.window p.view) (hpts : ∀ q ∈ p.points, Rect.Has p.view q) :
    let shown := shownPops p.modulo calls
    let out := ScatterProbe.run (ScatterProbe.call getX getY) p calls
    out.1 = calls.map (fun c => .ok c.2) ∧
    out.2.points = (match shown.getLast? with | none => p.points | some pop => (xsOf pop).zip (ysOf pop)) ∧
    Rect.Within p.window out.2.view ∧ (∀ q ∈ out.2.points, Rect.Has out.2.view q) ∧
    (out.2.view.left = p.view.left ∨ ∃ pop ∈ shown, out.2.view.left ∈ xsOf pop) ∧
    (out.2.view.right = p.view.right ∨ ∃ pop ∈ shown, out.2.view.right ∈ xsOf pop) ∧
    (out.2.view.bottom = p.view.bottom ∨ ∃ pop ∈ shown, out.2.view.bottom ∈ ysOf pop) ∧
    (out.2.view.top = p.view.top ∨ ∃ pop ∈ shown, out.2.view.top ∈ ysOf pop) := by
  induction calls generalizing p with
  | nil => exact ⟨rfl, rfl, hw, hpts, .inl rfl, .inl rfl, .inl rfl, .inl rfl⟩
  | cons c cs ih =>
    obtain ⟨⟨g, hg⟩, hx, hy, hxn, hyn⟩ := hgood c (by simp)
    have hcs : ∀ c ∈ cs, (∃ g, c.1 = some g) ∧ getX c.2 = .ok (xsOf c.2) ∧ getY c.2 = .ok (ysOf c.2) ∧
      xsOf c.2 ≠ [] ∧ ysOf c.2 ≠ [] := fun c' h => hgood c' (by simp [h])
    obtain ⟨c1, pop⟩ := c
    simp only at hg hx hy hxn hyn
    subst hg
    by_cases hd : p.modulo ∣ g
    · obtain ⟨v1, e1, a1, a2, a3, a4, a5, a6, a7⟩ := rescaleX_spec p.window p.view (xsOf pop) hxn hw
      have hw1 : Rect.Within p.window v1 := ⟨a3, a4, a1 ▸ hw.2.2.1, a2 ▸ hw.2.2.2⟩
      obtain ⟨v2, e2, b1, b2, b3, b4, b5, b6, b7⟩ := rescaleY_spec p.window v1 (ysOf pop) hyn hw1
      have hw2 : Rect.Within p.window v2 := ⟨b1 ▸ a3, b2 ▸ a4, b3, b4⟩
      have hcall : ScatterProbe.call getX getY p (some g) pop =
          (.ok pop, { p with x := xsOf pop, y := ysOf pop, points := (xsOf pop).zip (ysOf pop), view := v2 }) := by
        simp only [ScatterProbe.call, measuring_ok g _ hm, hd, decide_true, hx, hy, e1, e2]
      have hshown : shownPops p.modulo ((some g, pop) :: cs) = pop :: shownPops p.modulo cs := by
        simp [shownPops, List.filter_cons, hd]
      obtain ⟨i1, i2, i3, i4, i5, i6, i7, i8⟩ := ih hcs
        { p with x := xsOf pop, y := ysOf pop, points := (xsOf pop).zip (ysOf pop), view := v2 } hm hw2 (by
          intro q hq
          obtain ⟨q1, q2⟩ := q
          obtain ⟨m1, m2⟩ := List.of_mem_zip hq
          exact ⟨b1 ▸ (a5 _ m1).1, b2 ▸ (a5 _ m1).2, (b5 _ m2).1, (b5 _ m2).2⟩)
      simp only [ScatterProbe.run, hcall, hshown]
      refine ⟨by rw [i1]; rfl, ?_, i3, i4, ?_, ?_, ?_, ?_⟩
      · rw [i2]
        cases hsh : shownPops p.modulo cs with
        | nil => rfl
        | cons q qs =>
          simp only [hsh, List.getLast?_cons_cons]
          rw [List.getLast?_eq_getLast_of_ne_nil (List.cons_ne_nil _ _)]
      · rcases i5 with h | ⟨q, hq, h⟩
        · rw [h]
          rcases a6 with h' | h'
          · exact .inl (b1.trans h')
          · exact .inr ⟨pop, by simp, b1 ▸ h'⟩
        · exact .inr ⟨q, by simp [hq], h⟩
      · rcases i6 with h | ⟨q, hq, h⟩
        · rw [h]
          rcases a7 with h' | h'
          · exact .inl (b2.trans h')
          · exact .inr ⟨pop, by simp, b2 ▸ h'⟩
        · exact .inr ⟨q, by simp [hq], h⟩
      · rcases i7 with h | ⟨q, hq, h⟩
        · rw [h]
          rcases b6 with h' | h'
          · exact .inl (h'.trans a1)
          · exact .inr ⟨pop, by simp, h'⟩
        · exact .inr ⟨q, by simp [hq], h⟩
      · rcases i8 with h | ⟨q, hq, h⟩
        · rw [h]
          rcases b7 with h' | h'
          · exact .inl (h'.trans a2)
          · exact .inr ⟨pop, by simp, h'⟩
        · exact .inr ⟨q, by simp [hq], h⟩
    · have hcall : ScatterProbe.call getX getY p (some g) pop = (.ok pop, p) := by
        simp only [ScatterProbe.call, measuring_ok g _ hm, hd, decide_false]
      have hshown : shownPops p.modulo ((some g, pop) :: cs) = shownPops p.modulo cs := by
        simp [shownPops, List.filter_cons, hd]
      obtain ⟨i1, i2⟩ := ih hcs p hm hw hpts
      simp only [ScatterProbe.run, hcall, hshown]
      exact ⟨by rw [i1]; rfl, i2⟩

/-- C83: a plot of phenotypes in the plane. Over any history of calls on non-empty populations, with phenotypes of at least two
numbers, every call returns its population; the points shown are the first two numbers of the phenotypes of the last measured
population; all of them and the given window are in view, and each side of the view is a side of the window or the coordinate
of something that has been shown. -/
theorem cartesian_plot_history (decode : α → PyM (List ℚ)) (phenome : α → List ℚ) (window : Rect) (modulo : Int)
    (hm : modulo ≠ 0) (calls : List (Option Int × List α))
    (hgood : ∀ c ∈ calls, (∃ g, c.1 = some g) ∧ c.2 ≠ [] ∧ ∀ ind ∈ c.2, decode ind = .ok (phenome ind) ∧ 2 ≤ (phenome ind).length) :
    let shown := shownPops modulo calls
    let out := ScatterProbe.run (cartesianCall decode) (ScatterProbe.make window modulo) calls
    out.1 = calls.map (fun c => .ok c.2) ∧
    out.2.points = (shown.getLast?.getD []).map (fun ind => ((phenome ind).getD 0 0, (phenome ind).getD 1 0)) ∧
    Rect.Within window out.2.view ∧ (∀ q ∈ out.2.points, Rect.Has out.2.view q) ∧
    (out.2.view.left = window.left ∨ ∃ pop ∈ shown, ∃ ind ∈ pop, out.2.view.left = (phenome ind).getD 0 0) ∧
    (out.2.view.right = window.right ∨ ∃ pop ∈ shown, ∃ ind ∈ pop, out.2.view.right = (phenome ind).getD 0 0) ∧
    (out.2.view.bottom = window.bottom ∨ ∃ pop ∈ shown, ∃ ind ∈ pop, out.2.view.bottom = (phenome ind).getD 1 0) ∧
    (out.2.view.top = window.top ∨ ∃ pop ∈ shown, ∃ ind ∈ pop, out.2.view.top = (phenome ind).getD 1 0) := by
  have hcol : ∀ i < 2, ∀ c ∈ calls, phenomeColumn decode i c.2 = .ok (c.2.map fun ind => (phenome ind).getD i 0) := by
    intro i hi c hc
    apply mapM_total
    intro ind hind
    obtain ⟨h1, h2⟩ := (hgood c hc).2.2 ind hind
    have : (phenome ind)[i]? = some ((phenome ind)[i]'(by omega)) := List.getElem?_eq_getElem (by omega)
    simp only [h1, bind, Except.bind, this, pure, Except.pure]
    rw [List.getD_eq_getElem?_getD, this]; rfl
  obtain ⟨i1, i2, i3, i4, i5, i6, i7, i8⟩ := scatterRun_spec (phenomeColumn decode 0) (phenomeColumn decode 1)
    (fun pop => pop.map fun ind => (phenome ind).getD 0 0) (fun pop => pop.map fun ind => (phenome ind).getD 1 0) calls
    (fun c hc => ⟨(hgood c hc).1, hcol 0 (by omega) c hc, hcol 1 (by omega) c hc, by simp [(hgood c hc).2.1],
      by simp [(hgood c hc).2.1]⟩) (ScatterProbe.make window modulo) hm ⟨le_refl _, le_refl _, le_refl _, le_refl _⟩
    (by intro q hq; cases hq)
  have side : ∀ (v : ℚ) (i : Nat), (∃ pop ∈ shownPops modulo calls, v ∈ pop.map fun ind => (phenome ind).getD i 0) →
      ∃ pop ∈ shownPops modulo calls, ∃ ind ∈ pop, v = (phenome ind).getD i 0 := by
    rintro v i ⟨pop, hp, h⟩
    obtain ⟨ind, h1, h2⟩ := List.mem_map.1 h
    exact ⟨pop, hp, ind, h1, h2.symm⟩
  refine ⟨i1, ?_, i3, i4, i5.imp_right (side _ 0), i6.imp_right (side _ 0), i7.imp_right (side _ 1), i8.imp_right (side _ 1)⟩
  refine i2.trans ?_
  show (match (shownPops modulo calls).getLast? with
    | none => []
    | some pop => (pop.map fun ind => (phenome ind).getD 0 0).zip (pop.map fun ind => (phenome ind).getD 1 0)) = _
  cases (shownPops modulo calls).getLast? with
  | none => rfl
  | some pop => simp [List.zip_map']

/-- Three calls with interval 2: the last measured population is `[(7, 1)]`, and the view has grown to the right. -/
example : ((ScatterProbe.run (cartesianCall fun x : ℚ × ℚ => .ok [x.1, x.2]) (ScatterProbe.make ⟨0, 5, 0, 5⟩ 2)
    [(some 0, [(1, 1), (9, 2)]), (some 1, [(0, 0)]), (some 2, [(7, 1)])]).2.points,
    (ScatterProbe.run (cartesianCall fun x : ℚ × ℚ => .ok [x.1, x.2]) (ScatterProbe.make ⟨0, 5, 0, 5⟩ 2)
    [(some 0, [(1, 1), (9, 2)]), (some 1, [(0, 0)]), (some 2, [(7, 1)])]).2.view) = ([(7, 1)], ⟨0, 7, 0, 5⟩) := by decide +kernel

/-- C83: a plot of sums of phenotypes against fitness. -/
theorem sum_plot_history (decode : α → PyM (List ℚ)) (phenome : α → List ℚ) (fitness : α → ℚ) (window : Rect) (modulo : Int)
    (hm : modulo ≠ 0) (calls : List (Option Int × List α))
    (hgood : ∀ c ∈ calls, (∃ g, c.1 = some g) ∧ c.2 ≠ [] ∧ ∀ ind ∈ c.2, decode ind = .ok (phenome ind)) :
    let shown := shownPops modulo calls
    let out := ScatterProbe.run (sumCall decode fitness) (ScatterProbe.make window modulo) calls
    out.1 = calls.map (fun c => .ok c.2) ∧
    out.2.points = (shown.getLast?.getD []).map (fun ind => ((phenome ind).sum, fitness ind)) ∧
    Rect.Within window out.2.view ∧ (∀ q ∈ out.2.points, Rect.Has out.2.view q) := by
  obtain ⟨i1, i2, i3, i4, -⟩ := scatterRun_spec (pyMapM fun ind => do let ph ← decode ind; return ph.sum)
    (fun population => .ok (population.map fitness))
    (fun pop => pop.map fun ind => (phenome ind).sum) (fun pop => pop.map fitness) calls
    (fun c hc => ⟨(hgood c hc).1, mapM_total _ _ _ (fun ind hind => by
      simp only [(hgood c hc).2.2 ind hind, bind, Except.bind, pure, Except.pure]), rfl, by simp [(hgood c hc).2.1],
      by simp [(hgood c hc).2.1]⟩) (ScatterProbe.make window modulo) hm ⟨le_refl _, le_refl _, le_refl _, le_refl _⟩
    (by intro q hq; cases hq)
  refine ⟨i1, ?_, i3, i4⟩
  refine i2.trans ?_
  show (match (shownPops modulo calls).getLast? with
    | none => []
    | some pop => (pop.map fun ind => (phenome ind).sum).zip (pop.map fitness)) = _
  cases (shownPops modulo calls).getLast? with
  | none => rfl
  | some pop => simp [List.zip_map']

example : (ScatterProbe.run (sumCall (fun x : List ℚ => .ok x) List.sum) (ScatterProbe.make ⟨0, 5, 0, 5⟩ 1)
    [(some 0, [[1, 1], [3, 4]])]).2.points = [(2, 2), (7, 7)] := by decide +kernel

/-- C83: what the scatter plots refuse: no generation, interval 0; at a measured generation an empty population, and phenotypes
that are too short. -/
theorem scatter_plot_refusals (decode : α → PyM (List ℚ)) (fitness : α → ℚ) (p : ScatterProbe) (pop : List α) :
    (cartesianCall decode p none pop).1 = .error .assertionError ∧ (sumCall decode fitness p none pop).1 = .error .assertionError ∧
    (∀ g, p.modulo = 0 → (cartesianCall decode p (some g) pop).1 = .error .zeroDivisionError ∧
      (sumCall decode fitness p (some g) pop).1 = .error .zeroDivisionError) ∧
    (∀ g, p.modulo ≠ 0 → p.modulo ∣ g → (cartesianCall decode p (some g) []).1 = .error .valueError ∧
      (sumCall decode fitness p (some g) []).1 = .error .valueError) ∧
    (∀ g ind rest v, p.modulo ≠ 0 → p.modulo ∣ g → pop = ind :: rest → (decode ind = .ok [] ∨ (decode ind = .ok [v] ∧
      ∀ r ∈ rest, ∃ w ws, decode r = .ok (w :: ws))) → (cartesianCall decode p (some g) pop).1 = .error .indexError) := by
  refine ⟨rfl, rfl, ?_, ?_, ?_⟩
  · intro g h; simp [cartesianCall, sumCall, ScatterProbe.call, measuring, h]
  · intro g hm hd
    simp [cartesianCall, sumCall, ScatterProbe.call, measuring_ok g _ hm, hd, phenomeColumn, pyMapM, rescaleX, arrayMin, bind,
      Except.bind]
  · rintro g ind rest v hm hd rfl (h | ⟨h, hr⟩)
    · simp [cartesianCall, ScatterProbe.call, measuring_ok g _ hm, hd, phenomeColumn, pyMapM, h, bind, Except.bind]
    · have h0 : phenomeColumn decode 0 (ind :: rest) = .ok ((ind :: rest).map fun r => match decode r with
          | .ok (w :: _) => w | _ => 0) := by
        apply mapM_total
        intro r hr'
        rcases List.mem_cons.1 hr' with rfl | hr'
        · simp [h, bind, Except.bind, pure, Except.pure]
        · obtain ⟨w, ws, e⟩ := hr r hr'
          simp [e, bind, Except.bind, pure, Except.pure]
      have h1 : phenomeColumn decode 1 (ind :: rest) = .error .indexError := by
        simp [phenomeColumn, pyMapM, h, bind, Except.bind]
      simp [cartesianCall, ScatterProbe.call, measuring_ok g _ hm, hd, h0, h1]

/-! ### What is drawn in the background -/

theorem npArange_spec (lo hi step : ℚ) (hs : 0 < step) :
    ∃ xs, npArange lo hi step = .ok xs ∧ (∀ i (h : i < xs.length), xs[i] = lo + i * step) ∧
      ∀ i : Nat, i < xs.length ↔ lo + i * step < hi := by
  refine ⟨_, by rw [npArange, if_neg hs.ne'], ?_, ?_⟩
  · intro i h; simp
  · intro i
    simp only [List.length_map, List.length_range]
    rw [Int.lt_toNat, Int.lt_ceil, lt_div_iff₀ hs]
    push_cast
    constructor <;> intro h <;> linarith

/-- C83: the contours behind a plot of phenotypes: fitnesses on the grid that starts at the lower left corner of the window,
with the given spacing (by default a 50th of the width of the problem's bounds), up to but without the right and upper side; the
other dimensions are the padding. -/
theorem contour_table_spec (evaluate : List ℚ → PyM ℚ) (f : List ℚ → ℚ) (bounds : ℚ × ℚ) (granularity : Option ℚ)
    (window : Rect) (pad : List ℚ) (hf : ∀ x y, evaluate (x :: y :: pad) = .ok (f (x :: y :: pad)))
    (hg : 0 < granularity.getD ((bounds.2 - bounds.1) / 50)) (hw : window.left < window.right) (hh : window.bottom < window.top) :
    let g := granularity.getD ((bounds.2 - bounds.1) / 50)
    ∃ xs ys table, contourTable evaluate bounds granularity window pad = .ok (xs, ys, table) ∧
      (∀ i (h : i < xs.length), xs[i] = window.left + i * g) ∧ (∀ i : Nat, i < xs.length ↔ window.left + i * g < window.right) ∧
      (∀ j (h : j < ys.length), ys[j] = window.bottom + j * g) ∧ (∀ j : Nat, j < ys.length ↔ window.bottom + j * g < window.top) ∧
      table = ys.map fun y => xs.map fun x => f (x :: y :: pad) := by
  intro g
  obtain ⟨xs, hx, x1, x2⟩ := npArange_spec window.left window.right g hg
  obtain ⟨ys, hy, y1, y2⟩ := npArange_spec window.bottom window.top g hg
  have hxn : xs ≠ [] := by
    have := (x2 0).2 (by simpa using hw)
    intro h; simp [h] at this
  have hyn : ys ≠ [] := by
    have := (y2 0).2 (by simpa using hh)
    intro h; simp [h] at this
  refine ⟨xs, ys, _, ?_, x1, x2, y1, y2, rfl⟩
  have hrow : ∀ y : ℚ, pyMapM (fun x => evaluate (x :: y :: pad)) xs = .ok (xs.map fun x => f (x :: y :: pad)) :=
    fun y => mapM_total _ _ _ fun x _ => hf x y
  have htab : pyMapM (fun y => pyMapM (fun x => evaluate (x :: y :: pad)) xs) ys =
      .ok (ys.map fun y => xs.map fun x => f (x :: y :: pad)) := mapM_total _ _ _ fun y _ => hrow y
  show (do
    let xs ← npArange window.left window.right g
    let ys ← npArange window.bottom window.top g
    if xs = [] ∨ ys = [] then .error .valueError
    else
      let table ← pyMapM (fun y => pyMapM (fun x => evaluate ([x, y] ++ pad)) xs) ys
      return (xs, ys, table)) = _
  simp only [hx, hy, bind, Except.bind, hxn, hyn, or_self, if_false, List.cons_append, List.nil_append, htab, pure, Except.pure]

/-- C83: a spacing of 0 and an empty window are refused. -/
theorem contour_table_refusals (evaluate : List ℚ → PyM ℚ) (bounds : ℚ × ℚ) (window : Rect) (pad : List ℚ) :
    contourTable evaluate bounds (some 0) window pad = .error .zeroDivisionError ∧
    (bounds.1 = bounds.2 → contourTable evaluate bounds none window pad = .error .zeroDivisionError) ∧
    (∀ g, 0 < g → window.right ≤ window.left ∨ window.top ≤ window.bottom →
      contourTable evaluate bounds (some g) window pad = .error .valueError) := by
  refine ⟨rfl, ?_, ?_⟩
  · intro h; simp [contourTable, h, npArange, bind, Except.bind]
  · intro g hg h
    obtain ⟨xs, hx, -, x2⟩ := npArange_spec window.left window.right g hg
    obtain ⟨ys, hy, -, y2⟩ := npArange_spec window.bottom window.top g hg
    have : xs = [] ∨ ys = [] := by
      rcases h with h | h
      · left
        have := mt (x2 0).1 (by simpa using h)
        exact List.length_eq_zero_iff.1 (by omega)
      · right
        have := mt (y2 0).1 (by simpa using h)
        exact List.length_eq_zero_iff.1 (by omega)
    simp only [contourTable, Option.getD_some, hx, hy, bind, Except.bind, this, if_true]

example : contourTable (fun v => .ok v.sum) (0, 100) none ⟨0, 5, 0, 3⟩ [10] =
    .ok ([0, 2, 4], [0, 2], [[10, 12, 14], [12, 14, 16]]) := by decide +kernel

theorem pyTrunc_int (n : Int) : pyTrunc n = n := by
  unfold pyTrunc
  split <;> simp

/-- C83: the curve behind a plot of sums: for every number of ones from the left to the right side of the window (both
included) in steps of the spacing, the fitness of the bit string with that many leading ones; its length is the right side of
the window. -/
theorem ones_curve_spec (evaluate : List Int → PyM ℚ) (f : List Int → ℚ) (hf : ∀ b, evaluate b = .ok (f b)) (lo hi step : Nat)
    (hs : 0 < step) (hlo : lo ≤ hi) :
    ∃ curve, onesCurve evaluate ((lo : ℚ), (hi : ℚ)) (step : ℚ) = .ok curve ∧
      (∀ k : Nat, k < curve.length ↔ lo + k * step ≤ hi) ∧
      ∀ k (h : k < curve.length), curve[k] = (((lo + k * step : Nat) : Int),
        f (List.replicate (lo + k * step) 1 ++ List.replicate (hi - (lo + k * step)) 0)) := by
  have e1 : pyTrunc (hi : ℚ) = hi := by have := pyTrunc_int hi; simpa using this
  have e2 : pyTrunc (lo : ℚ) = lo := by have := pyTrunc_int lo; simpa using this
  have e3 : pyTrunc (step : ℚ) = step := by have := pyTrunc_int step; simpa using this
  have hs' : (step : Int) ≠ 0 := by omega
  have hsq : (0 : ℚ) < step := by exact_mod_cast hs
  set n := ⌈(((hi : Int) + 1 - lo : Int) : ℚ) / (step : Int)⌉.toNat with hn
  have hlt : ∀ k : Nat, k < n ↔ lo + k * step ≤ hi := by
    intro k
    rw [hn, Int.lt_toNat, Int.lt_ceil]
    have : (((step : Nat) : Int) : ℚ) = (step : ℚ) := by push_cast; rfl
    rw [this, lt_div_iff₀ hsq]
    have h1 : ((((k : Nat) : Int) : ℚ) * step < (((hi : Int) + 1 - lo : Int) : ℚ)) ↔ ((k : Int) * step < (hi : Int) + 1 - lo) := by
      rw [← Int.cast_lt (R := ℚ)]; push_cast; rfl
    rw [h1]
    have h2 : ((k : Int) * step) = ((k * step : Nat) : Int) := by push_cast; rfl
    rw [h2]
    omega
  have hmap : pyMapM (fun ones : Int => do
      let bits ← bitstringWithOnes hi ones
      let v ← evaluate bits
      return (ones, v)) ((List.range n).map fun i : Nat => (lo : Int) + i * step) =
      .ok (((List.range n).map fun i : Nat => (lo : Int) + i * step).map fun ones =>
        (ones, f (List.replicate ones.toNat 1 ++ List.replicate ((hi : Int) - ones).toNat 0))) := by
    apply mapM_total
    intro ones ho
    obtain ⟨i, hi', rfl⟩ := List.mem_map.1 ho
    have hle := (hlt i).1 (List.mem_range.1 hi')
    have : (lo : Int) + i * step ≤ hi := by exact_mod_cast hle
    simp only [bitstringWithOnes, if_pos this, bind, Except.bind, hf, pure, Except.pure]
  refine ⟨_, (show onesCurve evaluate ((lo : ℚ), (hi : ℚ)) (step : ℚ) = _ by
    simp only [onesCurve, e1, e2, e3, if_neg hs']
    exact hmap), ?_, ?_⟩
  · intro k; rw [List.length_map, List.length_map, List.length_range]; exact hlt k
  · intro k h
    simp only [List.getElem_map, List.getElem_range]
    have t1 : ((lo : Int) + k * step) = ((lo + k * step : Nat) : Int) := by push_cast; rfl
    rw [t1, Int.toNat_natCast]
    have t2 : ((hi : Int) - ((lo + k * step : Nat) : Int)).toNat = hi - (lo + k * step) := by omega
    rw [t2]

example : onesCurve (fun b => .ok b.sum) (0, 4) 2 = .ok [(0, 0), (2, 2), (4, 4)] := by decide +kernel

/-- C83: a spacing below 1 is truncated to 0 and refused, although the documentation calls it a float. With a window that
begins below 0, as the default one does, the strings for negative numbers of ones have no ones and are longer than the rest:
for -5.12 to 5.12 the curve has 11 points from strings of lengths 10 to 5. -/
theorem ones_curve_surprises (evaluate : List Int → PyM ℚ) (f : List Int → ℚ) (hf : ∀ b, evaluate b = .ok (f b)) :
    (∀ xlim g, 0 < g → g < 1 → onesCurve evaluate xlim g = .error .zeroDivisionError) ∧
    (∀ maxOnes ones : Int, ones < 0 → ones ≤ maxOnes →
      bitstringWithOnes maxOnes ones = .ok (List.replicate (maxOnes - ones).toNat 0)) ∧
    ∃ rest, onesCurve evaluate (-5.12, 5.12) 1 = .ok ((-5, f (List.replicate 10 0)) :: (-4, f (List.replicate 9 0)) :: rest) ∧
      rest.length = 9 := by
  refine ⟨?_, ?_, ?_⟩
  · intro xlim g h0 h1
    have : pyTrunc g = 0 := by
      rw [pyTrunc, if_pos h0.le]
      exact Int.floor_eq_iff.2 ⟨by simpa using h0.le, by simpa using h1⟩
    simp [onesCurve, this]
  · intro maxOnes ones h h'
    have : ones.toNat = 0 := by omega
    simp [bitstringWithOnes, h', this]
  · have e1 : pyTrunc 5.12 = 5 := by decide +kernel
    have e2 : pyTrunc (-5.12) = -5 := by decide +kernel
    have e3 : pyTrunc 1 = 1 := by decide +kernel
    have e4 : ⌈((5 + 1 - (-5) : Int) : ℚ) / (1 : Int)⌉.toNat = 11 := by decide +kernel
    have e5 : (List.range 11).map (fun i : Nat => (-5 : Int) + i * 1) = [-5, -4, -3, -2, -1, 0, 1, 2, 3, 4, 5] := by decide
    refine ⟨_, (show onesCurve evaluate (-5.12, 5.12) 1 = _ by
      simp only [onesCurve, e1, e2, e3, e4, e5]
      simp only [pyMapM, bitstringWithOnes, bind, Except.bind, hf, pure, Except.pure]
      rfl), rfl⟩

/-! ### Histograms and Pareto fronts -/

/-- C83: the histogram plots hand the phenotypes of the population, in order, to the histogram at every measured generation and
nothing otherwise; they return the population. -/
theorem hist_plot_spec {φ : Type} (decode : α → PyM φ) (phenome : α → φ) (modulo : Int) (shown : Option (List φ)) (pop : List α) :
    (∀ g, modulo ≠ 0 → (∀ x ∈ pop, decode x = .ok (phenome x)) →
      histCall decode modulo shown (some g) pop = (.ok pop, if modulo ∣ g then some (pop.map phenome) else shown)) ∧
    histCall decode modulo shown none pop = (.error .assertionError, shown) ∧
    (∀ g, histCall decode 0 shown (some g) pop = (.error .zeroDivisionError, shown)) := by
  refine ⟨?_, rfl, fun _ => rfl⟩
  intro g hm hd
  simp only [histCall, measuring_ok g _ hm, mapM_total _ _ _ hd]
  by_cases h : modulo ∣ g <;> simp [h]

example : histCall (fun x : Nat => .ok (x + 1)) 2 none (some 4) [1, 2] = (.ok [1, 2], some [2, 3]) := by decide

/-- C83: the plot of a Pareto front shows the first two objectives of all individuals of the last measured population (also of
the dominated ones), and its data limits enclose them and the given limits. -/
theorem pareto_plot_call (fitness : α → List ℚ) (p : ParetoProbe) (ax : PlotAxes) (hok : ∀ l ∈ ax.lines, Spec.Drawable l)
    (ctx : LeapCtx) (g : Int) (hctx : (ctx.generation = some g ∧ ctx.births = none) ∨ (ctx.births = some g ∧ ctx.generation = none))
    (hs : p.step ≠ 0) (pop : List α) (hp : pop ≠ []) (hf : ∀ x ∈ pop, 2 ≤ (fitness x).length) :
    let out := p.call fitness ax (some ctx) pop
    out.1 = .ok pop ∧
    (p.step ∣ g → out.2.1.points = pop.map (fun x => ((fitness x).getD 0 0, (fitness x).getD 1 0)) ∧
      ∃ r, out.2.2 = { ax with dataLim := some r } ∧ Extent p.xlim (pop.map fun x => (fitness x).getD 0 0) r.left r.right ∧
        Extent p.ylim (pop.map fun x => (fitness x).getD 1 0) r.bottom r.top) ∧
    (¬ p.step ∣ g → out.2 = (p, ax)) := by
  have hstep : getStep (some ctx) none none = .ok (some g) := by
    rcases hctx with ⟨h1, h2⟩ | ⟨h1, h2⟩ <;> simp [getStep, h1, h2]
  have hcol : ∀ i < 2, fitnessColumn fitness i pop = .ok (pop.map fun x => (fitness x).getD i 0) := by
    intro i hi
    apply mapM_total
    intro x hx
    have := hf x hx
    have e : (fitness x)[i]? = some ((fitness x)[i]'(by omega)) := List.getElem?_eq_getElem (by omega)
    simp only [e]
    rw [List.getD_eq_getElem?_getD, e]; rfl
  obtain ⟨r, hr, r1, r2⟩ := rescaleRect_spec p.xlim p.ylim (x := pop.map fun x => (fitness x).getD 0 0)
    (y := pop.map fun x => (fitness x).getD 1 0) (by simpa using hp) (by simpa using hp)
  have hall : ax.lines.all lineOk = true := List.all_eq_true.2 fun l hl => (lineOk_iff l).2 (hok l hl)
  by_cases hd : p.step ∣ g
  · have hd' : g % p.step = 0 := Int.emod_eq_zero_of_dvd hd
    have hcall : p.call fitness ax (some ctx) pop = (.ok pop, { p with
        x := pop.map fun x => (fitness x).getD 0 0, y := pop.map fun x => (fitness x).getD 1 0,
        points := (pop.map fun x => (fitness x).getD 0 0).zip (pop.map fun x => (fitness x).getD 1 0) },
        { ax with dataLim := some r }) := by
      simp only [ParetoProbe.call, hstep, hs, if_false, hd', if_true, hcol 0 (by omega), hcol 1 (by omega), rescaleAxes, hr, hall]
    rw [hcall]
    exact ⟨rfl, fun _ => ⟨by simp [List.zip_map'], r, rfl, r1, r2⟩, fun h => absurd hd h⟩
  · have hd' : ¬ g % p.step = 0 := fun h => hd (Int.dvd_of_emod_eq_zero h)
    have hcall : p.call fitness ax (some ctx) pop = (.ok pop, p, ax) := by
      simp only [ParetoProbe.call, hstep, hs, if_false, hd']
    rw [hcall]
    exact ⟨rfl, fun h => absurd h hd, fun _ => rfl⟩

example : (ParetoProbe.call (fun x : List ℚ => x) ⟨1, some (0, 1), some (0, 1), [], [], []⟩ {} (some { generation := some 3 })
    [[2, 5, 9], [3, 4, 9]]).2 = (⟨1, some (0, 1), some (0, 1), [2, 3], [5, 4], [(2, 5), (3, 4)]⟩,
      { dataLim := some ⟨0, 3, 0, 5⟩ }) := by decide +kernel

/-- C83: a line on the axes that Matplotlib cannot draw, whoever put it there, makes the Pareto plot fail at the next measured generation. -/
theorem pareto_plot_undrawable (fitness : α → List ℚ) (p : ParetoProbe) (ax : PlotAxes) (line : List ℚ × List ℚ) (hl : line ∈ ax.lines) (hd : ¬ Spec.Drawable line)
    (ctx : LeapCtx) (g : Int) (hctx : (ctx.generation = some g ∧ ctx.births = none) ∨ (ctx.births = some g ∧ ctx.generation = none))
    (hs : p.step ≠ 0) (hg : p.step ∣ g) (pop : List α) (hp : pop ≠ []) (hf : ∀ x ∈ pop, 2 ≤ (fitness x).length) :
    (p.call fitness ax (some ctx) pop).1 = .error .valueError ∧ (p.call fitness ax (some ctx) pop).2.2 = ax := by
  have hstep : getStep (some ctx) none none = .ok (some g) := by
    rcases hctx with ⟨h1, h2⟩ | ⟨h1, h2⟩ <;> simp [getStep, h1, h2]
  have hcol : ∀ i < 2, fitnessColumn fitness i pop = .ok (pop.map fun x => (fitness x).getD i 0) := by
    intro i hi
    apply mapM_total
    intro x hx
    have := hf x hx
    have e : (fitness x)[i]? = some ((fitness x)[i]'(by omega)) := List.getElem?_eq_getElem (by omega)
    simp only [e]
    rw [List.getD_eq_getElem?_getD, e]; rfl
  obtain ⟨r, hr, -, -⟩ := rescaleRect_spec p.xlim p.ylim (x := pop.map fun x => (fitness x).getD 0 0)
    (y := pop.map fun x => (fitness x).getD 1 0) (by simpa using hp) (by simpa using hp)
  have hd' : g % p.step = 0 := Int.emod_eq_zero_of_dvd hg
  simp only [ParetoProbe.call, hstep, hs, if_false, hd', if_true, hcol 0 (by omega), hcol 1 (by omega), undrawable_refused _ _ _ _ _ _ hr line hl hd]
  exact ⟨trivial, trivial⟩

example : let ax : PlotAxes := { lines := [([1, 2, 3], [1, 2])] }
    ¬ Spec.Drawable ([1, 2, 3], [1, 2]) ∧
    (ParetoProbe.call (fun x : List ℚ => x) ⟨1, some (0, 1), some (0, 1), [], [], []⟩ ax (some { generation := some 3 }) [[2, 5, 9], [3, 4, 9]]).1 = .error .valueError := by
  refine ⟨by simp [Spec.Drawable], by decide +kernel⟩

/-- C83: the Pareto plot cannot make its own axes, although the documentation says so; a context with both counters or none is
refused, as are an interval of 0, single objectives, and at a measured generation an empty population. -/
theorem pareto_plot_refusals (fitness : α → List ℚ) (xlim ylim : Option (ℚ × ℚ)) (step : Int) (p : ParetoProbe) (ax : PlotAxes)
    (ctx : LeapCtx) (g h : Int) (pop : List α) :
    ParetoProbe.init none xlim ylim step = .error .attributeError ∧
    ParetoProbe.init (some ax) xlim ylim step = .ok ({ step := step, xlim := xlim, ylim := ylim }, ax) ∧
    (p.call fitness ax none pop).1 = .error .assertionError ∧
    (ctx.generation = some g → ctx.births = some h → (p.call fitness ax (some ctx) pop).1 = .error .assertionError) ∧
    (ctx.generation = some g → ctx.births = none → p.step = 0 → (p.call fitness ax (some ctx) pop).1 = .error .zeroDivisionError) ∧
    (ctx.generation = some g → ctx.births = none → p.step ≠ 0 → p.step ∣ g →
      (p.call fitness ax (some ctx) []).1 = .error .valueError ∧
      ((∀ x ∈ pop, (fitness x).length = 1) → pop ≠ [] → (p.call fitness ax (some ctx) pop).1 = .error .indexError) ∧
      (∀ x rest, pop = x :: rest → fitness x = [] → (p.call fitness ax (some ctx) pop).1 = .error .indexError)) := by
  refine ⟨rfl, rfl, by simp [ParetoProbe.call, getStep], ?_, ?_, ?_⟩
  · intro h1 h2; simp [ParetoProbe.call, getStep, h1, h2]
  · intro h1 h2 h3; simp [ParetoProbe.call, getStep, h1, h2, h3]
  · intro h1 h2 h3 h4
    have hd' : g % p.step = 0 := Int.emod_eq_zero_of_dvd h4
    have hstep : getStep (some ctx) none none = .ok (some g) := by simp [getStep, h1, h2]
    refine ⟨?_, ?_, ?_⟩
    · simp [ParetoProbe.call, hstep, h3, hd', fitnessColumn, pyMapM, rescaleAxes, rescaleRect, arrayMin, bind, Except.bind]
    · intro hf hp
      have h0 : fitnessColumn fitness 0 pop = .ok (pop.map fun x => (fitness x).getD 0 0) := by
        apply mapM_total
        intro x hx
        have := hf x hx
        have e : (fitness x)[0]? = some ((fitness x)[0]'(by omega)) := List.getElem?_eq_getElem (by omega)
        simp only [e]
        rw [List.getD_eq_getElem?_getD, e]; rfl
      have h1' : fitnessColumn fitness 1 pop = .error .indexError := by
        cases pop with
        | nil => exact absurd rfl hp
        | cons x rest =>
          have := hf x (by simp)
          have e : (fitness x)[1]? = none := List.getElem?_eq_none (by omega)
          simp [fitnessColumn, pyMapM, e, bind, Except.bind]
      simp [ParetoProbe.call, hstep, h3, hd', h0, h1']
    · rintro x rest rfl hx
      simp [ParetoProbe.call, hstep, h3, hd', fitnessColumn, pyMapM, hx, bind, Except.bind]

end Leap
