import Verif.Model.RulePlot
import Verif.Props.Rules
import Verif.Props.PlotProbes

/-! # Pictures of rule sets and of networks (C103) -/

namespace Leap
open Spec

variable {α : Type}

/-- The point lies in the box. -/
def Spec.RuleBox.Inside (b : RuleBox) (u v : ℚ) : Prop :=
  b.left ≤ u ∧ u ≤ b.left + b.width ∧ b.bottom ≤ v ∧ v ≤ b.bottom + b.height

/-- The box shows the rule: within the limits of the plot it contains the points that satisfy the first two conditions, and it is blue
exactly when the first action is rounded to 0. -/
def Spec.Shows (xlim ylim : ℚ × ℚ) (b : RuleBox) (rule : PittRule) : Prop :=
  ∃ c0 c1 a, rule.conditions[0]? = some c0 ∧ rule.conditions[1]? = some c1 ∧ rule.actions[0]? = some a ∧
    (∀ u v, xlim.1 ≤ u → u ≤ xlim.2 → ylim.1 ≤ v → v ≤ ylim.2 → (RuleBox.Inside b u v ↔ CondHolds c0 u ∧ CondHolds c1 v)) ∧
    (b.blue = true ↔ IsRounded a 0)

theorem rounded_zero (a : ℚ) : roundHalfEven a = 0 ↔ IsRounded a 0 :=
  ⟨fun h => h ▸ roundHalfEven_spec a, fun h => rounded_unique a _ _ (roundHalfEven_spec a) h⟩

theorem ruleBox_shows (xlim ylim : ℚ × ℚ) (rule : PittRule) (h2 : 2 ≤ rule.conditions.length) (h1 : 1 ≤ rule.actions.length) :
    ∃ b, ruleBox xlim ylim rule = .ok b ∧ Shows xlim ylim b rule := by
  obtain ⟨cs, as⟩ := rule
  match cs, as, h2, h1 with
  | c0 :: c1 :: cs, a :: as, _, _ =>
    refine ⟨_, rfl, c0, c1, a, rfl, rfl, rfl, fun u v hu1 hu2 hv1 hv2 => ?_, ?_⟩
    · simp only [RuleBox.Inside, CondHolds, add_sub_cancel]
      by_cases h0 : c0.2 < c0.1 <;> by_cases h3 : c1.2 < c1.1 <;> simp [h0, h3, hu1, hu2, hv1, hv2, and_assoc]
    · simp only [decide_eq_true_eq]
      exact rounded_zero a

theorem drawBoxes_ok (xlim ylim : ℚ × ℚ) (rules : List PittRule) : ∀ drawn,
    (∀ rule ∈ rules, 2 ≤ rule.conditions.length ∧ 1 ≤ rule.actions.length) →
    ∃ bs, drawBoxes xlim ylim rules drawn = (.ok (), drawn ++ bs) ∧ List.Forall₂ (Shows xlim ylim) bs rules := by
  induction rules with
  | nil => intro drawn _; exact ⟨[], by simp [drawBoxes], .nil⟩
  | cons rule rules ih =>
    intro drawn h
    obtain ⟨b, e, hb⟩ := ruleBox_shows xlim ylim rule (h rule (by simp)).1 (h rule (by simp)).2
    obtain ⟨bs, e', hbs⟩ := ih (drawn ++ [b]) fun r hr => h r (by simp [hr])
    exact ⟨b :: bs, by simp [drawBoxes, e, e'], .cons hb hbs⟩

/-- C103: drawn at every generation, the picture shows one box for each rule of an individual that nobody in the population beats, in order, and
nothing else, whatever was on the axes before. Within the limits of the plot a box contains exactly the points that satisfy the first two
conditions of its rule, wildcards included. The population is returned as it is. -/
theorem rule_plot_exact {gt : α → α → Bool} (hgt : StrictPartial gt) (genome : α → List (List ℚ)) (p : RulePlot) (hmod : p.modulo ≤ 1)
    (hm : p.dims.numMemory = 0) (hin : 2 ≤ p.dims.numInputs) (hout : 0 < p.dims.numOutputs) (generation : Option Int)
    (drawn : List RuleBox) (pop : List α) (hne : pop ≠ [])
    (hgood : ∀ x ∈ pop, genome x ≠ [] ∧ ∀ s ∈ genome x, s.length = p.dims.numInputs * 2 + p.dims.numOutputs) :
    ∃ best ∈ pop, (∀ x ∈ pop, gt x best = false) ∧ ∃ rules bs, genomeToRules p.dims (genome best) = .ok rules ∧
      rulePlotCall gt genome p true generation drawn pop = (.ok pop, bs) ∧ List.Forall₂ (Shows p.xlim p.ylim) bs rules := by
  cases pop with
  | nil => exact absurd rfl hne
  | cons x xs =>
    refine ⟨pyMaxFrom gt x xs, pyMaxFrom_mem gt x xs, pyMaxFrom_spec hgt x xs, ?_⟩
    have hb := hgood _ (pyMaxFrom_mem gt x xs)
    obtain ⟨rules, e, -, hr⟩ := (pitt_genome_to_rules p.dims hm hout (genome (pyMaxFrom gt x xs))).1 hb
    have hlen : ∀ rule ∈ rules, 2 ≤ rule.conditions.length ∧ 1 ≤ rule.actions.length := by
      intro rule hrule
      obtain ⟨i, hi⟩ := List.mem_iff_getElem?.1 hrule
      have hlt := (List.getElem?_eq_some_iff.1 hi).1
      obtain ⟨rules', e', hl, -⟩ := (pitt_genome_to_rules p.dims hm hout (genome (pyMaxFrom gt x xs))).1 hb
      obtain rfl : rules = rules' := by rw [e] at e'; exact Except.ok.inj e'
      obtain ⟨a1, -, a3, -⟩ := hr i _ rule (List.getElem?_eq_getElem (by omega)) hi
      omega
    obtain ⟨bs, ed, hbs⟩ := drawBoxes_ok p.xlim p.ylim rules [] hlen
    refine ⟨rules, bs, e, ?_, hbs⟩
    simp only [rulePlotCall, Bool.not_true, Bool.false_eq_true, if_false, show ¬ p.modulo > 1 by omega, plotRules, pyMax, e, ed,
      List.nil_append]

/-- C103: for rules on two inputs the picture agrees with the behaviour: a point within the limits lies in the box of a rule exactly
when that rule matches it. -/
theorem rule_plot_matches (xlim ylim : ℚ × ℚ) (b : RuleBox) (rule : PittRule) (h2 : rule.conditions.length = 2) (h : Shows xlim ylim b rule)
    (u v : ℚ) (hu1 : xlim.1 ≤ u) (hu2 : u ≤ xlim.2) (hv1 : ylim.1 ≤ v) (hv2 : v ≤ ylim.2) :
    RuleBox.Inside b u v ↔ ExactMatch rule [u, v] := by
  obtain ⟨c0, c1, a, e0, e1, -, hin, -⟩ := h
  rw [hin u v hu1 hu2 hv1 hv2]
  constructor
  · rintro ⟨h0, h1⟩ i c x hc hx
    match i with
    | 0 =>
      rw [e0] at hc
      simp only [List.getElem?_cons_zero, Option.some.injEq] at hx hc
      subst hx hc
      exact h0
    | 1 =>
      rw [e1] at hc
      simp only [List.getElem?_cons_succ, List.getElem?_cons_zero, Option.some.injEq] at hx hc
      subst hx hc
      exact h1
    | i + 2 => simp at hx
  · intro h
    exact ⟨h 0 c0 u e0 rfl, h 1 c1 v e1 rfl⟩

/-- C103, what does not work: drawing every few generations never works, it raises as soon as the generation is known; the choice of
dimensions has no effect; and rules on one input cannot be drawn. -/
theorem rule_plot_surprises (gt : α → α → Bool) (genome : α → List (List ℚ)) (p : RulePlot) (leap : Bool) (generation : Option Int)
    (drawn : List RuleBox) (pop : List α) :
    (1 < p.modulo → ∀ g, rulePlotCall gt genome p true (some g) drawn pop = (.error .nameError, drawn)) ∧
    (∀ dims, rulePlotCall gt genome { p with plotDimensions := dims } leap generation drawn pop =
      rulePlotCall gt genome p leap generation drawn pop) ∧
    (p.modulo ≤ 1 → p.dims.numMemory = 0 → p.dims.numInputs = 1 → 0 < p.dims.numOutputs → pop ≠ [] →
      (∀ x ∈ pop, genome x ≠ [] ∧ ∀ s ∈ genome x, s.length = p.dims.numInputs * 2 + p.dims.numOutputs) →
      rulePlotCall gt genome p true generation drawn pop = (.error .valueError, [])) ∧
    rulePlotCall gt genome p false generation drawn pop = (.error .assertionError, drawn) := by
  refine ⟨fun h g => by simp [rulePlotCall, h], fun _ => rfl, ?_, rfl⟩
  intro hmod hm hin hout hne hgood
  cases pop with
  | nil => exact absurd rfl hne
  | cons x xs =>
    have hb := hgood _ (pyMaxFrom_mem gt x xs)
    obtain ⟨rules, e, hl, hr⟩ := (pitt_genome_to_rules p.dims hm hout (genome (pyMaxFrom gt x xs))).1 hb
    have hpos := List.length_pos_iff.2 hb.1
    cases rules with
    | nil => simp only [List.length_nil] at hl; omega
    | cons rule rules =>
      obtain ⟨a1, -⟩ := hr 0 _ rule (List.getElem?_eq_getElem hpos) rfl
      have hrb : ruleBox p.xlim p.ylim rule = .error .valueError := by
        obtain ⟨cs, as⟩ := rule
        match cs, (show cs.length = 1 by simpa [hin] using a1) with
        | [c], _ => rfl
      simp only [rulePlotCall, Bool.not_true, Bool.false_eq_true, if_false, show ¬ p.modulo > 1 by omega, plotRules, pyMax, e, drawBoxes, hrb]

/-- Two rules on two inputs, one with a wildcard: the hypotheses are met, and the picture has both boxes. -/
example :
    let p : RulePlot := ⟨⟨2, 1, 0⟩, (0, 1), (0, 1), (0, 1), 1⟩
    let genome : List (List ℚ) := [[0, 1 / 2, 1 / 4, 1 / 2, 0], [1, 0, 0, 1 / 2, 1]]
    (∀ x ∈ [()], (fun _ : Unit => genome) x ≠ [] ∧ ∀ s ∈ (fun _ : Unit => genome) x, s.length = p.dims.numInputs * 2 + p.dims.numOutputs) ∧
    rulePlotCall (fun _ _ : Unit => false) (fun _ => genome) p true none [⟨0, 0, 1, 1, true⟩] [()] =
      (.ok [()], [⟨0, 1 / 4, 1 / 2, 1 / 4, true⟩, ⟨0, 0, 1, 1 / 2, false⟩]) := by
  refine ⟨by simp, by decide +kernel⟩

/-! ## Graphs -/

/-- The picture of a graph: its edges, drawn with widths in proportion to their weights if asked for. -/
def Spec.pictureOf (weights : Bool) (multiplier : ℚ) (graph : List (NNEdge ℚ)) : GraphPicture :=
  (graph, if weights then some (graph.map fun e => multiplier * e.weight) else none)

/-- C103: over any series of calls, the picture shows the graph of an individual that nobody beats in the last population whose generation is a multiple
of `modulo`; before the first such population nothing is drawn. Every population is returned as it is. -/
theorem graph_plot_history {gt : α → α → Bool} (hgt : StrictPartial gt) (graphOf : α → PyM (List (NNEdge ℚ))) (graph : α → List (NNEdge ℚ))
    (modulo : Int) (hm : 0 < modulo) (weights : Bool) (multiplier : ℚ) (calls : List (Option Int × List α)) :
    ∀ shown, (∀ c ∈ calls, (∃ g, c.1 = some g) ∧ c.2 ≠ [] ∧ ∀ x ∈ c.2, graphOf x = .ok (graph x)) →
    ∃ final, graphPlotRun gt graphOf modulo weights multiplier shown calls = (.ok (calls.map Prod.snd), final) ∧
      match (shownPops modulo calls).getLast? with
      | none => final = shown
      | some pop => ∃ best ∈ pop, (∀ x ∈ pop, gt x best = false) ∧ final = some (pictureOf weights multiplier (graph best)) := by
  induction calls with
  | nil => intro shown _; exact ⟨shown, rfl, rfl⟩
  | cons c cs ih =>
    intro shown h
    obtain ⟨⟨g, hg⟩, hne, hx⟩ := h c (by simp)
    have hcs := fun d hd => h d (List.mem_cons_of_mem _ hd)
    obtain ⟨ogen, pop⟩ := c
    simp only at hg hne hx
    subst hg
    by_cases hd : modulo ∣ g
    · cases pop with
      | nil => exact absurd rfl hne
      | cons x xs =>
        have hcall : graphPlotCall gt graphOf modulo weights multiplier (some g) shown (x :: xs) =
            (.ok (x :: xs), some (pictureOf weights multiplier (graph (pyMaxFrom gt x xs)))) := by
          simp [graphPlotCall, measuring_ok g modulo (by omega), hd, pyMax, hx _ (pyMaxFrom_mem gt x xs), pictureOf]
        obtain ⟨final, e, hf⟩ := ih (some (pictureOf weights multiplier (graph (pyMaxFrom gt x xs)))) hcs
        refine ⟨final, by simp [graphPlotRun, hcall, e], ?_⟩
        have hs : shownPops modulo ((some g, x :: xs) :: cs) = (x :: xs) :: shownPops modulo cs := by simp [shownPops, hd]
        rw [hs, List.getLast?_cons]
        cases hl : (shownPops modulo cs).getLast? with
        | none =>
          rw [hl] at hf
          exact ⟨pyMaxFrom gt x xs, pyMaxFrom_mem gt x xs, pyMaxFrom_spec hgt x xs, hf⟩
        | some pop => rw [hl] at hf; exact hf
    · have hcall : graphPlotCall gt graphOf modulo weights multiplier (some g) shown pop = (.ok pop, shown) := by
        simp [graphPlotCall, measuring_ok g modulo (by omega), hd]
      obtain ⟨final, e, hf⟩ := ih shown hcs
      refine ⟨final, by simp [graphPlotRun, hcall, e], ?_⟩
      have hs : shownPops modulo ((some g, pop) :: cs) = shownPops modulo cs := by simp [shownPops, hd]
      rw [hs]
      exact hf

/-- Three generations drawn every second time: the picture is that of the best of the last drawn generation. -/
example : graphPlotRun (fun a b : Nat => decide (a > b)) (fun n => .ok [⟨.input 0, .output 0, (n : ℚ)⟩]) 2 true 3 none
    [(some 0, [4, 1]), (some 1, [9]), (some 2, [2, 5, 3]), (some 3, [7])] =
    (.ok [[4, 1], [9], [2, 5, 3], [7]], some ([⟨.input 0, .output 0, 5⟩], some [15])) := by
  decide +kernel

end Leap
