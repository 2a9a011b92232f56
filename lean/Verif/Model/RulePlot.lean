import Verif.Model.Rules
import Verif.Model.NeuralNet
import Verif.Model.PlotProbes

/-!
# Pictures of rule sets and of networks

`PlotPittRuleProbe` (leap_ec/executable_rep/rules.py:713-856) and `GraphPhenotypeProbe` (leap_ec/executable_rep/neural_network.py:211-254).
What a picture shows is modelled as data, as in `Model/PlotProbes.lean`. Numbers are exact rationals.
-/

namespace Leap

variable {α : Type}

/-- A `patches.Rectangle`: the lower left corner, the size, and whether it is blue (and not red)
(leap_ec/executable_rep/rules.py:834). -/
structure RuleBox where
  left : ℚ
  bottom : ℚ
  width : ℚ
  height : ℚ
  blue : Bool
deriving DecidableEq, Repr

/-- What a `PlotPittRuleProbe` keeps, apart from its axes (leap_ec/executable_rep/rules.py:774-800). -/
structure RulePlot where
  dims : PittDims
  plotDimensions : Nat × Nat
  xlim : ℚ × ℚ
  ylim : ℚ × ℚ
  modulo : Int

/-- The box of one rule (leap_ec/executable_rep/rules.py:815-834). -/
def ruleBox (xlim ylim : ℚ × ℚ) (rule : PittRule) : PyM RuleBox :=
  match rule.conditions with
  | x :: y :: _ =>
    let x := if x.1 > x.2 then xlim else x
    let y := if y.1 > y.2 then ylim else y
    match rule.actions with
    | [] => .error .indexError
    | action :: _ => .ok ⟨x.1, y.1, x.2 - x.1, y.2 - y.1, decide (roundHalfEven action = 0)⟩
  | _ => .error .valueError

/-- The loop over the rules (leap_ec/executable_rep/rules.py:814-834), with the boxes drawn so far. -/
def drawBoxes (xlim ylim : ℚ × ℚ) : List PittRule → List RuleBox → PyM Unit × List RuleBox
  | [], drawn => (.ok (), drawn)
  | rule :: rules, drawn =>
    match ruleBox xlim ylim rule with
    | .error e => (.error e, drawn)
    | .ok b => drawBoxes xlim ylim rules (drawn ++ [b])

/-- `__plot_rules` (leap_ec/executable_rep/rules.py:802-837): all patches of the axes are removed, then the best individual is drawn. -/
def plotRules (gt : α → α → Bool) (genome : α → List (List ℚ)) (p : RulePlot) (population : List α) : PyM Unit × List RuleBox :=
  match pyMax gt population with
  | .error e => (.error e, [])
  | .ok best =>
    match genomeToRules p.dims (genome best) with
    | .error e => (.error e, [])
    | .ok rules => drawBoxes p.xlim p.ylim rules []

/-- `PlotPittRuleProbe.__call__` (leap_ec/executable_rep/rules.py:839-856), with the patches on its axes. `leap` says whether the
context has that key. `modulo` is not defined where it is used (leap_ec/executable_rep/rules.py:850). -/
def rulePlotCall (gt : α → α → Bool) (genome : α → List (List ℚ)) (p : RulePlot) (leap : Bool) (generation : Option Int)
    (drawn : List RuleBox) (population : List α) : PyM (List α) × List RuleBox :=
  if !leap then (.error .assertionError, drawn)
  else if p.modulo > 1 then
    match generation with
    | none => (.error .assertionError, drawn)
    | some _ => (.error .nameError, drawn)
  else
    match plotRules gt genome p population with
    | (.error e, drawn) => (.error e, drawn)
    | (.ok (), drawn) => (.ok population, drawn)

/-- A picture of a graph: its edges and, if asked for, the width each is drawn with.
For leap_ec/executable_rep/neural_network.py:229-254. -/
abbrev GraphPicture := List (NNEdge ℚ) × Option (List ℚ)

/-- `GraphPhenotypeProbe.__call__` (leap_ec/executable_rep/neural_network.py:229-254). `graphOf` is `best.decode().graph`, its edges in
the order of `graph.edges`, all with a weight. `shown` is the picture on the axes. -/
def graphPlotCall (gt : α → α → Bool) (graphOf : α → PyM (List (NNEdge ℚ))) (modulo : Int) (weights : Bool) (multiplier : ℚ)
    (generation : Option Int) (shown : Option GraphPicture) (population : List α) : PyM (List α) × Option GraphPicture :=
  match measuring generation modulo with
  | .error e => (.error e, shown)
  | .ok false => (.ok population, shown)
  | .ok true =>
    match pyMax gt population with
    | .error e => (.error e, shown)
    | .ok best =>
      match graphOf best with
      | .error e => (.error e, shown)
      | .ok graph =>
        (.ok population, some (graph, if weights then some (graph.map fun e => multiplier * e.weight) else none))

/-- Calls one after another with the generation found in the context at each; a call that raises ends the series.
For leap_ec/executable_rep/neural_network.py:229-254. -/
def graphPlotRun (gt : α → α → Bool) (graphOf : α → PyM (List (NNEdge ℚ))) (modulo : Int) (weights : Bool) (multiplier : ℚ) :
    Option GraphPicture → List (Option Int × List α) → PyM (List (List α)) × Option GraphPicture
  | shown, [] => (.ok [], shown)
  | shown, c :: cs =>
    match graphPlotCall gt graphOf modulo weights multiplier c.1 shown c.2 with
    | (.error e, shown) => (.error e, shown)
    | (.ok out, shown) =>
      match graphPlotRun gt graphOf modulo weights multiplier shown cs with
      | (.error e, shown) => (.error e, shown)
      | (.ok outs, shown) => (.ok (out :: outs), shown)

end Leap
