import Verif.Props.Proportional
import Verif.Props.Transform
import Verif.Props.Wrappers
import Verif.Props.Pipeline
import Verif.Props.Compare
import Verif.Props.Counters
import Verif.Props.Probe
import Verif.Model.Binary
import Verif.Props.Cgp
import Verif.Props.NeuralNet
import Verif.Props.Rules
import Verif.Model.Ela
import Verif.Model.Enlu
import Verif.Lemmas.Owns

/-!
# Further branches

Exact statements about small functions whose every branch is observable: dictionary rows, weighted choice, the assertion
order of the mutation operators, and the exception raised by ill-formed arguments.
-/

namespace Leap

open Spec

/-! ### Rows of probes -/

/-- C67: writing a column of a row changes that column only. The written value is read back, every other column keeps its
value, an existing column keeps its place and a new one comes last. -/
theorem row_assignment {V : Type} (row : List (String × V)) (k : String) (v : V) :
    dictGet (dictSet row k v) k = some v ∧
    (∀ k', k' ≠ k → dictGet (dictSet row k v) k' = dictGet row k') ∧
    (dictSet row k v).map Prod.fst = (if k ∈ row.map Prod.fst then row.map Prod.fst else row.map Prod.fst ++ [k]) := by
  have upd : ∀ l : List (String × V), k ∈ l.map Prod.fst →
      dictGet (l.map fun e => if e.1 = k then (k, v) else e) k = some v := by
    intro l
    induction l with
    | nil => simp
    | cons e es ih =>
      intro h
      by_cases he : e.1 = k
      · simp [dictGet, he]
      · have h' : k ∈ es.map Prod.fst := by
          rcases List.mem_map.1 h with ⟨x, hx, hk⟩
          rcases List.mem_cons.1 hx with rfl | hx
          · exact absurd hk he
          · exact List.mem_map.2 ⟨x, hx, hk⟩
        have := ih h'
        simp only [dictGet, List.map_cons, he, if_false, List.find?_cons, decide_false] at this ⊢
        exact this
  have keep : ∀ (k' : String), k' ≠ k → ∀ l : List (String × V),
      dictGet (l.map fun e => if e.1 = k then (k, v) else e) k' = dictGet l k' := by
    intro k' hk l
    induction l with
    | nil => rfl
    | cons e es ih =>
      by_cases he : e.1 = k
      · have h1 : ¬ k = k' := fun h => hk h.symm
        have h2 : ¬ e.1 = k' := fun h => hk (h ▸ he)
        simp only [dictGet, List.map_cons, he, if_true, List.find?_cons, h1, decide_false] at ih ⊢
        exact ih
      · simp only [dictGet, List.map_cons, he, if_false, List.find?_cons] at ih ⊢
        by_cases h2 : e.1 = k'
        · simp [h2]
        · simp only [h2, decide_false]; exact ih
  have keys : ∀ l : List (String × V), (l.map fun e => if e.1 = k then (k, v) else e).map Prod.fst = l.map Prod.fst := by
    intro l
    induction l with
    | nil => rfl
    | cons e es ih =>
      simp only [List.map_cons, ih]
      by_cases he : e.1 = k <;> simp [he]
  unfold dictSet
  by_cases h : k ∈ row.map Prod.fst
  · rw [if_pos h, if_pos h]
    exact ⟨upd row h, fun k' hk => keep k' hk row, keys row⟩
  · rw [if_neg h, if_neg h]
    refine ⟨?_, ?_, by simp⟩
    · have : row.find? (fun e => decide (e.1 = k)) = none := by
        rw [List.find?_eq_none]
        intro x hx hk
        exact h (List.mem_map.2 ⟨x, hx, by simpa using hk⟩)
      simp [dictGet, List.find?_append, this]
    · intro k' hk
      have h1 : ¬ k = k' := fun h => hk h.symm
      simp [dictGet, List.find?_append, h1]

example : dictSet [("a", 1), ("b", 2)] "a" 9 = [("a", 9), ("b", 2)] ∧ dictSet [("a", 1), ("b", 2)] "c" 9 = [("a", 1), ("b", 2), ("c", 9)] := by
  decide +kernel

/-! ### Random translation -/

/-- C59: the random offset is the affine image of the numbers drawn: in each dimension, as far above the lower bound as the
number drawn says, in units of the width of the bounds. -/
theorem translated_random_exact (p : RealProblem ℚ V) (lo hi : ℚ) (draws : List ℚ) (mx : Option Bool) :
    ∃ offset : List ℚ, offset.length = draws.length ∧
      (∀ (i : Nat) (u : ℚ), draws[i]? = some u → ∃ o, offset[i]? = some o ∧ o - lo = u * (hi - lo)) ∧
      translatedRandom p (lo, hi) draws mx = translatedProblem p offset mx := by
  refine ⟨_, ?_, ?_, rfl⟩
  · simp
  · intro i u hu
    refine ⟨lo + (hi - lo) * u, ?_, by ring⟩
    simp [hu]

/-! ### Weighted choice -/

/-- C15: `random.choices` with one draw. No weights: `IndexError`. A total that is not positive: `ValueError`. Otherwise a
position of the list. -/
theorem weighted_choice_refusals (weights : List ℚ) (u : ℚ) :
    (weights = [] → choicesIndex weights u = .error .indexError) ∧
    (weights ≠ [] → weights.sum ≤ 0 → choicesIndex weights u = .error .valueError) ∧
    (0 < weights.sum → ∃ i, choicesIndex weights u = .ok i ∧ i < weights.length) := by
  have hb : ∀ (ws : List ℚ) (acc x : ℚ), ws ≠ [] → choicesIndex.bisect acc x ws < ws.length := by
    intro ws
    induction ws with
    | nil => intro _ _ h; exact absurd rfl h
    | cons w ws ih =>
      intro acc x _
      cases ws with
      | nil => simp [choicesIndex.bisect]
      | cons w' ws =>
        simp only [choicesIndex.bisect]
        split
        · simp
        · have := ih (acc + w) x (by simp)
          simpa using this
  refine ⟨?_, ?_, ?_⟩
  · rintro rfl; rfl
  · intro h hs
    cases weights with
    | nil => exact absurd rfl h
    | cons w ws => simp only [choicesIndex]; rw [if_pos hs]
  · intro hs
    cases weights with
    | nil => simp at hs
    | cons w ws =>
      refine ⟨choicesIndex.bisect 0 (u * (w :: ws).sum) (w :: ws), ?_, hb _ _ _ (by simp)⟩
      simp only [choicesIndex]; rw [if_neg (not_le.2 hs)]

example : choicesIndex [1, -1] (1/2) = .error .valueError ∧ choicesIndex [] (1/2) = .error .indexError ∧
    choicesIndex [1, 3] (1/4) = .ok 1 := by decide +kernel

/-! ### Generators -/

/-- C14: what leaves the body of a generator: everything unchanged, except that a `StopIteration` becomes a `RuntimeError`. -/
theorem generator_exit {M α : Type} (x : HM M α) (m : M) :
    (HM.pep479 x m).2 = (x m).2 ∧
    (∀ a, (x m).1 = .ok a → (HM.pep479 x m).1 = .ok a) ∧
    ((x m).1 = .error .stopIteration → (HM.pep479 x m).1 = .error .runtimeError) ∧
    (∀ e, (x m).1 = .error e → e ≠ .stopIteration → (HM.pep479 x m).1 = .error e) := by
  unfold HM.pep479
  rcases h : x m with ⟨r, m'⟩
  rcases r with e | a
  · cases e <;> simp
  · simp

section

variable {γ ψ φ ρ : Type}

/-- C24: the arguments of a mutation operator are checked when its first individual is asked for, before anything is taken
from upstream, and not again afterwards. -/
theorem mutation_arguments_checked_first (up : HIter (Mem γ ψ φ ρ)) (check : PyM Unit) (stopOk : Bool) (f : MutFn γ ρ)
    (m : Mem γ ψ φ ρ) (e : PyErr) (h : check = .error e) :
    let it := (Stage.mutate check stopOk f).apply up
    it.next it.init m = (.error e, m) := by
  subst h
  rfl

/-- C24: after the first individual the argument check plays no part. -/
theorem mutation_arguments_checked_once (up : HIter (Mem γ ψ φ ρ)) (check check' : PyM Unit) (stopOk : Bool) (f : MutFn γ ρ)
    (s : up.σ) (m : Mem γ ψ φ ρ) :
    ((Stage.mutate check stopOk f).apply up).next (true, s) m = ((Stage.mutate check' stopOk f).apply up).next (true, s) m ∧
    ∀ r s' m', ((Stage.mutate check stopOk f).apply up).next ((Stage.mutate check stopOk f).apply up).init m =
      (.ok (r, s'), m') → s'.1 = true := by
  refine ⟨rfl, ?_⟩
  intro r s' m' h
  have h : (do
      HM.lift check
      let (r, s') ← upstream stopOk (up.next up.init)
      HM.pep479 (mutateInd f r)
      pure (r, (true, s')) : HM (Mem γ ψ φ ρ) (Nat × Bool × up.σ)) m = (.ok (r, s'), m') := h
  obtain ⟨_, m1, _, h⟩ := bind_ok h
  obtain ⟨⟨r1, s1⟩, m2, _, h⟩ := bind_ok h
  obtain ⟨_, m3, _, h⟩ := bind_ok h
  simp only [HM.pure_apply, Prod.mk.injEq, Except.ok.injEq] at h
  have h2 : (r1, (true, s1)) = (r, s') := h.1
  exact (congrArg (fun x : Nat × Bool × up.σ => x.2.1) h2).symm

/-- C14: a selection that names a position outside the population is an `IndexError`; the random state has advanced. -/
theorem selection_out_of_range (pop : List Nat) (choose : Mem γ ψ φ ρ → PyM Nat × ρ) (m : Mem γ ψ φ ρ) (i : Nat) (s : ρ)
    (h : choose m = (.ok i, s)) :
    (pop.length ≤ i → (selectionIter pop choose).next () m = (.error .indexError, { m with rng := s })) ∧
    (∀ r, pop[i]? = some r → (selectionIter pop choose).next () m = (.ok (r, ()), { m with rng := s })) := by
  constructor
  · intro hi
    have : pop[i]? = none := List.getElem?_eq_none hi
    simp [selectionIter, h, this]
  · intro r hr
    simp [selectionIter, h, hr]

end

/-! ### Comparison with nothing -/

/-- C03: comparing with another individual is the comparison of the two, in this order; with `None` it is false. -/
theorem lt_other_exact (p : ScalarProblem) (coin : Bool) (a b : FitSlot) :
    indLtOther p coin a (some b) = indLt p coin a b ∧ indLtOther p coin a none = .ok false ∧
    (∀ x y, indLtOther p coin (some x) (some (some y)) = .ok (p.worseThan coin x y)) ∧
    indEqOther p a (some b) = indEq p a b ∧ indEqOther p a none = .ok false :=
  ⟨rfl, rfl, fun _ _ => rfl, rfl, rfl⟩

/-! ### Births -/

/-- C32: an object that cannot carry a birth number is an `AttributeError`, and a number is lost. -/
theorem brand_refusals (s : BrandState) (i : Nat) :
    brand .gene s = (.error .attributeError, { s with next := s.next + 1 }) ∧
    (s.inds.length ≤ i → brand (.ind i) s = (.error .keyError, s)) := by
  refine ⟨rfl, fun h => ?_⟩
  have : s.inds[i]? = none := List.getElem?_eq_none h
  simp [brand, this]

/-! ### Cooperation with a log stream -/

/-- C40: with a log stream the first trial is run as usual; its errors are raised, and if there are none the logging itself
raises `AttributeError`. -/
theorem cooperative_problem_logging {W σ ι : Type} (init : Nat → σ) (next : Nat → Gen W σ ι)
    (evalTeam : List ι → W → PyM (ℚ × W)) (numTrials : Int) (hn : 0 < numTrials) (n : Nat) (current : ι) (cur : Nat) (w : W) :
    (∀ e, chooseCollaborators next current cur 0 ((List.range n).map init) w = .error e →
      cooperativeProblem init next evalTeam numTrials n true true current cur w = .error e) ∧
    (∀ team ss w1, chooseCollaborators next current cur 0 ((List.range n).map init) w = .ok (team, ss, w1) →
      (∀ e, evalTeam team w1 = .error e →
        cooperativeProblem init next evalTeam numTrials n true true current cur w = .error e) ∧
      (∀ f w2, evalTeam team w1 = .ok (f, w2) →
        cooperativeProblem init next evalTeam numTrials n true true current cur w = .error .attributeError)) := by
  refine ⟨?_, ?_⟩
  · intro e h
    simp [cooperativeProblem, hn, cooperativeProblemTrials, h]
  · intro team ss w1 h
    refine ⟨?_, ?_⟩
    · intro e he
      simp [cooperativeProblem, hn, cooperativeProblemTrials, h, he]
    · intro f w2 he
      simp [cooperativeProblem, hn, cooperativeProblemTrials, h, he]

/-- An evaluation that accepts one team only. -/
def exOneTeam (t : List Nat) (w : Unit) : PyM (ℚ × Unit) := if t = [0, 100, 20] then .ok ((t.sum : ℚ), w) else .error .keyError

example : cooperativeProblem (fun _ => 0) exNext exOneTeam 2 3 true true 100 1 () = .error .attributeError :=
  ((cooperative_problem_logging (fun _ => 0) exNext exOneTeam 2 (by decide) 3 100 1 ()).2 [0, 100, 20] [1, 0, 1] () rfl).2 120 ()
    (by simp [exOneTeam])

example : cooperativeProblem (fun _ => 0) exNext exOneTeam 2 3 true true 100 2 () = .error .keyError :=
  ((cooperative_problem_logging (fun _ => 0) exNext exOneTeam 2 (by decide) 3 100 2 ()).2 [0, 10, 100] [1, 1, 0] () rfl).1 .keyError
    (by simp [exOneTeam])

/-! ### Convexity tests -/

/-- C56: the proportion is the quotient; no tests at all is a division by zero, and a count above the total an
`AssertionError`. -/
theorem ela_ratio_exact (count total : Nat) :
    (total = 0 → elaRatio count total = .error .zeroDivisionError) ∧
    (0 < total → count ≤ total → elaRatio count total = .ok ((count : ℚ) / total)) ∧
    (0 < total → total < count → elaRatio count total = .error .assertionError) := by
  refine ⟨fun h => by simp [elaRatio, h], fun h hc => ?_, fun h hc => ?_⟩
  · have ht : (0 : ℚ) < total := by exact_mod_cast h
    have hc' : (count : ℚ) ≤ total := by exact_mod_cast hc
    have h0 : (0 : ℚ) ≤ (count : ℚ) / total := by positivity
    have h1 : (count : ℚ) / total ≤ 1 := by rw [div_le_one ht]; exact hc'
    simp only [elaRatio]
    rw [if_neg (by omega), if_pos ⟨h0, h1⟩]
  · have ht : (0 : ℚ) < total := by exact_mod_cast h
    have hc' : (total : ℚ) < count := by exact_mod_cast hc
    have h1 : ¬ (count : ℚ) / total ≤ 1 := by rw [div_le_one ht]; exact not_le.2 hc'
    simp only [elaRatio]
    rw [if_neg (by omega), if_neg (fun h => h1 h.2)]

/-- C56: genomes of different lengths cannot be combined. -/
theorem ela_combine_exact (a b : ℚ) (x y : List ℚ) :
    (x.length ≠ y.length → combineGenomes a b x y = .error .valueError) ∧
    (x.length = y.length → ∃ z, combineGenomes a b x y = .ok z ∧ z.length = x.length ∧
      ∀ (i : Nat) (u v : ℚ), x[i]? = some u → y[i]? = some v → z[i]? = some (a * u + b * v)) := by
  refine ⟨fun h => by simp [combineGenomes, h], fun h => ⟨_, by simp only [combineGenomes]; rw [if_pos h], by simp [h], ?_⟩⟩
  intro i u v hu hv
  simp [List.getElem?_zipWith, hu, hv]

/-! ### Cartesian genetic programming -/

/-- C50: reading the primitive of a node. Outside the grid, or a primitive number that is not below the number of primitives,
is an `AssertionError`; otherwise the primitive with that number. -/
theorem cgp_primitive_exact {V : Type} (d : CgpDecoder V) (genome : List Int) (layer node : Nat) :
    (¬ (layer < d.numLayers ∧ node < d.nodesPerLayer) → d.getPrimitive genome layer node = .error .assertionError) ∧
    (layer < d.numLayers → node < d.nodesPerLayer → ∀ k : Int,
      genome[(layer * d.nodesPerLayer + node) * (d.maxArity + 1)]? = some k →
      ((d.primitives.length : Int) ≤ k → d.getPrimitive genome layer node = .error .assertionError) ∧
      (∀ (j : Nat) (p : CgpPrimitive V), k = j → d.primitives[j]? = some p → d.getPrimitive genome layer node = .ok p)) := by
  refine ⟨fun h => by simp only [CgpDecoder.getPrimitive]; rw [if_neg h], fun hl hn k hk => ?_⟩
  have hpos : (layer * d.nodesPerLayer + node) * (d.maxArity + 1) < genome.length :=
    (List.getElem?_eq_some_iff.1 hk).1
  have hidx : pyIndex genome (((layer * d.nodesPerLayer + node) * (d.maxArity + 1) : Nat) : Int) = .ok k := by
    have h1 : pyPos genome.length (((layer * d.nodesPerLayer + node) * (d.maxArity + 1) : Nat) : Int) =
        some ((layer * d.nodesPerLayer + node) * (d.maxArity + 1)) := by
      unfold pyPos
      rw [if_pos (by omega), if_pos (by exact_mod_cast hpos)]
      simp only [Int.toNat_natCast]
    simp only [pyIndex, h1, hk]
  refine ⟨fun hge => ?_, ?_⟩
  · simp only [CgpDecoder.getPrimitive]
    rw [if_pos ⟨hl, hn⟩, hidx]
    show (if k < (d.primitives.length : Int) then _ else _) = _
    rw [if_neg (by omega)]
  · rintro j p rfl hp
    have hj : j < d.primitives.length := (List.getElem?_eq_some_iff.1 hp).1
    simp only [CgpDecoder.getPrimitive]
    rw [if_pos ⟨hl, hn⟩, hidx]
    show (if (j : Int) < (d.primitives.length : Int) then _ else _) = _
    rw [if_pos (by exact_mod_cast hj)]
    have h1 : pyPos d.primitives.length (j : Int) = some j := by
      unfold pyPos
      rw [if_pos (by omega), if_pos (by exact_mod_cast hj)]
      simp
    simp only [pyIndex, h1, hp]

/-- C50: a hidden node that was given no function is a `KeyError`, once its inputs are there. -/
theorem cgp_node_without_function {V : Type} (g : CgpGraph V) (out : Int → Option V) (i : Int) (vals : List V)
    (hv : pyMapM (readOutput out) (g.inNodes i) = .ok vals) (hf : g.function i = none) :
    cgpStep g out i = .error .keyError := by
  simp only [cgpStep, hv, hf, bind, Except.bind]

/-! ### Neural networks -/

/-- C54: a weight matrix with more rows than the layer before it has nodes cannot be drawn. -/
theorem matrix_too_many_rows {R : Type} (previous targets : List NodeId) (rows : List (List R))
    (hw : ∀ row ∈ rows, row.length ≤ targets.length) (h : previous.length < rows.length) :
    matrixEdges previous targets 0 rows = .error .indexError := by
  have gen : ∀ (rows : List (List R)) (r : Nat), (∀ row ∈ rows, row.length ≤ targets.length) →
      previous.length < r + rows.length → rows ≠ [] → matrixEdges previous targets r rows = .error .indexError := by
    intro rows
    induction rows with
    | nil => intro r _ _ h; exact absurd rfl h
    | cons row rows ih =>
      intro r hw hr _
      simp only [matrixEdges]
      by_cases hp : r < previous.length
      · have hne : rows ≠ [] := by
          rintro rfl
          simp at hr; omega
        have := ih (r + 1) (fun x hx => hw x (by simp [hx])) (by simp at hr; omega) hne
        have hrow : rowEdges previous[r] targets row = .ok (List.zipWith (fun t w => ⟨previous[r], t, w⟩) targets row) := by
          simp only [rowEdges]; rw [if_pos (hw row (by simp))]
        simp only [List.getElem?_eq_getElem hp, hrow, this, bind, Except.bind]
      · have : previous[r]? = none := List.getElem?_eq_none (by omega)
        simp only [this]
  exact gen rows 0 hw (by simpa using h) (by rintro rfl; simp at h)

/-! ### Rules -/

/-- C51: an executable without rules has nothing to choose from. -/
theorem pitt_call_no_rules (e : PittExec) (choose : List Nat → Nat) (input : List ℚ) (h : e.rules = []) :
    e.call choose input = .error .valueError := by
  have h1 : e.matchSet input = .ok ([], -1) := by simp [PittExec.matchSet, h, matchSetFrom]
  have h2 : ¬ (-1 : ℚ) = 0 := by norm_num
  simp [PittExec.call, h1, h2]

/-! ### Small functions -/

/-- C48: an empty front cannot be given crowding distances. -/
theorem crowd_layers_empty (fitness : Nat → List ℚ) (maximize : List Bool) (lps : List (List Nat)) (distance : Nat → WithTop ℚ) :
    crowdLayers fitness maximize ([] :: lps) distance = .error .indexError ∧ crowdLayers fitness maximize [] distance = .ok distance := by
  constructor <;> simp [crowdLayers]

/-- C50: list indexing: positions from the front and from the back, `IndexError` outside. -/
theorem index_exact {α : Type} (l : List α) (i : Nat) :
    (∀ h : i < l.length, pyIndex l (i : Int) = .ok l[i]) ∧
    (∀ h : i < l.length, pyIndex l (-(i + 1 : Int)) = .ok (l[l.length - 1 - i]'(by omega))) ∧
    (l.length ≤ i → pyIndex l (i : Int) = .error .indexError ∧ pyIndex l (-(i + 1 : Int)) = .error .indexError) := by
  refine ⟨fun h => ?_, fun h => ?_, fun h => ⟨?_, ?_⟩⟩
  · have : pyPos l.length (i : Int) = some i := by
      unfold pyPos; rw [if_pos (by omega), if_pos (by omega)]; simp
    simp [pyIndex, this, h]
  · have : pyPos l.length (-(i + 1 : Int)) = some (l.length - 1 - i) := by
      unfold pyPos
      rw [if_neg (by omega), if_pos (by omega)]
      congr 1; omega
    have h2 : l.length - 1 - i < l.length := by omega
    simp only [pyIndex, this, List.getElem?_eq_getElem h2]
  · have : pyPos l.length (i : Int) = none := by
      unfold pyPos; rw [if_pos (by omega), if_neg (by omega)]
    simp [pyIndex, this]
  · have : pyPos l.length (-(i + 1 : Int)) = none := by
      unfold pyPos; rw [if_neg (by omega), if_neg (by omega)]
    simp only [pyIndex, this]

/-- C24: the checks of the genome functions accept exactly one rate: an expected number of mutations, or a probability
between 0 and 1. -/
theorem genome_rate_exact (expected probability : Option ℚ) (n : Nat) :
    (checkRateGenome expected probability = .ok () ↔
      (expected ≠ none ∧ probability = none) ∨ (expected = none ∧ ∃ p, probability = some p ∧ 0 ≤ p ∧ p ≤ 1)) ∧
    (checkRateGenome expected probability ≠ .ok () → checkRateGenome expected probability = .error .assertionError) ∧
    geneProbability none none n = .error .typeError ∧
    (∀ p, geneProbability expected (some p) n = .ok p) ∧
    (∀ e, 0 < n → geneProbability (some e) none n = .ok (e / n)) ∧
    (∀ e, geneProbability (some e) none 0 = .error .zeroDivisionError) := by
  refine ⟨?_, ?_, rfl, fun p => rfl, ?_, fun e => rfl⟩
  · cases expected <;> cases probability <;> simp [checkRateGenome]
    rename_i p
    by_cases h0 : 0 ≤ p <;> by_cases h1 : p ≤ 1 <;> simp [h0, h1]
  · cases expected <;> cases probability <;> simp [checkRateGenome]
    rename_i p
    by_cases h0 : 0 ≤ p <;> by_cases h1 : p ≤ 1 <;> simp [h0, h1] <;> first | exact not_le.1 h1 | skip
  · intro e hn
    simp only [geneProbability, computeExpectedProbability]
    rw [if_neg (by omega)]
    congr 1; ring

/-- C28: a real-valued decoder refuses a malformed segment, then an empty list of segments; otherwise it has one dimension
per segment. -/
theorem real_decoder_refusals (segs : List RealSeg) :
    (.malformed ∈ segs → realInit segs = .error .valueError) ∧
    realInit [] = .error .typeError ∧
    (segs ≠ [] → .malformed ∉ segs → ∃ dims, realInit segs = .ok dims ∧ dims.length = segs.length ∧
      ∀ (i b : Nat) (lo hi : ℚ), segs[i]? = some (.triple b lo hi) → dims[i]? = some (realDim b lo hi)) := by
  refine ⟨?_, by decide, ?_⟩
  · intro h
    have : segs.any (· == .malformed) = true := by
      rw [List.any_eq_true]; exact ⟨_, h, by decide⟩
    simp [realInit, this]
  · intro hne h
    have h1 : segs.any (· == .malformed) = false := by
      rw [List.any_eq_false]
      intro x hx hm
      have : x = .malformed := by simpa using hm
      exact h (this ▸ hx)
    have h2 : segs.isEmpty = false := by cases segs <;> simp_all
    refine ⟨_, by simp only [realInit, h1, h2]; rfl, ?_, ?_⟩
    · clear hne h1 h2
      induction segs with
      | nil => rfl
      | cons s ss ih =>
        cases s with
        | malformed => simp at h
        | triple b lo hi => simp at h; simpa using ih h
    · clear hne h1 h2
      intro i b lo hi
      induction segs generalizing i with
      | nil => simp
      | cons s ss ih =>
        cases s with
        | malformed => simp at h
        | triple b' lo' hi' =>
          simp at h
          cases i with
          | zero => simp; rintro rfl rfl rfl; rfl
          | succ i => simpa using ih h i

/-- `bounds(num_rules)` refuses memory registers, and otherwise gives every rule the same bounds: each condition's interval twice, then the actions. -/
theorem pitt_bounds_exact (d : PittDims) (low high : List ℚ) (n numRules : Nat) :
    pittBounds d low high n numRules = if d.numMemory = 0 then
      .ok (List.replicate numRules (((List.zip low high).flatMap fun b => [b, b]) ++ [(0, (n : ℚ) - 1)])) else .error .valueError := by
  unfold pittBounds conditionBounds
  by_cases h : d.numMemory = 0
  · simp [h]
  · simp [h, Nat.pos_of_ne_zero h]

end Leap
