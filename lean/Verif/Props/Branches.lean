import Verif.Props.Segmented
import Verif.Props.Cgp
import Verif.Props.NeuralNet
import Verif.Props.TruthTable
import Verif.Props.Transform
import Verif.Props.Rules
import Verif.Props.Counters
import Verif.Model.Crowding
import Verif.Model.Proportional

/-!
# Remaining branches

Theorems about branches the property theorems elsewhere do not reach: what the mutation functions leave in the array they
are given, and the exception raised by ill-formed arguments.
-/

namespace Leap

open Spec

variable {ρ : Type}

/-! ### Mutation functions on shared arrays -/

/-- C23, C25: the Gaussian mutation function returns what `genome_mutate_gaussian` computes, as a new array, or its exception,
after consuming one batch of random numbers. The array it was given is left with the mutated genes *before* the hard bounds are
applied (unchanged when that computation raises). -/
theorem gaussian_fn_exact (std : ScalarOrList ℚ) (expected : GaussRate) (bounds : HardBounds ℚ) (slope intercept : ℚ)
    (rand : ρ → (List ℚ × List ℚ) × ρ) (g : List ℚ) (s : ρ) (u z : List ℚ) (s' : ρ) (hrand : rand s = ((u, z), s')) :
    (gaussianFn std expected bounds slope intercept rand g s).rng = s' ∧
    (∀ g', genomeMutateGaussian std expected bounds slope intercept u z g = .ok g' →
      (gaussianFn std expected bounds slope intercept rand g s).result = .ok (some g')) ∧
    (∀ e, genomeMutateGaussian std expected bounds slope intercept u z g = .error e →
      (gaussianFn std expected bounds slope intercept rand g s).result = .error e) ∧
    (∀ raw, genomeMutateGaussian std expected (.all (none, none)) slope intercept u z g = .ok raw →
      (gaussianFn std expected bounds slope intercept rand g s).left = raw) ∧
    (∀ e, genomeMutateGaussian std expected (.all (none, none)) slope intercept u z g = .error e →
      (gaussianFn std expected bounds slope intercept rand g s).left = g) := by
  have hclip : clip1 ((none, none) : Bound ℚ) = id := by funext x; rfl
  have hid : ∀ m : List ℚ, applyHardBounds m (.all (none, none)) = .ok m := by
    intro m; simp only [applyHardBounds, hclip, List.map_id]
  unfold gaussianFn genomeMutateGaussian
  simp only [hrand, hid]
  by_cases hs : stdAccepted std = true
  · cases h1 : gaussProbability expected g.length with
    | error e => simp [hs]
    | ok p =>
      cases h2 : bernoulliVector (u.take g.length) p with
      | error e => simp [hs, h2]
      | ok mask =>
        cases h3 : gaussStd std mask with
        | error e => simp [hs, h2, h3]
        | ok stds =>
          cases h4 : boolIndex g mask with
          | error e => simp [hs, h2, h3, h4]
          | ok sel =>
            cases h5 : boolAssign g mask (List.zipWith (fun g zs => slope * (g + zs) + intercept) sel
                  (List.zipWith (· * ·) z stds)) with
            | error e => simp [hs, h2, h3, h4, h5]
            | ok m =>
              cases h6 : applyHardBounds m bounds with
              | error e => simp [hs, h2, h3, h4, h5, h6]
              | ok g' => simp [hs, h2, h3, h4, h5, h6]
  · simp [hs]

/-- Non-vacuity: one gene mutated beyond its bound; the caller's array keeps the unclipped value. -/
example : (gaussianFn (ρ := Unit) (.scalar 1) .isotropic (.all (some 0, some 2)) 1 0
      (fun _ => (([0, 0], [5, -1/2]), ())) [1, 1] ()).result.toOption = some (some [2, 1/2]) ∧
    (gaussianFn (ρ := Unit) (.scalar 1) .isotropic (.all (some 0, some 2)) 1 0
      (fun _ => (([0, 0], [5, -1/2]), ())) [1, 1] ()).left = [6, 1/2] := by decide +kernel

/-- C20, C25: the bit-flip mutation function returns the very array it was given, holding the mutated genes; when it raises the
array is unchanged. -/
theorem bitflip_fn_exact (expected probability : Option ℚ) (rand : ρ → List ℚ × ρ) (g : List Int) (s : ρ)
    (u : List ℚ) (s' : ρ) (hrand : rand s = (u, s')) :
    (∀ g', genomeMutateBitflip expected probability u g = .ok g' →
      bitflipFn expected probability rand g s = ⟨g', .ok none, s'⟩) ∧
    (∀ e, genomeMutateBitflip expected probability u g = .error e →
      bitflipFn expected probability rand g s = ⟨g, .error e, s'⟩) := by
  constructor <;> intro x hx <;> simp [bitflipFn, hrand, hx]

/-- C21, C25: likewise the integer resampling function. -/
theorem randint_fn_exact (bounds : List (Int × Int)) (expected probability : Option ℚ)
    (rand : ρ → (List ℚ × List Int) × ρ) (g : List Int) (s : ρ) (u : List ℚ) (draws : List Int) (s' : ρ)
    (hrand : rand s = ((u, draws), s')) :
    (∀ g', individualMutateRandint bounds expected probability u draws g = .ok g' →
      randintFn bounds expected probability rand g s = ⟨g', .ok none, s'⟩) ∧
    (∀ e, individualMutateRandint bounds expected probability u draws g = .error e →
      randintFn bounds expected probability rand g s = ⟨g, .error e, s'⟩) := by
  constructor <;> intro x hx <;> simp [randintFn, hrand, hx]

example : bitflipFn none (some 1) (fun (_ : Unit) => ([0, 0], ())) [0, 1] () = ⟨[1, 0], .ok none, ()⟩ := by
  rw [(bitflip_fn_exact none (some 1) (fun (_ : Unit) => ([0, 0], ())) [0, 1] () [0, 0] () rfl).1 [1, 0] (by decide +kernel)]

/-! ### Truth tables -/

/-- C55: without padding, a target function that returns its argument itself defines the identity as the target: the fitness is
the fraction of the rows the program returns unchanged, for one-input tables too. -/
theorem tt_identity_target (n : Nat) (hn : 0 < n) (x : TTExecutable) (program : List Int → List Int)
    (hx : ∀ row, BitRow n row → x.call row = .ok (program row)) :
    ∃ agreeing : List (List Int), agreeing.Nodup ∧ (∀ row, row ∈ agreeing ↔ BitRow n row ∧ program row = row) ∧
      ttEvaluate ⟨fun _ => .ok .sameObject, n, false⟩ x = .ok ((agreeing.length : ℚ) / 2 ^ n) := by
  obtain ⟨rows, h1, h2, h3, h4⟩ := (tt_enumerate n).2 hn
  have hscore := ttScore_ok ⟨fun _ => .ok .sameObject, n, false⟩ x (fun row => program row == row) rows (by
    intro row hr
    have hb := (h4 row).mp hr
    have hl : 0 < row.length := by rw [hb.1]; exact hn
    simp [ttRow, checkExpected, if_pos hl, padRow, hx row hb, expectedAfter, bind, Except.bind]) 0
  refine ⟨rows.filter fun row => program row == row, List.Nodup.filter _ h2, ?_, ?_⟩
  · intro row
    rw [List.mem_filter, h4, beq_iff_eq]
  · simp only [ttEvaluate, h1, hscore, bind, Except.bind, h3]
    simp

example : ttEvaluate ⟨fun _ => .ok .sameObject, 1, false⟩ ⟨fun l => .ok l, none⟩ = .ok 1 := by decide +kernel

/-- C55: padding asks the executable for `num_inputs`; one without that attribute cannot be evaluated. -/
theorem tt_padding_needs_num_inputs (function : List Int → PyM TTExpected) (n : Nat) (hn : 0 < n) (x : TTExecutable)
    (hx : x.numInputs = none) (target : List Int → List Int)
    (hf : ∀ row, BitRow n row → function row = .ok (.fresh (target row)) ∧ target row ≠ []) :
    ttEvaluate ⟨function, n, true⟩ x = .error .attributeError := by
  obtain ⟨rows, h1, -, h3, h4⟩ := (tt_enumerate n).2 hn
  cases rows with
  | nil =>
    have : 0 < 2 ^ n := Nat.two_pow_pos n
    simp only [List.length_nil] at h3
    omega
  | cons row rows =>
    have hb := (h4 row).mp (List.mem_cons_self ..)
    obtain ⟨hf1, hf2⟩ := hf row hb
    simp only [ttEvaluate, h1, bind, Except.bind, ttScore, ttRow, hf1, checkExpected, if_pos (List.length_pos_iff.mpr hf2),
      padRow, hx, if_true]

example : ttEvaluate ⟨fun r => .ok (.fresh [r.getD 0 0]), 2, true⟩ ⟨fun l => .ok l, none⟩ = .error .attributeError := by
  decide +kernel

/-! ### Neural networks -/

/-- C54: an activation function that returns nothing for some layer fails the assertion in the forward pass. -/
theorem nn_call_empty_activation {R : Type} [Semiring R] (activation : List R → List R) (w : WeightMatrix R)
    (ws : List (WeightMatrix R)) (input : List R) (hi : input.length + 1 = w.nrows) (ha : ∀ v, activation v = []) :
    nnCall activation (w :: ws) input = .error .assertionError := by
  rw [nnCall, npDot, if_pos (by simpa using hi)]
  simp [ha, bind, Except.bind]

example : nnCall (R := ℚ) (fun _ => []) [⟨3, 1, [[1], [2], [3]]⟩] [1, 1] = .error .assertionError :=
  nn_call_empty_activation _ _ _ _ rfl fun _ => rfl

/-! ### Matrix transforms -/

/-- C59: rows of unequal lengths are refused with `ValueError` (the first row having the right length). -/
theorem matrix_ragged_rejected {R V : Type} [CommRing R] (p : RealProblem R V) (row0 : List R) (rest : List (List R))
    (mx : Option Bool) (h0 : row0.length = (row0 :: rest).length) (row : List R) (hr : row ∈ rest)
    (hl : row.length ≠ row0.length) :
    matrixProblem p (row0 :: rest) mx = .error .valueError := by
  simp only [matrixProblem, List.head?_cons]
  rw [if_pos h0.symm, if_neg]
  intro h
  have := List.all_eq_true.1 h row (List.mem_cons_of_mem _ hr)
  exact hl (by simpa using this)

example (p : RealProblem ℚ ℚ) : matrixProblem p [[1, 2], [3]] none = .error .valueError :=
  matrix_ragged_rejected p [1, 2] [[3]] none rfl [3] (by simp) (by simp)

/-! ### Pitt rules -/

/-- C51: the rule initialiser refuses memory registers, and a condition sample of the wrong size fails the assertion on the
number of genes of a rule. -/
theorem pitt_create_rule_refusals (d : PittDims) (conditions : List ℚ) (action : ℚ) :
    (d.numMemory ≠ 0 → createRule d conditions action = .error .valueError) ∧
    (d.numMemory = 0 → conditions.length + 1 ≠ d.genesPerRule → createRule d conditions action = .error .assertionError) := by
  constructor
  · intro hm
    rw [createRule, if_pos (by omega)]
  · intro hm hl
    rw [createRule, if_neg (by omega), if_neg (by simpa using hl)]

example : createRule ⟨2, 1, 0⟩ [0, 1, 2] 0 = .error .assertionError := by decide +kernel
example : createRule ⟨2, 1, 1⟩ [0, 1, 2] 0 = .error .valueError := by decide +kernel

/-! ### Branding -/

/-- C32: branding an exhausted generator raises `RuntimeError` (the `StopIteration` escapes from inside a generator) and changes
nothing. -/
theorem branding_exhausted_generator (s : BrandState) :
    brandingStep (.generator []) s = (.error .runtimeError, .generator [], s) := rfl

/-! ### CGP genomes that break the constraints -/

/-- C50: `decode` does not check the constraints; a node that reads a node not computed yet makes the first call of the
decoded circuit raise `KeyError`. -/
theorem cgp_forward_reference_raises {V : Type} (g : CgpGraph V) (numInputs numOutputs : Nat) (input : List V)
    (hi : input.length = numInputs) (hh : 0 < g.nodes.length - numInputs - numOutputs) (src : Int) (rest : List Int)
    (hs : g.inNodes numInputs = src :: rest) (hsrc : (numInputs : Int) ≤ src) :
    cgpCall g numInputs numOutputs (fun _ => none) input = .error .keyError := by
  have hfold : ∀ (ks : List Int) (vs : List V) (o : Int → Option V), (∀ k ∈ ks, k < numInputs) → o src = none →
      (List.zip ks vs).foldl (fun o iv => setNode o iv.1 (some iv.2)) o src = none := by
    intro ks
    induction ks with
    | nil => intro vs o _ ho; simpa using ho
    | cons k ks ih =>
      intro vs o hk ho
      cases vs with
      | nil => simpa using ho
      | cons v vs =>
        rw [List.zip_cons_cons, List.foldl_cons]
        refine ih vs _ (fun j hj => hk j (List.mem_cons_of_mem _ hj)) ?_
        have := hk k (List.mem_cons_self ..)
        simp only [setNode]
        rw [if_neg (by omega), ho]
  obtain ⟨h, hh'⟩ : ∃ h, g.nodes.length - numInputs - numOutputs = h + 1 := ⟨_, (Nat.succ_pred_eq_of_pos hh).symm⟩
  have hr : intRange (numInputs : Int) (h + 1) = (numInputs : Int) :: intRange (numInputs + 1) h := by
    simp only [intRange, List.range_succ_eq_map, List.map_cons, List.map_map]
    rw [List.cons_eq_cons]
    refine ⟨by simp, ?_⟩
    apply List.map_congr_left
    intro k _
    simp only [Function.comp, Nat.succ_eq_add_one]; push_cast; ring
  have hks : ∀ k ∈ intRange 0 numInputs, k < (numInputs : Int) := by
    intro k hk
    simp only [intRange, List.mem_map, List.mem_range] at hk
    obtain ⟨j, hj, rfl⟩ := hk
    omega
  simp only [cgpCall, if_pos hi, hh', hr, cgpRunNodes, cgpStep, hs, pyMapM, readOutput]
  rw [hfold _ _ _ hks rfl]
  rfl

example : (do let g ← cgpDecode (exDecoder false) [0, 0, 4,  1, 0, 1,  1, 3, 2,  0, 0, 3,  4, 3]
              let r ← cgpCall g 2 2 (fun _ => none) [12, 5]
              return r.1) = (.error .keyError : PyM (List Int)) := by decide +kernel

/-! ### Crowding and stochastic universal sampling -/

/-- C46: `per_rank_crowding_calc` on an empty population raises `IndexError` (and no `distance` is set) as soon as there is an
objective; without objectives it returns the empty list. -/
theorem crowding_empty_rank (fitness : Nat → List ℚ) (isMaximizing : List Bool) (distance : Nat → WithTop ℚ) :
    (isMaximizing ≠ [] → perRankCrowding fitness isMaximizing [] distance = .error .indexError) ∧
    (isMaximizing = [] → perRankCrowding fitness isMaximizing [] distance = .ok ([], distance)) := by
  constructor <;> intro h <;> simp [perRankCrowding, h]

/-- C16: a point of the wheel beyond its end, which exact arithmetic excludes but a rounded sum may give, makes the inner loop
of `sus_selection` run off the end of the values: `IndexError`. -/
theorem sus_point_beyond_wheel (point : ℚ) (values : List ℚ) (hv : ∀ v ∈ values, 0 ≤ v) (running : ℚ) (idx : Nat)
    (h : running + values.sum < point) : susAdvance point values running idx = .error .indexError := by
  induction values generalizing running idx with
  | nil => rw [susAdvance, if_pos (by simpa using h)]
  | cons v vs ih =>
    have hvs : 0 ≤ vs.sum := List.sum_nonneg fun x hx => hv x (List.mem_cons_of_mem _ hx)
    have h0 := hv v (List.mem_cons_self ..)
    rw [List.sum_cons] at h
    rw [susAdvance, if_pos (by linarith)]
    exact ih (fun x hx => hv x (List.mem_cons_of_mem _ hx)) _ _ (by linarith)

example : susAdvance 7 [1, 2, 3] 0 0 = .error .indexError := by decide +kernel

/-! ### Drawing a network -/

/-- C54: a row of weights longer than the layer it leads to cannot be drawn: `IndexError`; a row that fits gives its edges. -/
theorem row_edges_spec {R : Type} (source : NodeId) (targets : List NodeId) (row : List R) :
    (targets.length < row.length → rowEdges source targets row = .error .indexError) ∧
    (row.length ≤ targets.length → ∃ es, rowEdges source targets row = .ok es ∧ es.length = row.length ∧
      ∀ i (hi : i < row.length) (ht : i < targets.length), es[i]? = some ⟨source, targets[i], row[i]⟩) := by
  constructor
  · intro h; rw [rowEdges, if_neg (by omega)]
  · intro h
    refine ⟨_, by rw [rowEdges, if_pos h], by simp [h], ?_⟩
    intro i hi ht
    simp [List.getElem?_zipWith, List.getElem?_eq_getElem hi, List.getElem?_eq_getElem ht]

/-- C51: a rule segment with the wrong number of genes is refused, wherever it is in the rule set and whatever was mutated
before it. -/
theorem pitt_mutation_refusals {ρ : Type} (d : PittDims) (conditionMutator actionMutator : List ℚ → ρ → PyM (List ℚ × ρ))
    (before : List (List ℚ)) (out : List (List ℚ)) (segment : List ℚ) (rest : List (List ℚ)) (s s' : ρ)
    (hb : ruleSetMutate d conditionMutator actionMutator before s = .ok (out, s')) (hl : segment.length ≠ d.genesPerRule) :
    ruleSetMutate d conditionMutator actionMutator (before ++ segment :: rest) s = .error .assertionError := by
  induction before generalizing s out with
  | nil =>
    simp only [ruleSetMutate, Except.ok.injEq, Prod.mk.injEq] at hb
    simp [ruleSetMutate, ruleMutate, hl]
  | cons x xs ih =>
    rw [ruleSetMutate] at hb
    rw [List.cons_append, ruleSetMutate]
    cases e : ruleMutate d conditionMutator actionMutator x s with
    | error err => rw [e] at hb; cases hb
    | ok q =>
      rw [e] at hb
      simp only at hb ⊢
      cases e2 : ruleSetMutate d conditionMutator actionMutator xs q.2 with
      | error err => rw [e2] at hb; cases hb
      | ok q2 =>
        rw [e2] at hb
        simp only [Except.ok.injEq, Prod.mk.injEq] at hb
        rw [ih q2.1 q.2 (by rw [e2, ← hb.2])]

/-- One condition, one action, one output: genes per rule are 3; the second rule is short. -/
example : ruleSetMutate (ρ := Unit) ⟨1, 1, 0⟩ (fun l s => .ok (l, s)) (fun l s => .ok (l, s)) ([[1, 2, 3]] ++ [[1, 2]]) () =
    .error .assertionError :=
  pitt_mutation_refusals ⟨1, 1, 0⟩ _ _ [[1, 2, 3]] [[1, 2, 3]] [1, 2] [] () () (by decide +kernel) (by decide)

end Leap
