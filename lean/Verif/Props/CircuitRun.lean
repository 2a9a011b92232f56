import Verif.Model.CircuitRun
import Verif.Props.TruthTable
import Verif.Props.CgpOps
import Verif.Props.EvoTotal

/-! # Evolving circuits (C121) -/

namespace Leap

variable {V ρ : Type}

namespace Spec

/-- Given as many arguments as it takes, all of them good, each primitive gives a good value. -/
def DefinedOn (good : V → Prop) (d : CgpDecoder V) : Prop :=
  ∀ f ∈ d.primitives, ∀ args, args.length = usedArity d f → (∀ x ∈ args, good x) → ∃ v, f.call args = .ok v ∧ good v

/-- On this row of the truth table the circuit described by the genome gives the outputs asked for. -/
def RightOn (d : CgpDecoder Int) (genome : List Int) (pad : Bool) (target : List Int → List Int) (row : List Int) : Prop :=
  Outputs d genome (fun _ => []) (paddedRow pad d.numInputs row) (target row)

/-- The circuit computes the target: it is right on every row. -/
def ComputesTable (d : CgpDecoder Int) (genome : List Int) (pad : Bool) (n : Nat) (target : List Int → List Int) : Prop :=
  ∀ row, BitRow n row → RightOn d genome pad target row

/-- `f` is the fraction of the rows on which the circuit is right. -/
def FractionRight (d : CgpDecoder Int) (genome : List Int) (pad : Bool) (n : Nat) (target : List Int → List Int) (f : ℚ) : Prop :=
  ∃ right : List (List Int), right.Nodup ∧ (∀ row, row ∈ right ↔ BitRow n row ∧ RightOn d genome pad target row) ∧ f = right.length / 2 ^ n

end Spec

open Spec

/-- Every source a valid genome can name has a value. -/
theorem circuit_values (good : V → Prop) (d : CgpDecoder V) (hdef : DefinedOn good d) (genome : List Int) (hv : CgpValid d genome)
    (input : List V) (hl : input.length = d.numInputs) (hin : ∀ x ∈ input, good x) (m : Nat)
    (hm : m < d.numInputs + d.numLayers * d.nodesPerLayer) : ∃ v, Evaluates d genome (fun _ => []) input m v ∧ good v := by
  induction m using Nat.strong_induction_on with
  | _ m ih =>
    by_cases hi : m < d.numInputs
    · have hi' : m < input.length := by omega
      exact ⟨input[m], .input m _ hi (List.getElem?_eq_getElem hi'), hin _ (List.getElem_mem hi')⟩
    · obtain ⟨k, rfl⟩ : ∃ k, m = d.numInputs + k := ⟨m - d.numInputs, by omega⟩
      have hk : k < d.numLayers * d.nodesPerLayer := by omega
      have hnpl : 0 < d.nodesPerLayer := by
        rcases Nat.eq_zero_or_pos d.nodesPerLayer with h | h
        · rw [h] at hk; omega
        · exact h
      have hdiv : k / d.nodesPerLayer * d.nodesPerLayer + k % d.nodesPerLayer = k := Nat.div_add_mod' k _
      have hL : k / d.nodesPerLayer < d.numLayers := Nat.div_lt_of_lt_mul (by rw [Nat.mul_comm]; exact hk)
      have hN : k % d.nodesPerLayer < d.nodesPerLayer := Nat.mod_lt _ hnpl
      obtain ⟨p, hp1, hp2⟩ := hv.primitive _ _ hL hN
      rw [hdiv] at hp1
      have hp3 : d.primitives[p]? = some d.primitives[p] := List.getElem?_eq_getElem hp2
      have hua : usedArity d d.primitives[p] ≤ d.maxArity := by
        unfold usedArity
        split
        · exact Nat.min_le_right _ _
        · exact Nat.le_refl _
      have hsrc : ∀ j : Fin (usedArity d d.primitives[p]), ∃ (s : Int) (x : V), genome[k * (d.maxArity + 1) + 1 + j]? = some s ∧
          Evaluates d genome (fun _ => []) input s x ∧ good x := by
        intro j
        obtain ⟨s, hs1, hs2⟩ := hv.source _ _ j hL hN (by omega)
        rw [hdiv] at hs1
        have hs3 : ∃ t : Nat, s = t ∧ t < d.numInputs + k := by
          rcases hs2 with ⟨h1, h2, -⟩ | ⟨l', n', h1, h2, h3, -⟩
          · exact ⟨s.toNat, by omega, by omega⟩
          · refine ⟨d.numInputs + l' * d.nodesPerLayer + n', by rw [h3]; push_cast; ring, ?_⟩
            have : (l' + 1) * d.nodesPerLayer ≤ k / d.nodesPerLayer * d.nodesPerLayer := Nat.mul_le_mul_right _ h1
            rw [Nat.add_mul] at this
            omega
        obtain ⟨t, rfl, ht⟩ := hs3
        obtain ⟨x, hx1, hx2⟩ := ih t ht (by omega)
        exact ⟨t, x, hs1, hx1, hx2⟩
      choose src val h1 h2 h3 using hsrc
      obtain ⟨v, hv1, hv2⟩ := hdef _ (List.getElem_mem hp2) (List.ofFn val) (by simp) (by
        intro x hx
        rw [List.mem_ofFn] at hx
        obtain ⟨j, rfl⟩ := hx
        exact h3 j)
      refine ⟨v, .node k p d.primitives[p] (List.ofFn val) v hk hp1 hp3 (by simp) ?_ (by simpa using hv1), hv2⟩
      intro j s x hj hs hx
      have e1 := h1 ⟨j, hj⟩
      simp only at e1
      rw [hs, Option.some.injEq] at e1
      rw [List.getElem?_ofFn] at hx
      simp only [hj, ↓reduceDIte, Option.some.injEq] at hx
      rw [e1, ← hx]
      exact h2 ⟨j, hj⟩

/-- The values at the outputs are unique. -/
theorem outputs_unique (d : CgpDecoder V) (genome : List Int) (hv : CgpValid d genome) (params : Nat → List V) (input r r' : List V)
    (h : Outputs d genome params input r) (h' : Outputs d genome params input r') : r = r' := by
  apply List.ext_getElem?
  intro o
  by_cases ho : o < d.numOutputs
  · obtain ⟨s, hs, -⟩ := hv.output o ho
    have h1 : r[o]? = some (r[o]'(by rw [h.1]; exact ho)) := List.getElem?_eq_getElem _
    have h2 : r'[o]? = some (r'[o]'(by rw [h'.1]; exact ho)) := List.getElem?_eq_getElem _
    rw [h1, h2, evaluates_unique d genome hv params input s _ _ (h.2 o s _ hs h1) (h'.2 o s _ hs h2)]
  · rw [List.getElem?_eq_none (by rw [h.1]; omega), List.getElem?_eq_none (by rw [h'.1]; omega)]

/-- C121: a circuit whose primitives are defined on good values never fails on good inputs, pruned or not: it returns one good value per
output, and these are the values the genome describes. -/
theorem circuit_completes (good : V → Prop) (d : CgpDecoder V) (hdef : DefinedOn good d) (genome : List Int) (hv : CgpValid d genome)
    (out : Int → Option V) (input : List V) (hl : input.length = d.numInputs) (hin : ∀ x ∈ input, good x) :
    ∃ g r out', cgpDecode d genome = .ok g ∧ cgpCall g d.numInputs d.numOutputs out input = .ok (r, out') ∧
      Outputs d genome (fun _ => []) input r ∧ r.length = d.numOutputs ∧ ∀ x ∈ r, good x := by
  have hval := circuit_values good d hdef genome hv input hl hin
  have hout : ∀ o : Fin d.numOutputs, ∃ (s : Int) (v : V),
      genome[d.numLayers * d.nodesPerLayer * (d.maxArity + 1) + o]? = some s ∧ Evaluates d genome (fun _ => []) input s v ∧ good v := by
    intro o
    obtain ⟨s, h1, h2, h3⟩ := hv.output o o.2
    obtain ⟨v, h4, h5⟩ := hval s.toNat (by omega)
    rw [Int.toNat_of_nonneg h2] at h4
    exact ⟨s, v, h1, h4, h5⟩
  choose src val h1 h2 h3 using hout
  have ho : Outputs d genome (fun _ => []) input (List.ofFn val) := by
    refine ⟨by simp, fun o s v hs hx => ?_⟩
    rw [List.getElem?_ofFn] at hx
    by_cases hlt : o < d.numOutputs
    · simp only [hlt, ↓reduceDIte, Option.some.injEq] at hx
      have e1 := h1 ⟨o, hlt⟩
      simp only at e1
      rw [hs, Option.some.injEq] at e1
      rw [e1, ← hx]
      exact h2 ⟨o, hlt⟩
    · simp [hlt] at hx
  obtain ⟨g, hg, -⟩ := cgp_decode_feed_forward d genome hv
  obtain ⟨out', hc⟩ := (cgp_call d genome hv g hg out input hl (List.ofFn val)).2
    ⟨fun _ k hk => (hval (d.numInputs + k) (by omega)).imp fun v h => h.1, ho⟩
  refine ⟨g, _, out', hg, hc, ho, by simp, fun x hx => ?_⟩
  rw [List.mem_ofFn] at hx
  obtain ⟨o, rfl⟩ := hx
  exact h3 o

/-- The genes of a genome within the bounds of the decoder. -/
abbrev circuitGene (d : CgpDecoder Int) (i : Nat) (x : Int) : Prop := ∃ b, d.bounds[i]? = some b ∧ b.1 ≤ x ∧ x ≤ b.2

/-- What the score of a valid genome is. -/
theorem circuit_score (d : CgpDecoder Int) (genome : List Int) (hv : CgpValid d genome) (function : List Int → PyM TTExpected) (n k : Int)
    (pad : Bool) (p : TTProblem) (hp : ttProblem function n k pad = .ok p) (target : List Int → List Int)
    (hf : ∀ row, BitRow n.toNat row → function row = .ok (.fresh (target row))) (x : TTExecutable) (hx : circuitDecode d genome = .ok x)
    (f : ℚ) (h : ttEvaluate p x = .ok f) :
    FractionRight d genome pad n.toNat target f ∧ 0 ≤ f ∧ f ≤ 1 ∧ (f = 1 ↔ ComputesTable d genome pad n.toNat target) := by
  obtain ⟨g, hg, -⟩ := cgp_decode_feed_forward d genome hv
  simp only [circuitDecode, hg, Except.ok.injEq] at hx
  subst hx
  have hpn : p = ⟨function, n.toNat, pad⟩ := by
    rw [ttProblem] at hp
    split at hp
    · split at hp
      · rw [Except.ok.injEq] at hp; exact hp.symm
      · cases hp
    · cases hp
  have hrow : ∀ row, BitRow n.toNat row → target row ≠ [] ∧
      ∃ r, (circuitExecutable d g).call (paddedRow pad d.numInputs row) = .ok r := by
    intro row hb
    obtain ⟨e, padded, observed, h1, -, h3, h4, h5⟩ := tt_returns p _ f h row (by rw [hpn]; exact hb)
    rw [hpn] at h1 h4
    simp only [hf row hb, Except.ok.injEq] at h1
    subst h1
    refine ⟨fun e => h3 (by rw [e]), observed, ?_⟩
    have : padded = paddedRow pad d.numInputs row := by
      rw [padRow] at h4
      cases pad with
      | false => simpa [paddedRow] using h4.symm
      | true =>
        simp only [circuitExecutable, if_true, Except.ok.injEq] at h4
        rw [← h4, paddedRow]
        simp only [if_true]
        split
        · rfl
        · rw [Nat.sub_eq_zero_of_le (by omega)]; simp
    rw [← this]
    exact h5
  classical
  let program : List Int → List Int := fun row => if hb : BitRow n.toNat row then (hrow row hb).2.choose else []
  have hprog : ∀ row, BitRow n.toNat row → (circuitExecutable d g).call (paddedRow pad d.numInputs row) = .ok (program row) := by
    intro row hb
    simp only [program, dif_pos hb]
    exact (hrow row hb).2.choose_spec
  have houts : ∀ row, BitRow n.toNat row → Outputs d genome (fun _ => []) (paddedRow pad d.numInputs row) (program row) := by
    intro row hb
    have h1 := hprog row hb
    simp only [circuitExecutable] at h1
    cases h2 : cgpCall g d.numInputs d.numOutputs (fun _ => none) (paddedRow pad d.numInputs row) with
    | error e => rw [h2] at h1; simp [Except.map] at h1
    | ok v =>
      rw [h2] at h1
      simp only [Except.map, Except.ok.injEq] at h1
      have hlen : (paddedRow pad d.numInputs row).length = d.numInputs := by
        by_contra hcon
        simp only [cgpCall, if_neg hcon] at h2
        cases h2
      exact ((cgp_call d genome hv g hg _ _ hlen _).1 ⟨v.2, by rw [h2, ← h1]⟩).2
  have hiff : ∀ row, BitRow n.toNat row → (program row = target row ↔ RightOn d genome pad target row) := fun row hb =>
    ⟨fun e => by unfold RightOn; rw [← e]; exact houts row hb, fun hr => outputs_unique d genome hv _ _ _ _ (houts row hb) hr⟩
  obtain ⟨agreeing, a1, a2, a3, a4, a5, a6⟩ := tt_fitness function n k pad p hp (circuitExecutable d g) target program d.numInputs (fun _ => rfl)
    (fun row hb => ⟨hf row hb, (hrow row hb).1⟩) hprog
  rw [h, Except.ok.injEq] at a3
  subst a3
  refine ⟨⟨agreeing, a1, fun row => ?_, rfl⟩, a4, a5, ?_⟩
  · rw [a2]
    exact ⟨fun q => ⟨q.1, (hiff row q.1).1 q.2⟩, fun q => ⟨q.1, (hiff row q.1).2 q.2⟩⟩
  · rw [a6]
    exact ⟨fun q row hb => (hiff row hb).1 (q row hb), fun q row hb => (hiff row hb).2 (q row hb)⟩

theorem circuit_bounds_ne (d : CgpDecoder Int) (hnpl : 0 < d.nodesPerLayer) (hL : 0 < d.numLayers) : d.bounds ≠ [] := by
  intro h
  have h1 := bounds_length d
  rw [h, CgpDecoder.numGenes, List.length_nil] at h1
  have : 0 < d.numLayers * d.nodesPerLayer * (d.maxArity + 1) := Nat.mul_pos (Nat.mul_pos hL hnpl) (Nat.succ_pos _)
  omega

theorem circuitStages_ok (d : CgpDecoder Int) (hnpl : 0 < d.nodesPerLayer) (hL : 0 < d.numLayers) (p : TTProblem)
    (expected probability : Option ℚ) (q : ℚ) (hr : RateGives expected probability d.bounds.length q) (h0 : 0 ≤ q) (h1 : q ≤ 1)
    (draw : ρ → (List ℚ × List Int) × ρ) (hu : ∀ s, (draw s).1.1.length = d.bounds.length)
    (hd : ∀ s, ValidRandints (((d.bounds.zip (draw s).1.1).filter (fun y => decide (y.2 < q))).map Prod.fst) (draw s).1.2) :
    ∀ st ∈ ([.mutate (.ok ()) true (randintFn d.bounds expected probability draw), .mutate (.ok ()) false (checkFn d),
      .evaluate (.fn (circuitDecode d)) (circuitProblem p)] : List (Stage Int TTExecutable ℚ ρ)),
      StageOk d.bounds.length (circuitGene d) (ScoredBy (.fn (circuitDecode d)) (circuitProblem p : Prob Int TTExecutable ℚ ρ)) st := by
  intro st hst
  simp only [List.mem_cons, List.not_mem_nil, or_false] at hst
  rcases hst with rfl | rfl | rfl
  · exact randint_stage_ok _ _ d.bounds expected probability draw q (circuit_bounds_ne d hnpl hL) hr h0 h1 hu hd _
  · intro g s hg
    unfold checkFn
    cases cgpCheck d (g.map CgpGene.int) with
    | error e => trivial
    | ok _ => exact hg
  · exact evaluate_stage_ok _ _

theorem circuitInit_ok (d : CgpDecoder Int) (hnpl : 0 < d.nodesPerLayer) (draws : List Int)
    (hdraw : List.Forall₂ (fun b x => b.1 ≤ x ∧ x < b.2) (d.bounds.map fun b => (b.1, b.2 + 1)) draws) :
    ∃ g, cgpInitializer d draws = .ok g ∧ GenesIn d.bounds.length (circuitGene d) g := by
  obtain ⟨g, e, hv⟩ := cgp_created_valid d hnpl draws hdraw
  exact ⟨g, e, (genes_in_cgp_bounds_iff d hnpl g).2 hv⟩

/-- C121: evolving circuits for a truth table. Whatever the random numbers, the selection, the rate of mutation and the length of the run: the
run changes nothing that was in memory before, and everybody it returns has a genome that respects the constraints and has as fitness exactly
the fraction of the rows of the table on which the circuit described by the genome gives the outputs asked for. So the fitness lies between 0 and 1, and
it is 1 just when the circuit computes the table. With an elite, the run returns for every circuit of the first population one that is at
least as good. -/
theorem circuit_run_members (d : CgpDecoder Int) (hnpl : 0 < d.nodesPerLayer) (hL : 0 < d.numLayers) (function : List Int → PyM TTExpected)
    (n k : Int) (pad : Bool) (p : TTProblem) (hp : ttProblem function n k pad = .ok p) (target : List Int → List Int)
    (hf : ∀ row, BitRow n.toNat row → function row = .ok (.fresh (target row))) (init : ρ → List Int × ρ)
    (hinit : ∀ s, List.Forall₂ (fun b x => b.1 ≤ x ∧ x < b.2) (d.bounds.map fun b => (b.1, b.2 + 1)) (init s).1) (expected probability : Option ℚ)
    (q : ℚ) (hr : RateGives expected probability d.bounds.length q) (h0 : 0 ≤ q) (h1 : q ≤ 1) (draw : ρ → (List ℚ × List Int) × ρ)
    (hu : ∀ s, (draw s).1.1.length = d.bounds.length)
    (hd : ∀ s, ValidRandints (((d.bounds.zip (draw s).1.1).filter (fun y => decide (y.2 < q))).map Prod.fst) (draw s).1.2)
    (worse : Option ℚ → Option ℚ → Bool) (choose : Int → List Nat → Mem Int TTExecutable ℚ ρ → PyM Nat × ρ)
    (stop : Int → List Nat → Mem Int TTExecutable ℚ ρ → Bool) (popSize kElites problem : Nat) (generations : Int)
    (m m' : Mem Int TTExecutable ℚ ρ) (hm : Sound m) (out : List Nat)
    (h : circuitRun d p init expected probability draw worse choose stop popSize kElites problem generations m = (.ok out, m')) :
    Unchanged m m' ∧ out.Nodup ∧ out.length = popSize ∧
    (∀ r ∈ out, m.inds.length ≤ r ∧ ∃ genome f, genes m' r = some genome ∧ fitness m' r = some (some f) ∧ CgpValid d genome ∧
      FractionRight d genome pad n.toNat target f ∧ 0 ≤ f ∧ f ≤ 1 ∧ (f = 1 ↔ ComputesTable d genome pad n.toNat target)) ∧
    (StrictWeak worse → (∀ x y, worse (some x) (some y) = decide (x < y)) → 1 ≤ kElites → 1 ≤ popSize →
      ∀ x, m.inds.length ≤ x → x < m.inds.length + popSize → ∃ fx, fitness m' x = some (some fx) ∧
        ∃ r ∈ out, ∃ fr, fitness m' r = some (some fr) ∧ fx ≤ fr) := by
  obtain ⟨e1, e2, e3, e4, e5⟩ := evo_run_members _ _ (.fn (circuitDecode d)) (circuitProblem p) (n := d.bounds.length) (allowed := circuitGene d)
    (fun s g s' hs => by
      obtain ⟨g', h2, h3⟩ := circuitInit_ok d hnpl (init s).1 (hinit s)
      simp only [Prod.mk.injEq, h2, Except.ok.injEq] at hs
      rw [← hs.1]
      exact h3)
    (circuitStages_ok d hnpl hL p expected probability q hr h0 h1 draw hu hd) rfl problem popSize 0 generations m m' hm out h
  refine ⟨e1, e2, by rcases e3 with h | h <;> exact h, fun r hr => ?_, fun hsw hw hk hpop x hx1 hx2 => ?_⟩
  · obtain ⟨h5, g, f, hg, hG, hfit, c, s, hc, hs⟩ := e4 r hr
    have hv := (genes_in_cgp_bounds_iff d hnpl g).1 hG
    refine ⟨h5, g, f, hg, hfit, hv, ?_⟩
    cases hx : circuitDecode d g with
    | error e => simp [decodeOf, hx] at hc
    | ok x =>
      simp only [decodeOf, hx, Except.ok.injEq] at hc
      subst hc
      exact circuit_score d g hv function n k pad p hp target hf x hx f hs
  · obtain ⟨⟨-, fx, -, -, hfx, -⟩, b, hb, hlt⟩ := e5 hsw hk hpop x hx1 hx2
    obtain ⟨-, -, fb, -, -, hfb, -⟩ := e4 b hb
    refine ⟨fx, hfx, b, hb, fb, hfb, ?_⟩
    have hb1 : (m'.inds[b]?).bind Obj.fitness = some fb := by
      cases hi : m'.inds[b]? with
      | none => simp [fitness, hi] at hfb
      | some o => simpa [fitness, hi] using hfb
    have hx1 : (m'.inds[x]?).bind Obj.fitness = some fx := by
      cases hi : m'.inds[x]? with
      | none => simp [fitness, hi] at hfx
      | some o => simpa [fitness, hi] using hfx
    simp only [EvoConfig.lt, hb1, hx1, hw, decide_eq_false_iff_not, not_lt] at hlt
    exact hlt

/-- C121: the run completes, with the operator that checks the constraints in place, if the primitives are defined on good values, the rows of the table (padded, if asked for) are
good and fit the circuits, and the target gives a list of outputs on each row. -/
theorem circuit_run_completes (d : CgpDecoder Int) (hnpl : 0 < d.nodesPerLayer) (hL : 0 < d.numLayers) (good : Int → Prop) (hg0 : good 0)
    (hg1 : good 1) (hdef : DefinedOn good d) (function : List Int → PyM TTExpected)
    (n k : Int) (pad : Bool) (p : TTProblem) (hp : ttProblem function n k pad = .ok p)
    (hfit : n.toNat = d.numInputs ∨ pad = true ∧ n.toNat ≤ d.numInputs) (target : List Int → List Int)
    (hf : ∀ row, BitRow n.toNat row → function row = .ok (.fresh (target row)) ∧ target row ≠ []) (init : ρ → List Int × ρ)
    (hinit : ∀ s, List.Forall₂ (fun b x => b.1 ≤ x ∧ x < b.2) (d.bounds.map fun b => (b.1, b.2 + 1)) (init s).1) (expected probability : Option ℚ)
    (q : ℚ) (hr : RateGives expected probability d.bounds.length q) (h0 : 0 ≤ q) (h1 : q ≤ 1) (draw : ρ → (List ℚ × List Int) × ρ)
    (hu : ∀ s, (draw s).1.1.length = d.bounds.length)
    (hd : ∀ s, ValidRandints (((d.bounds.zip (draw s).1.1).filter (fun y => decide (y.2 < q))).map Prod.fst) (draw s).1.2)
    (worse : Option ℚ → Option ℚ → Bool) (choose : Int → List Nat → Mem Int TTExecutable ℚ ρ → PyM Nat × ρ)
    (hsel : ∀ g pop m, pop ≠ [] → (∀ r ∈ pop, ∃ f, fitness m r = some (some f)) → ∃ i, (choose g pop m).1 = .ok i ∧ i < pop.length)
    (stop : Int → List Nat → Mem Int TTExecutable ℚ ρ → Bool) (popSize : Nat) (hpos : 0 < popSize) (kElites problem : Nat) (generations : Int)
    (m : Mem Int TTExecutable ℚ ρ) (hm : Sound m) :
    ∃ out m', circuitRun d p init expected probability draw worse choose stop popSize kElites problem generations m = (.ok out, m') := by
  have hscore : ∀ g, GenesIn d.bounds.length (circuitGene d) g → ∃ c, decodeOf (.fn (circuitDecode d)) g = .ok c ∧
      ∀ s : ρ, ∃ f, ((circuitProblem p).evaluate c s).1 = .ok f := by
    intro g hG
    have hv := (genes_in_cgp_bounds_iff d hnpl g).1 hG
    obtain ⟨gr, hgr, -⟩ := cgp_decode_feed_forward d g hv
    refine ⟨.value (circuitExecutable d gr), by simp [decodeOf, circuitDecode, hgr], fun s => ?_⟩
    have hcall : ∀ row, BitRow n.toNat row → ∃ r, (circuitExecutable d gr).call (paddedRow pad d.numInputs row) = .ok r := by
      intro row hb
      have hgood : ∀ x ∈ paddedRow pad d.numInputs row, good x := by
        intro x hx
        have : x = 0 ∨ x = 1 := by
          unfold paddedRow at hx
          split at hx
          · rcases List.mem_append.1 hx with hx | hx
            · exact hb.2 x hx
            · exact .inl (List.eq_of_mem_replicate hx)
          · exact hb.2 x hx
        rcases this with rfl | rfl
        · exact hg0
        · exact hg1
      have hlen : (paddedRow pad d.numInputs row).length = d.numInputs := by
        have h3 := hb.1
        unfold paddedRow
        split
        · simp only [List.length_append, List.length_replicate]
          rcases hfit with h4 | h4 <;> omega
        · rename_i hpad
          rcases hfit with h4 | h4
          · omega
          · exact absurd h4.1 hpad
      obtain ⟨g2, r, out', h3, h4, -⟩ := circuit_completes good d hdef g hv (fun _ => none) _ hlen hgood
      rw [hgr, Except.ok.injEq] at h3
      subst h3
      exact ⟨r, by simp [circuitExecutable, h4, Except.map]⟩
    classical
    obtain ⟨agreeing, -, -, h3, -⟩ := tt_fitness function n k pad p hp (circuitExecutable d gr) target
      (fun row => if hb : BitRow n.toNat row then (hcall row hb).choose else []) d.numInputs (fun _ => rfl) hf (fun row hb => by
        simp only [dif_pos hb]
        exact (hcall row hb).choose_spec)
    exact ⟨_, h3⟩
  refine evo_run_returns ⟨worse, choose, _, popSize, kElites, stop⟩ _ (.fn (circuitDecode d)) (circuitProblem p) (n := d.bounds.length)
    (allowed := circuitGene d) (fun s => circuitInit_ok d hnpl (init s).1 (hinit s))
    (circuitStages_ok d hnpl hL p expected probability q hr h0 h1 draw hu hd) (fun st hst => ?_) rfl hscore (fun g pop m' hne hmem => ?_) hpos
    problem popSize hpos 0 generations m hm
  · simp only [List.mem_cons, List.not_mem_nil, or_false] at hst
    rcases hst with rfl | rfl | rfl
    · exact randint_stage_live true d.bounds expected probability draw q (circuit_bounds_ne d hnpl hL) hr h0 h1 hu hd _
    · refine ⟨rfl, fun g s hG => ⟨none, ?_⟩⟩
      have hv := (genes_in_cgp_bounds_iff d hnpl g).1 hG
      have := (cgp_check_spec d hnpl (g.map CgpGene.int)).1 g rfl hv
      simp [checkFn, this]
    · exact hscore
  · exact hsel g pop m' hne fun r hr => by
      obtain ⟨g, f, -, -, hf, -⟩ := hmem r hr
      exact ⟨f, hf⟩

/-! ### Example: exclusive or, from NAND and NOT -/

/-- `NAND` and `NotX` on truth values written as integers. -/
def exGates : List (CgpPrimitive Int) :=
  [⟨some 2, fun args =>
      match args with
      | a :: b :: _ => .ok (if a ≠ 0 ∧ b ≠ 0 then 0 else 1)
      | _ => .error .indexError⟩,
   ⟨some 1, fun args =>
      match args with
      | a :: _ => .ok (if a ≠ 0 then 0 else 1)
      | _ => .error .indexError⟩]

/-- Two inputs, one output, four layers of one node. -/
def exCircuits (prune : Bool) : CgpDecoder Int := ⟨exGates, 2, 1, 4, 1, 2, prune, 4⟩

def exXorProblem : TTProblem := ⟨fun row => .ok (.fresh [(row.getD 0 0 + row.getD 1 0) % 2]), 2, false⟩

/-- The classical circuit of four NAND gates is right on every row. -/
example : ((circuitDecode (exCircuits true) [0, 0, 1, 0, 0, 2, 0, 1, 2, 0, 3, 4, 5]).bind (ttEvaluate exXorProblem)) = .ok 1 := by
  decide +kernel

/-- One that is right on three rows of four. -/
example : ((circuitDecode (exCircuits false) [0, 0, 1, 1, 0, 2, 0, 1, 2, 0, 3, 4, 2]).bind (ttEvaluate exXorProblem)) = .ok (3 / 4) := by
  decide +kernel

theorem exGates_defined (prune : Bool) : DefinedOn (fun x => x = 0 ∨ x = 1) (exCircuits prune) := by
  intro f hf args hl hargs
  simp only [exCircuits, exGates, List.mem_cons, List.not_mem_nil, or_false] at hf
  rcases hf with rfl | rfl
  · obtain ⟨a, b, rfl⟩ : ∃ a b, args = [a, b] := by
      match args, hl with
      | [a, b], _ => exact ⟨a, b, rfl⟩
    refine ⟨_, rfl, ?_⟩
    split <;> simp
  · obtain ⟨a, rfl⟩ : ∃ a, args = [a] := by
      match args, hl with
      | [a], _ => exact ⟨a, rfl⟩
    refine ⟨_, rfl, ?_⟩
    split <;> simp

/-- The hypotheses of both run theorems hold: a population of five, cyclic selection, one elite, ten generations, the first gene redrawn in
each child. -/
example : ∃ out m', circuitRun (exCircuits true) exXorProblem (fun s => ((exCircuits true).bounds.map Prod.fst, s + 1)) (some 1) none
      (fun s : Nat => ((0 :: List.replicate 12 (1 / 2), [(s % 2 : Nat)]), s + 1)) (fun a b => decide (a.getD 0 < b.getD 0))
      (fun _ pop m => (.ok (m.rng % pop.length), m.rng + 1)) (fun _ _ _ => false) 5 1 0 10 ⟨[], [], [], 0, 0⟩ = (.ok out, m') ∧
    out.length = 5 ∧ ∀ r ∈ out, ∃ f, fitness m' r = some (some f) ∧ f ≤ 1 := by
  have hp : ttProblem exXorProblem.function 2 1 false = .ok exXorProblem := rfl
  have hinit : ∀ s : Nat, List.Forall₂ (fun (b : Int × Int) x => b.1 ≤ x ∧ x < b.2) ((exCircuits true).bounds.map fun b => (b.1, b.2 + 1))
      ((fun s => ((exCircuits true).bounds.map Prod.fst, s + 1)) s).1 := fun s => by
    show List.Forall₂ (fun (b : Int × Int) x => b.1 ≤ x ∧ x < b.2) ((exCircuits true).bounds.map fun b => (b.1, b.2 + 1))
      ((exCircuits true).bounds.map Prod.fst)
    decide +kernel
  have hb : (exCircuits true).bounds.length = 13 := by decide +kernel
  have hr : RateGives (some 1) none (exCircuits true).bounds.length (1 / 13) := by
    rw [hb]
    exact .inr ⟨rfl, by decide, 1, rfl, by norm_num⟩
  have hu : ∀ s : Nat, ((fun s : Nat => (((0 :: List.replicate 12 (1 / 2), [((s % 2 : Nat) : Int)]), s + 1) : (List ℚ × List Int) × Nat)) s).1.1.length =
      (exCircuits true).bounds.length := fun s => by rw [hb]; simp
  have hd : ∀ s : Nat, ValidRandints ((((exCircuits true).bounds.zip
      ((fun s : Nat => (((0 :: List.replicate 12 (1 / 2), [((s % 2 : Nat) : Int)]), s + 1) : (List ℚ × List Int) × Nat)) s).1.1).filter
      (fun y => decide (y.2 < 1 / 13))).map Prod.fst) ((fun s : Nat => (((0 :: List.replicate 12 (1 / 2), [((s % 2 : Nat) : Int)]), s + 1) : (List ℚ × List Int) × Nat)) s).1.2 := fun s => by
    have e : (((exCircuits true).bounds.zip (0 :: List.replicate 12 (1 / 2 : ℚ))).filter (fun y => decide (y.2 < 1 / 13))).map Prod.fst = [(0, 1)] := by
      decide +kernel
    simp only [e]
    have : s % 2 < 2 := Nat.mod_lt _ (by decide)
    unfold ValidRandints
    simp
    omega
  obtain ⟨out, m', h⟩ := circuit_run_completes (exCircuits true) (by decide) (by decide) (fun x => x = 0 ∨ x = 1) (.inl rfl) (.inr rfl)
    (exGates_defined true) exXorProblem.function 2 1 false _ hp (.inl rfl) _ (fun row _ => ⟨rfl, by simp⟩) _ hinit (some 1) none _ hr
    (by norm_num) (by norm_num) _ hu hd (fun a b => decide (a.getD 0 < b.getD 0)) (fun _ pop m => (.ok (m.rng % pop.length), m.rng + 1))
    (fun g pop m hne _ => ⟨_, rfl, Nat.mod_lt _ (List.length_pos_iff.2 hne)⟩) (fun _ _ _ => false) 5 (by decide) 1 0 10 ⟨[], [], [], 0, 0⟩
    ⟨by simp, by simp, by simp⟩
  obtain ⟨-, -, h3, h4, -⟩ := circuit_run_members (exCircuits true) (by decide) (by decide) exXorProblem.function 2 1 false _ hp _
    (fun row _ => rfl) _ hinit (some 1) none _ hr (by norm_num) (by norm_num) _ hu hd _ _ _ 5 1 0 10 _ _ ⟨by simp, by simp, by simp⟩ out h
  refine ⟨out, m', h, h3, fun r hr => ?_⟩
  obtain ⟨-, g, f, -, h5, -, -, -, h6, -⟩ := h4 r hr
  exact ⟨f, h5, h6⟩

end Leap
