import Verif.Model.CgpOps
import Verif.Props.Cgp

/-!
# Primitives, initialisers and mutation operators for CGP (C79)
-/

namespace Leap

variable {V : Type}

open Spec

/-- C79: `NAND` and `NotX` compute their truth tables from the arguments they declare, ignoring further ones; too few
arguments raise `IndexError`, except that `NAND` of a single false argument is already true. -/
theorem cgp_primitives_spec :
    (∀ a b rest, nandPrimitive.call (a :: b :: rest) = .ok (!(a && b))) ∧
    nandPrimitive.call [true] = .error .indexError ∧ nandPrimitive.call [false] = .ok true ∧
    nandPrimitive.call [] = .error .indexError ∧ nandPrimitive.arity = some 2 ∧
    (∀ a rest, notXPrimitive.call (a :: rest) = .ok (!a)) ∧ notXPrimitive.call [] = .error .indexError ∧
    notXPrimitive.arity = some 1 := by
  refine ⟨fun a b rest => ?_, rfl, rfl, rfl, rfl, fun a rest => rfl, rfl, rfl⟩
  cases a <;> rfl

/-- C79: a wrapped function calls the function with the arguments it is given and declares the arity it was made with;
a missing function or a negative arity is refused. -/
theorem function_primitive_spec (func : Option (List V → PyM V)) (arity : Int) :
    (func = none ∨ arity < 0 → functionPrimitive func arity = .error .assertionError) ∧
    (∀ f, func = some f → 0 ≤ arity → ∃ p, functionPrimitive func arity = .ok p ∧ p.call = f ∧
      ∃ a : Nat, p.arity = some a ∧ (a : Int) = arity) := by
  constructor
  · rintro (rfl | h)
    · rfl
    · cases func with
      | none => rfl
      | some f => rw [functionPrimitive, if_neg (by omega)]
  · rintro f rfl h
    exact ⟨⟨some arity.toNat, f⟩, by rw [functionPrimitive, if_pos (by omega)], rfl, arity.toNat, rfl, by omega⟩

example : ∃ p, functionPrimitive (some fun xs : List Int => .ok xs.sum) 3 = .ok p ∧ p.arity = some 3 := ⟨_, rfl, rfl⟩

/-- C79: both ways of making an initialiser give valid genomes of the decoder, the same for the same random numbers, and
refuse a missing decoder. -/
theorem cgp_initializers_spec (d : CgpDecoder V) (hnpl : 0 < d.nodesPerLayer) (draws : List Int)
    (hdraw : List.Forall₂ (fun b x => b.1 ≤ x ∧ x < b.2) (d.bounds.map fun b => (b.1, b.2 + 1)) draws) :
    (∃ g, cgpInitializer d draws = .ok g ∧ createCgpVector (some d) draws = .ok g ∧ CgpValid d g) ∧
    createCgpVector (none : Option (CgpDecoder V)) draws = .error .assertionError := by
  obtain ⟨g, e, hv⟩ := cgp_created_valid d hnpl draws hdraw
  exact ⟨⟨g, e, e, hv⟩, rfl⟩

/-- C79: mutating a valid genome with `cgp_genome_mutate` gives a valid genome. Where the coin falls below the rate the
gene is the next random number drawn, elsewhere it is unchanged. A missing decoder is refused. -/
theorem cgp_genome_mutate_spec (d : CgpDecoder V) (hnpl : 0 < d.nodesPerLayer) (hL : 0 < d.numLayers) (genome : List Int)
    (hv : CgpValid d genome) (expected probability : Option ℚ) (p : ℚ) (u : List ℚ) (draws : List Int)
    (hr : RateGives expected probability genome.length p) (h0 : 0 ≤ p) (h1 : p ≤ 1) (hu : u.length = genome.length)
    (hd : ValidRandints (((d.bounds.zip u).filter (fun q => decide (q.2 < p))).map Prod.fst) draws) :
    (∃ g, cgpGenomeMutate (some d) expected probability u draws genome = .ok g ∧ CgpValid d g ∧
      ∀ (i : Nat) (x : ℚ), u[i]? = some x →
        (p ≤ x → g[i]? = genome[i]?) ∧
        (x < p → g[i]? = draws[(u.take i).countP (fun y => decide (y < p))]?)) ∧
    cgpGenomeMutate (none : Option (CgpDecoder V)) expected probability u draws genome = .error .assertionError := by
  refine ⟨?_, rfl⟩
  obtain ⟨g, e, hv'⟩ := cgp_mutated_valid d hnpl hL genome hv expected probability p u draws hr h0 h1 hu hd
  refine ⟨g, e, hv', ?_⟩
  have hf := (within_bounds_iff d genome hnpl).mpr hv
  have hne : genome ≠ [] := by
    intro h
    have hl := hv.length
    rw [h, List.length_nil] at hl
    have : 0 < d.numLayers * d.nodesPerLayer * (d.maxArity + 1) :=
      Nat.mul_pos (Nat.mul_pos hL hnpl) (Nat.succ_pos _)
    omega
  obtain ⟨g', e', hl, hs⟩ :=
    randint_resamples d.bounds expected probability u draws genome p hr h0 h1 hu hf.length_eq hne hd
  rw [e] at e'
  simp only [Except.ok.injEq] at e'
  subst e'
  intro i x hx
  have hiu : i < u.length := (List.getElem?_eq_some_iff.1 hx).1
  have hig : i < genome.length := by omega
  have hib : i < d.bounds.length := by rw [hf.length_eq]; omega
  obtain ⟨k1, k2⟩ := hs i x genome[i] d.bounds[i].1 d.bounds[i].2 hx (List.getElem?_eq_getElem hig)
    (List.getElem?_eq_getElem hib)
  refine ⟨fun h => by rw [k1 h, List.getElem?_eq_getElem hig], fun h => ?_⟩
  obtain ⟨v, e1, e2, -, -⟩ := k2 h
  rw [e1, e2]

/-- C79: the operator `cgp_mutate` in a pipeline: once started, an individual from upstream whose genome is valid comes out
with a valid genome, mutated as by `cgp_genome_mutate`, and no fitness; the end of upstream ends it. -/
theorem cgp_mutate_operator {U φ : Type} (d : CgpDecoder V) (hnpl : 0 < d.nodesPerLayer) (hL : 0 < d.numLayers)
    (expected probability : Option ℚ) (rand : U → (List ℚ × List Int) × U) (next : U → PyM (MInd (List Int) φ × U)) :
    ∃ op, cgpMutate (some d) expected probability rand next = .ok op ∧
      (∀ u, next u = .error .stopIteration → op true u = .error .stopIteration) ∧
      ∀ u ind u1 p, next u = .ok (ind, u1) → CgpValid d ind.genome →
        RateGives expected probability ind.genome.length p → 0 ≤ p → p ≤ 1 →
        (rand u1).1.1.length = ind.genome.length →
        ValidRandints (((d.bounds.zip (rand u1).1.1).filter (fun q => decide (q.2 < p))).map Prod.fst) (rand u1).1.2 →
        ∃ g, cgpGenomeMutate (some d) expected probability (rand u1).1.1 (rand u1).1.2 ind.genome = .ok g ∧
          CgpValid d g ∧ op true u = .ok (⟨g, none⟩, true, (rand u1).2) := by
  refine ⟨_, rfl, fun u h => by simp [mutateRandint, mutationGen, h], ?_⟩
  intro u ind u1 p hn hv hr h0 h1 hu hd
  obtain ⟨⟨g, e, hv', -⟩, -⟩ :=
    cgp_genome_mutate_spec d hnpl hL ind.genome hv expected probability p (rand u1).1.1 (rand u1).1.2 hr h0 h1 hu hd
  refine ⟨g, e, hv', ?_⟩
  have e2 : individualMutateRandint d.bounds expected probability (rand u1).1.1 (rand u1).1.2 ind.genome = .ok g := e
  simp [mutateRandint, mutationGen, hn, e2]

/-- C79: `cgp_mutate` without a decoder is refused when the operator is made. -/
theorem cgp_mutate_no_decoder {U φ : Type} (expected probability : Option ℚ) (rand : U → (List ℚ × List Int) × U)
    (next : U → PyM (MInd (List Int) φ × U)) :
    (match cgpMutate (none : Option (CgpDecoder V)) expected probability rand next with
      | .error e => some e
      | .ok _ => none) = some .assertionError := rfl

/-- C79: the decoder with parameters takes exactly the sizes the plain one takes, and has the same attributes. -/
theorem cgp_parameters_decoder_spec (primitives : List (CgpPrimitive V)) (nIn nOut L npl a : Int) (perNode : Nat)
    (prune : Bool) (lb : Option Int) :
    (∀ d, cgpDecoder primitives nIn nOut L npl a prune lb = .ok d →
      cgpParametersDecoder primitives nIn nOut L npl a perNode prune lb = .ok (d, perNode)) ∧
    (∀ e, cgpDecoder primitives nIn nOut L npl a prune lb = .error e →
      cgpParametersDecoder primitives nIn nOut L npl a perNode prune lb = .error e) := by
  unfold cgpParametersDecoder
  by_cases h : primitives.length > 0 ∧ nIn > 0 ∧ nOut > 0 ∧ L > 0 ∧ npl > 0 ∧ a > 0
  · simp only [cgpDecoder, if_pos h]
    constructor
    · intro d hd; rw [Except.ok.injEq] at hd; rw [← hd]
    · intro e he; simp at he
  · simp only [cgpDecoder, if_neg h]
    constructor
    · intro d hd; simp at hd
    · intro e he; simp only [Except.error.injEq] at he; rw [he]

/-- C79: the genomes made for the decoder with parameters decode: the first segment is valid, and whenever the given
initialiser makes the right number of parameters the whole genome is accepted. An error of that initialiser comes
through. -/
theorem cgp_parameters_initialize_spec (d : CgpDecoder V) (hnpl : 0 < d.nodesPerLayer) (draws : List Int)
    (hdraw : List.Forall₂ (fun b x => b.1 ≤ x ∧ x < b.2) (d.bounds.map fun b => (b.1, b.2 + 1)) draws) (perNode : Nat) :
    (∀ ps : List V, ps.length = perNode * d.nodesPerLayer * d.numLayers →
      ∃ g graph, cgpParametersInitialize d draws (.ok ps) = .ok (g, ps) ∧ CgpValid d g ∧
        cgpDecodeWithParameters d perNode g ps = .ok graph) ∧
    (∀ e, cgpParametersInitialize d draws (.error e : PyM (List V)) = .error e) := by
  obtain ⟨g, e, hv⟩ := cgp_created_valid d hnpl draws hdraw
  have e' : createCgpVector (some d) draws = .ok g := e
  refine ⟨fun ps hl => ?_, fun err => by simp [cgpParametersInitialize, e']⟩
  obtain ⟨graph, hg, -⟩ := (cgp_parameters_call d g hv perNode ps).1 hl
  exact ⟨g, graph, by simp [cgpParametersInitialize, e'], hv, hg⟩

/-- A decoder for NAND circuits with one layer of two nodes. -/
def exNand : CgpDecoder Bool := ⟨[nandPrimitive, notXPrimitive], 2, 1, 1, 2, 2, true, 1⟩

example : createCgpVector (some exNand) [0, 0, 1, 1, 0, 0, 3] = .ok [0, 0, 1, 1, 0, 0, 3] := by decide +kernel
example : List.Forall₂ (fun (b : Int × Int) x => b.1 ≤ x ∧ x < b.2) (exNand.bounds.map fun b => (b.1, b.2 + 1))
    [0, 0, 1, 1, 0, 0, 3] := by
  have : exNand.bounds = [(0, 1), (0, 1), (0, 1), (0, 1), (0, 1), (0, 1), (0, 3)] := by decide +kernel
  rw [this]; simp
example : (match cgpDecode exNand [0, 0, 1, 1, 0, 0, 2] with
    | .ok g => (match cgpCall g 2 1 (fun _ => none) [true, true] with
      | .ok (r, _) => some r
      | .error _ => none)
    | .error _ => none) = some [false] := by decide +kernel
example : cgpGenomeMutate (some exNand) none (some (1/2)) [1/4, 3/4, 3/4, 3/4, 3/4, 3/4, 1/4] [1, 0] [0, 0, 1, 1, 0, 0, 3] =
    .ok [1, 0, 1, 1, 0, 0, 0] := by decide +kernel

end Leap
