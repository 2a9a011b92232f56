import Verif.Lemmas.CgpPlain
import Verif.Lemmas.CgpPrune
import Verif.Props.Mutation
import Verif.Props.Segmented

/-!
# CGP genomes (C49) and circuits (C50)
-/

namespace Leap

variable {V : Type}

namespace Spec

/-- The genomes a run can contain: made by the initialiser, or mutated from such a genome. `draws` and `u` are random
numbers; those of the integer generator lie within the bounds it is given. -/
inductive Evolved (d : CgpDecoder V) : List Int → Prop
  | created (draws g : List Int) :
      List.Forall₂ (fun b x => b.1 ≤ x ∧ x < b.2) (d.bounds.map fun b => (b.1, b.2 + 1)) draws →
      createIntVector d.bounds draws = .ok g → Evolved d g
  | mutated (genome g : List Int) (expected probability : Option ℚ) (p : ℚ) (u : List ℚ) (draws : List Int) :
      Evolved d genome → RateGives expected probability genome.length p → 0 ≤ p → p ≤ 1 → u.length = genome.length →
      ValidRandints (((d.bounds.zip u).filter (fun q => decide (q.2 < p))).map Prod.fst) draws →
      individualMutateRandint d.bounds expected probability u draws genome = .ok g → Evolved d g

end Spec

open Spec

/-! ### C49: the constraints -/

/-- C49: `check_constraints` lets a genome through, unchanged, exactly when all its genes are integers and it is a valid CGP
genome; otherwise it raises `ValueError`. -/
theorem cgp_check_spec (d : CgpDecoder V) (hnpl : 0 < d.nodesPerLayer) (genome : List CgpGene) :
    (∀ ints : List Int, genome = ints.map CgpGene.int → CgpValid d ints → cgpCheck d genome = .ok genome) ∧
    ((¬ ∃ ints : List Int, genome = ints.map CgpGene.int ∧ CgpValid d ints) → cgpCheck d genome = .error .valueError) := by
  have hall : ∀ (ints : List Int) (bs : List (Int × Int)), ints.length = bs.length →
      ((List.zip (ints.map CgpGene.int) bs).all (fun p => cgpGeneOk p.1 p.2) = true ↔
        List.Forall₂ (fun b g => b.1 ≤ g ∧ g ≤ b.2) bs ints) := by
    intro ints
    induction ints with
    | nil => intro bs hl; cases bs <;> simp_all
    | cons g gs ih =>
      intro bs hl
      cases bs with
      | nil => simp at hl
      | cons b bs =>
        simp only [List.map_cons, List.zip_cons_cons, List.all_cons, Bool.and_eq_true, List.forall₂_cons]
        rw [ih bs (by simpa using hl)]
        apply and_congr_left
        intro _
        simp [cgpGeneOk]
  constructor
  · rintro ints rfl hv
    have hf := (within_bounds_iff d ints hnpl).mpr hv
    have hl := hf.length_eq
    unfold cgpCheck
    rw [if_neg (by simp [hl]), if_pos ((hall ints d.bounds hl.symm).mpr hf)]
  · intro hno
    unfold cgpCheck
    by_cases hl : genome.length = d.bounds.length
    · rw [if_neg (by simp [hl]), if_neg]
      intro hok
      apply hno
      have hints : ∀ g ∈ genome, ∃ i, g = CgpGene.int i := by
        intro g hg
        obtain ⟨k, hk, rfl⟩ := List.getElem_of_mem hg
        have hm : (genome[k], d.bounds[k]'(by omega)) ∈ List.zip genome d.bounds := by
          have hk' : k < (List.zip genome d.bounds).length := by simp; omega
          have := List.getElem_mem hk'
          rwa [List.getElem_zip] at this
        have := List.all_eq_true.mp hok _ hm
        cases hgk : genome[k] with
        | int i => exact ⟨i, rfl⟩
        | nonIntegral => rw [hgk] at this; simp [cgpGeneOk] at this
      have hex : ∃ ints : List Int, genome = ints.map CgpGene.int := by
        clear hok hl hno
        induction genome with
        | nil => exact ⟨[], rfl⟩
        | cons g gs ih =>
          obtain ⟨i, rfl⟩ := hints g (List.mem_cons_self ..)
          obtain ⟨is, rfl⟩ := ih fun g hg => hints g (List.mem_cons_of_mem _ hg)
          exact ⟨i :: is, rfl⟩
      obtain ⟨ints, rfl⟩ := hex
      refine ⟨ints, rfl, (within_bounds_iff d ints hnpl).mp ?_⟩
      exact (hall ints d.bounds (by simpa using hl)).mp hok
    · rw [if_pos hl]

/-- C49: `check_constraints` as an operator: it passes on what comes from upstream or raises; the end of upstream is reported as
`RuntimeError`. -/
theorem cgp_check_operator {U : Type} (d : CgpDecoder V) (next : U → PyM (List CgpGene × U)) (u : U) :
    (∀ e, next u = .error e → cgpCheckGen d next () u = .error (if e = .stopIteration then .runtimeError else e)) ∧
    (∀ ind u', next u = .ok (ind, u') →
      cgpCheckGen d next () u = (cgpCheck d ind).map fun ind => (ind, (), u')) := by
  constructor
  · intro e he
    simp only [cgpCheckGen, he]
    cases e <;> rfl
  · intro ind u' he
    simp only [cgpCheckGen, he]
    cases cgpCheck d ind <;> rfl

/-- C49: the initialiser makes valid genomes. -/
theorem cgp_created_valid (d : CgpDecoder V) (hnpl : 0 < d.nodesPerLayer) (draws : List Int)
    (hdraw : List.Forall₂ (fun b x => b.1 ≤ x ∧ x < b.2) (d.bounds.map fun b => (b.1, b.2 + 1)) draws) :
    ∃ g, createIntVector d.bounds draws = .ok g ∧ CgpValid d g := by
  obtain ⟨g, e, h⟩ := create_int_vector_in_bounds d.bounds draws hdraw
  exact ⟨g, e, (within_bounds_iff d g hnpl).mp h⟩

/-- C49: mutation of a valid genome, at any rate, gives a valid genome. -/
theorem cgp_mutated_valid (d : CgpDecoder V) (hnpl : 0 < d.nodesPerLayer) (hL : 0 < d.numLayers) (genome : List Int)
    (hv : CgpValid d genome) (expected probability : Option ℚ) (p : ℚ) (u : List ℚ) (draws : List Int)
    (hr : RateGives expected probability genome.length p) (h0 : 0 ≤ p) (h1 : p ≤ 1) (hu : u.length = genome.length)
    (hd : ValidRandints (((d.bounds.zip u).filter (fun q => decide (q.2 < p))).map Prod.fst) draws) :
    ∃ g, individualMutateRandint d.bounds expected probability u draws genome = .ok g ∧ CgpValid d g := by
  have hf := (within_bounds_iff d genome hnpl).mpr hv
  have hne : genome ≠ [] := by
    intro h
    have hl := hv.length
    rw [h, List.length_nil] at hl
    have : 0 < d.numLayers * d.nodesPerLayer * (d.maxArity + 1) :=
      Nat.mul_pos (Nat.mul_pos hL hnpl) (Nat.succ_pos _)
    omega
  obtain ⟨g, e, -⟩ := randint_resamples d.bounds expected probability u draws genome p hr h0 h1 hu hf.length_eq hne hd
  exact ⟨g, e, (within_bounds_iff d g hnpl).mp
    (randint_stays_in_bounds d.bounds expected probability u draws genome g p hr h0 h1 hu hf.length_eq hne hd hf e)⟩

/-- C49: every genome of a run, after any number of mutations, is valid, hence passes `check_constraints`. -/
theorem cgp_evolved_valid (d : CgpDecoder V) (hnpl : 0 < d.nodesPerLayer) (hL : 0 < d.numLayers) (genome : List Int)
    (h : Evolved d genome) : CgpValid d genome ∧ cgpCheck d (genome.map CgpGene.int) = .ok (genome.map CgpGene.int) := by
  have hv : CgpValid d genome := by
    induction h with
    | created draws g hd e =>
      obtain ⟨g', e', hv⟩ := cgp_created_valid d hnpl draws hd
      rw [e] at e'
      rwa [Except.ok.inj e']
    | mutated genome g expected probability p u draws _ hr h0 h1 hu hd e ih =>
      obtain ⟨g', e', hv⟩ := cgp_mutated_valid d hnpl hL genome ih expected probability p u draws hr h0 h1 hu hd
      rw [e] at e'
      rwa [Except.ok.inj e']
  exact ⟨hv, (cgp_check_spec d hnpl _).1 genome rfl hv⟩

/-- C49: with at least one primitive, one input and `levels_back ≥ 1` the bounds are never empty, so the initialiser has
something to draw; with `levels_back ≤ 0` and more than one layer it raises `ValueError`. -/
theorem cgp_bounds_nonempty (d : CgpDecoder V) (hp : 0 < d.primitives.length) (hi : 0 < d.numInputs)
    (hnpl : 0 < d.nodesPerLayer) :
    (1 ≤ d.levelsBack → ∀ b ∈ d.bounds, b.1 ≤ b.2) ∧
    (d.levelsBack ≤ 0 → 2 ≤ d.numLayers → 0 < d.maxArity →
      ∀ draws, createIntVector d.bounds draws = .error .valueError) := by
  constructor
  · intro hlb b hb
    obtain ⟨i, hi', e⟩ := List.getElem_of_mem hb
    have hg : d.bounds[i]? = some b := by rw [List.getElem?_eq_getElem hi', e]
    rw [bounds_length] at hi'
    rcases gene_cases d i hi' with ⟨l, n, hl, hn, rfl⟩ | ⟨l, n, j, hl, hn, hj, rfl⟩ | ⟨o, ho', rfl⟩
    · rw [bounds_primitive d l n hl hn, Option.some.injEq] at hg
      subst hg; simp only; omega
    · rw [bounds_source d l n j hl hn hj, Option.some.injEq] at hg
      subst hg
      simp only [CgpDecoder.minSource]
      have h0 : 0 ≤ (l : Int) * d.nodesPerLayer := by positivity
      split
      · omega
      · have h4 : ((l : Int) - d.levelsBack) * d.nodesPerLayer ≤ (l - 1) * d.nodesPerLayer :=
          mul_le_mul_of_nonneg_right (by omega) (by omega)
        have h5 : ((l : Int) - 1) * d.nodesPerLayer = l * d.nodesPerLayer - d.nodesPerLayer := by ring
        omega
    · rw [bounds_output d o ho', Option.some.injEq] at hg
      subst hg
      simp only
      have h0 : 0 ≤ (d.numLayers : Int) * d.nodesPerLayer := by positivity
      omega
  · intro hlb hL ha draws
    apply create_int_vector_reversed
    have hg := bounds_source d 1 0 0 (by omega) hnpl ha
    refine ⟨_, List.mem_of_getElem? hg, ?_⟩
    simp only [CgpDecoder.minSource]
    rw [if_neg (by omega)]
    have h4 : (1 : Int) * d.nodesPerLayer ≤ (1 - d.levelsBack) * d.nodesPerLayer :=
      mul_le_mul_of_nonneg_right (by omega) (by omega)
    push_cast
    omega

/-- C49: a valid genome decodes, pruned or not, to a graph in which every edge goes from a lower to a higher node and every
output has exactly one source. -/
theorem cgp_decode_feed_forward (d : CgpDecoder V) (genome : List Int) (hv : CgpValid d genome) :
    ∃ g, cgpDecode d genome = .ok g ∧ (∀ e ∈ g.edges, e.src < e.dst) ∧
      (∀ e ∈ g.edges, e.src ∈ g.nodes ∧ e.dst ∈ g.nodes) ∧
      g.nodes = (List.range g.nodes.length).map (fun (k : Nat) => (k : Int)) ∧
      ∀ o < d.numOutputs, ((g.edges.filter fun e => e.dst = (g.nodes.length : Int) - d.numOutputs + o).length = 1) := by
  have key : ∀ (g : CgpGraph V) (H : Nat), FeedForward g d.numInputs H d.numOutputs →
      (∀ e ∈ g.edges, e.src < e.dst) ∧ (∀ e ∈ g.edges, e.src ∈ g.nodes ∧ e.dst ∈ g.nodes) ∧
      g.nodes = (List.range g.nodes.length).map (fun (k : Nat) => (k : Int)) ∧
      ∀ o < d.numOutputs, ((g.edges.filter fun e => e.dst = (g.nodes.length : Int) - d.numOutputs + o).length = 1) := by
    intro g H hff
    refine ⟨fun e he => (hff.forward e he).2.1, ?_, ?_, ?_⟩
    · intro e he
      have h1 := hff.forward e he
      have h2 := hff.target e he
      rw [ff_mem_nodes hff, ff_mem_nodes hff]
      omega
    · have := hff.nodes
      rw [this, intRange_length]
      simp [intRange]
    · intro o ho
      obtain ⟨e, he⟩ := hff.output o ho
      have hlen : g.nodes.length = d.numInputs + H + d.numOutputs := by rw [hff.nodes, intRange_length]
      have e2 : (g.nodes.length : Int) - d.numOutputs + o = ((d.numInputs + H + o : Nat) : Int) := by
        rw [hlen]; push_cast; omega
      rw [e2]
      unfold CgpGraph.into at he
      rw [he]; rfl
  have hp := plain_feedForward hv none
  rw [cgpDecode, cgpGraph_valid hv]
  cases d.prune with
  | true => exact ⟨_, rfl, key _ _ (prune_feedForward hp)⟩
  | false => exact ⟨_, rfl, key _ _ hp⟩

/-- C49: a genome of the wrong length is refused. -/
theorem cgp_decode_wrong_length (d : CgpDecoder V) (genome : List Int)
    (h : genome.length ≠ d.numLayers * d.nodesPerLayer * (d.maxArity + 1) + d.numOutputs) :
    cgpDecode d genome = .error .assertionError := by
  have : ¬ genome.length = d.numGenes := h
  simp only [cgpDecode, cgpGraph, if_neg this]

/-! ### C50: circuits -/

/-- The decoded graph of a valid genome. -/
theorem decode_valid {d : CgpDecoder V} {genome : List Int} (hv : CgpValid d genome) :
    cgpDecode d genome = .ok (if d.prune then pruneGraph (plainGraph d genome none) d.numInputs d.numOutputs
      else plainGraph d genome none) := by
  rw [cgpDecode, cgpGraph_valid hv]

theorem outputs_iff {d : CgpDecoder V} {genome : List Int} (hv : CgpValid d genome) (params : Option (Nat → List V))
    (input r : List V) :
    List.Forall₂ (GOut (plainGraph d genome params) d.numInputs (d.numLayers * d.nodesPerLayer) input)
      (List.range d.numOutputs) r ↔ Outputs d genome (params.getD fun _ => []) input r := by
  rw [List.forall₂_iff_get, Outputs]
  have hlr : (List.range d.numOutputs).length = d.numOutputs := List.length_range
  constructor
  · rintro ⟨hl, hr⟩
    refine ⟨by omega, ?_⟩
    intro o s v hs hx
    have ho : o < r.length := (List.getElem?_eq_some_iff.mp hx).1
    obtain ⟨s', hs', e⟩ := plain_into_output hv.length params o (by omega)
    rw [outputSources_get, hs, Option.some.injEq] at hs'
    subst hs'
    have := hr o (by omega) ho
    simp only [List.get_eq_getElem, List.getElem_range] at this
    rw [List.getElem?_eq_getElem ho, Option.some.injEq] at hx
    rw [hx] at this
    obtain ⟨e', h1, h2⟩ := this
    rw [e] at h1
    cases h1
    exact (plain_values hv params input _ v).mp h2
  · rintro ⟨hl, hr⟩
    refine ⟨by omega, ?_⟩
    intro o h1 h2
    simp only [List.get_eq_getElem, List.getElem_range]
    obtain ⟨s', hs', e⟩ := plain_into_output hv.length params o (by omega)
    refine ⟨_, e, (plain_values hv params input _ _).mpr (hr o s' _ ?_ (List.getElem?_eq_getElem h2))⟩
    rw [← outputSources_get]; exact hs'

/-- The circuit is a function of its inputs: a source has at most one value. -/
theorem evaluates_unique (d : CgpDecoder V) (genome : List Int) (hv : CgpValid d genome) (params : Nat → List V)
    (input : List V) (s : Int) (v w : V) (h1 : Evaluates d genome params input s v)
    (h2 : Evaluates d genome params input s w) : v = w :=
  ((plain_values hv (some params) input s v).mpr h1).det ((plain_values hv (some params) input s w).mpr h2)

/-- C50: what calling a decoded circuit returns. `out` is whatever earlier calls left in the graph. With pruning the call
succeeds exactly when the outputs described by the genome have values, and returns them; without pruning every node of
the grid must have a value too. -/
theorem cgp_call (d : CgpDecoder V) (genome : List Int) (hv : CgpValid d genome) (g : CgpGraph V)
    (hg : cgpDecode d genome = .ok g) (out : Int → Option V) (input : List V) (hl : input.length = d.numInputs)
    (r : List V) :
    (∃ out', cgpCall g d.numInputs d.numOutputs out input = .ok (r, out')) ↔
      (d.prune = false → ∀ k < d.numLayers * d.nodesPerLayer, ∃ v,
        Evaluates d genome (fun _ => []) input (d.numInputs + k : Nat) v) ∧
      Outputs d genome (fun _ => []) input r := by
  rw [decode_valid hv] at hg
  have hff := plain_feedForward hv none
  have hout := outputs_iff hv none input r
  simp only [Option.getD_none] at hout
  cases hp : d.prune with
  | true =>
    rw [hp] at hg
    cases hg
    simp only [if_true]
    rw [prune_call hff out input hl r, hout]
    simp
  | false =>
    rw [hp] at hg
    cases hg
    simp only [Bool.false_eq_true, if_false]
    rw [cgpCall_spec hff out input hl r, hout]
    have : ∀ k v, GVal (plainGraph d genome none) d.numInputs input (d.numInputs + k : Nat) v ↔
      Evaluates d genome (fun _ => []) input (d.numInputs + k : Nat) v := fun k v => plain_values hv none input _ v
    simp only [this, forall_true_left]

/-- C50: pruning never changes the outputs: whenever the unpruned circuit returns outputs, the pruned circuit returns the
same outputs. -/
theorem cgp_prune_same_outputs (d : CgpDecoder V) (genome : List Int) (hv : CgpValid d genome) (g gp : CgpGraph V)
    (hg : cgpDecode { d with prune := false } genome = .ok g) (hgp : cgpDecode { d with prune := true } genome = .ok gp)
    (out outp : Int → Option V) (input r : List V) (out' : Int → Option V)
    (h : cgpCall g d.numInputs d.numOutputs out input = .ok (r, out')) :
    ∃ outp', cgpCall gp d.numInputs d.numOutputs outp input = .ok (r, outp') := by
  have hl : input.length = d.numInputs := by
    by_contra hcon
    simp only [cgpCall, if_neg hcon] at h
    cases h
  have hplain := plain_feedForward hv none
  have e1 : g = plainGraph d genome none := by
    have hv' : CgpValid { d with prune := false } genome := ⟨hv.length, hv.primitive, hv.source, hv.output⟩
    have := decode_valid hv'
    rw [this] at hg
    exact (Except.ok.inj hg).symm
  have e2 : gp = pruneGraph (plainGraph d genome none) d.numInputs d.numOutputs := by
    have hv' : CgpValid { d with prune := true } genome := ⟨hv.length, hv.primitive, hv.source, hv.output⟩
    have := decode_valid hv'
    rw [this] at hgp
    exact (Except.ok.inj hgp).symm
  subst e1 e2
  have h1 := ((cgpCall_spec hplain out input hl r).mp ⟨out', h⟩).2
  exact (prune_call hplain outp input hl r).mpr h1

/-- C50: if no primitive raises then every call with the right number of inputs succeeds, pruned or not, and the two
return the same outputs. -/
theorem cgp_prune_total (d : CgpDecoder V) (genome : List Int) (hv : CgpValid d genome) (g gp : CgpGraph V)
    (hg : cgpDecode { d with prune := false } genome = .ok g) (hgp : cgpDecode { d with prune := true } genome = .ok gp)
    (htotal : ∀ f ∈ d.primitives, ∀ args, ∃ v, f.call args = .ok v)
    (out outp : Int → Option V) (input : List V) (hl : input.length = d.numInputs) :
    ∃ r out' outp', cgpCall g d.numInputs d.numOutputs out input = .ok (r, out') ∧
      cgpCall gp d.numInputs d.numOutputs outp input = .ok (r, outp') := by
  have hv' : CgpValid { d with prune := false } genome := ⟨hv.length, hv.primitive, hv.source, hv.output⟩
  have hff := plain_feedForward hv none
  have hall : ∀ m : Nat, m < d.numInputs + d.numLayers * d.nodesPerLayer →
      ∃ v, GVal (plainGraph d genome none) d.numInputs input m v := by
    intro m
    induction m using Nat.strong_induction_on with
    | _ m ih =>
      intro hm
      by_cases hi : m < d.numInputs
      · exact ⟨input[m]'(by omega), GVal.input m _ hi (List.getElem?_eq_getElem (by omega))⟩
      · obtain ⟨k, rfl⟩ : ∃ k, m = d.numInputs + k := ⟨m - d.numInputs, by omega⟩
        have hk : k < d.numLayers * d.nodesPerLayer := by omega
        have hin : ∀ s ∈ (plainGraph d genome none).inNodes (d.numInputs + k : Nat), ∃ v,
            GVal (plainGraph d genome none) d.numInputs input s v := by
          intro s hs
          have h1 := hff.inNodes_lt _ s hs
          obtain ⟨n, rfl⟩ := Int.eq_ofNat_of_zero_le h1.1
          exact ih n (by omega) (by omega)
        obtain ⟨args, ha, hargs⟩ : ∃ args : List V, args.length = ((plainGraph d genome none).inNodes (d.numInputs + k : Nat)).length ∧
            ∀ (j : Nat) (s : Int) (x : V), ((plainGraph d genome none).inNodes (d.numInputs + k : Nat))[j]? = some s →
              args[j]? = some x → GVal (plainGraph d genome none) d.numInputs input s x := by
          revert hin
          generalize (plainGraph d genome none).inNodes (d.numInputs + k : Nat) = ss
          intro hin
          induction ss with
          | nil => exact ⟨[], rfl, by simp⟩
          | cons s ss ihs =>
            obtain ⟨v, hv⟩ := hin s (List.mem_cons_self ..)
            obtain ⟨args, h1, h2⟩ := ihs fun s hs => hin s (List.mem_cons_of_mem _ hs)
            refine ⟨v :: args, by simp [h1], ?_⟩
            intro j s' x e1 e2
            cases j with
            | zero => simp at e1 e2; subst e1; subst e2; exact hv
            | succ j => simp at e1 e2; exact h2 j s' x e1 e2
        obtain ⟨p, -, hp⟩ := primAt_valid hv k hk
        obtain ⟨v, hcall⟩ := htotal _ (List.mem_of_getElem? hp)
          (args ++ ((plainGraph d genome none).parameters (d.numInputs + k : Nat)).getD [])
        exact ⟨v, GVal.node _ _ args v (by omega) (plain_function d genome none k hk) ha hargs hcall⟩
  have e1 : g = plainGraph d genome none := by
    have := decode_valid hv'
    rw [this] at hg
    exact (Except.ok.inj hg).symm
  have houts : ∃ r, List.Forall₂ (GOut (plainGraph d genome none) d.numInputs (d.numLayers * d.nodesPerLayer) input)
      (List.range d.numOutputs) r := by
    have : ∀ o ∈ List.range d.numOutputs, ∃ v,
        GOut (plainGraph d genome none) d.numInputs (d.numLayers * d.nodesPerLayer) input o v := by
      intro o ho
      rw [List.mem_range] at ho
      obtain ⟨e, he⟩ := hff.output o ho
      have hmem : e ∈ (plainGraph d genome none).edges := by
        have : e ∈ (plainGraph d genome none).into (d.numInputs + d.numLayers * d.nodesPerLayer + o : Nat) := by
          rw [he]; exact List.mem_singleton.mpr rfl
        exact List.mem_of_mem_filter this
      have hf := hff.forward e hmem
      obtain ⟨n, hn⟩ := Int.eq_ofNat_of_zero_le hf.1
      obtain ⟨v, hv⟩ := hall n (by omega)
      exact ⟨v, e, he, by rw [hn]; exact hv⟩
    revert this
    generalize List.range d.numOutputs = os
    intro hos
    induction os with
    | nil => exact ⟨[], List.Forall₂.nil⟩
    | cons o os ih =>
      obtain ⟨v, hv⟩ := hos o (List.mem_cons_self ..)
      obtain ⟨r, hr⟩ := ih fun o ho => hos o (List.mem_cons_of_mem _ ho)
      exact ⟨v :: r, List.Forall₂.cons hv hr⟩
  obtain ⟨r, hr⟩ := houts
  have hcall : ∃ out', cgpCall g d.numInputs d.numOutputs out input = .ok (r, out') := by
    rw [e1]
    exact (cgpCall_spec hff out input hl r).mpr ⟨fun m hm => hall (d.numInputs + m) (by omega), hr⟩
  obtain ⟨out', hcall⟩ := hcall
  obtain ⟨outp', hcallp⟩ := cgp_prune_same_outputs d genome hv g gp hg hgp out outp input r out' hcall
  exact ⟨r, out', outp', hcall, hcallp⟩

/-- C50: the result of a call, value or exception, depends only on the inputs given, whatever earlier calls (even failed
ones) left in the graph. -/
theorem cgp_call_history_free (d : CgpDecoder V) (genome : List Int) (hv : CgpValid d genome) (g : CgpGraph V)
    (hg : cgpDecode d genome = .ok g) (out1 out2 : Int → Option V) (input : List V) :
    (cgpCall g d.numInputs d.numOutputs out1 input).map Prod.fst =
      (cgpCall g d.numInputs d.numOutputs out2 input).map Prod.fst := by
  rw [decode_valid hv] at hg
  have hff := plain_feedForward hv none
  cases hp : d.prune with
  | true => rw [hp] at hg; cases hg; exact cgpCall_stale (prune_feedForward hff) out1 out2 input
  | false => rw [hp] at hg; cases hg; exact cgpCall_stale hff out1 out2 input

/-- C50: a call with the wrong number of inputs is refused. -/
theorem cgp_call_wrong_inputs (g : CgpGraph V) (numInputs numOutputs : Nat) (out : Int → Option V) (input : List V)
    (h : input.length ≠ numInputs) : cgpCall g numInputs numOutputs out input = .error .assertionError := by
  simp only [cgpCall, if_neg h]

/-! ### Circuits with parameters -/

theorem foldl_cells_parameters (d : CgpDecoder V) (perNode : Nat) (parameters : List V) (f0 : Int → Option (List V)) :
    (d.cells.map fun c => cgpNodeParameters d.numInputs perNode parameters (c.1 * d.nodesPerLayer + c.2)).foldl
      (fun f a => setNode f a.1 (some a.2)) f0 = fun j =>
      if (d.numInputs : Int) ≤ j ∧ j < (d.numInputs + d.numLayers * d.nodesPerLayer : Nat) then
        some ((parameters.drop ((j - d.numInputs).toNat * perNode)).take perNode) else f0 j := by
  have e : (d.cells.map fun c => cgpNodeParameters d.numInputs perNode parameters (c.1 * d.nodesPerLayer + c.2)) =
      (List.range (d.numLayers * d.nodesPerLayer)).map (cgpNodeParameters d.numInputs perNode parameters) := by
    rw [← cells_index, List.map_map]; rfl
  rw [e, List.foldl_map]
  funext j
  exact foldl_setNode_range (fun k => some ((parameters.drop (k * perNode)).take perNode)) d.numInputs _ f0 j

/-- C50 with parameters: node `k` is given its own slice of the parameter segment after its arguments; the call succeeds
and returns what the genome describes, as without parameters; a segment of the wrong size is refused (with
`AttributeError`, because the message of the assertion is broken). -/
theorem cgp_parameters_call (d : CgpDecoder V) (genome : List Int) (hv : CgpValid d genome) (perNode : Nat)
    (parameters : List V) :
    (parameters.length = perNode * d.nodesPerLayer * d.numLayers →
      ∃ g, cgpDecodeWithParameters d perNode genome parameters = .ok g ∧
        ∀ (out : Int → Option V) (input : List V), input.length = d.numInputs → ∀ r : List V,
          ((∃ out', cgpCall g d.numInputs d.numOutputs out input = .ok (r, out')) ↔
            (d.prune = false → ∀ k < d.numLayers * d.nodesPerLayer, ∃ v,
              Evaluates d genome (fun k => (parameters.drop (k * perNode)).take perNode) input (d.numInputs + k : Nat) v) ∧
            Outputs d genome (fun k => (parameters.drop (k * perNode)).take perNode) input r)) ∧
    (parameters.length ≠ perNode * d.nodesPerLayer * d.numLayers →
      cgpDecodeWithParameters d perNode genome parameters = .error .attributeError) := by
  have hv' : CgpValid { d with prune := false } genome := ⟨hv.length, hv.primitive, hv.source, hv.output⟩
  have hdec : cgpDecode { d with prune := false } genome = .ok (plainGraph d genome none) := decode_valid hv'
  constructor
  · intro hlen
    have hff := plain_feedForward hv (some fun k => (parameters.drop (k * perNode)).take perNode)
    have hgraph : ({ plainGraph d genome none with
        parameters := (d.cells.map fun c => cgpNodeParameters d.numInputs perNode parameters (c.1 * d.nodesPerLayer + c.2)).foldl
          (fun f a => setNode f a.1 (some a.2)) (plainGraph d genome none).parameters } : CgpGraph V) =
        plainGraph d genome (some fun k => (parameters.drop (k * perNode)).take perNode) := by
      rw [foldl_cells_parameters]
      simp only [plainGraph, Option.map_none, ite_self, Option.map_some]
    refine ⟨_, by simp only [cgpDecodeWithParameters, hdec, if_pos hlen]; rw [hgraph], ?_⟩
    intro out input hl r
    have hout := outputs_iff hv (some fun k => (parameters.drop (k * perNode)).take perNode) input r
    simp only [Option.getD_some] at hout
    cases hp : d.prune with
    | true =>
      simp only [if_true]
      rw [prune_call hff out input hl r, hout]
      simp
    | false =>
      simp only [Bool.false_eq_true, if_false]
      rw [cgpCall_spec hff out input hl r, hout]
      have : ∀ k v, GVal (plainGraph d genome (some fun k => (parameters.drop (k * perNode)).take perNode)) d.numInputs input
          (d.numInputs + k : Nat) v ↔
        Evaluates d genome (fun k => (parameters.drop (k * perNode)).take perNode) input (d.numInputs + k : Nat) v :=
        fun k v => plain_values hv _ input _ v
      simp only [this, forall_true_left]
  · intro hlen
    simp only [cgpDecodeWithParameters, hdec, if_neg hlen]

/-- The constructor accepts exactly positive sizes and at least one primitive; by default `levels_back` is the number of
layers, which lets every node reach every earlier one. -/
theorem cgp_constructor (primitives : List (CgpPrimitive V)) (nIn nOut L npl a : Int) (prune : Bool) (lb : Option Int) :
    ((0 < primitives.length ∧ 0 < nIn ∧ 0 < nOut ∧ 0 < L ∧ 0 < npl ∧ 0 < a) →
      ∃ d : CgpDecoder V, cgpDecoder primitives nIn nOut L npl a prune lb = .ok d ∧ d.primitives = primitives ∧
        (d.numInputs : Int) = nIn ∧ (d.numOutputs : Int) = nOut ∧ (d.numLayers : Int) = L ∧ (d.nodesPerLayer : Int) = npl ∧
        (d.maxArity : Int) = a ∧ d.prune = prune ∧
        (∀ x, lb = some x → d.levelsBack = x) ∧ (lb = none → d.levelsBack = L)) ∧
    (¬ (0 < primitives.length ∧ 0 < nIn ∧ 0 < nOut ∧ 0 < L ∧ 0 < npl ∧ 0 < a) →
      cgpDecoder primitives nIn nOut L npl a prune lb = .error .assertionError) := by
  constructor
  · intro h
    have h' : primitives.length > 0 ∧ nIn > 0 ∧ nOut > 0 ∧ L > 0 ∧ npl > 0 ∧ a > 0 := h
    refine ⟨_, by rw [cgpDecoder, if_pos h'], rfl, ?_, ?_, ?_, ?_, ?_, rfl, ?_, ?_⟩
    any_goals (simp only; omega)
    · rintro x rfl; rfl
    · rintro rfl; rfl
  · intro h
    have h' : ¬ (primitives.length > 0 ∧ nIn > 0 ∧ nOut > 0 ∧ L > 0 ∧ npl > 0 ∧ a > 0) := h
    rw [cgpDecoder, if_neg h']

/-! ### A concrete circuit -/

/-- A division that raises, and a subtraction that ignores further arguments. -/
def exPrims : List (CgpPrimitive Int) :=
  [⟨some 2, fun xs => match xs with
      | [a, b] => if b = 0 then .error .valueError else .ok (a / b)
      | _ => .error .typeError⟩,
   ⟨none, fun xs => match xs with
      | a :: b :: _ => .ok (a - b)
      | _ => .error .typeError⟩]

def exDecoder (prune : Bool) : CgpDecoder Int := ⟨exPrims, 2, 2, 2, 2, 2, prune, 2⟩

/-- Node 2: 0 / 1, node 3: 0 - 1, node 4: 3 - 2, node 5: 0 / 3 (not needed); outputs 4 and 3. -/
def exGenome : List Int := [0, 0, 1,  1, 0, 1,  1, 3, 2,  0, 0, 3,  4, 3]

example : cgpDecoder exPrims 2 2 2 2 2 true none = .ok (exDecoder true) := rfl

theorem exGenome_valid (prune : Bool) : CgpValid (exDecoder prune) exGenome := by
  refine (within_bounds_iff (exDecoder prune) exGenome (by cases prune <;> decide)).mp ?_
  have : (exDecoder prune).bounds = (exDecoder true).bounds := rfl
  rw [this]
  decide +kernel

example : cgpCheck (exDecoder true) (exGenome.map CgpGene.int) = .ok (exGenome.map CgpGene.int) := by decide +kernel
-- a node of the first layer reading a node of the second layer
example : cgpCheck (exDecoder true) (([0, 0, 4,  1, 0, 1,  1, 3, 2,  0, 0, 3,  4, 3] : List Int).map CgpGene.int)
    = .error .valueError := by decide +kernel
example : cgpCheck (exDecoder true) (CgpGene.nonIntegral :: ((exGenome.drop 1).map CgpGene.int)) = .error .valueError := by
  decide +kernel
-- `levels_back` of one: the second layer may not read the inputs
example : (({ exDecoder true with levelsBack := 1 } : CgpDecoder Int).bounds)[7]? = some (2, 3) := by decide +kernel
example : Evolved (exDecoder true) exGenome :=
  Evolved.created exGenome exGenome (by decide +kernel) (by decide +kernel)

def exRun (prune : Bool) (input : List Int) : PyM (List Int) := do
  let g ← cgpDecode (exDecoder prune) exGenome
  let r ← cgpCall g 2 2 (fun _ => none) input
  return r.1

example : exRun true [12, 5] = .ok [5, 7] := by decide +kernel
example : exRun false [12, 5] = .ok [5, 7] := by decide +kernel

/-- C50, the limit of the claim: the pruned circuit also succeeds where the unpruned one raises in a node that no output
needs. -/
theorem cgp_prune_hides_exception : ∃ input, exRun true input = .ok [-1, 0] ∧ exRun false input = .error .valueError :=
  ⟨[7, 7], by decide +kernel, by decide +kernel⟩

example : exRun true [12] = .error .assertionError := by decide +kernel

end Leap
