import Verif.Lemmas.CgpExec

/-! # The unpruned graph is feed-forward and computes what the genome says -/

namespace Leap

open Spec

variable {V : Type}

theorem cgpNodeEdges_get (i : Int) (l : List Int) (j : Nat) :
    (cgpNodeEdges i l)[j]? = l[j]?.map fun s => ⟨s, i, j⟩ := by
  simp [cgpNodeEdges, List.getElem?_zipIdx, Function.comp_def]

theorem cgpNodeEdges_src (i : Int) (l : List Int) : (cgpNodeEdges i l).map CgpEdge.src = l := by
  apply List.ext_getElem?
  intro j
  rw [List.getElem?_map, cgpNodeEdges_get]
  cases l[j]? <;> rfl

theorem cgpNodeEdges_ordered (i : Int) (l : List Int) : (cgpNodeEdges i l).Pairwise fun a b => ¬ b.order < a.order := by
  rw [List.pairwise_iff_getElem]
  intro a b ha hb hab
  have h1 := List.getElem?_eq_getElem ha
  have h2 := List.getElem?_eq_getElem hb
  rw [cgpNodeEdges_get] at h1 h2
  cases hla : l[a]? <;> rw [hla] at h1 <;> simp at h1
  cases hlb : l[b]? <;> rw [hlb] at h2 <;> simp at h2
  rw [← h1, ← h2]
  simp; omega

theorem filter_flatMap_range (f : Nat → List CgpEdge) (a m : Nat) (hf : ∀ k, ∀ e ∈ f k, e.dst = (a + k : Nat)) (i : Int) :
    ((List.range m).flatMap f).filter (fun e => e.dst = i) =
      if (a : Int) ≤ i ∧ i < (a + m : Nat) then f (i - a).toNat else [] := by
  induction m with
  | zero => simp
  | succ m ih =>
    rw [List.range_succ, List.flatMap_append, List.filter_append, ih]
    simp only [List.flatMap_cons, List.flatMap_nil, List.append_nil]
    by_cases h1 : i = (a + m : Nat)
    · subst h1
      rw [if_neg (by omega), if_pos (by omega), List.nil_append]
      have : (((a + m : Nat) : Int) - a).toNat = m := by omega
      rw [this, List.filter_eq_self]
      intro e he
      simpa using hf m e he
    · have : (f m).filter (fun e => e.dst = i) = [] := by
        rw [List.filter_eq_nil_iff]
        intro e he
        have := hf m e he
        simp only [decide_eq_true_eq]
        omega
      rw [this, List.append_nil]
      by_cases h2 : (a : Int) ≤ i ∧ i < (a + m : Nat)
      · rw [if_pos h2, if_pos (by omega)]
      · rw [if_neg h2, if_neg (by omega)]

theorem outputEdges_get {d : CgpDecoder V} {genome : List Int} (o : Nat) (ho : o < d.numOutputs) :
    (outputEdges d genome)[o]? = ((d.getOutputSources genome)[o]?).map fun s =>
      ⟨s, ((d.numInputs + d.numLayers * d.nodesPerLayer + o : Nat) : Int), 0⟩ := by
  rw [outputEdges, lastNodes_allIds, List.getElem?_zipWith]
  have : (intRange ((d.numInputs + d.numLayers * d.nodesPerLayer : Nat) : Int) d.numOutputs)[o]? =
      some ((d.numInputs + d.numLayers * d.nodesPerLayer + o : Nat) : Int) := by
    simp [intRange, ho]
  rw [this]
  cases (d.getOutputSources genome)[o]? <;> rfl

theorem outputEdges_length {d : CgpDecoder V} {genome : List Int} (h : genome.length = d.numGenes) :
    (outputEdges d genome).length = d.numOutputs := by
  rw [outputEdges, lastNodes_allIds, List.length_zipWith, outputSources_length h]
  simp [intRange]

theorem filter_unique {α : Type} (l : List α) (p : α → Bool) (i : Nat) (x : α) (hx : l[i]? = some x) (hp : p x = true)
    (hu : ∀ (j : Nat) (y : α), l[j]? = some y → p y = true → j = i) : l.filter p = [x] := by
  induction l generalizing i with
  | nil => simp at hx
  | cons a l ih =>
    cases i with
    | zero =>
      simp at hx; subst hx
      rw [List.filter_cons_of_pos hp, List.cons.injEq]
      refine ⟨rfl, ?_⟩
      rw [List.filter_eq_nil_iff]
      intro y hy hpy
      obtain ⟨j, hj⟩ := List.getElem?_of_mem hy
      have := hu (j + 1) y (by simpa using hj) hpy
      omega
    | succ i =>
      have hna : ¬ p a = true := fun h => by have := hu 0 a (by simp) h; omega
      rw [List.filter_cons_of_neg hna]
      exact ih i (by simpa using hx) fun j y hj hy => by
        have := hu (j + 1) y (by simpa using hj) hy; omega

theorem outputEdges_filter {d : CgpDecoder V} {genome : List Int} (h : genome.length = d.numGenes) (o : Nat)
    (ho : o < d.numOutputs) : ∃ s, (d.getOutputSources genome)[o]? = some s ∧
      (outputEdges d genome).filter (fun e => e.dst = ((d.numInputs + d.numLayers * d.nodesPerLayer + o : Nat) : Int)) =
        [⟨s, ((d.numInputs + d.numLayers * d.nodesPerLayer + o : Nat) : Int), 0⟩] := by
  have hl := outputSources_length h
  refine ⟨(d.getOutputSources genome)[o]'(by omega), List.getElem?_eq_getElem _, ?_⟩
  apply filter_unique _ _ o
  · rw [outputEdges_get o ho, List.getElem?_eq_getElem (by omega)]; rfl
  · simp
  · intro j y hj hy
    have hjl : j < d.numOutputs := by
      rw [← outputEdges_length h]; exact (List.getElem?_eq_some_iff.mp hj).1
    rw [outputEdges_get j hjl, List.getElem?_eq_getElem (by omega)] at hj
    simp only [Option.map_some, Option.some.injEq] at hj
    subst hj
    simp only [decide_eq_true_eq] at hy
    omega

theorem cellEdges_dst (d : CgpDecoder V) (genome : List Int) (k : Nat) :
    ∀ e ∈ cellEdges d genome k, e.dst = (d.numInputs + k : Nat) := fun _ he => (mem_cgpNodeEdges he).2

theorem plain_into_node (d : CgpDecoder V) (genome : List Int) (params : Option (Nat → List V)) (k : Nat)
    (hk : k < d.numLayers * d.nodesPerLayer) :
    (plainGraph d genome params).into (d.numInputs + k : Nat) = cellEdges d genome k := by
  unfold CgpGraph.into plainGraph
  rw [List.filter_append, filter_flatMap_range _ d.numInputs _ (cellEdges_dst d genome), if_pos (by omega)]
  have h1 : (((d.numInputs + k : Nat) : Int) - d.numInputs).toNat = k := by omega
  have h2 : (outputEdges d genome).filter (fun e => e.dst = ((d.numInputs + k : Nat) : Int)) = [] := by
    rw [List.filter_eq_nil_iff]
    intro e he
    obtain ⟨-, o, -, h⟩ := mem_outputEdges he
    simp only [decide_eq_true_eq]
    omega
  rw [h1, h2, List.append_nil]

theorem plain_into_output {d : CgpDecoder V} {genome : List Int} (hlen : genome.length = d.numGenes)
    (params : Option (Nat → List V)) (o : Nat) (ho : o < d.numOutputs) :
    ∃ s, (d.getOutputSources genome)[o]? = some s ∧
      (plainGraph d genome params).into (d.numInputs + d.numLayers * d.nodesPerLayer + o : Nat) =
        [⟨s, ((d.numInputs + d.numLayers * d.nodesPerLayer + o : Nat) : Int), 0⟩] := by
  obtain ⟨s, hs, he⟩ := outputEdges_filter hlen o ho
  refine ⟨s, hs, ?_⟩
  unfold CgpGraph.into plainGraph
  rw [List.filter_append, filter_flatMap_range _ d.numInputs _ (cellEdges_dst d genome), if_neg (by omega), he]
  rfl

/-- The unpruned graph of a valid genome is feed-forward. -/
theorem plain_feedForward {d : CgpDecoder V} {genome : List Int} (hv : CgpValid d genome) (params : Option (Nat → List V)) :
    FeedForward (plainGraph d genome params) d.numInputs (d.numLayers * d.nodesPerLayer) d.numOutputs := by
  have hlen : genome.length = d.numGenes := hv.length
  have hmem : ∀ e ∈ (plainGraph d genome params).edges,
      (∃ k < d.numLayers * d.nodesPerLayer, e ∈ cellEdges d genome k) ∨ e ∈ outputEdges d genome := by
    intro e he
    simp only [plainGraph, List.mem_append, List.mem_flatMap, List.mem_range] at he
    exact he
  refine ⟨?_, ?_, ?_, ?_, ?_, ?_⟩
  · simp [plainGraph, allIds, intRange, CgpDecoder.numCgpNodes]
  · intro i
    by_cases h1 : (d.numInputs : Int) ≤ i ∧ i < (d.numInputs + d.numLayers * d.nodesPerLayer : Nat)
    · have : i = (d.numInputs + (i - d.numInputs).toNat : Nat) := by omega
      rw [this, plain_into_node d genome params _ (by omega)]
      exact cgpNodeEdges_ordered _ _
    · by_cases h2 : ((d.numInputs + d.numLayers * d.nodesPerLayer : Nat) : Int) ≤ i ∧
          i < (d.numInputs + d.numLayers * d.nodesPerLayer + d.numOutputs : Nat)
      · have : i = (d.numInputs + d.numLayers * d.nodesPerLayer +
            (i - (d.numInputs + d.numLayers * d.nodesPerLayer : Nat)).toNat : Nat) := by omega
        rw [this]
        obtain ⟨s, -, e⟩ := plain_into_output hlen params
          (i - (d.numInputs + d.numLayers * d.nodesPerLayer : Nat)).toNat (by omega)
        rw [e]
        exact List.pairwise_singleton _ _
      · have : (plainGraph d genome params).into i = [] := by
          unfold CgpGraph.into
          rw [List.filter_eq_nil_iff]
          intro e he
          simp only [decide_eq_true_eq]
          rcases hmem e he with ⟨k, hk, h⟩ | h
          · have := cellEdges_dst d genome k e h; omega
          · obtain ⟨-, o, ho, h⟩ := mem_outputEdges h; omega
        rw [this]; exact List.Pairwise.nil
  · intro e he
    rcases hmem e he with ⟨k, hk, h⟩ | h
    · have h1 := sourcesAt_range hv k hk e.src (limitArity_subset _ _ _ (mem_cgpNodeEdges h).1)
      have h2 := cellEdges_dst d genome k e h
      refine ⟨h1.1, by omega, ?_⟩
      have hk' : (k : Int) < ((d.numLayers * d.nodesPerLayer : Nat) : Int) := by exact_mod_cast hk
      omega
    · obtain ⟨h1, o, ho, h2⟩ := mem_outputEdges h
      have h3 := outputSources_range hv e.src h1
      exact ⟨h3.1, by omega, by omega⟩
  · intro e he
    rcases hmem e he with ⟨k, hk, h⟩ | h
    · have h2 := cellEdges_dst d genome k e h
      have hk' : (k : Int) < ((d.numLayers * d.nodesPerLayer : Nat) : Int) := by exact_mod_cast hk
      constructor <;> omega
    · obtain ⟨h1, o, ho, h2⟩ := mem_outputEdges h
      constructor <;> omega
  · intro o ho
    obtain ⟨s, -, e⟩ := plain_into_output hlen params o ho
    exact ⟨_, e⟩
  · intro m hm
    refine ⟨primAt d genome m, ?_⟩
    simp only [plainGraph]
    rw [if_pos (by omega)]
    congr 2
    omega

theorem plain_inNodes {d : CgpDecoder V} {genome : List Int} (hv : CgpValid d genome) (params : Option (Nat → List V))
    (k : Nat) (hk : k < d.numLayers * d.nodesPerLayer) :
    (plainGraph d genome params).inNodes (d.numInputs + k : Nat) = limitArity (primAt d genome k) (sourcesAt d genome k) := by
  rw [(plain_feedForward hv params).inNodes, plain_into_node d genome params k hk, cellEdges, cgpNodeEdges_src]

theorem limitArity_length {d : CgpDecoder V} {genome : List Int} (hlen : genome.length = d.numGenes) (k : Nat)
    (hk : k < d.numLayers * d.nodesPerLayer) (f : CgpPrimitive V) :
    (limitArity f (sourcesAt d genome k)).length = usedArity d f := by
  have := sourcesAt_length d genome hlen k hk
  unfold limitArity usedArity
  cases f.arity <;> simp [this]

theorem limitArity_get {d : CgpDecoder V} {genome : List Int} (k j : Nat) (f : CgpPrimitive V) (hj : j < usedArity d f) :
    (limitArity f (sourcesAt d genome k))[j]? = genome[k * (d.maxArity + 1) + 1 + j]? := by
  unfold usedArity at hj
  unfold limitArity
  cases hf : f.arity with
  | none => rw [hf] at hj; exact sourcesAt_get d genome k j hj
  | some a =>
    rw [hf] at hj
    simp only at hj ⊢
    rw [List.getElem?_take_of_lt (by omega)]
    exact sourcesAt_get d genome k j (by omega)

theorem plain_parameters (d : CgpDecoder V) (genome : List Int) (params : Option (Nat → List V)) (k : Nat)
    (hk : k < d.numLayers * d.nodesPerLayer) :
    ((plainGraph d genome params).parameters (d.numInputs + k : Nat)).getD [] = (params.getD fun _ => []) k := by
  simp only [plainGraph]
  rw [if_pos (by omega)]
  have : (((d.numInputs + k : Nat) : Int) - d.numInputs).toNat = k := by omega
  rw [this]
  cases params <;> rfl

theorem primAt_valid {d : CgpDecoder V} {genome : List Int} (hv : CgpValid d genome) (k : Nat)
    (hk : k < d.numLayers * d.nodesPerLayer) : ∃ p : Nat, genome[k * (d.maxArity + 1)]? = some (p : Int) ∧
      d.primitives[p]? = some (primAt d genome k) := by
  obtain ⟨l, n, hl, hn, rfl⟩ := grid_cell d k hk
  obtain ⟨p, e, h⟩ := hv.primitive l n hl hn
  refine ⟨p, e, ?_⟩
  simp [primAt, List.getD_eq_getElem?_getD, e, h]

theorem plain_function (d : CgpDecoder V) (genome : List Int) (params : Option (Nat → List V)) (k : Nat)
    (hk : k < d.numLayers * d.nodesPerLayer) :
    (plainGraph d genome params).function (d.numInputs + k : Nat) = some (primAt d genome k) := by
  simp only [plainGraph]
  rw [if_pos (by omega)]
  congr 2
  omega

/-- The values of the nodes of the unpruned graph are those the genome describes. -/
theorem plain_values {d : CgpDecoder V} {genome : List Int} (hv : CgpValid d genome) (params : Option (Nat → List V))
    (input : List V) (s : Int) (v : V) :
    GVal (plainGraph d genome params) d.numInputs input s v ↔
      Evaluates d genome (params.getD fun _ => []) input s v := by
  constructor
  · intro h
    induction h with
    | input i v hi hx => exact Evaluates.input i v hi hx
    | node i f args v hle hf hlen hargs hcall ih =>
      obtain ⟨k, hk, rfl⟩ : ∃ k < d.numLayers * d.nodesPerLayer, i = (d.numInputs + k : Nat) := by
        simp only [plainGraph] at hf
        split at hf
        · exact ⟨(i - d.numInputs).toNat, by omega, by omega⟩
        · cases hf
      rw [plain_function d genome params k hk] at hf
      cases Option.some.inj hf
      rw [plain_inNodes hv params k hk] at hlen
      rw [limitArity_length hv.length k hk] at hlen
      obtain ⟨p, e1, e2⟩ := primAt_valid hv k hk
      refine Evaluates.node k p _ args v hk e1 e2 hlen ?_ ?_
      · intro j s x hj hs hx
        refine ih j s x ?_ hx
        rw [plain_inNodes hv params k hk, limitArity_get k j _ hj]
        exact hs
      · rw [← plain_parameters d genome params k hk]; exact hcall
  · intro h
    induction h with
    | input i v hi hx => exact GVal.input i v hi hx
    | node k p f args v hk e1 e2 hlen hargs hcall ih =>
      obtain ⟨p', e1', e2'⟩ := primAt_valid hv k hk
      rw [e1, Option.some.injEq] at e1'
      have : p = p' := by omega
      subst this
      rw [e2, Option.some.injEq] at e2'
      subst e2'
      refine GVal.node _ (primAt d genome k) args v (by omega) (plain_function d genome params k hk) ?_ ?_ ?_
      · rw [plain_inNodes hv params k hk, limitArity_length hv.length k hk]; exact hlen
      · intro j s x hs hx
        rw [plain_inNodes hv params k hk] at hs
        have hj : j < usedArity d (primAt d genome k) := by
          rw [← limitArity_length hv.length k hk]; exact (List.getElem?_eq_some_iff.mp hs).1
        rw [limitArity_get k j _ hj] at hs
        exact ih j s x hj hs hx
      · rw [plain_parameters d genome params k hk]; exact hcall

end Leap
