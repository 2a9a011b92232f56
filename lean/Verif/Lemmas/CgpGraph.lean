import Verif.Lemmas.CgpBounds
import Verif.Props.RankOrdinal

/-! # The graph of a valid CGP genome -/

namespace Leap

open Spec

variable {V : Type}

theorem pyIndex_nat {α : Type} (l : List α) (n : Nat) (a : α) (h : l[n]? = some a) : pyIndex l (n : Int) = .ok a := by
  obtain ⟨hn, _⟩ := List.getElem?_eq_some_iff.mp h
  have : pyPos l.length (n : Int) = some n := by
    unfold pyPos
    rw [if_pos (by omega), if_pos (by omega)]
    simp
  simp only [pyIndex, this, h]

/-- The primitive of node `k` of the grid. -/
def primAt (d : CgpDecoder V) (genome : List Int) (k : Nat) : CgpPrimitive V :=
  match d.primitives[(genome.getD (k * (d.maxArity + 1)) 0).toNat]? with
  | some f => f
  | none => ⟨none, fun _ => .error .keyError⟩

/-- The source genes of node `k` of the grid. -/
def sourcesAt (d : CgpDecoder V) (genome : List Int) (k : Nat) : List Int :=
  (genome.drop (k * (d.maxArity + 1) + 1)).take d.maxArity

theorem sourcesAt_get (d : CgpDecoder V) (genome : List Int) (k j : Nat) (hj : j < d.maxArity) :
    (sourcesAt d genome k)[j]? = genome[k * (d.maxArity + 1) + 1 + j]? := by
  simp [sourcesAt, hj]

theorem sourcesAt_length (d : CgpDecoder V) (genome : List Int) (h : genome.length = d.numGenes) (k : Nat)
    (hk : k < d.numLayers * d.nodesPerLayer) : (sourcesAt d genome k).length = d.maxArity := by
  have h3 : (k + 1) * (d.maxArity + 1) ≤ d.numLayers * d.nodesPerLayer * (d.maxArity + 1) :=
    Nat.mul_le_mul_right _ (by omega)
  have h4 : (k + 1) * (d.maxArity + 1) = k * (d.maxArity + 1) + (d.maxArity + 1) := by ring
  unfold CgpDecoder.numGenes at h
  simp only [sourcesAt, List.length_take, List.length_drop]
  omega

theorem grid_cell (d : CgpDecoder V) (k : Nat) (hk : k < d.numLayers * d.nodesPerLayer) :
    ∃ l n, l < d.numLayers ∧ n < d.nodesPerLayer ∧ k = l * d.nodesPerLayer + n := by
  have hnpl : 0 < d.nodesPerLayer := by
    rcases Nat.eq_zero_or_pos d.nodesPerLayer with h0 | h0
    · rw [h0] at hk; simp at hk
    · exact h0
  have e2 := Nat.div_add_mod k d.nodesPerLayer
  rw [Nat.mul_comm] at e2
  exact ⟨_, _, (Nat.div_lt_iff_lt_mul hnpl).mpr hk, Nat.mod_lt k hnpl, e2.symm⟩

theorem grid_lt (d : CgpDecoder V) (l n : Nat) (hl : l < d.numLayers) (hn : n < d.nodesPerLayer) :
    l * d.nodesPerLayer + n < d.numLayers * d.nodesPerLayer := by
  have h1 : (l + 1) * d.nodesPerLayer ≤ d.numLayers * d.nodesPerLayer := Nat.mul_le_mul_right _ hl
  have h2 : (l + 1) * d.nodesPerLayer = l * d.nodesPerLayer + d.nodesPerLayer := by ring
  omega

theorem admissible_range (d : CgpDecoder V) (l n : Nat) (s : Int) (h : Admissible d l s) :
    0 ≤ s ∧ s < d.numInputs + (l * d.nodesPerLayer + n : Nat) := by
  rcases h with ⟨h0, h1, -⟩ | ⟨l', n', hl, hn, e, -⟩
  · have : 0 ≤ (l : Int) * d.nodesPerLayer := by positivity
    exact ⟨h0, by push_cast; omega⟩
  · have h1 : 0 ≤ (l' : Int) * d.nodesPerLayer := by positivity
    have h2 : ((l' : Int) + 1) * d.nodesPerLayer ≤ l * d.nodesPerLayer :=
      mul_le_mul_of_nonneg_right (by omega) (by omega)
    have h3 : ((l' : Int) + 1) * d.nodesPerLayer = l' * d.nodesPerLayer + d.nodesPerLayer := by ring
    push_cast
    omega

theorem sourcesAt_range {d : CgpDecoder V} {genome : List Int} (hv : CgpValid d genome) (k : Nat)
    (hk : k < d.numLayers * d.nodesPerLayer) : ∀ s ∈ sourcesAt d genome k, 0 ≤ s ∧ s < (d.numInputs + k : Nat) := by
  intro s hs
  obtain ⟨l, n, hl, hn, rfl⟩ := grid_cell d k hk
  obtain ⟨j, hj⟩ := List.getElem?_of_mem hs
  have hjl : j < d.maxArity := by
    have := (List.getElem?_eq_some_iff.mp hj).1
    rwa [sourcesAt_length d genome hv.length _ hk] at this
  rw [sourcesAt_get d genome _ j hjl] at hj
  obtain ⟨s', e, h⟩ := hv.source l n j hl hn hjl
  rw [e, Option.some.injEq] at hj
  subst hj
  have := admissible_range d l n s' h
  push_cast at this ⊢
  exact ⟨this.1, by omega⟩

theorem getPrimitive_valid {d : CgpDecoder V} {genome : List Int} (hv : CgpValid d genome) (l n : Nat)
    (hl : l < d.numLayers) (hn : n < d.nodesPerLayer) :
    d.getPrimitive genome l n = .ok (primAt d genome (l * d.nodesPerLayer + n)) := by
  obtain ⟨p, e, h⟩ := hv.primitive l n hl hn
  have h1 := pyIndex_nat genome _ _ e
  have h2 := pyIndex_nat d.primitives p _ (List.getElem?_eq_getElem h)
  simp only [CgpDecoder.getPrimitive, if_pos (And.intro hl hn), h1, bind, Except.bind]
  rw [if_pos (by omega), h2]
  simp [primAt, List.getD_eq_getElem?_getD, e, h]

theorem getInputSources_valid {d : CgpDecoder V} {genome : List Int} (hlen : genome.length = d.numGenes) (l n : Nat)
    (hl : l < d.numLayers) (hn : n < d.nodesPerLayer) :
    d.getInputSources genome l n = .ok (sourcesAt d genome (l * d.nodesPerLayer + n)) := by
  have hs := sourcesAt_length d genome hlen _ (grid_lt d l n hl hn)
  rw [CgpDecoder.getInputSources, if_pos ⟨hl, hn⟩]
  rw [pyMapM_ok _ (fun j => (sourcesAt d genome (l * d.nodesPerLayer + n)).getD j 0)]
  · congr 1
    apply List.ext_getElem?
    intro j
    by_cases hj : j < d.maxArity
    · simp [hj, List.getD_eq_getElem?_getD, hs]
    · rw [List.getElem?_eq_none (by simp; omega), List.getElem?_eq_none (by omega)]
  · intro j hj
    rw [List.mem_range] at hj
    apply pyIndex_nat
    rw [← sourcesAt_get d genome _ j hj, List.getD_eq_getElem?_getD, List.getElem?_eq_getElem (by omega)]
    rfl

/-- The edges into node `k` of the grid. -/
def cellEdges (d : CgpDecoder V) (genome : List Int) (k : Nat) : List CgpEdge :=
  cgpNodeEdges ((d.numInputs + k : Nat) : Int) (limitArity (primAt d genome k) (sourcesAt d genome k))

theorem limitArity_subset (p : CgpPrimitive V) (l : List Int) : ∀ s ∈ limitArity p l, s ∈ l := by
  intro s hs
  unfold limitArity at hs
  split at hs
  · exact List.mem_of_mem_take hs
  · exact hs

theorem addNodes_old (es : List CgpEdge) (nodes : List Int) (h : ∀ e ∈ es, e.src ∈ nodes) :
    es.foldl (fun ns e => addNode ns e.src) nodes = nodes := by
  induction es with
  | nil => rfl
  | cons e es ih =>
    rw [List.foldl_cons, addNode, if_pos (h e (List.mem_cons_self ..))]
    exact ih fun e he => h e (List.mem_cons_of_mem _ he)

theorem mem_cgpNodeEdges {i : Int} {l : List Int} {e : CgpEdge} (h : e ∈ cgpNodeEdges i l) : e.src ∈ l ∧ e.dst = i := by
  simp only [cgpNodeEdges, List.mem_map] at h
  obtain ⟨x, hx, rfl⟩ := h
  exact ⟨List.fst_mem_of_mem_zipIdx hx, rfl⟩

theorem cells_index (d : CgpDecoder V) :
    d.cells.map (fun c => c.1 * d.nodesPerLayer + c.2) = List.range (d.numLayers * d.nodesPerLayer) := by
  unfold CgpDecoder.cells
  induction d.numLayers with
  | zero => simp
  | succ L ih =>
    rw [List.range_succ, List.flatMap_append, List.map_append, ih, Nat.succ_mul, List.range_add]
    simp [List.map_map, Function.comp_def]

theorem mem_cells (d : CgpDecoder V) (c : Nat × Nat) : c ∈ d.cells ↔ c.1 < d.numLayers ∧ c.2 < d.nodesPerLayer := by
  simp only [CgpDecoder.cells, List.mem_flatMap, List.mem_map, List.mem_range]
  constructor
  · rintro ⟨l, hl, n, hn, rfl⟩; exact ⟨hl, hn⟩
  · rintro ⟨hl, hn⟩; exact ⟨c.1, hl, c.2, hn, rfl⟩

/-- The node ids of the unpruned graph. -/
def allIds (d : CgpDecoder V) : List Int := (List.range d.numCgpNodes).map fun (i : Nat) => (i : Int)

theorem mem_allIds (d : CgpDecoder V) (i : Int) : i ∈ allIds d ↔ 0 ≤ i ∧ i < d.numCgpNodes := by
  simp only [allIds, List.mem_map, List.mem_range]
  constructor
  · rintro ⟨k, hk, rfl⟩; omega
  · rintro ⟨h0, h1⟩; exact ⟨i.toNat, by omega, by omega⟩

theorem cgpAddCells_valid {d : CgpDecoder V} {genome : List Int} (hv : CgpValid d genome) (cs : List (Nat × Nat))
    (hcs : ∀ c ∈ cs, c.1 < d.numLayers ∧ c.2 < d.nodesPerLayer) (g : CgpGraph V) (hg : g.nodes = allIds d) :
    cgpAddCells d genome cs g = .ok
      { nodes := allIds d
        function := (cs.map fun c => c.1 * d.nodesPerLayer + c.2).foldl
          (fun f k => setNode f ((d.numInputs + k : Nat) : Int) (some (primAt d genome k))) g.function
        parameters := g.parameters
        edges := g.edges ++ (cs.map fun c => c.1 * d.nodesPerLayer + c.2).flatMap (cellEdges d genome) } := by
  induction cs generalizing g with
  | nil =>
    simp only [cgpAddCells, List.map_nil, List.foldl_nil, List.flatMap_nil, List.append_nil]
    rw [← hg]
  | cons c cs ih =>
    obtain ⟨hl, hn⟩ := hcs c (List.mem_cons_self ..)
    have hk := grid_lt d c.1 c.2 hl hn
    have hstep : cgpAddCell d genome g c = .ok
        { nodes := allIds d
          function := setNode g.function ((d.numInputs + (c.1 * d.nodesPerLayer + c.2) : Nat) : Int)
            (some (primAt d genome (c.1 * d.nodesPerLayer + c.2)))
          parameters := g.parameters
          edges := g.edges ++ cellEdges d genome (c.1 * d.nodesPerLayer + c.2) } := by
      simp only [cgpAddCell, getPrimitive_valid hv c.1 c.2 hl hn, getInputSources_valid hv.length c.1 c.2 hl hn, bind,
        Except.bind, CgpGraph.addEdges, cellEdges, ← Nat.add_assoc]
      rw [addNodes_old, hg]
      intro e he
      rw [hg, mem_allIds]
      obtain ⟨h1, h2⟩ := mem_cgpNodeEdges he
      have := sourcesAt_range hv _ hk e.src (limitArity_subset _ _ _ h1)
      refine ⟨this.1, ?_⟩
      simp only [CgpDecoder.numCgpNodes]
      push_cast at this ⊢
      have hk' : (c.1 : Int) * d.nodesPerLayer + c.2 < d.numLayers * d.nodesPerLayer := by exact_mod_cast hk
      omega
    simp only [cgpAddCells, hstep]
    rw [ih (fun c hc => hcs c (List.mem_cons_of_mem _ hc)) _ rfl]
    simp

theorem foldl_setNode_range {β : Type} (h : Nat → β) (a m : Nat) (f0 : Int → β) (j : Int) :
    (List.range m).foldl (fun f k => setNode f ((a + k : Nat) : Int) (h k)) f0 j =
      if (a : Int) ≤ j ∧ j < (a + m : Nat) then h (j - a).toNat else f0 j := by
  induction m with
  | zero => simp
  | succ m ih =>
    rw [List.range_succ, List.foldl_append]
    simp only [List.foldl_cons, List.foldl_nil, setNode, ih]
    by_cases h1 : j = (a + m : Nat)
    · subst h1
      rw [if_pos rfl, if_pos (by omega)]
      congr 1; omega
    · rw [if_neg h1]
      by_cases h2 : (a : Int) ≤ j ∧ j < (a + m : Nat)
      · rw [if_pos h2, if_pos (by omega)]
      · rw [if_neg h2, if_neg (by omega)]

/-- The outputs' edges. -/
def outputEdges (d : CgpDecoder V) (genome : List Int) : List CgpEdge :=
  List.zipWith (fun s o => ⟨s, o, 0⟩) (d.getOutputSources genome) (lastNodes (allIds d) d.numOutputs)

/-- The unpruned graph of a valid genome, in closed form; `params` are the parameters of the nodes, if any. -/
def plainGraph (d : CgpDecoder V) (genome : List Int) (params : Option (Nat → List V)) : CgpGraph V where
  nodes := allIds d
  function := fun j => if (d.numInputs : Int) ≤ j ∧ j < (d.numInputs + d.numLayers * d.nodesPerLayer : Nat) then
    some (primAt d genome (j - d.numInputs).toNat) else none
  parameters := fun j => if (d.numInputs : Int) ≤ j ∧ j < (d.numInputs + d.numLayers * d.nodesPerLayer : Nat) then
    params.map fun p => p (j - d.numInputs).toNat else none
  edges := (List.range (d.numLayers * d.nodesPerLayer)).flatMap (cellEdges d genome) ++ outputEdges d genome

theorem lastNodes_allIds (d : CgpDecoder V) :
    lastNodes (allIds d) d.numOutputs = intRange (d.numInputs + d.numLayers * d.nodesPerLayer : Nat) d.numOutputs := by
  unfold lastNodes allIds intRange
  rw [← List.map_drop, List.length_map, List.length_range, CgpDecoder.numCgpNodes, Nat.add_sub_cancel, List.range_add,
    List.drop_left' (by simp)]
  simp [List.map_map, Function.comp_def]

theorem outputSources_length {d : CgpDecoder V} {genome : List Int} (h : genome.length = d.numGenes) :
    (d.getOutputSources genome).length = d.numOutputs := by
  simp [CgpDecoder.getOutputSources, h, CgpDecoder.numGenes]

theorem outputSources_get (d : CgpDecoder V) (genome : List Int) (o : Nat) :
    (d.getOutputSources genome)[o]? = genome[d.numLayers * d.nodesPerLayer * (d.maxArity + 1) + o]? := by
  simp [CgpDecoder.getOutputSources]

theorem outputSources_range {d : CgpDecoder V} {genome : List Int} (hv : CgpValid d genome) :
    ∀ s ∈ d.getOutputSources genome, 0 ≤ s ∧ s < (d.numInputs + d.numLayers * d.nodesPerLayer : Nat) := by
  intro s hs
  obtain ⟨o, ho⟩ := List.getElem?_of_mem hs
  have hol : o < d.numOutputs := by
    have := (List.getElem?_eq_some_iff.mp ho).1
    rwa [outputSources_length hv.length] at this
  rw [outputSources_get] at ho
  obtain ⟨s', e, h⟩ := hv.output o hol
  rw [e, Option.some.injEq] at ho
  subst ho
  push_cast
  exact h

theorem mem_outputEdges {d : CgpDecoder V} {genome : List Int} {e : CgpEdge} (h : e ∈ outputEdges d genome) :
    e.src ∈ d.getOutputSources genome ∧ ∃ o < d.numOutputs, e.dst = (d.numInputs + d.numLayers * d.nodesPerLayer + o : Nat) := by
  rw [outputEdges, lastNodes_allIds] at h
  obtain ⟨i, hi, e'⟩ := List.getElem_of_mem h
  rw [List.getElem_zipWith] at e'
  rw [List.length_zipWith] at hi
  subst e'
  refine ⟨List.getElem_mem _, i, ?_, ?_⟩
  · simp [intRange] at hi; omega
  · simp [intRange]

theorem cgpGraph_valid {d : CgpDecoder V} {genome : List Int} (hv : CgpValid d genome) :
    cgpGraph d genome = .ok (plainGraph d genome none) := by
  have hlen : genome.length = d.numGenes := hv.length
  rw [cgpGraph, if_pos hlen]
  simp only
  rw [cgpAddCells_valid hv d.cells (fun c hc => (mem_cells d c).mp hc) _ rfl]
  simp only [cells_index, CgpGraph.addEdges, List.nil_append]
  unfold plainGraph
  have e1 : List.foldl (fun f (k : Nat) => setNode f ((d.numInputs + k : Nat) : Int) (some (primAt d genome k))) (fun _ => none)
      (List.range (d.numLayers * d.nodesPerLayer)) =
      fun j => if (d.numInputs : Int) ≤ j ∧ j < (d.numInputs + d.numLayers * d.nodesPerLayer : Nat) then
        some (primAt d genome (j - d.numInputs).toNat) else none := by
    funext j
    exact foldl_setNode_range (fun k => some (primAt d genome k)) d.numInputs _ _ j
  rw [e1, addNodes_old]
  · simp only [Option.map_none, ite_self]
    rfl
  · intro e he
    have := outputSources_range hv e.src (mem_outputEdges he).1
    rw [mem_allIds, CgpDecoder.numCgpNodes]
    omega

end Leap
