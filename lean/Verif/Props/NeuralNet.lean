import Mathlib.Tactic.Ring
import Mathlib.Algebra.Order.Ring.Rat
import Mathlib.Data.Rat.Defs
import Mathlib.Data.List.Chain
import Verif.Model.NeuralNet

/-!
# Neural networks (C54)
-/

namespace Leap

namespace Spec

/-- A matrix whose rows and columns are as its shape says. -/
structure Shaped (w : WeightMatrix R) : Prop where
  rows : w.entries.length = w.nrows
  cols : ∀ row ∈ w.entries, row.length = w.ncols

/-- The weight from source `i` to target `j`. -/
def weight [Semiring R] (w : WeightMatrix R) (i j : Nat) : R := (w.entries.getD i []).getD j 0

/-- The net input of neuron `j`: the weighted sum of the inputs, plus the bias weight in the extra row. -/
def neuron [Semiring R] (w : WeightMatrix R) (input : List R) (j : Nat) : R :=
  ((List.range input.length).map fun i => input.getD i 0 * weight w i j).sum + weight w input.length j

/-- A feed-forward network. -/
def forward [Semiring R] (activation : List R → List R) : List (WeightMatrix R) → List R → List R
  | [], input => input
  | w :: ws, input => forward activation ws (activation ((List.range w.ncols).map (neuron w input)))

/-- All weights, layer by layer, row by row. -/
def allWeights (ws : List (WeightMatrix R)) : List R := (ws.map fun w => w.entries.flatten).flatten

/-- Consecutive layers fit: each layer has one row for every output of the previous one and one for the bias. -/
def Chained (ws : List (WeightMatrix R)) : Prop := ws.IsChain fun v w => w.nrows = v.ncols + 1

/-- Where a connection starts: the last row of every matrix belongs to the bias unit. -/
def sourceNode (w : WeightMatrix R) (layer i : Nat) : NodeId :=
  if i + 1 = w.nrows then .bias else if layer = 0 then .input i else .hidden (layer - 1) i

/-- Where a connection ends, in a network of `total` layers. -/
def targetNode (total layer j : Nat) : NodeId := if layer + 1 = total then .output j else .hidden layer j

/-- One edge for every weight of one layer. -/
def layerGraph (total : Nat) (w : WeightMatrix R) (layer : Nat) : List (NNEdge R) :=
  w.entries.zipIdx.flatMap fun r => r.1.zipIdx.map fun x => ⟨sourceNode w layer r.2, targetNode total layer x.2, x.1⟩

/-- One edge for every weight. -/
def networkGraph (ws : List (WeightMatrix R)) : List (NNEdge R) :=
  ws.zipIdx.flatMap fun w => layerGraph ws.length w.1 w.2

end Spec

open Spec

theorem layerDimensions_cons (a b : Nat) (t : List Nat) : layerDimensions (a :: b :: t) = (1 + a, b) :: layerDimensions (b :: t) := by
  simp [layerDimensions]

theorem layerDimensions_length (s : List Nat) : (layerDimensions s).length = s.length - 1 := by
  simp [layerDimensions]

/-- C54: the constructor refuses fewer than two layer sizes and otherwise pairs the non-zero ones up. -/
theorem nn_constructor (shape : List Nat) :
    (shape.length ≤ 1 → nnDecoder shape = .error .assertionError) ∧
    (1 < shape.length → ∃ d, nnDecoder shape = .ok d ∧
      (∀ i, d.dimensions[i]? =
        match (shape.filter (· ≠ 0))[i]?, (shape.filter (· ≠ 0))[i + 1]? with
        | some a, some b => some (a + 1, b)
        | _, _ => none) ∧
      d.length = (d.dimensions.map fun p => p.1 * p.2).sum) := by
  constructor
  · intro h
    rw [nnDecoder, if_neg (by omega)]
  · intro h
    refine ⟨⟨layerDimensions (shape.filter (· != 0)), _⟩, by rw [nnDecoder, if_pos h], ?_, rfl⟩
    have e : shape.filter (· != 0) = shape.filter (· ≠ 0) := by
      congr 1; funext x; by_cases hx : x = 0 <;> simp [hx]
    rw [e]
    generalize shape.filter (· ≠ 0) = s
    clear h
    intro i
    induction s generalizing i with
    | nil => simp [layerDimensions]
    | cons a t ih =>
      cases t with
      | nil => cases i <;> simp [layerDimensions]
      | cons b t =>
        show (layerDimensions (a :: b :: t))[i]? = _
        rw [layerDimensions_cons]
        cases i with
        | zero => simp [Nat.add_comm]
        | succ i =>
          rw [List.getElem?_cons_succ, List.getElem?_cons_succ, List.getElem?_cons_succ]
          exact ih i

theorem reshape_flatten (l : List R) (rows cols : Nat) :
    ((List.range rows).map fun r => (l.drop (r * cols)).take cols).flatten = l.take (rows * cols) := by
  induction rows with
  | zero => simp
  | succ n ih =>
    rw [List.range_succ, List.map_append, List.flatten_append, ih, Nat.succ_mul, List.take_add]
    simp

theorem npReshape_ok (l : List R) (rows cols : Nat) (h : l.length = rows * cols) :
    ∃ w, npReshape l rows cols = .ok w ∧ w.nrows = rows ∧ w.ncols = cols ∧ Shaped w ∧ w.entries.flatten = l := by
  refine ⟨⟨rows, cols, (List.range rows).map fun r => (l.drop (r * cols)).take cols⟩, by rw [npReshape, if_pos h], rfl, rfl, ?_, ?_⟩
  · constructor
    · simp
    · intro row hrow
      obtain ⟨r, hr, rfl⟩ := List.mem_map.mp hrow
      rw [List.mem_range] at hr
      rw [List.length_take, List.length_drop, h]
      show min cols (rows * cols - r * cols) = cols
      rw [← Nat.sub_mul]
      apply Nat.min_eq_left
      exact Nat.le_mul_of_pos_left _ (by omega)
  · show (List.map _ _).flatten = l
    rw [reshape_flatten, ← h, List.take_length]

theorem nnLayers_ok (genome : List R) (start : Nat) (dims : List (Nat × Nat))
    (h : start + (dims.map fun d => d.1 * d.2).sum = genome.length) :
    ∃ ws, nnLayers genome start dims = .ok ws ∧ (ws.map fun w => (w.nrows, w.ncols)) = dims ∧ (∀ w ∈ ws, Shaped w) ∧
      allWeights ws = genome.drop start := by
  induction dims generalizing start with
  | nil =>
    refine ⟨[], rfl, rfl, by simp, ?_⟩
    simp only [List.map_nil, List.sum_nil, Nat.add_zero] at h
    simp [allWeights, h]
  | cons d dims ih =>
    obtain ⟨a, b⟩ := d
    simp only [List.map_cons, List.sum_cons] at h
    have hl : ((genome.take (start + a * b)).drop start).length = a * b := by
      rw [List.length_drop, List.length_take]; omega
    obtain ⟨w, hw, h1, h2, h3, h4⟩ := npReshape_ok _ a b hl
    obtain ⟨ws, hws, h5, h6, h7⟩ := ih (start + a * b) (by omega)
    refine ⟨w :: ws, by simp [nnLayers, hw, hws, bind, Except.bind], by simp [h1, h2, h5], ?_, ?_⟩
    · intro v hv
      rcases List.mem_cons.mp hv with rfl | hv
      · exact h3
      · exact h6 v hv
    · show (w.entries.flatten :: (ws.map fun w => w.entries.flatten)).flatten = _
      rw [List.flatten_cons, h4]
      show _ ++ allWeights ws = _
      rw [h7, List.drop_take]
      rw [show start + a * b - start = a * b by omega, ← List.drop_drop, List.take_append_drop]

theorem chained_of_dims {ws : List (WeightMatrix R)} {s : List Nat}
    (h : (ws.map fun w => (w.nrows, w.ncols)) = layerDimensions s) : Chained ws := by
  induction s generalizing ws with
  | nil =>
    have : ws = [] := by simpa [layerDimensions] using h
    rw [this]; exact List.IsChain.nil
  | cons a t ih =>
    cases t with
    | nil =>
      have : ws = [] := by simpa [layerDimensions] using h
      rw [this]; exact List.IsChain.nil
    | cons b t =>
      rw [layerDimensions_cons] at h
      cases ws with
      | nil => simp at h
      | cons w ws =>
        simp only [List.map_cons, List.cons.injEq, Prod.mk.injEq] at h
        have htail := ih h.2
        cases ws with
        | nil => exact List.IsChain.singleton _
        | cons w' ws =>
          refine List.IsChain.cons_cons ?_ htail
          cases t with
          | nil => simp [layerDimensions] at h
          | cons c t =>
            rw [layerDimensions_cons] at h
            simp only [List.map_cons, List.cons.injEq, Prod.mk.injEq] at h
            rw [h.1.2, h.2.1.1]; omega

/-- C54: decoding accepts exactly the genomes of the declared length. The matrices have the declared shapes, consecutive
ones fit, and reading off all weights in order gives back the genome: every gene is used exactly once, in order. -/
theorem nn_decode (shape : List Nat) (d : NNDecoder) (hd : nnDecoder shape = .ok d) (genome : List R) :
    (genome.length ≠ d.length → nnDecode d genome = .error .valueError) ∧
    (genome.length = d.length → ∃ ws, nnDecode d genome = .ok ws ∧ (ws.map fun w => (w.nrows, w.ncols)) = d.dimensions ∧
      (∀ w ∈ ws, Shaped w) ∧ Chained ws ∧ allWeights ws = genome) := by
  rw [nnDecoder] at hd
  split at hd
  · simp only [Except.ok.injEq] at hd
    subst hd
    constructor
    · intro h; rw [nnDecode, if_pos h]
    · intro h
      obtain ⟨ws, h1, h2, h3, h4⟩ := nnLayers_ok genome 0 (layerDimensions (shape.filter (· != 0))) (by rw [h]; simp)
      refine ⟨ws, ?_, h2, h3, chained_of_dims h2, by simpa using h4⟩
      rw [nnDecode, if_neg (by simpa using h)]
      exact h1
  · exact absurd hd (by simp)

/-- C54: the sizes reported by a decoded network are those asked for, zero-size layers left out. -/
theorem nn_sizes (a b : Nat) (shape : List Nat) (mid : List Nat) (d : NNDecoder) (hd : nnDecoder shape = .ok d)
    (hs : shape.filter (· ≠ 0) = a :: (mid ++ [b])) (genome : List R) (ws : List (WeightMatrix R))
    (hw : nnDecode d genome = .ok ws) :
    nnNumInputs ws = .ok (a : Int) ∧ nnNumOutputs ws = .ok b ∧ nnNumHidden ws = mid.length := by
  have hlen : genome.length = d.length := by
    by_contra hne
    rw [((nn_decode shape d hd genome).1 hne)] at hw
    exact absurd hw (by simp)
  obtain ⟨ws', h1, h2, -⟩ := (nn_decode shape d hd genome).2 hlen
  rw [h1, Except.ok.injEq] at hw
  subst hw
  have hdim : d.dimensions = layerDimensions (a :: (mid ++ [b])) := by
    rw [nnDecoder] at hd
    split at hd
    · simp only [Except.ok.injEq] at hd
      rw [← hd, ← hs]
      show layerDimensions (shape.filter (· != 0)) = _
      congr 2; funext x; by_cases hx : x = 0 <;> simp [hx]
    · exact absurd hd (by simp)
  rw [hdim] at h2
  have hhead : ws'.head?.map (fun w => w.nrows) = some (1 + a) := by
    have := congrArg (fun l => (l.head?).map Prod.fst) h2
    cases mid <;> cases ws' <;> simp_all [layerDimensions]
  have hlast : ∀ (s : List Nat) (x : Nat), (layerDimensions (x :: (s ++ [b]))).getLast?.map Prod.snd = some b := by
    intro s
    induction s with
    | nil => intro x; simp [layerDimensions]
    | cons y s ih =>
      intro x
      rw [List.cons_append, layerDimensions_cons]
      have := ih y
      cases hL : layerDimensions (y :: (s ++ [b])) with
      | nil => rw [hL] at this; simp at this
      | cons p q => rw [hL] at this; rw [List.getLast?_cons_cons]; exact this
  have hlast' : ws'.getLast?.map (fun w => w.ncols) = some b := by
    have := hlast mid a
    rw [← h2, List.getLast?_map, Option.map_map] at this
    exact this
  have hl : ws'.length = mid.length + 1 := by
    have := congrArg List.length h2
    rw [List.length_map, layerDimensions_length] at this
    simpa using this
  refine ⟨?_, ?_, ?_⟩
  · rw [nnNumInputs]
    cases hh : ws'.head? with
    | none => rw [hh] at hhead; simp at hhead
    | some m =>
      rw [hh] at hhead
      simp only [Option.map_some, Option.some.injEq] at hhead
      simp only [hhead]
      congr 1
      omega
  · rw [nnNumOutputs]
    cases hh : ws'.getLast? with
    | none => rw [hh] at hlast'; simp at hlast'
    | some m =>
      rw [hh] at hlast'
      simp only [Option.map_some, Option.some.injEq] at hlast'
      simp only [hlast']
  · rw [nnNumHidden, hl]; omega

theorem zipWith_range_sum [Semiring R] (f : R → List R → R) (l : List R) (m : List (List R)) (h : l.length = m.length) :
    (List.zipWith f l m).sum = ((List.range l.length).map fun i => f (l.getD i 0) (m.getD i [])).sum := by
  congr 1
  apply List.ext_getElem
  · simp [h]
  · intro i h1 h2
    simp only [List.length_map, List.length_range] at h2
    simp [List.getD_eq_getElem?_getD, List.getElem?_eq_getElem h2, List.getElem?_eq_getElem (show i < m.length by omega)]

theorem npDot_neuron [Semiring R] (w : WeightMatrix R) (input : List R) (hs : Shaped w) (h : w.nrows = input.length + 1) :
    npDot (input ++ [1]) w = .ok ((List.range w.ncols).map (neuron w input)) := by
  rw [npDot, if_pos (by simp [h])]
  congr 1
  apply List.map_congr_left
  intro j _
  rw [zipWith_range_sum _ _ _ (by rw [hs.rows, h]; simp), List.length_append, List.length_singleton, List.range_succ,
    List.map_append, List.sum_append, neuron]
  congr 1
  · congr 1
    apply List.map_congr_left
    intro i hi
    rw [List.mem_range] at hi
    simp only [weight, List.getD_eq_getElem?_getD]
    rw [List.getElem?_append_left hi]
  · simp only [List.map_cons, List.map_nil, List.sum_cons, List.sum_nil, add_zero, weight, List.getD_eq_getElem?_getD]
    rw [List.getElem?_append_right (Nat.le_refl _)]
    simp

/-- C54: executing a network whose layers fit computes the feed-forward function, and yields as many values as the last
layer has columns. -/
theorem nn_call [Semiring R] (activation : List R → List R) (hact : ∀ v, (activation v).length = v.length)
    (ws : List (WeightMatrix R)) (hsh : ∀ w ∈ ws, Shaped w) (hpos : ∀ w ∈ ws, 0 < w.ncols) (hch : Chained ws)
    (input : List R) (hin : ∀ w, ws.head? = some w → w.nrows = input.length + 1) :
    nnCall activation ws input = .ok (forward activation ws input) ∧
    (forward activation ws input).length = (ws.getLast?.map fun w => w.ncols).getD input.length := by
  induction ws generalizing input with
  | nil => exact ⟨rfl, rfl⟩
  | cons w ws ih =>
    have hw := hin w rfl
    have hdot := npDot_neuron w input (hsh w (List.mem_cons_self ..)) hw
    have hlen : (activation ((List.range w.ncols).map (neuron w input))).length = w.ncols := by
      rw [hact]; simp
    have hp := hpos w (List.mem_cons_self ..)
    have := ih (fun v hv => hsh v (List.mem_cons_of_mem _ hv)) (fun v hv => hpos v (List.mem_cons_of_mem _ hv))
      (List.IsChain.tail hch) (activation ((List.range w.ncols).map (neuron w input))) (by
        intro v hv
        rw [hlen]
        cases ws with
        | nil => simp at hv
        | cons v' ws =>
          simp only [List.head?_cons, Option.some.injEq] at hv
          subst hv
          exact (List.isChain_cons_cons.mp hch).1)
    constructor
    · rw [nnCall]
      simp only [hdot, bind, Except.bind]
      rw [if_pos (by rw [hlen]; exact hp)]
      exact this.1
    · rw [forward, this.2, hlen]
      cases ws with
      | nil => simp
      | cons v ws => simp [List.getLast?_cons_cons, List.getLast?_cons]

/-- C54: a network decoded from a genome runs on inputs of the declared size, computes the feed-forward function of its
weights and yields the declared number of outputs; inputs of any other size are refused. -/
theorem nn_decoded_call [Semiring R] (activation : List R → List R) (hact : ∀ v, (activation v).length = v.length)
    (a b : Nat) (shape : List Nat) (mid : List Nat) (d : NNDecoder) (hd : nnDecoder shape = .ok d)
    (hs : shape.filter (· ≠ 0) = a :: (mid ++ [b])) (genome : List R) (ws : List (WeightMatrix R))
    (hw : nnDecode d genome = .ok ws) (input : List R) :
    (input.length = a → nnCall activation ws input = .ok (forward activation ws input) ∧
      (forward activation ws input).length = b) ∧
    (input.length ≠ a → nnCall activation ws input = .error .valueError) := by
  have hsz := nn_sizes a b shape mid d hd hs genome ws hw
  have hlen : genome.length = d.length := by
    by_contra hne
    rw [((nn_decode shape d hd genome).1 hne)] at hw
    exact absurd hw (by simp)
  obtain ⟨ws', h1, h2, h3, h4, -⟩ := (nn_decode shape d hd genome).2 hlen
  rw [h1, Except.ok.injEq] at hw
  subst hw
  have hin : ∀ w, ws'.head? = some w → w.nrows = a + 1 := by
    intro w hw
    have := hsz.1
    rw [nnNumInputs, hw] at this
    simp only [Except.ok.injEq] at this
    omega
  have hne : ws' ≠ [] := by
    intro e
    have := hsz.1
    rw [e] at this
    simp [nnNumInputs] at this
  have hpos : ∀ w ∈ ws', 0 < w.ncols := by
    intro w hw
    obtain ⟨i, hi, rfl⟩ := List.getElem_of_mem hw
    obtain ⟨d', hd', hdim, -⟩ := (nn_constructor shape).2 (by
      by_contra hc
      rw [(nn_constructor shape).1 (by omega)] at hd
      exact absurd hd (by simp))
    rw [hd, Except.ok.injEq] at hd'
    subst hd'
    have hi' := hdim i
    rw [← h2, List.getElem?_map, List.getElem?_eq_getElem hi] at hi'
    split at hi'
    · rename_i x y hx hy
      simp only [Option.map_some, Option.some.injEq, Prod.mk.injEq] at hi'
      rw [hi'.2]
      have hm := List.mem_of_getElem? hy
      have := (List.mem_filter.mp hm).2
      have : y ≠ 0 := by simpa using this
      omega
    · simp at hi'
  constructor
  · intro hi
    have := nn_call activation hact ws' h3 hpos h4 input (by rw [hi]; exact hin)
    refine ⟨this.1, ?_⟩
    rw [this.2]
    have hb := hsz.2.1
    rw [nnNumOutputs] at hb
    cases hl : ws'.getLast? with
    | none => rw [hl] at hb; simp at hb
    | some m => rw [hl] at hb; simpa using hb
  · intro hi
    cases ws' with
    | nil => exact absurd rfl hne
    | cons w ws =>
      have := hin w rfl
      rw [nnCall, npDot, if_neg (by simp; omega)]
      rfl

/-- With fewer than two layers of non-zero size the decoder still accepts the empty genome. The network has no matrices: it
returns its input unchanged and asking for its inputs or outputs raises. -/
theorem nn_degenerate [Semiring R] (activation : List R → List R) (shape : List Nat) (h : 1 < shape.length)
    (hs : (shape.filter (· ≠ 0)).length ≤ 1) :
    ∃ d, nnDecoder shape = .ok d ∧ nnDecode (R := R) d [] = .ok [] ∧ (∀ input, nnCall activation [] input = .ok input) ∧
      nnNumInputs (R := R) [] = .error .indexError ∧ nnNumOutputs (R := R) [] = .error .indexError := by
  have e : shape.filter (· != 0) = shape.filter (· ≠ 0) := by
    congr 1; funext x; by_cases hx : x = 0 <;> simp [hx]
  have e2 : layerDimensions (shape.filter (· != 0)) = [] := by
    apply List.eq_nil_of_length_eq_zero
    rw [layerDimensions_length, e]; omega
  refine ⟨⟨[], 0⟩, ?_, rfl, fun _ => rfl, rfl, rfl⟩
  rw [nnDecoder, if_pos h]
  simp [e2]

theorem matrixEdges_ok (previous : List NodeId) (n : Nat) (f : Nat → NodeId) (g : Nat → NodeId) (r : Nat) (rows : List (List R))
    (hcol : ∀ row ∈ rows, row.length = n) (hprev : ∀ i, r ≤ i → i < r + rows.length → previous[i]? = some (g i)) :
    matrixEdges previous ((List.range n).map f) r rows =
      .ok ((rows.zipIdx r).flatMap fun p => p.1.zipIdx.map fun x => ⟨g p.2, f x.2, x.1⟩) := by
  induction rows generalizing r with
  | nil => rfl
  | cons row rows ih =>
    have hrow := hcol row (List.mem_cons_self ..)
    rw [matrixEdges, hprev r (Nat.le_refl _) (by simp)]
    have he : rowEdges (g r) ((List.range n).map f) row = .ok (row.zipIdx.map fun x => ⟨g r, f x.2, x.1⟩) := by
      rw [rowEdges, if_pos (by simp [hrow])]
      congr 1
      apply List.ext_getElem
      · simp [hrow]
      · intro i h1 h2
        simp
    simp only [he, bind, Except.bind]
    rw [ih (r + 1) (fun x hx => hcol x (List.mem_cons_of_mem _ hx)) (by
      intro i h1 h2
      exact hprev i (by omega) (by simp only [List.length_cons]; omega))]
    simp

theorem layerEdges_ok (ws : List (WeightMatrix R)) (hne : ws ≠ []) (l total : Nat) (ht : total = l + ws.length)
    (hsh : ∀ w ∈ ws, Shaped w) (hch : Chained ws) (previous : List NodeId)
    (hprev : ∀ w, ws.head? = some w → previous.length = w.nrows ∧ ∀ i < w.nrows, previous[i]? = some (sourceNode w l i)) :
    layerEdges l previous ws = .ok ((ws.zipIdx l).flatMap fun w => layerGraph total w.1 w.2) := by
  induction ws generalizing l previous with
  | nil => exact absurd rfl hne
  | cons w ws ih =>
    obtain ⟨hp1, hp2⟩ := hprev w rfl
    have hs := hsh w (List.mem_cons_self ..)
    cases ws with
    | nil =>
      rw [layerEdges, matrixEdges_ok previous w.ncols .output (sourceNode w l) 0 w.entries hs.cols (by
        intro i _ hi
        exact hp2 i (by rw [hs.rows] at hi; omega))]
      have : l + 1 = total := by simpa using ht.symm
      simp [layerGraph, targetNode, this]
    | cons w' ws =>
      rw [layerEdges, if_pos hp1.symm]
      have h1 := matrixEdges_ok previous w.ncols (NodeId.hidden l) (sourceNode w l) 0 w.entries hs.cols (by
        intro i _ hi
        exact hp2 i (by rw [hs.rows] at hi; omega))
      have hc := (List.isChain_cons_cons.mp hch).1
      have h2 := ih (by simp) (l + 1) (by simp only [List.length_cons] at ht ⊢; omega)
        (fun v hv => hsh v (List.mem_cons_of_mem _ hv)) (List.IsChain.tail hch)
        ((List.range w.ncols).map (NodeId.hidden l) ++ [.bias]) (by
          intro v hv
          simp only [List.head?_cons, Option.some.injEq] at hv
          subst hv
          refine ⟨by simp [hc], ?_⟩
          intro i hi
          rw [hc] at hi
          by_cases hlast : i = w.ncols
          · rw [List.getElem?_append_right (by simp [hlast])]
            simp [hlast, sourceNode, hc]
          · have hi' : i < w.ncols := by omega
            rw [List.getElem?_append_left (by simpa using hi')]
            simp [List.getElem?_range hi', sourceNode, hc, hlast])
      simp only [h1, h2, bind, Except.bind]
      congr 1
      rw [List.zipIdx_cons (i := l), List.flatMap_cons]
      congr 1
      have : l + 1 ≠ total := by simp only [List.length_cons] at ht; omega
      simp [layerGraph, targetNode, this]

/-- C54: the graph of a network whose layers fit has exactly one edge for every weight, between the right nodes. -/
theorem nn_graph (ws : List (WeightMatrix R)) (hne : ws ≠ []) (hsh : ∀ w ∈ ws, Shaped w) (hch : Chained ws)
    (hrow : ∀ w, ws.head? = some w → 0 < w.nrows) :
    nnGraph ws = .ok (networkGraph ws) ∧ (networkGraph ws).map NNEdge.weight = allWeights ws := by
  constructor
  · cases ws with
    | nil => exact absurd rfl hne
    | cons w ws =>
      have hr := hrow w rfl
      rw [nnGraph]
      show layerEdges 0 _ (w :: ws) = _
      rw [layerEdges_ok (w :: ws) hne 0 (w :: ws).length (by omega) hsh hch _ (by
        intro v hv
        simp only [List.head?_cons, Option.some.injEq] at hv
        subst hv
        refine ⟨by simp; omega, ?_⟩
        intro i hi
        by_cases hlast : i + 1 = w.nrows
        · rw [List.getElem?_append_right (by simp; omega)]
          have : i - (w.nrows - 1) = 0 := by omega
          simp [sourceNode, hlast, this]
        · rw [List.getElem?_append_left (by simp; omega)]
          simp [List.getElem?_range (show i < w.nrows - 1 by omega), sourceNode, hlast])]
      rfl
  · unfold networkGraph allWeights
    generalize ws.length = total
    have : ∀ (k : Nat) (ws : List (WeightMatrix R)),
        ((ws.zipIdx k).flatMap fun w => layerGraph total w.1 w.2).map NNEdge.weight = (ws.map fun w => w.entries.flatten).flatten := by
      intro k ws
      induction ws generalizing k with
      | nil => rfl
      | cons w ws ih =>
        rw [List.zipIdx_cons, List.flatMap_cons, List.map_append, ih, List.map_cons, List.flatten_cons]
        congr 1
        unfold layerGraph
        have : ∀ (r : Nat) (rows : List (List R)), (((rows.zipIdx r).flatMap fun r => r.1.zipIdx.map fun x =>
            (⟨sourceNode w k r.2, targetNode total k x.2, x.1⟩ : NNEdge R)).map NNEdge.weight) = rows.flatten := by
          intro r rows
          induction rows generalizing r with
          | nil => rfl
          | cons row rows ih =>
            rw [List.zipIdx_cons, List.flatMap_cons, List.map_append, ih, List.flatten_cons]
            congr 1
            rw [List.map_map]
            show List.map Prod.fst _ = row
            exact List.zipIdx_map_fst ..
        exact this 0 w.entries
    exact this 0 ws

theorem argmaxFrom_spec [LinearOrder β] (l : List β) (k : Nat) (best : β) (i : Nat) (xs : List β)
    (hk : l[k]? = some best) (hki : k < i) (hbest : ∀ (j : Nat) y, j < i → l[j]? = some y → y ≤ best ∧ (j < k → y < best))
    (hxs : l.drop i = xs) :
    ∃ b, l[argmaxFrom (fun a b => decide (a < b)) k best i xs]? = some b ∧ ∀ (j : Nat) y, l[j]? = some y →
      y ≤ b ∧ (j < argmaxFrom (fun a b => decide (a < b)) k best i xs → y < b) := by
  induction xs generalizing k best i with
  | nil =>
    refine ⟨best, hk, ?_⟩
    intro j y hy
    have hj : j < i := by
      have h1 := (List.getElem?_eq_some_iff.mp hy).1
      rw [List.drop_eq_nil_iff] at hxs
      omega
    exact hbest j y hj hy
  | cons x xs ih =>
    have hx : l[i]? = some x := by
      have := congrArg List.head? hxs
      rwa [List.head?_drop, List.head?_cons] at this
    have hdrop : l.drop (i + 1) = xs := by
      rw [← List.tail_drop, hxs, List.tail_cons]
    rw [argmaxFrom]
    by_cases hlt : best < x
    · rw [if_pos (by simpa using hlt)]
      refine ih i x (i + 1) hx (by omega) ?_ hdrop
      intro j y hj hy
      by_cases hji : j = i
      · subst hji
        rw [hx, Option.some.injEq] at hy
        subst hy
        exact ⟨le_refl x, fun h => absurd h (Nat.lt_irrefl _)⟩
      · have := lt_of_le_of_lt (hbest j y (by omega) hy).1 hlt
        exact ⟨this.le, fun _ => this⟩
    · rw [if_neg (by simpa using hlt)]
      refine ih k best (i + 1) hk (by omega) ?_ hdrop
      intro j y hj hy
      by_cases hji : j = i
      · subst hji
        rw [hx, Option.some.injEq] at hy
        subst hy
        exact ⟨not_lt.mp hlt, fun h => absurd h (by omega)⟩
      · exact hbest j y (by omega) hy

/-- C54: an argmax wrapper answers with the first position of the greatest output of the wrapped executable, and passes on
what that raises. Outputs that are not a number are excluded. -/
theorem argmax_spec [LinearOrder β] (wrapped : ι → PyM (List β)) (input : ι) :
    (∀ e, wrapped input = .error e → argmaxCall (fun a b => decide (a < b)) wrapped input = .error e) ∧
    (wrapped input = .ok [] → argmaxCall (fun a b => decide (a < b)) wrapped input = .error .valueError) ∧
    (∀ outputs, wrapped input = .ok outputs → outputs ≠ [] →
      ∃ (k : Nat) (b : β), argmaxCall (fun a b => decide (a < b)) wrapped input = .ok k ∧ outputs[k]? = some b ∧
        ∀ (j : Nat) y, outputs[j]? = some y → y ≤ b ∧ (j < k → y < b)) := by
  refine ⟨?_, ?_, ?_⟩
  · intro e h; simp [argmaxCall, h, bind, Except.bind]
  · intro h; simp [argmaxCall, h, bind, Except.bind, nnArgmax]
  · intro outputs h hne
    cases outputs with
    | nil => exact absurd rfl hne
    | cons x xs =>
      obtain ⟨b, h1, h2⟩ := argmaxFrom_spec (x :: xs) 0 x 1 xs rfl (by omega) (by
        intro j y hj hy
        have : j = 0 := by omega
        subst this
        simp only [List.getElem?_cons_zero, Option.some.injEq] at hy
        subst hy
        exact ⟨le_refl _, fun h => absurd h (by omega)⟩) rfl
      exact ⟨_, b, by simp [argmaxCall, h, bind, Except.bind, nnArgmax], h1, h2⟩

/-- C54: a wrapping decoder decorates what the wrapped decoder makes, and passes on what either raises. -/
theorem wrapper_decoder_spec (wrappedDecoder : γ → PyM δ) (decorator : δ → PyM ε) (genome : γ) (r : ε) :
    wrapperDecode wrappedDecoder decorator genome = .ok r ↔ ∃ v, wrappedDecoder genome = .ok v ∧ decorator v = .ok r := by
  unfold wrapperDecode
  cases h : wrappedDecoder genome <;> simp [bind, Except.bind]

example : nnDecoder [4, 3, 2, 2] = .ok ⟨[(5, 3), (4, 2), (3, 2)], 29⟩ := by decide +kernel
example : nnDecoder [2, 0, 1] = .ok ⟨[(3, 1)], 3⟩ := by decide +kernel
example : nnDecode ⟨[(3, 1), (2, 2)], 7⟩ [1, 2, 3, 4, 5, 6, 7] =
    .ok [⟨3, 1, [[1], [2], [3]]⟩, ⟨2, 2, [[4, 5], [6, 7]]⟩] := by decide +kernel
example : nnCall (R := ℚ) (fun v => v.map (max 0)) [⟨3, 1, [[1], [2], [3]]⟩, ⟨2, 2, [[4, 5], [-60, 7]]⟩] [1, 1] = .ok [0, 37] := by
  decide +kernel
example : nnGraph [⟨2, 1, [[10], [20]]⟩, ⟨2, 2, [[4, 5], [6, 7]]⟩] =
    .ok [⟨.input 0, .hidden 0 0, 10⟩, ⟨.bias, .hidden 0 0, 20⟩, ⟨.hidden 0 0, .output 0, 4⟩, ⟨.hidden 0 0, .output 1, 5⟩,
      ⟨.bias, .output 0, 6⟩, ⟨.bias, .output 1, 7⟩] := by decide +kernel
example : argmaxCall (fun a b => decide (a < b)) (fun _ : Unit => .ok [1, 5, 2, 5]) () = .ok 1 := by decide +kernel

end Leap
