import Verif.Model.ImageRun
import Verif.Props.ArtPrimitives
import Verif.Props.Images
import Verif.Props.CircuitRun
import Verif.Props.NetRun

/-! # Evolving images (C123) -/

namespace Leap

variable {ρ : Type}

namespace Spec

/-- A primitive on the numbers at one pixel. -/
def atPixel (p : PixelFn) : CgpPrimitive ℚ :=
  ⟨p.arity, fun args => if args.length = p.args then .ok (p.f args) else .error .typeError⟩

/-- The circuits with numbers on their wires. -/
def pixelDecoder (c : ImageCircuits) : CgpDecoder ℚ :=
  ⟨c.fns.map atPixel, 2, 3, c.numLayers, c.nodesPerLayer, c.maxArity, c.prune, c.levelsBack⟩

/-- The genes and parameters paint the pixel `(x, y)` in this colour: the three outputs of the circuit at the coordinates, with their fractions
dropped. Node `k` has its own slice of the parameters. -/
def Paints (c : ImageCircuits) (genes : List Int) (values : List ℚ) (x y : Nat) (colour : Int × Int × Int) : Prop :=
  ∃ r g b : ℚ, Outputs (pixelDecoder c) genes (fun k => (values.drop (k * c.perNode)).take c.perNode) [(x : ℚ), (y : ℚ)] [r, g, b] ∧
    colour = (dropFraction r, dropFraction g, dropFraction b)

/-- `f` is the Euclidean distance between the target and the image painted. -/
def PaintsAtDistance (c : ImageCircuits) (im : RgbImage) (genes : List Int) (values : List ℚ) (f : ℝ) : Prop :=
  ∃ painted : Nat → Nat → Int × Int × Int, (∀ x < im.width, ∀ y < im.height, Paints c genes values x y (painted x y)) ∧
    f = Real.sqrt (overPixels im fun x y => ((im.pixel x y).1 - (painted x y).1) ^ 2 + ((im.pixel x y).2.1 - (painted x y).2.1) ^ 2 +
      ((im.pixel x y).2.2 - (painted x y).2.2) ^ 2 : Int)

/-- The image painted is the target. -/
def PaintsTarget (c : ImageCircuits) (im : RgbImage) (genes : List Int) (values : List ℚ) : Prop :=
  ∀ x < im.width, ∀ y < im.height, Paints c genes values x y (im.pixel x y)

/-- Each primitive uses at least one input, and takes its inputs and the parameters of a node. -/
def TakesInputs (c : ImageCircuits) : Prop :=
  ∀ p ∈ c.fns, 1 ≤ usedArity (pixelDecoder c) (atPixel p) ∧ usedArity (pixelDecoder c) (atPixel p) + c.perNode = p.args

/-- A genome of the run: a valid circuit and the right number of parameters, within their bounds. -/
def ImageGenome (c : ImageCircuits) (lo hi : ℚ) (genome : List ImageSegment) (genes : List Int) (values : List ℚ) : Prop :=
  genome = [.circuit genes, .parameters values] ∧ CgpValid (pixelDecoder c) genes ∧ values.length = c.perNode * c.nodesPerLayer * c.numLayers ∧
    ∀ v ∈ values, lo ≤ v ∧ v ≤ hi

end Spec

open Spec

/-! ### Arrays are computed pixel by pixel -/

theorem broadcastPix_spec (f : List ℚ → ℚ) (args : List Pix) (N : Nat) (h : ∀ a ∈ args, ∀ n, a.size? = some n → n = N) :
    ∃ v, broadcastPix f args = .ok v ∧ (∀ n, v.size? = some n → n = N) ∧ (∀ j < N, v.at j = f (args.map fun a => a.at j)) ∧
      ((∃ a ∈ args, a.size? = some N) → v.size? = some N) := by
  unfold broadcastPix
  cases e : args.filterMap Pix.size? with
  | nil =>
    have hnum : ∀ a ∈ args, ∃ q, a = .num q := by
      intro a ha
      cases a with
      | num q => exact ⟨q, rfl⟩
      | arr vs =>
        have : vs.length ∈ args.filterMap Pix.size? := List.mem_filterMap.2 ⟨_, ha, rfl⟩
        rw [e] at this
        cases this
    refine ⟨_, rfl, fun n hn => by simp [Pix.size?] at hn, fun j _ => ?_, ?_⟩
    · show f _ = f _
      congr 1
      apply List.map_congr_left
      intro a ha
      obtain ⟨q, rfl⟩ := hnum a ha
      rfl
    · rintro ⟨a, ha, hs⟩
      obtain ⟨q, rfl⟩ := hnum a ha
      simp [Pix.size?] at hs
  | cons n ns =>
    have hall : ∀ k ∈ n :: ns, k = N := by
      intro k hk
      rw [← e] at hk
      obtain ⟨a, ha, hs⟩ := List.mem_filterMap.1 hk
      exact h a ha k hs
    obtain rfl := hall n (by simp)
    have : (ns.all fun k => decide (k = n)) = true := by
      rw [List.all_eq_true]
      intro k hk
      simpa using hall k (by simp [hk])
    simp only [this, if_true]
    refine ⟨_, rfl, fun k hk => ?_, fun j hj => ?_, fun _ => by simp [Pix.size?]⟩
    · simpa [Pix.size?] using hk.symm
    · simp [Pix.at, hj]

theorem onArrays_usedArity (c : ImageCircuits) (p : PixelFn) : usedArity c.decoder p.onArrays = usedArity (pixelDecoder c) (atPixel p) := rfl

theorem decoder_valid_iff (c : ImageCircuits) (genes : List Int) : CgpValid c.decoder genes ↔ CgpValid (pixelDecoder c) genes := by
  constructor <;> intro h <;> refine ⟨h.length, ?_, h.source, h.output⟩ <;> intro l n hl hn <;> obtain ⟨p, h1, h2⟩ := h.primitive l n hl hn <;>
    exact ⟨p, h1, by simpa [ImageCircuits.decoder, pixelDecoder] using h2⟩

/-- The value on a wire is at each pixel the value of the circuit on the coordinates of this pixel. -/
theorem array_values (c : ImageCircuits) (genes : List Int) (hv : CgpValid c.decoder genes) (values : List ℚ) (input : List Pix) (N : Nat)
    (hin : ∀ a ∈ input, ∀ n, a.size? = some n → n = N) (s : Int) (v : Pix)
    (h : Evaluates c.decoder genes (fun k => ((values.map Pix.num).drop (k * c.perNode)).take c.perNode) input s v) :
    (∀ n, v.size? = some n → n = N) ∧ ∀ j < N,
      Evaluates (pixelDecoder c) genes (fun k => (values.drop (k * c.perNode)).take c.perNode) (input.map fun a => a.at j) s (v.at j) := by
  induction h with
  | input i v hi he =>
    refine ⟨hin v (List.mem_of_getElem? he), fun j _ => .input i _ hi ?_⟩
    rw [List.getElem?_map, he]
    rfl
  | node k p f args v hk hp hf hlen hargs hcall ih =>
    have hf' := hf
    rw [show c.decoder.primitives = c.fns.map PixelFn.onArrays from rfl, List.getElem?_map] at hf
    cases hfn : c.fns[p]? with
    | none => rw [hfn] at hf; cases hf
    | some fn =>
      rw [hfn] at hf
      obtain rfl : fn.onArrays = f := by simpa using hf
      have hargs' : ∀ a ∈ args, ∃ (j : Nat) (s : Int), args[j]? = some a ∧ j < usedArity c.decoder fn.onArrays ∧
          genes[k * (c.decoder.maxArity + 1) + 1 + j]? = some s := by
        intro a ha
        obtain ⟨j, hj⟩ := List.getElem?_of_mem ha
        have hjl : j < usedArity c.decoder fn.onArrays := by
          have := (List.getElem?_eq_some_iff.1 hj).1
          omega
        have hja : j < c.decoder.maxArity := by
          unfold usedArity at hjl
          split at hjl <;> omega
        obtain ⟨l, n, hl, hn, rfl⟩ := grid_cell c.decoder k hk
        obtain ⟨s, hs, -⟩ := hv.source l n j hl hn hja
        exact ⟨j, s, hj, hjl, hs⟩
      simp only [PixelFn.onArrays] at hcall
      split at hcall
      · rename_i hcount
        have hsz : ∀ a ∈ args ++ ((values.map Pix.num).drop (k * c.perNode)).take c.perNode, ∀ n, a.size? = some n → n = N := by
          intro a ha n hn
          rcases List.mem_append.1 ha with ha | ha
          · obtain ⟨j, s, h1, h2, h3⟩ := hargs' a ha
            exact (ih j s a h2 h3 h1).1 n hn
          · obtain ⟨q, -, rfl⟩ := List.mem_map.1 (List.mem_of_mem_drop (List.mem_of_mem_take ha))
            simp [Pix.size?] at hn
        obtain ⟨v', e1, e2, e3, -⟩ := broadcastPix_spec fn.f _ N hsz
        rw [e1, Except.ok.injEq] at hcall
        subst hcall
        refine ⟨e2, fun j hj => ?_⟩
        refine .node k p (atPixel fn) (args.map fun a => a.at j) _ hk hp ?_ (by rw [List.length_map]; exact hlen) ?_ ?_
        · show (c.fns.map atPixel)[p]? = _
          rw [List.getElem?_map, hfn]
          rfl
        · intro i s x hi hs hx
          rw [List.getElem?_map] at hx
          cases ha : args[i]? with
          | none => rw [ha] at hx; cases hx
          | some a =>
            rw [ha] at hx
            obtain rfl : a.at j = x := by simpa using hx
            exact (ih i s a hi hs ha).2 j hj
        · have hm : (args.map fun a => a.at j) ++ (values.drop (k * c.perNode)).take c.perNode =
              (args ++ ((values.map Pix.num).drop (k * c.perNode)).take c.perNode).map fun a => a.at j := by
            rw [List.map_append, List.map_take, List.map_drop, List.map_map]
            congr 3
            simp [Function.comp_def, Pix.at]
          have hl : ((args.map fun a => a.at j) ++ (values.drop (k * c.perNode)).take c.perNode).length = fn.args := by
            rw [hm, List.length_map]
            exact hcount
          simp only [atPixel, if_pos hl]
          rw [e3 j hj, hm]
      · cases hcall

/-- The slices of the parameters are full. -/
theorem slice_length (c : ImageCircuits) {V : Type} (values : List V) (hl : values.length = c.numParameters) (k : Nat)
    (hk : k < c.numLayers * c.nodesPerLayer) : ((values.drop (k * c.perNode)).take c.perNode).length = c.perNode := by
  rw [List.length_take, List.length_drop, hl, ImageCircuits.numParameters, Nat.mul_assoc, Nat.mul_comm c.nodesPerLayer, Nat.mul_comm c.perNode]
  have : (k + 1) * c.perNode ≤ c.numLayers * c.nodesPerLayer * c.perNode := Nat.mul_le_mul_right _ hk
  rw [Nat.succ_mul] at this
  omega

/-- From values at all sources to values at the outputs. -/
theorem outputs_exist {V : Type} (d : CgpDecoder V) (genome : List Int) (hv : CgpValid d genome) (params : Nat → List V) (input : List V) (P : V → Prop)
    (h : ∀ m : Nat, m < d.numInputs + d.numLayers * d.nodesPerLayer → ∃ v, Evaluates d genome params input m v ∧ P v) :
    ∃ r, Outputs d genome params input r ∧ ∀ v ∈ r, P v := by
  have hout : ∀ o : Fin d.numOutputs, ∃ (s : Int) (v : V),
      genome[d.numLayers * d.nodesPerLayer * (d.maxArity + 1) + o]? = some s ∧ Evaluates d genome params input s v ∧ P v := by
    intro o
    obtain ⟨s, h1, h2, h3⟩ := hv.output o o.2
    obtain ⟨v, h4, h5⟩ := h s.toNat (by omega)
    rw [Int.toNat_of_nonneg h2] at h4
    exact ⟨s, v, h1, h4, h5⟩
  choose src val h1 h2 h3 using hout
  refine ⟨List.ofFn val, ⟨by simp, fun o s v hs hx => ?_⟩, fun v hv => ?_⟩
  · rw [List.getElem?_ofFn] at hx
    by_cases hlt : o < d.numOutputs
    · simp only [hlt, ↓reduceDIte, Option.some.injEq] at hx
      have e1 := h1 ⟨o, hlt⟩
      simp only at e1
      rw [hs, Option.some.injEq] at e1
      rw [e1, ← hx]
      exact h2 ⟨o, hlt⟩
    · simp [hlt] at hx
  · rw [List.mem_ofFn] at hv
    obtain ⟨o, rfl⟩ := hv
    exact h3 o

theorem pixel_outputs (c : ImageCircuits) (ht : TakesInputs c) (genes : List Int) (hv : CgpValid (pixelDecoder c) genes) (values : List ℚ)
    (hl : values.length = c.numParameters) (x y : ℚ) :
    ∃ r g b : ℚ, Outputs (pixelDecoder c) genes (fun k => (values.drop (k * c.perNode)).take c.perNode) [x, y] [r, g, b] := by
  obtain ⟨r, h, -⟩ := outputs_exist (pixelDecoder c) genes hv (fun k => (values.drop (k * c.perNode)).take c.perNode) [x, y] (fun _ => True)
    (evaluates_total (fun _ => True) (by simp) rfl (fun f hf k hk args hargs _ => by
      obtain ⟨p, hp, rfl⟩ := List.mem_map.1 hf
      refine ⟨p.f (args ++ (values.drop (k * c.perNode)).take c.perNode), ?_, trivial⟩
      simp only [atPixel]
      rw [if_pos]
      rw [List.length_append, hargs, slice_length c values hl k hk]
      exact (ht p hp).2) hv)
  match r, h with
  | [a, b, d], h => exact ⟨a, b, d, h⟩
  | [], h => exact absurd h.1 (by simp [pixelDecoder])
  | [_], h => exact absurd h.1 (by simp [pixelDecoder])
  | [_, _], h => exact absurd h.1 (by simp [pixelDecoder])
  | _ :: _ :: _ :: _ :: _, h => exact absurd h.1 (by simp [pixelDecoder])

/-- C123: a genome decodes to a function of the whole image which is computed pixel by pixel: at each pixel its outputs are those of the circuit on
the coordinates of that pixel alone, whatever the primitives, the size of the image and pruning. -/
theorem image_circuit_pixelwise (c : ImageCircuits) (ht : TakesInputs c) (genes : List Int) (hv : CgpValid (pixelDecoder c) genes) (values : List ℚ)
    (hl : values.length = c.perNode * c.nodesPerLayer * c.numLayers) :
    ∃ ex r g b, imageDecode c [.circuit genes, .parameters values] = .ok ex ∧ Pixelwise ex [r, g, b] ∧
      ∀ x y : Int, Outputs (pixelDecoder c) genes (fun k => (values.drop (k * c.perNode)).take c.perNode) [(x : ℚ), (y : ℚ)] [r x y, g x y, b x y] := by
  have hva := (decoder_valid_iff c genes).2 hv
  obtain ⟨graph, hgraph, hcall⟩ := (cgp_parameters_call c.decoder genes hva c.perNode (values.map Pix.num)).1 (by rw [List.length_map]; exact hl)
  have hch := fun x y : Int => pixel_outputs c ht genes hv values hl (x : ℚ) (y : ℚ)
  choose r g b hrgb using hch
  refine ⟨imageExecutable graph, r, g, b, by simp only [imageDecode, hgraph], fun xs ys hxy => ?_, hrgb⟩
  have hsz : ∀ a ∈ [Pix.arr (xs.map fun (x : Int) => (x : ℚ)), Pix.arr (ys.map fun (x : Int) => (x : ℚ))], a.size? = some xs.length := by
    intro a ha
    simp only [List.mem_cons, List.not_mem_nil, or_false] at ha
    rcases ha with rfl | rfl <;> simp [Pix.size?, hxy]
  have htot := evaluates_total (d := c.decoder) (genome := genes)
    (params := fun k => ((values.map Pix.num).drop (k * c.perNode)).take c.perNode)
    (input := [Pix.arr (xs.map fun (x : Int) => (x : ℚ)), Pix.arr (ys.map fun (x : Int) => (x : ℚ))]) (fun a => a.size? = some xs.length) hsz rfl
    (fun f hf k hk args hargs hS => by
      obtain ⟨p, hp, rfl⟩ := List.mem_map.1 hf
      obtain ⟨h1, h2⟩ := ht p hp
      rw [onArrays_usedArity] at hargs
      have hcount : (args ++ ((values.map Pix.num).drop (k * c.perNode)).take c.perNode).length = p.args := by
        rw [List.length_append, hargs, slice_length c (values.map Pix.num) (by rw [List.length_map]; exact hl) k hk]
        exact h2
      obtain ⟨v, e1, -, -, e4⟩ := broadcastPix_spec p.f (args ++ ((values.map Pix.num).drop (k * c.perNode)).take c.perNode) xs.length (by
        intro a ha n hn
        rcases List.mem_append.1 ha with ha | ha
        · rw [hS a ha, Option.some.injEq] at hn
          exact hn.symm
        · obtain ⟨q, -, rfl⟩ := List.mem_map.1 (List.mem_of_mem_drop (List.mem_of_mem_take ha))
          simp [Pix.size?] at hn)
      refine ⟨v, by simp only [PixelFn.onArrays, if_pos hcount, e1], e4 ?_⟩
      match args, hargs, hS with
      | [], hargs, _ => rw [← hargs] at h1; simp at h1
      | a :: as, _, hS => exact ⟨a, by simp, hS a (by simp)⟩) hva
  obtain ⟨outs, ho, hos⟩ := outputs_exist c.decoder genes hva _ _ _ htot
  obtain ⟨out', hc⟩ := (hcall (fun _ => none) _ rfl outs).2 ⟨fun _ k hk => by
    obtain ⟨v, h1, -⟩ := htot (c.decoder.numInputs + k) (by omega)
    exact ⟨v, h1⟩, ho⟩
  have hc' : cgpCall graph 2 3 (fun _ => none) ([xs, ys].map fun xs => Pix.arr (xs.map fun (x : Int) => (x : ℚ))) = .ok (outs, out') := hc
  simp only [imageExecutable, hc']
  obtain ⟨v1, v2, v3, rfl⟩ : ∃ v1 v2 v3, outs = [v1, v2, v3] := by
    have hlen := ho.1
    match outs, hlen with
    | [a, b, d], _ => exact ⟨a, b, d, rfl⟩
    | [], h => simp [ImageCircuits.decoder] at h
    | [_], h => simp [ImageCircuits.decoder] at h
    | [_, _], h => simp [ImageCircuits.decoder] at h
    | _ :: _ :: _ :: _ :: _, h => simp [ImageCircuits.decoder] at h
  have harr : ∀ v ∈ [v1, v2, v3], ∃ vs : List ℚ, v = .arr vs ∧ vs.length = xs.length := by
    intro v hvm
    have := hos v hvm
    cases v with
    | num q => simp [Pix.size?] at this
    | arr vs => exact ⟨vs, rfl, by simpa [Pix.size?] using this⟩
  obtain ⟨a1, rfl, l1⟩ := harr v1 (by simp)
  obtain ⟨a2, rfl, l2⟩ := harr v2 (by simp)
  obtain ⟨a3, rfl, l3⟩ := harr v3 (by simp)
  have hpt : ∀ j < xs.length, a1.getD j 0 = r (xs.getD j 0) (ys.getD j 0) ∧ a2.getD j 0 = g (xs.getD j 0) (ys.getD j 0) ∧
      a3.getD j 0 = b (xs.getD j 0) (ys.getD j 0) := by
    intro j hj
    have hjy : j < ys.length := by omega
    have hx : ((Pix.arr (xs.map fun (x : Int) => (x : ℚ))).at j) = ((xs.getD j 0 : Int) : ℚ) := by
      simp [Pix.at, hj]
    have hy : ((Pix.arr (ys.map fun (x : Int) => (x : ℚ))).at j) = ((ys.getD j 0 : Int) : ℚ) := by
      simp [Pix.at, hjy]
    have h1 : Outputs (pixelDecoder c) genes (fun k => (values.drop (k * c.perNode)).take c.perNode)
        [((xs.getD j 0 : Int) : ℚ), ((ys.getD j 0 : Int) : ℚ)] [a1.getD j 0, a2.getD j 0, a3.getD j 0] := by
      refine ⟨rfl, fun o s v hs hvo => ?_⟩
      have key : ∀ w : Pix, [Pix.arr a1, Pix.arr a2, Pix.arr a3][o]? = some w → w.at j = v →
          Evaluates (pixelDecoder c) genes (fun k => (values.drop (k * c.perNode)).take c.perNode)
            [((xs.getD j 0 : Int) : ℚ), ((ys.getD j 0 : Int) : ℚ)] s v := by
        intro w hw hwv
        have h2 := (array_values c genes hva values _ xs.length (fun a ha n hn => by
          rw [hsz a ha, Option.some.injEq] at hn
          exact hn.symm) s w (ho.2 o s w hs hw)).2 j hj
        rw [List.map_cons, List.map_cons, List.map_nil, hx, hy, hwv] at h2
        exact h2
      match o, hvo with
      | 0, hvo => exact key _ rfl (by simpa [Pix.at] using hvo)
      | 1, hvo => exact key _ rfl (by simpa [Pix.at] using hvo)
      | 2, hvo => exact key _ rfl (by simpa [Pix.at] using hvo)
    have h2 := outputs_unique _ _ hv _ _ _ _ h1 (hrgb (xs.getD j 0) (ys.getD j 0))
    simpa using h2
  have hz : ∀ (a : List ℚ) (f : Int → Int → ℚ), a.length = xs.length → (∀ j < xs.length, a.getD j 0 = f (xs.getD j 0) (ys.getD j 0)) →
      a = List.zipWith f xs ys := by
    intro a f ha hf
    apply List.ext_getElem
    · rw [ha, List.length_zipWith, hxy, Nat.min_self]
    · intro j h1 h2
      have hj : j < xs.length := by omega
      have hjy : j < ys.length := by omega
      have := hf j hj
      rw [List.getElem_zipWith]
      simpa [h1, hj, hjy] using this
  rw [hz a1 r l1 fun j hj => (hpt j hj).1, hz a2 g l2 fun j hj => (hpt j hj).2.1, hz a3 b l3 fun j hj => (hpt j hj).2.2]
  rfl

/-- C123: the score of a genome is the distance between the target and the image it paints, and it is 0 just when this is the target. -/
theorem image_score (c : ImageCircuits) (ht : TakesInputs c) (im : RgbImage) (genes : List Int) (hv : CgpValid (pixelDecoder c) genes) (values : List ℚ)
    (hl : values.length = c.perNode * c.nodesPerLayer * c.numLayers) :
    ∃ ex f, imageDecode c [.circuit genes, .parameters values] = .ok ex ∧ imageXYEvaluate im (some ex) = .ok f ∧
      PaintsAtDistance c im genes values f ∧ 0 ≤ f ∧ (f = 0 ↔ PaintsTarget c im genes values) := by
  obtain ⟨ex, r, g, b, h1, h2, h3⟩ := image_circuit_pixelwise c ht genes hv values hl
  have h4 := (image_xy_fitness im ex).1 r g b h2
  obtain ⟨f, h5, h6, h7⟩ := image_xy_optimum im ex r g b h2
  refine ⟨ex, f, h1, h5, ⟨fun x y => (dropFraction (r x y), dropFraction (g x y), dropFraction (b x y)), fun x _ y _ => ?_, ?_⟩, h6, ?_⟩
  · exact ⟨_, _, _, by exact_mod_cast h3 x y, rfl⟩
  · rw [h5, Except.ok.injEq] at h4
    exact h4
  · rw [h7]
    constructor
    · intro h x hx y hy
      exact ⟨_, _, _, by exact_mod_cast h3 x y, h x hx y hy⟩
    · intro h x hx y hy
      obtain ⟨r', g', b', e1, e2⟩ := h x hx y hy
      have := outputs_unique _ _ hv _ _ _ _ e1 (by exact_mod_cast h3 x y)
      simp only [List.cons.injEq, and_true] at this
      rw [e2, this.1, this.2.1, this.2.2]

/-! ### The run -/

/-- The first segment is a valid circuit, the second holds the parameters. -/
def imageGene (c : ImageCircuits) (lo hi : ℚ) (i : Nat) (seg : ImageSegment) : Prop :=
  (i = 0 → ∃ genes, seg = .circuit genes ∧ GenesIn c.decoder.bounds.length (fun i x => ∃ b, c.decoder.bounds[i]? = some b ∧ b.1 ≤ x ∧ x ≤ b.2) genes) ∧
  (i = 1 → ∃ values, seg = .parameters values ∧ GenesIn c.numParameters (netGene lo hi) values)

theorem imageGenes_iff (c : ImageCircuits) (hnpl : 0 < c.nodesPerLayer) (lo hi : ℚ) (genome : List ImageSegment) :
    GenesIn 2 (imageGene c lo hi) genome ↔ ∃ genes values, ImageGenome c lo hi genome genes values := by
  constructor
  · rintro ⟨h1, h2⟩
    match genome, h1 with
    | [a, b], _ =>
      obtain ⟨genes, rfl, hg⟩ := (h2 0 a rfl).1 rfl
      obtain ⟨values, rfl, hp⟩ := (h2 1 b rfl).2 rfl
      refine ⟨genes, values, rfl, (decoder_valid_iff c genes).1 ((genes_in_cgp_bounds_iff c.decoder hnpl genes).1 hg), hp.1, fun v hvm => ?_⟩
      obtain ⟨i, hi'⟩ := List.mem_iff_getElem?.1 hvm
      exact (netGene_iff lo hi i v).1 (hp.2 i v hi')
  · rintro ⟨genes, values, rfl, hv, hl, hb⟩
    refine ⟨rfl, fun i seg hs => ⟨?_, ?_⟩⟩
    · rintro rfl
      obtain rfl : ImageSegment.circuit genes = seg := by simpa using hs
      exact ⟨genes, rfl, (genes_in_cgp_bounds_iff c.decoder hnpl genes).2 ((decoder_valid_iff c genes).2 hv)⟩
    · rintro rfl
      obtain rfl : ImageSegment.parameters values = seg := by simpa using hs
      exact ⟨values, rfl, hl, fun i x hx => (netGene_iff lo hi i x).2 (hb x (List.mem_of_getElem? hx))⟩

theorem segmentsFn_two (f : MutFn Int ρ) (h : MutFn ℚ ρ) (genes : List Int) (values : List ℚ) (s : ρ) :
    (segmentsFn [onCircuit f, onParameters h] [.circuit genes, .parameters values] s).result =
      match (f genes s).result with
      | .error e => .error e
      | .ok a => match (h values (f genes s).rng).result with
        | .error e => .error e
        | .ok b => .ok (some [.circuit (a.getD (f genes s).left), .parameters (b.getD (h values (f genes s).rng).left)]) := by
  simp only [segmentsFn, List.length_cons, List.length_nil, if_true, mutateEach, onCircuit, onParameters]
  cases h1 : (f genes s).result with
  | error e => rfl
  | ok a =>
    cases a <;> simp only <;> cases h2 : (h values (f genes s).rng).result with
    | error e => rfl
    | ok b => cases b <;> rfl

theorem imageStages_ok (c : ImageCircuits) (hnpl : 0 < c.nodesPerLayer) (hL : 0 < c.numLayers) (lo hi : ℚ) (hlh : lo ≤ hi) (im : RgbImage)
    (expected probability : Option ℚ) (q : ℚ) (hr : RateGives expected probability c.decoder.bounds.length q) (h0 : 0 ≤ q) (h1 : q ≤ 1)
    (draw : ρ → (List ℚ × List Int) × ρ) (hu : ∀ s, (draw s).1.1.length = c.decoder.bounds.length)
    (hd : ∀ s, ValidRandints (((c.decoder.bounds.zip (draw s).1.1).filter (fun y => decide (y.2 < q))).map Prod.fst) (draw s).1.2)
    (std : ScalarOrList ℚ) (gaussExpected : GaussRate) (normal : ρ → (List ℚ × List ℚ) × ρ) :
    ∀ st ∈ ([.mutate (.ok ()) false (segmentsFn [onCircuit (randintFn c.decoder.bounds expected probability draw),
          onParameters (gaussianFn std gaussExpected (.all (some lo, some hi)) 1 0 normal)]),
        .evaluate (.fn (imageDecode c)) (imageProblem im)] : List (Stage ImageSegment (List (List Int) → PyM (List (List ℚ))) ℝ ρ)),
      StageOk 2 (imageGene c lo hi) (ScoredBy (.fn (imageDecode c)) (imageProblem im : Prob ImageSegment _ ℝ ρ)) st := by
  intro st hst
  simp only [List.mem_cons, List.not_mem_nil, or_false] at hst
  rcases hst with rfl | rfl
  · intro genome s hG
    match genome, hG.1 with
    | [a, b], _ =>
      obtain ⟨genes, rfl, hg⟩ := (hG.2 0 a rfl).1 rfl
      obtain ⟨values, rfl, hp⟩ := (hG.2 1 b rfl).2 rfl
      rw [segmentsFn_two]
      have hne : c.decoder.bounds ≠ [] := by
        intro h
        have h1 := bounds_length c.decoder
        rw [h, CgpDecoder.numGenes, List.length_nil] at h1
        have : 0 < c.decoder.numLayers * c.decoder.nodesPerLayer * (c.decoder.maxArity + 1) := Nat.mul_pos (Nat.mul_pos hL hnpl) (Nat.succ_pos _)
        omega
      have e1 := randint_stage_ok (ψ := Unit) (φ := Unit) (.ok ()) true c.decoder.bounds expected probability draw q hne hr h0 h1 hu hd
        (fun _ _ => True) genes s hg
      have e2 := gaussian_stage_ok (ψ := Unit) (φ := Unit) (.ok ()) false std gaussExpected (.all (some lo, some hi)) 1 0 normal c.numParameters trivial
        (fun i b hb => by
          simp only [boundAt, Option.some.injEq] at hb
          subst hb
          intro x y hx hy
          simp only [Option.some.injEq] at hx hy
          rw [← hx, ← hy]
          exact hlh) (fun _ _ => True) values (randintFn c.decoder.bounds expected probability draw genes s).rng hp
      cases h3 : (randintFn c.decoder.bounds expected probability draw genes s).result with
      | error e => trivial
      | ok x =>
        cases h4 : (gaussianFn std gaussExpected (.all (some lo, some hi)) 1 0 normal values
            (randintFn c.decoder.bounds expected probability draw genes s).rng).result with
        | error e => trivial
        | ok y =>
          rw [h3] at e1
          rw [h4] at e2
          refine ⟨rfl, fun i seg hs => ⟨?_, ?_⟩⟩
          · rintro rfl
            refine ⟨_, (by simpa using hs.symm), ?_⟩
            cases x <;> exact e1
          · rintro rfl
            refine ⟨_, (by simpa using hs.symm), ?_⟩
            cases y <;> exact e2
  · exact evaluate_stage_ok _ _

theorem imageInit_ok (c : ImageCircuits) (hnpl : 0 < c.nodesPerLayer) (lo hi : ℚ) (hlh : lo ≤ hi) (draws : List Int)
    (hdraw : List.Forall₂ (fun b x => b.1 ≤ x ∧ x < b.2) (c.decoder.bounds.map fun b => (b.1, b.2 + 1)) draws) (uniform : List ℚ)
    (hl : uniform.length = c.numParameters) (hu : ∀ x ∈ uniform, 0 ≤ x ∧ x < 1) :
    ∃ g, imageInitialize c lo hi draws uniform = .ok g ∧ GenesIn 2 (imageGene c lo hi) g := by
  obtain ⟨g, e, hv⟩ := cgp_created_valid c.decoder hnpl draws hdraw
  have e' : createCgpVector (some c.decoder) draws = .ok g := e
  refine ⟨[.circuit g, .parameters (createRealVector (List.replicate c.numParameters (lo, hi)) uniform)],
    by simp only [imageInitialize, cgpParametersInitialize, e'], rfl, fun i seg hs => ⟨?_, ?_⟩⟩
  · rintro rfl
    exact ⟨g, by simpa using hs.symm, (genes_in_cgp_bounds_iff c.decoder hnpl g).2 hv⟩
  · rintro rfl
    exact ⟨_, by simpa using hs.symm, netInit_ok lo hi hlh _ _ hl hu⟩

/-- C123: evolving images. Whatever the random numbers, the selection, the rates of mutation, the primitives and the length of the run: the run changes
nothing that was in memory before, and everybody it returns has a genome with two segments, a circuit that respects the constraints
and the right number of parameters, all within their bounds. Its fitness is exactly the Euclidean distance between the target and the image
this genome paints, so it is never negative and 0 just for the target. With an elite, the run returns for every image of the first
population one that is at least as near to the target. -/
theorem image_run_members (c : ImageCircuits) (hnpl : 0 < c.nodesPerLayer) (hL : 0 < c.numLayers) (ht : TakesInputs c) (im : RgbImage) (lo hi : ℚ)
    (hlh : lo ≤ hi) (init : ρ → (List Int × List ℚ) × ρ)
    (hinit : ∀ s, List.Forall₂ (fun b x => b.1 ≤ x ∧ x < b.2) (c.decoder.bounds.map fun b => (b.1, b.2 + 1)) (init s).1.1)
    (huni : ∀ s, (init s).1.2.length = c.numParameters ∧ ∀ x ∈ (init s).1.2, 0 ≤ x ∧ x < 1)
    (expected probability : Option ℚ) (q : ℚ) (hr : RateGives expected probability c.decoder.bounds.length q) (h0 : 0 ≤ q) (h1 : q ≤ 1)
    (draw : ρ → (List ℚ × List Int) × ρ) (hu : ∀ s, (draw s).1.1.length = c.decoder.bounds.length)
    (hd : ∀ s, ValidRandints (((c.decoder.bounds.zip (draw s).1.1).filter (fun y => decide (y.2 < q))).map Prod.fst) (draw s).1.2)
    (std : ScalarOrList ℚ) (gaussExpected : GaussRate) (normal : ρ → (List ℚ × List ℚ) × ρ) (worse : Option ℝ → Option ℝ → Bool)
    (choose : Int → List Nat → Mem ImageSegment (List (List Int) → PyM (List (List ℚ))) ℝ ρ → PyM Nat × ρ)
    (stop : Int → List Nat → Mem ImageSegment (List (List Int) → PyM (List (List ℚ))) ℝ ρ → Bool) (popSize kElites problem : Nat) (generations : Int)
    (m m' : Mem ImageSegment (List (List Int) → PyM (List (List ℚ))) ℝ ρ) (hm : Sound m) (out : List Nat)
    (h : imageRun c im lo hi init expected probability draw std gaussExpected normal worse choose stop popSize kElites problem generations m =
      (.ok out, m')) :
    Unchanged m m' ∧ out.Nodup ∧ out.length = popSize ∧
    (∀ r ∈ out, m.inds.length ≤ r ∧ ∃ genome circuit values f, genes m' r = some genome ∧ fitness m' r = some (some f) ∧
      ImageGenome c lo hi genome circuit values ∧ PaintsAtDistance c im circuit values f ∧ 0 ≤ f ∧ (f = 0 ↔ PaintsTarget c im circuit values)) ∧
    (StrictWeak worse → (∀ x y : ℝ, worse (some x) (some y) = true ↔ y < x) → 1 ≤ kElites → 1 ≤ popSize →
      ∀ x, m.inds.length ≤ x → x < m.inds.length + popSize → ∃ fx, fitness m' x = some (some fx) ∧
        ∃ r ∈ out, ∃ fr, fitness m' r = some (some fr) ∧ fr ≤ fx) := by
  obtain ⟨e1, e2, e3, e4, e5⟩ := evo_run_members _ _ (.fn (imageDecode c)) (imageProblem im) (n := 2) (allowed := imageGene c lo hi)
    (fun s g s' hs => by
      obtain ⟨g', h2, h3⟩ := imageInit_ok c hnpl lo hi hlh (init s).1.1 (hinit s) (init s).1.2 (huni s).1 (huni s).2
      simp only [Prod.mk.injEq, h2, Except.ok.injEq] at hs
      rw [← hs.1]
      exact h3)
    (imageStages_ok c hnpl hL lo hi hlh im expected probability q hr h0 h1 draw hu hd std gaussExpected normal) rfl problem popSize 0 generations m m'
    hm out h
  refine ⟨e1, e2, by rcases e3 with h | h <;> exact h, fun r hr => ?_, fun hsw hw hk hpop x hx1 hx2 => ?_⟩
  · obtain ⟨h5, g, f, hg, hG, hfit, x, s, hx, hs⟩ := e4 r hr
    obtain ⟨circuit, values, hI⟩ := (imageGenes_iff c hnpl lo hi g).1 hG
    obtain ⟨ex, f', a1, a2, a3⟩ := image_score c ht im circuit hI.2.1 values hI.2.2.1
    rw [hI.1] at hx
    simp only [decodeOf, a1, Except.ok.injEq] at hx
    subst hx
    simp only [imageProblem, a2, Except.ok.injEq] at hs
    subst hs
    exact ⟨h5, g, circuit, values, f', hg, hfit, hI, a3⟩
  · obtain ⟨⟨-, fx, -, -, hfx, -⟩, b, hb, hlt⟩ := e5 hsw hk hpop x hx1 hx2
    obtain ⟨-, -, fb, -, -, hfb, -⟩ := e4 b hb
    refine ⟨fx, hfx, b, hb, fb, hfb, ?_⟩
    have hb1 : (m'.inds[b]?).bind Obj.fitness = some fb := by
      cases hi : m'.inds[b]? with
      | none => simp [fitness, hi] at hfb
      | some o => simpa [fitness, hi] using hfb
    have hx1 : (m'.inds[x]?).bind Obj.fitness = some fx := by
      cases hi : m'.inds[x]? with
      | none => simp [fitness, hi] at hfx
      | some o => simpa [fitness, hi] using hfx
    simp only [EvoConfig.lt, hb1, hx1] at hlt
    by_contra hcon
    rw [(hw fb fx).2 (not_le.1 hcon)] at hlt
    cases hlt

/-- C123: the run completes, whatever the circuits are. -/
theorem image_run_completes (c : ImageCircuits) (hnpl : 0 < c.nodesPerLayer) (hL : 0 < c.numLayers) (ht : TakesInputs c) (im : RgbImage) (lo hi : ℚ)
    (hlh : lo ≤ hi) (init : ρ → (List Int × List ℚ) × ρ)
    (hinit : ∀ s, List.Forall₂ (fun b x => b.1 ≤ x ∧ x < b.2) (c.decoder.bounds.map fun b => (b.1, b.2 + 1)) (init s).1.1)
    (huni : ∀ s, (init s).1.2.length = c.numParameters ∧ ∀ x ∈ (init s).1.2, 0 ≤ x ∧ x < 1)
    (expected probability : Option ℚ) (q : ℚ) (hr : RateGives expected probability c.decoder.bounds.length q) (h0 : 0 ≤ q) (h1 : q ≤ 1)
    (draw : ρ → (List ℚ × List Int) × ρ) (hu : ∀ s, (draw s).1.1.length = c.decoder.bounds.length)
    (hd : ∀ s, ValidRandints (((c.decoder.bounds.zip (draw s).1.1).filter (fun y => decide (y.2 < q))).map Prod.fst) (draw s).1.2)
    (std : ScalarOrList ℚ) (hstd : PerGene std c.numParameters) (hnn : ∀ s, std = .scalar s → 0 ≤ s) (gaussExpected : GaussRate) (p : ℚ)
    (hgr : GaussRateGives gaussExpected c.numParameters p) (hp0 : 0 ≤ p) (hp1 : p ≤ 1) (normal : ρ → (List ℚ × List ℚ) × ρ)
    (hnorm : ∀ s, (normal s).1.1.length = c.numParameters ∧ (normal s).1.2.length = (normal s).1.1.countP fun x => decide (x < p))
    (worse : Option ℝ → Option ℝ → Bool)
    (choose : Int → List Nat → Mem ImageSegment (List (List Int) → PyM (List (List ℚ))) ℝ ρ → PyM Nat × ρ)
    (hsel : ∀ g pop m, pop ≠ [] → (∀ r ∈ pop, ∃ f, fitness m r = some (some f)) → ∃ i, (choose g pop m).1 = .ok i ∧ i < pop.length)
    (stop : Int → List Nat → Mem ImageSegment (List (List Int) → PyM (List (List ℚ))) ℝ ρ → Bool) (popSize : Nat) (hpos : 0 < popSize)
    (kElites problem : Nat) (generations : Int) (m : Mem ImageSegment (List (List Int) → PyM (List (List ℚ))) ℝ ρ) (hm : Sound m) :
    ∃ out m', imageRun c im lo hi init expected probability draw std gaussExpected normal worse choose stop popSize kElites problem generations m =
      (.ok out, m') := by
  have hscore : ∀ g, GenesIn 2 (imageGene c lo hi) g → ∃ x, decodeOf (.fn (imageDecode c)) g = .ok x ∧
      ∀ s : ρ, ∃ f, ((imageProblem im).evaluate x s).1 = .ok f := by
    intro g hG
    obtain ⟨circuit, values, hI⟩ := (imageGenes_iff c hnpl lo hi g).1 hG
    obtain ⟨ex, f', a1, a2, -⟩ := image_score c ht im circuit hI.2.1 values hI.2.2.1
    exact ⟨.value ex, by rw [hI.1]; simp only [decodeOf, a1], fun s => ⟨f', a2⟩⟩
  refine evo_run_returns ⟨worse, choose, _, popSize, kElites, stop⟩ _ (.fn (imageDecode c)) (imageProblem im) (n := 2) (allowed := imageGene c lo hi)
    (fun s => imageInit_ok c hnpl lo hi hlh (init s).1.1 (hinit s) (init s).1.2 (huni s).1 (huni s).2)
    (imageStages_ok c hnpl hL lo hi hlh im expected probability q hr h0 h1 draw hu hd std gaussExpected normal) (fun st hst => ?_) rfl hscore
    (fun g pop m' hne hmem => ?_) hpos problem popSize hpos 0 generations m hm
  · simp only [List.mem_cons, List.not_mem_nil, or_false] at hst
    rcases hst with rfl | rfl
    · refine ⟨rfl, fun genome s hG => ?_⟩
      match genome, hG.1 with
      | [a, b], _ =>
        obtain ⟨genes, rfl, hg⟩ := (hG.2 0 a rfl).1 rfl
        obtain ⟨values, rfl, hp⟩ := (hG.2 1 b rfl).2 rfl
        have hne : c.decoder.bounds ≠ [] := by
          intro h
          have h1 := bounds_length c.decoder
          rw [h, CgpDecoder.numGenes, List.length_nil] at h1
          have : 0 < c.decoder.numLayers * c.decoder.nodesPerLayer * (c.decoder.maxArity + 1) := Nat.mul_pos (Nat.mul_pos hL hnpl) (Nat.succ_pos _)
          omega
        obtain ⟨-, e1⟩ := randint_stage_live (ψ := Unit) (φ := Unit) true c.decoder.bounds expected probability draw q hne hr h0 h1 hu hd
          (fun i x => ∃ b, c.decoder.bounds[i]? = some b ∧ b.1 ≤ x ∧ x ≤ b.2)
        obtain ⟨x, hx⟩ := e1 genes s hg
        obtain ⟨-, e2⟩ := gaussian_stage_live (ψ := Unit) (φ := Unit) false std gaussExpected (.all (some lo, some hi)) 1 0 normal p hgr hp0 hp1
          (fun s => (hnorm s).1) (fun s => (hnorm s).2) hstd hnn trivial (netGene lo hi)
        obtain ⟨y, hy⟩ := e2 values (randintFn c.decoder.bounds expected probability draw genes s).rng hp
        exact ⟨_, by rw [segmentsFn_two, hx]; simp only [hy]; rfl⟩
    · exact hscore
  · exact hsel g pop m' hne fun r hr => by
      obtain ⟨g, f, -, -, hf, -⟩ := hmem r hr
      exact ⟨f, hf⟩

/-! ### Example: two nodes, with a sum and a weighted difference -/

def exImageFns : List PixelFn :=
  [⟨none, 3, fun args => args.getD 0 0 + args.getD 1 0 + args.getD 2 0⟩, ⟨none, 3, fun args => args.getD 2 0 * (args.getD 0 0 - args.getD 1 0)⟩]

def exImageCircuits : ImageCircuits := ⟨exImageFns, 2, 1, 2, 1, true, 2⟩

theorem exImage_takes : TakesInputs exImageCircuits := by
  intro p hp
  simp only [exImageCircuits, exImageFns, List.mem_cons, List.not_mem_nil, or_false] at hp
  rcases hp with rfl | rfl <;> exact ⟨by decide, rfl⟩

/-- The image with the colour `(x + y + 1, x, 5 / 2 * (x - y))` at `(x, y)`, two pixels wide and three high. -/
example : ((imageDecode exImageCircuits [.circuit [0, 0, 1, 1, 0, 1, 2, 0, 3], .parameters [1, 5 / 2]]).bind fun ex =>
    generateImage ex 2 3).toOption = some ⟨3, [[1, 0, 0], [2, 1, 2], [2, 0, -2], [3, 1, 0], [3, 0, -5], [4, 1, -2]]⟩ := by
  decide +kernel

/-- The hypotheses of both run theorems hold: a population of five, cyclic selection, one elite, ten generations, the first gene redrawn and one
parameter moved in each child. -/
example (im : RgbImage) : ∃ out m', imageRun exImageCircuits im 0 255
      (fun s => ((exImageCircuits.decoder.bounds.map Prod.fst, [1 / 2, 3 / 4]), s + 1)) (some 1) none
      (fun s : Nat => ((0 :: List.replicate 8 (1 / 2), [(s % 2 : Nat)]), s + 1)) (.scalar 25) (.num 1) (fun s => (([0, 3 / 4], [1 / 2]), s + 1))
      (fun _ _ => false) (fun _ pop m => (.ok (m.rng % pop.length), m.rng + 1)) (fun _ _ _ => false) 5 1 0 10 ⟨[], [], [], 0, 0⟩ = (.ok out, m') ∧
    out.length = 5 ∧ ∀ r ∈ out, ∃ f, fitness m' r = some (some f) ∧ 0 ≤ f := by
  have hinit : ∀ s : Nat, List.Forall₂ (fun (b : Int × Int) x => b.1 ≤ x ∧ x < b.2) (exImageCircuits.decoder.bounds.map fun b => (b.1, b.2 + 1))
      ((fun s => ((exImageCircuits.decoder.bounds.map Prod.fst, [1 / 2, 3 / 4]), s + 1) : Nat → (List Int × List ℚ) × Nat) s).1.1 := fun s => by
    show List.Forall₂ (fun (b : Int × Int) x => b.1 ≤ x ∧ x < b.2) (exImageCircuits.decoder.bounds.map fun b => (b.1, b.2 + 1))
      (exImageCircuits.decoder.bounds.map Prod.fst)
    decide +kernel
  have huni : ∀ s : Nat, (((fun s => ((exImageCircuits.decoder.bounds.map Prod.fst, [1 / 2, 3 / 4]), s + 1) : Nat → (List Int × List ℚ) × Nat) s).1.2.length =
      exImageCircuits.numParameters) ∧
      ∀ x ∈ ((fun s => ((exImageCircuits.decoder.bounds.map Prod.fst, [1 / 2, 3 / 4]), s + 1) : Nat → (List Int × List ℚ) × Nat) s).1.2, 0 ≤ x ∧ x < 1 :=
    fun s => ⟨rfl, fun x hx => by
      simp only [List.mem_cons, List.not_mem_nil, or_false] at hx
      rcases hx with rfl | rfl <;> norm_num⟩
  have hb : exImageCircuits.decoder.bounds.length = 9 := by decide +kernel
  have hr : RateGives (some 1) none exImageCircuits.decoder.bounds.length (1 / 9) := by
    rw [hb]
    exact .inr ⟨rfl, by decide, 1, rfl, by norm_num⟩
  have hu : ∀ s : Nat, ((fun s : Nat => (((0 :: List.replicate 8 (1 / 2), [((s % 2 : Nat) : Int)]), s + 1) : (List ℚ × List Int) × Nat)) s).1.1.length =
      exImageCircuits.decoder.bounds.length := fun s => by rw [hb]; simp
  have hd : ∀ s : Nat, ValidRandints (((exImageCircuits.decoder.bounds.zip
      ((fun s : Nat => (((0 :: List.replicate 8 (1 / 2), [((s % 2 : Nat) : Int)]), s + 1) : (List ℚ × List Int) × Nat)) s).1.1).filter
      (fun y => decide (y.2 < 1 / 9))).map Prod.fst) ((fun s : Nat => (((0 :: List.replicate 8 (1 / 2), [((s % 2 : Nat) : Int)]), s + 1) : (List ℚ × List Int) × Nat)) s).1.2 := fun s => by
    have e : ((exImageCircuits.decoder.bounds.zip (0 :: List.replicate 8 (1 / 2 : ℚ))).filter (fun y => decide (y.2 < 1 / 9))).map Prod.fst = [(0, 1)] := by
      decide +kernel
    simp only [e]
    have : s % 2 < 2 := Nat.mod_lt _ (by decide)
    unfold ValidRandints
    simp
    omega
  obtain ⟨out, m', h⟩ := image_run_completes exImageCircuits (by decide) (by decide) exImage_takes im 0 255 (by norm_num) _ hinit huni (some 1) none _ hr
    (by norm_num) (by norm_num) _ hu hd (.scalar 25) trivial (fun s h => by simp only [ScalarOrList.scalar.injEq] at h; subst h; norm_num) (.num 1) (1 / 2)
    ⟨by decide, by norm_num [ImageCircuits.numParameters, exImageCircuits]⟩ (by norm_num) (by norm_num) (fun s : Nat => (([0, 3 / 4], [1 / 2]), s + 1))
    (fun s => ⟨rfl, by norm_num [List.countP_cons]⟩)
    (fun _ _ => false) (fun _ pop m => (.ok (m.rng % pop.length), m.rng + 1))
    (fun g pop m hne _ => ⟨_, rfl, Nat.mod_lt _ (List.length_pos_iff.2 hne)⟩) (fun _ _ _ => false) 5 (by decide) 1 0 10 ⟨[], [], [], 0, 0⟩
    ⟨by simp, by simp, by simp⟩
  obtain ⟨-, -, h3, h4, -⟩ := image_run_members exImageCircuits (by decide) (by decide) exImage_takes im 0 255 (by norm_num) _ hinit huni (some 1) none _ hr
    (by norm_num) (by norm_num) _ hu hd _ _ _ _ _ _ 5 1 0 10 _ _ ⟨by simp, by simp, by simp⟩ out h
  refine ⟨out, m', h, h3, fun r hr => ?_⟩
  obtain ⟨-, -, -, -, f, -, h5, -, -, h6, -⟩ := h4 r hr
  exact ⟨f, h5, h6⟩

end Leap
