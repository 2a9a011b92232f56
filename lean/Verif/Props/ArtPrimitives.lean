import Verif.Model.ArtPrimitives
import Verif.Props.Cgp
import Mathlib.Analysis.SpecialFunctions.Trigonometric.Arctan
import Mathlib.Data.Nat.Bitwise
import Mathlib.Tactic.FieldSimp
import Mathlib.Tactic.Linarith

/-! # Colours made by the image primitives (C106) -/

namespace Leap
open Spec

/-! ### Closed circuits -/

section closed
variable {V : Type}

theorem evaluates_closed {d : CgpDecoder V} {genome : List Int} {params : Nat → List V} {input : List V} (S : V → Prop)
    (hin : ∀ v ∈ input, S v)
    (hprim : ∀ f ∈ d.primitives, ∀ k args v, args.length = usedArity d f → (∀ a ∈ args, S a) → f.call (args ++ params k) = .ok v → S v)
    (hv : CgpValid d genome) {s : Int} {v : V} (h : Evaluates d genome params input s v) : S v := by
  induction h with
  | input i v _ hi => exact hin v (List.mem_of_getElem? hi)
  | node k p f args v hk hp hf hlen hargs hcall ih =>
    refine hprim f (List.mem_of_getElem? hf) k args v hlen ?_ hcall
    intro a ha
    obtain ⟨j, hj⟩ := List.getElem?_of_mem ha
    have hjl : j < usedArity d f := by
      have := (List.getElem?_eq_some_iff.1 hj).1
      omega
    have hja : j < d.maxArity := by
      unfold usedArity at hjl
      split at hjl <;> omega
    obtain ⟨l, n, hl, hn, rfl⟩ := grid_cell d k hk
    obtain ⟨s, hs, -⟩ := hv.source l n j hl hn hja
    exact ih j s a hjl hs hj

theorem evaluates_total {d : CgpDecoder V} {genome : List Int} {params : Nat → List V} {input : List V} (S : V → Prop)
    (hin : ∀ v ∈ input, S v) (hlen : input.length = d.numInputs)
    (hprim : ∀ f ∈ d.primitives, ∀ k < d.numLayers * d.nodesPerLayer, ∀ args, args.length = usedArity d f → (∀ a ∈ args, S a) →
      ∃ v, f.call (args ++ params k) = .ok v ∧ S v)
    (hv : CgpValid d genome) : ∀ m : Nat, m < d.numInputs + d.numLayers * d.nodesPerLayer →
      ∃ v, Evaluates d genome params input m v ∧ S v := by
  intro m
  induction m using Nat.strong_induction_on with
  | _ m ih =>
    intro hm
    by_cases hi : m < d.numInputs
    · exact ⟨input[m]'(by omega), .input m _ hi (List.getElem?_eq_getElem (by omega)), hin _ (List.getElem_mem _)⟩
    · obtain ⟨k, rfl⟩ : ∃ k, m = d.numInputs + k := ⟨m - d.numInputs, by omega⟩
      have hk : k < d.numLayers * d.nodesPerLayer := by omega
      have hsrc : ∀ j, j < d.maxArity → ∃ s : Nat, genome[k * (d.maxArity + 1) + 1 + j]? = some (s : Int) ∧ s < d.numInputs + k := by
        intro j hj
        have hr := sourcesAt_range hv k hk
        obtain ⟨l, n, hl, hn, e⟩ := grid_cell d k hk
        obtain ⟨s, hs, had⟩ := hv.source l n j hl hn hj
        have := admissible_range d l n s had
        refine ⟨s.toNat, ?_, ?_⟩
        · rw [e, hs, Int.toNat_of_nonneg this.1]
        · have h2 := this.2
          have h1 := this.1
          rw [e]
          push_cast at h2
          omega
      obtain ⟨l, n, hl, hn, e⟩ := grid_cell d k hk
      obtain ⟨p, hp, hpl⟩ := hv.primitive l n hl hn
      have hf : d.primitives[p]? = some d.primitives[p] := List.getElem?_eq_getElem hpl
      have hua : usedArity d d.primitives[p] ≤ d.maxArity := by unfold usedArity; split <;> omega
      have hval : ∀ j, ∃ v, j < d.maxArity → ∀ s : Int, genome[k * (d.maxArity + 1) + 1 + j]? = some s →
          Evaluates d genome params input s v ∧ S v := by
        intro j
        by_cases hj : j < d.maxArity
        · obtain ⟨s, hs, hlt⟩ := hsrc j hj
          obtain ⟨v, hv1, hv2⟩ := ih s hlt (by omega)
          refine ⟨v, fun _ s' hs' => ?_⟩
          rw [hs, Option.some.injEq] at hs'
          subst hs'
          exact ⟨hv1, hv2⟩
        · by_cases h0 : d.numInputs = 0
          · have hpos : 0 < d.maxArity ∨ d.maxArity = 0 := by omega
            rcases hpos with hpos | hz
            · obtain ⟨s, -, hlt⟩ := hsrc 0 hpos
              obtain ⟨v, -⟩ := ih s hlt (by omega)
              exact ⟨v, fun h => absurd h hj⟩
            · obtain ⟨v, -⟩ := hprim d.primitives[p] (List.getElem_mem _) k hk [] (by simp; omega) (by simp)
              exact ⟨v, fun h => absurd h hj⟩
          · exact ⟨input[0]'(by omega), fun h => absurd h hj⟩
      choose vals hvals using hval
      have hargs : ∀ a ∈ (List.range (usedArity d d.primitives[p])).map vals, S a := by
        intro a ha
        obtain ⟨j, hj, rfl⟩ := List.mem_map.1 ha
        have hj' : j < d.maxArity := by
          have := List.mem_range.1 hj; omega
        obtain ⟨s, hs, -⟩ := hsrc j hj'
        exact (hvals j hj' s hs).2
      obtain ⟨v, hcall, hSv⟩ := hprim d.primitives[p] (List.getElem_mem _) k hk _ (by simp) hargs
      refine ⟨v, .node k p _ ((List.range (usedArity d d.primitives[p])).map vals) v hk ?_ hf (by simp) ?_ hcall, hSv⟩
      · rw [e]; exact hp
      · intro j s x hj hs hx
        have hx' : vals j = x := by
          rw [List.getElem?_map, List.getElem?_range hj] at hx
          simpa using hx
        subst hx'
        exact (hvals j (by omega) s hs).1

end closed

/-! ### The primitives -/

/-- A number is a colour. -/
def Spec.Colour (x : ℝ) : Prop := 0 ≤ x ∧ x ≤ 255

theorem floatMod_range (x m : ℝ) (hm : 0 < m) : 0 ≤ floatMod x m ∧ floatMod x m < m := by
  have h1 := Int.floor_le (x / m)
  have h2 := Int.lt_floor_add_one (x / m)
  have e : m * (x / m) = x := by field_simp
  have h3 := mul_le_mul_of_nonneg_left h1 hm.le
  have h4 := mul_lt_mul_of_pos_left h2 hm
  rw [e] at h3 h4
  unfold floatMod
  constructor <;> linarith

theorem truncInt_colour {x : ℝ} (h : Colour x) : ∃ n : ℕ, truncInt x = n ∧ n < 2 ^ 8 := by
  have h0 : 0 ≤ ⌊x⌋ := Int.floor_nonneg.2 h.1
  refine ⟨⌊x⌋.toNat, ?_, ?_⟩
  · rw [truncInt, if_pos h.1, Int.toNat_of_nonneg h0]
  · have : ⌊x⌋ ≤ 255 := by
      have := (Int.floor_le x).trans h.2
      exact_mod_cast this
    omega

/-- The positions of the primitives that keep colours within their range. -/
def Spec.safeArt : List ℕ := [0, 1, 2, 5, 6, 7, 9, 10, 12, 13, 14]

/-- C106: eleven of the fifteen image primitives make colours, numbers from 0 to 255, of colours. -/
theorem art_keeps_colours (i : ℕ) (hi : i ∈ safeArt) (f : ℝ → ℝ → ℝ → ℝ) (hf : artFunctions[i]? = some f) (x y p : ℝ) (hx : Colour x)
    (hy : Colour y) (hp : Colour p) : Colour (f x y p) := by
  obtain ⟨x0, x1⟩ := hx
  obtain ⟨y0, y1⟩ := hy
  obtain ⟨p0, p1⟩ := hp
  simp only [safeArt, List.mem_cons, List.not_mem_nil, or_false] at hi
  rcases hi with rfl | rfl | rfl | rfl | rfl | rfl | rfl | rfl | rfl | rfl | rfl <;> obtain rfl := Option.some.inj hf
  · obtain ⟨a, ea, ha⟩ := truncInt_colour (x := x) ⟨x0, x1⟩
    obtain ⟨b, eb, hb⟩ := truncInt_colour (x := y) ⟨y0, y1⟩
    have h := Nat.or_lt_two_pow ha hb
    have e : Int.lor (truncInt x) (truncInt y) = ((a ||| b : ℕ) : ℤ) := by rw [ea, eb]; rfl
    refine ⟨?_, ?_⟩ <;> simp only [e]
    · positivity
    · have : a ||| b ≤ 255 := by omega
      exact_mod_cast this
  · obtain ⟨a, ea, ha⟩ := truncInt_colour (x := p) ⟨p0, p1⟩
    obtain ⟨b, eb, hb⟩ := truncInt_colour (x := x) ⟨x0, x1⟩
    have h := Nat.and_lt_two_pow a hb
    have e : Int.land (truncInt p) (truncInt x) = ((a &&& b : ℕ) : ℤ) := by rw [ea, eb]; rfl
    refine ⟨?_, ?_⟩ <;> simp only [e]
    · positivity
    · have : a &&& b ≤ 255 := by omega
      exact_mod_cast this
  · have h1 : 1 ≤ 1 + y + p := by linarith
    exact ⟨div_nonneg x0 (by linarith), (div_le_self x0 h1).trans x1⟩
  · constructor
    · rcases le_total x y with h | h
      · exact le_max_of_le_right (by linarith)
      · exact le_max_of_le_left (by linarith)
    · exact max_le (by linarith) (by linarith)
  · constructor <;> simp only <;> linarith
  · refine ⟨abs_nonneg _, ?_⟩
    simp only [abs_mul]
    have := Real.abs_cos_le_one x
    rw [abs_of_nonneg (show (0 : ℝ) ≤ 255 by norm_num)]
    linarith
  · have := floatMod_range |Real.tan x * 255| 255 (by norm_num)
    exact ⟨this.1, this.2.le⟩
  · exact ⟨le_min (Real.sqrt_nonneg _) (by norm_num), min_le_right _ _⟩
  · constructor <;> simp only <;> linarith
  · have hx1 : 0 < x + 1 := by linarith
    have hy1 : 0 < y + 1 := by linarith
    refine ⟨le_min (by positivity) (by positivity), ?_⟩
    rcases le_total x y with h | h
    · refine (min_le_right _ _).trans ?_
      rw [div_le_iff₀ hy1]; linarith
    · refine (min_le_left _ _).trans ?_
      rw [div_le_iff₀ hx1]; linarith
  · have := floatMod_range (Real.sqrt |x ^ 2 - p ^ 2 + y ^ 2 - p ^ 2|) 255 (by norm_num)
    exact ⟨this.1, this.2.le⟩

/-- C106: each of the other four makes a number above 255 of some colours. The twelfth exceeds it by less than 1, so that its integer part is a
colour again. -/
theorem art_leaves_colours :
    (∀ i, i < artFunctions.length → i ∉ safeArt → ∃ f, artFunctions[i]? = some f ∧
      ∃ x y p, Colour x ∧ Colour y ∧ Colour p ∧ 255 < f x y p) ∧
    ∃ f, artFunctions[11]? = some f ∧ ∀ x y p, Colour p → 0 ≤ f x y p ∧ f x y p < 256 := by
  constructor
  · intro i hi hs
    have hlen : artFunctions.length = 15 := rfl
    rw [hlen] at hi
    have h4 : i = 3 ∨ i = 4 ∨ i = 8 ∨ i = 11 := by
      simp only [safeArt, List.mem_cons, List.not_mem_nil, or_false, not_or] at hs
      omega
    rcases h4 with rfl | rfl | rfl | rfl
    · exact ⟨_, rfl, 2, 1, 0, by norm_num [Colour], by norm_num [Colour], by norm_num [Colour], by norm_num⟩
    · exact ⟨_, rfl, 1, 1, 0, by norm_num [Colour], by norm_num [Colour], by norm_num [Colour], by norm_num⟩
    · have hpi := Real.pi_pos
      have ha0 : 0 < Real.arctan 256 := Real.arctan_pos.2 (by norm_num)
      have ha1 := Real.arctan_lt_pi_div_two 256
      have hx0 : 0 ≤ Real.arctan 256 * 180 / (255 * Real.pi) := by positivity
      have hx1 : Real.arctan 256 * 180 / (255 * Real.pi) < 1 := by
        rw [div_lt_one (by positivity)]; linarith
      refine ⟨_, rfl, Real.arctan 256 * 180 / (255 * Real.pi), 0, 0, ⟨hx0, by linarith⟩, by norm_num [Colour], by norm_num [Colour], ?_⟩
      have hm : floatMod (Real.arctan 256 * 180 / (255 * Real.pi)) 45 = Real.arctan 256 * 180 / (255 * Real.pi) := by
        have : ⌊Real.arctan 256 * 180 / (255 * Real.pi) / 45⌋ = 0 := by
          rw [Int.floor_eq_zero_iff]
          exact ⟨by positivity, by linarith⟩
        rw [floatMod, this]; simp
      simp only [hm]
      rw [show Real.arctan 256 * 180 / (255 * Real.pi) * Real.pi / 180 * 255 = Real.arctan 256 by field_simp, Real.tan_arctan]
      norm_num
    · refine ⟨_, rfl, 1 / 2, 0, 0, by norm_num [Colour], by norm_num [Colour], by norm_num [Colour], ?_⟩
      have : ⌊(1 / 2 : ℝ) / (0 + 1)⌋ = 0 := by
        rw [Int.floor_eq_zero_iff]; norm_num
      simp only [floatMod, this]
      norm_num
  · refine ⟨_, rfl, fun x y p hp => ?_⟩
    have := floatMod_range x (p + 1) (by linarith [hp.1])
    have h1 := hp.2
    constructor <;> linarith [this.1, this.2]

/-- The positions of the primitives in which the two pixels play the same part. -/
def Spec.evenArt : List ℕ := [0, 3, 4, 5, 10, 12, 13, 14]

theorem int_lor_comm (a b : ℤ) : Int.lor a b = Int.lor b a := by
  cases a <;> cases b <;> simp [Int.lor, Nat.lor_comm, Nat.land_comm]

/-- C106: eight of the primitives do not care which of their two pixels comes first, six others do not look at the second pixel, and the
third tells the two apart. -/
theorem art_order :
    (∀ i ∈ evenArt, ∃ f, artFunctions[i]? = some f ∧ ∀ x y p, f x y p = f y x p) ∧
    (∀ i < artFunctions.length, i ∉ evenArt → i ≠ 2 → ∃ f, artFunctions[i]? = some f ∧ ∀ x y y' p, f x y p = f x y' p) ∧
    ∃ f, artFunctions[2]? = some f ∧ ∀ x y p, Colour x → Colour y → Colour p → (f x y p = f y x p ↔ x = y) := by
  refine ⟨fun i hi => ?_, fun i hi hn h2 => ?_, _, rfl, fun x y p hx hy hp => ?_⟩
  · simp only [evenArt, List.mem_cons, List.not_mem_nil, or_false] at hi
    rcases hi with rfl | rfl | rfl | rfl | rfl | rfl | rfl | rfl <;> refine ⟨_, rfl, fun x y p => ?_⟩
    · simp only [int_lor_comm]
    · ring
    · ring
    · exact max_comm _ _
    · simp only [add_comm]
    · simp only [add_comm]
    · exact min_comm _ _
    · rw [show x ^ 2 - p ^ 2 + y ^ 2 - p ^ 2 = y ^ 2 - p ^ 2 + x ^ 2 - p ^ 2 by ring]
  · have hlen : artFunctions.length = 15 := rfl
    rw [hlen] at hi
    have h6 : i = 1 ∨ i = 6 ∨ i = 7 ∨ i = 8 ∨ i = 9 ∨ i = 11 := by
      simp only [evenArt, List.mem_cons, List.not_mem_nil, or_false, not_or] at hn
      omega
    rcases h6 with rfl | rfl | rfl | rfl | rfl | rfl <;> exact ⟨_, rfl, fun _ _ _ _ => rfl⟩
  · have h1 : 0 < 1 + y + p := by linarith [hy.1, hp.1]
    have h3 : 0 < 1 + x + p := by linarith [hx.1, hp.1]
    rw [div_eq_div_iff h1.ne' h3.ne']
    constructor
    · intro h
      have : (x - y) * (1 + x + y + p) = 0 := by nlinarith
      rcases mul_eq_zero.1 this with h | h
      · linarith
      · linarith [hx.1, hy.1, hp.1]
    · rintro rfl; rfl

/-- C106: on intensities from 0 to 1 the product of two pixels is a colour, black with a black pixel and the other pixel's colour with a white
one; their sum reaches twice the brightest colour. -/
theorem art_unit_pixels :
    (∃ f, artFunctions[3]? = some f ∧ (∀ x y p, 0 ≤ x → x ≤ 1 → 0 ≤ y → y ≤ 1 → Colour (f x y p)) ∧
      (∀ x p, f x 0 p = 0) ∧ ∀ x p, f x 1 p = 255 * x) ∧
    ∃ f, artFunctions[4]? = some f ∧ (∀ x p, f x 0 p = 255 * x) ∧ ∀ p, f 1 1 p = 510 := by
  refine ⟨⟨_, rfl, fun x y p x0 x1 y0 y1 => ?_, fun x p => by simp, fun x p => ?_⟩, _, rfl, fun x p => ?_, fun p => by norm_num⟩
  · have h0 : 0 ≤ x * y := by positivity
    have h1 : x * y ≤ 1 := mul_le_one₀ x1 y0 y1
    constructor <;> linarith
  · ring
  · ring

/-! ### Images -/

/-- C106: a circuit with two inputs per node and one parameter, all of whose primitives are among the eleven, answers every call on colours
with colours, whatever its genome, if its parameters are colours. -/
theorem art_circuit_colours (d : CgpDecoder ℝ) (ha : d.maxArity = 2)
    (hprims : ∀ f ∈ d.primitives, ∃ i ∈ safeArt, artPrimitives[i]? = some f)
    (genome : List Int) (hv : CgpValid d genome) (parameters : List ℝ) (hlen : parameters.length = 1 * d.nodesPerLayer * d.numLayers)
    (hpar : ∀ p ∈ parameters, Colour p) :
    ∃ g, cgpDecodeWithParameters d 1 genome parameters = .ok g ∧
      ∀ (out : Int → Option ℝ) (input : List ℝ), input.length = d.numInputs → (∀ v ∈ input, Colour v) →
        ∃ r out', cgpCall g d.numInputs d.numOutputs out input = .ok (r, out') ∧ r.length = d.numOutputs ∧ ∀ v ∈ r, Colour v := by
  obtain ⟨g, hg, hcall⟩ := (cgp_parameters_call d genome hv 1 parameters).1 hlen
  refine ⟨g, hg, fun out input hl hin => ?_⟩
  have hparam : ∀ k < d.numLayers * d.nodesPerLayer, ∃ p, (parameters.drop (k * 1)).take 1 = [p] ∧ Colour p := by
    intro k hk
    have hk' : k < parameters.length := by rw [hlen, Nat.one_mul, Nat.mul_comm]; exact hk
    refine ⟨parameters[k], ?_, hpar _ (List.getElem_mem _)⟩
    rw [Nat.mul_one, List.drop_eq_getElem_cons hk']
    rfl
  have htot := evaluates_total (params := fun k => (parameters.drop (k * 1)).take 1) Colour hin hl (by
    intro f hf k hk args hargs hcol
    obtain ⟨i, hi, hfi⟩ := hprims f hf
    obtain ⟨p, hp, hpc⟩ := hparam k hk
    rw [artPrimitives, List.getElem?_map] at hfi
    cases hfn : artFunctions[i]? with
    | none => rw [hfn] at hfi; cases hfi
    | some fn =>
      rw [hfn] at hfi
      obtain rfl := Option.some.inj hfi
      have hl2 : args.length = 2 := by rw [hargs]; simp [usedArity, artPrimitive, ha]
      match args, hl2, hcol with
      | [x, y], _, hcol =>
        refine ⟨fn x y p, by rw [hp]; rfl, ?_⟩
        exact art_keeps_colours i hi fn hfn x y p (hcol x (by simp)) (hcol y (by simp)) hpc) hv
  have hout : ∀ o : ℕ, ∃ v, o < d.numOutputs → (∀ s, genome[d.numLayers * d.nodesPerLayer * (d.maxArity + 1) + o]? = some s →
      Evaluates d genome (fun k => (parameters.drop (k * 1)).take 1) input s v) ∧ Colour v := by
    intro o
    by_cases ho : o < d.numOutputs
    · obtain ⟨s, hs, h0, h1⟩ := hv.output o ho
      obtain ⟨v, e1, e2⟩ := htot s.toNat (by omega)
      refine ⟨v, fun _ => ⟨fun s' hs' => ?_, e2⟩⟩
      rw [hs, Option.some.injEq] at hs'
      subst hs'
      rw [Int.toNat_of_nonneg h0] at e1
      exact e1
    · exact ⟨0, fun h => absurd h ho⟩
  choose vals hvals using hout
  have hres := (hcall out input hl ((List.range d.numOutputs).map vals)).2 ⟨?_, by simp, ?_⟩
  · obtain ⟨out', ho⟩ := hres
    refine ⟨_, out', ho, by simp, ?_⟩
    intro v hvm
    obtain ⟨o, hom, rfl⟩ := List.mem_map.1 hvm
    exact (hvals o (List.mem_range.1 hom)).2
  · intro _ k hk
    obtain ⟨v, hv1, -⟩ := htot (d.numInputs + k) (by omega)
    exact ⟨v, hv1⟩
  · intro o s v hs hvo
    have hol : o < d.numOutputs := by
      have := (List.getElem?_eq_some_iff.1 hvo).1
      simpa using this
    rw [List.getElem?_map, List.getElem?_range hol] at hvo
    obtain rfl : vals o = v := by simpa using hvo
    exact (hvals o hol).1 s hs

/-- A decoder for images with a single node, using all fifteen primitives. -/
noncomputable def exArtDecoder : CgpDecoder ℝ := ⟨artPrimitives, 2, 1, 1, 1, 2, true, 1⟩

theorem exArt_valid (i : ℕ) (hi : i < 15) : CgpValid exArtDecoder [(i : Int), 0, 1, 2] := by
  refine ⟨rfl, ?_, ?_, ?_⟩
  · intro l n hl hn
    simp only [exArtDecoder] at hl hn
    obtain rfl : l = 0 := by omega
    obtain rfl : n = 0 := by omega
    exact ⟨i, rfl, hi⟩
  · intro l n j hl hn hj
    simp only [exArtDecoder] at hl hn hj
    obtain rfl : l = 0 := by omega
    obtain rfl : n = 0 := by omega
    have hj2 : j = 0 ∨ j = 1 := by omega
    rcases hj2 with rfl | rfl
    · exact ⟨0, rfl, Or.inl ⟨by norm_num, by simp [exArtDecoder], Or.inl rfl⟩⟩
    · exact ⟨1, rfl, Or.inl ⟨by norm_num, by simp [exArtDecoder], Or.inl rfl⟩⟩
  · intro o ho
    simp only [exArtDecoder] at ho
    obtain rfl : o = 0 := by omega
    exact ⟨2, rfl, by norm_num, by simp [exArtDecoder]⟩

/-- C106: with the whole set, images can have colours out of range: the circuit that adds the two coordinates and multiplies by 255 paints the
pixel at (1, 1) with 510. -/
theorem art_image_out_of_range : ∃ genome, CgpValid exArtDecoder genome ∧ ∃ g, cgpDecodeWithParameters exArtDecoder 1 genome [0] = .ok g ∧
    ∀ out, ∃ out', cgpCall g 2 1 out [1, 1] = .ok ([510], out') := by
  refine ⟨[4, 0, 1, 2], exArt_valid 4 (by norm_num), ?_⟩
  obtain ⟨g, hg, hcall⟩ := (cgp_parameters_call exArtDecoder [4, 0, 1, 2] (exArt_valid 4 (by norm_num)) 1 [0]).1 rfl
  refine ⟨g, hg, fun out => (hcall out [1, 1] rfl [510]).2 ⟨fun h => by simp [exArtDecoder] at h, rfl, ?_⟩⟩
  intro o s v hs hv
  match o, hs, hv with
  | 0, hs, hv =>
    obtain rfl : (2 : Int) = s := by simpa [exArtDecoder] using hs
    obtain rfl : (510 : ℝ) = v := by simpa using hv
    refine Evaluates.node (d := exArtDecoder) 0 4 (artPrimitive fun x y _ => (x + y) * 255) [1, 1] 510 (by simp [exArtDecoder]) rfl rfl rfl ?_ ?_
    · intro j s x hj hs hx
      have hj2 : j = 0 ∨ j = 1 := by
        have : j < 2 := by simpa [usedArity, artPrimitive, exArtDecoder] using hj
        omega
      rcases hj2 with rfl | rfl
      · obtain rfl : (0 : Int) = s := by simpa [exArtDecoder] using hs
        exact Evaluates.input 0 x (by simp [exArtDecoder]) (by simpa using hx)
      · obtain rfl : (1 : Int) = s := by simpa [exArtDecoder] using hs
        exact Evaluates.input 1 x (by simp [exArtDecoder]) (by simpa using hx)
    · simp [artPrimitive]; norm_num

example : ∃ f, artFunctions[12]? = some f ∧ f 10 20 3 = 15 := ⟨_, rfl, by norm_num⟩

/-- A decoder with three of the eleven. -/
noncomputable def exSafeArt : CgpDecoder ℝ :=
  ⟨[artPrimitive fun x y _ => max (x - y) (y - x), artPrimitive fun x _ _ => 255 - x, artPrimitive fun x y _ => (x + y) / 2], 2, 1, 1, 1, 2, true, 1⟩

example : (∀ f ∈ exSafeArt.primitives, ∃ i ∈ safeArt, artPrimitives[i]? = some f) ∧ CgpValid exSafeArt [2, 0, 1, 2] := by
  refine ⟨?_, rfl, ?_, ?_, ?_⟩
  · intro f hf
    simp only [exSafeArt, List.mem_cons, List.not_mem_nil, or_false] at hf
    rcases hf with rfl | rfl | rfl
    · exact ⟨5, by decide, rfl⟩
    · exact ⟨6, by decide, rfl⟩
    · exact ⟨12, by decide, rfl⟩
  · intro l n hl hn
    simp only [exSafeArt] at hl hn
    obtain rfl : l = 0 := by omega
    obtain rfl : n = 0 := by omega
    exact ⟨2, rfl, by decide⟩
  · intro l n j hl hn hj
    simp only [exSafeArt] at hl hn hj
    obtain rfl : l = 0 := by omega
    obtain rfl : n = 0 := by omega
    have hj2 : j = 0 ∨ j = 1 := by omega
    rcases hj2 with rfl | rfl
    · exact ⟨0, rfl, Or.inl ⟨by norm_num, by simp [exSafeArt], Or.inl rfl⟩⟩
    · exact ⟨1, rfl, Or.inl ⟨by norm_num, by simp [exSafeArt], Or.inl rfl⟩⟩
  · intro o ho
    simp only [exSafeArt] at ho
    obtain rfl : o = 0 := by omega
    exact ⟨2, rfl, by norm_num, by simp [exSafeArt]⟩

end Leap
