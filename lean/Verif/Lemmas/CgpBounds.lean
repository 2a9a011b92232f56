import Mathlib.Tactic.Linarith
import Mathlib.Tactic.Ring
import Verif.Spec.Cgp

/-! # The bounds of a CGP decoder, position by position -/

namespace Leap

open Spec

variable {V : Type}

theorem length_flatMap_range {α : Type} (f : Nat → List α) (c m : Nat) (hf : ∀ i, (f i).length = c) :
    ((List.range m).flatMap f).length = m * c := by
  simp [List.length_flatMap, hf, List.sum_replicate]

theorem get_flatMap_range {α : Type} (f : Nat → List α) (c m : Nat) (hf : ∀ i, (f i).length = c) (q r : Nat)
    (hq : q < m) (hr : r < c) : ((List.range m).flatMap f)[q * c + r]? = (f q)[r]? := by
  induction m with
  | zero => omega
  | succ m ih =>
    rw [List.range_succ, List.flatMap_append]
    by_cases h : q < m
    · rw [List.getElem?_append_left, ih h]
      rw [length_flatMap_range f c m hf]
      have : (q + 1) * c ≤ m * c := Nat.mul_le_mul_right c h
      have : (q + 1) * c = q * c + c := by ring
      omega
    · have hqm : q = m := by omega
      subst hqm
      rw [List.getElem?_append_right (by rw [length_flatMap_range f c q hf]; omega), length_flatMap_range f c q hf,
        Nat.add_sub_cancel_left]
      simp

theorem minBounds_length (d : CgpDecoder V) : d.minBounds.length = d.numGenes := by
  rw [CgpDecoder.minBounds, List.length_append,
    length_flatMap_range _ (d.nodesPerLayer * (d.maxArity + 1)) d.numLayers fun l =>
      length_flatMap_range _ (d.maxArity + 1) d.nodesPerLayer fun _ => by simp]
  simp [CgpDecoder.numGenes, Nat.mul_assoc]

theorem maxBounds_length (d : CgpDecoder V) : d.maxBounds.length = d.numGenes := by
  rw [CgpDecoder.maxBounds, List.length_append,
    length_flatMap_range _ (d.nodesPerLayer * (d.maxArity + 1)) d.numLayers fun l =>
      length_flatMap_range _ (d.maxArity + 1) d.nodesPerLayer fun _ => by simp]
  simp [CgpDecoder.numGenes, Nat.mul_assoc]

theorem bounds_length (d : CgpDecoder V) : d.bounds.length = d.numGenes := by
  simp [CgpDecoder.bounds, minBounds_length, maxBounds_length]

theorem get_grid {α : Type} (f : Nat → List α) (tail : List α) (L npl c : Nat) (hf : ∀ l, (f l).length = c)
    (l n j : Nat) (hl : l < L) (hn : n < npl) (hj : j < c) :
    (((List.range L).flatMap fun l => (List.range npl).flatMap fun _ => f l) ++ tail)[(l * npl + n) * c + j]? =
      (f l)[j]? := by
  have h1 : ∀ l, ((List.range npl).flatMap fun _ => f l).length = npl * c := fun l =>
    length_flatMap_range _ c npl fun _ => hf l
  have e : (l * npl + n) * c + j = l * (npl * c) + (n * c + j) := by ring
  have hlt : n * c + j < npl * c := by
    have : (n + 1) * c ≤ npl * c := Nat.mul_le_mul_right c hn
    have : (n + 1) * c = n * c + c := by ring
    omega
  rw [e, List.getElem?_append_left, get_flatMap_range _ (npl * c) L h1 l _ hl hlt,
    get_flatMap_range _ c npl (fun _ => hf l) n j hn hj]
  rw [length_flatMap_range _ (npl * c) L h1]
  have : (l + 1) * (npl * c) ≤ L * (npl * c) := Nat.mul_le_mul_right _ hl
  have : (l + 1) * (npl * c) = l * (npl * c) + npl * c := by ring
  omega

theorem get_grid_tail {α : Type} (f : Nat → List α) (tail : List α) (L npl c : Nat) (hf : ∀ l, (f l).length = c)
    (o : Nat) :
    (((List.range L).flatMap fun l => (List.range npl).flatMap fun _ => f l) ++ tail)[L * npl * c + o]? = tail[o]? := by
  have h1 : ∀ l, ((List.range npl).flatMap fun _ => f l).length = npl * c := fun l =>
    length_flatMap_range _ c npl fun _ => hf l
  rw [List.getElem?_append_right, length_flatMap_range _ (npl * c) L h1]
  · congr 1
    rw [Nat.mul_assoc, Nat.add_sub_cancel_left]
  · rw [length_flatMap_range _ (npl * c) L h1, Nat.mul_assoc]; omega

theorem bounds_get (d : CgpDecoder V) (i : Nat) :
    d.bounds[i]? = (d.minBounds[i]?).bind fun a => (d.maxBounds[i]?).map fun b => (a, b) := by
  rw [CgpDecoder.bounds, List.zip_eq_zipWith, List.getElem?_zipWith]
  cases d.minBounds[i]? <;> cases d.maxBounds[i]? <;> rfl

theorem bounds_primitive (d : CgpDecoder V) (l n : Nat) (hl : l < d.numLayers) (hn : n < d.nodesPerLayer) :
    d.bounds[(l * d.nodesPerLayer + n) * (d.maxArity + 1)]? = some (0, (d.primitives.length : Int) - 1) := by
  rw [bounds_get, CgpDecoder.minBounds, CgpDecoder.maxBounds]
  have h1 := get_grid (fun l => (0 : Int) :: (List.range d.maxArity).map fun _ => d.minSource l)
    ((List.range d.numOutputs).map fun _ => (0 : Int)) d.numLayers d.nodesPerLayer (d.maxArity + 1) (by simp) l n 0 hl hn
    (by omega)
  have h2 := get_grid (fun (l : Nat) => ((d.primitives.length : Int) - 1) ::
      (List.range d.maxArity).map fun _ => (d.numInputs : Int) - 1 + l * d.nodesPerLayer)
    ((List.range d.numOutputs).map fun _ => (d.numCgpNodes : Int) - 1 - d.numOutputs)
    d.numLayers d.nodesPerLayer (d.maxArity + 1) (by simp) l n 0 hl hn (by omega)
  rw [Nat.add_zero] at h1 h2
  rw [h1, h2]
  rfl

theorem bounds_source (d : CgpDecoder V) (l n j : Nat) (hl : l < d.numLayers) (hn : n < d.nodesPerLayer)
    (hj : j < d.maxArity) :
    d.bounds[(l * d.nodesPerLayer + n) * (d.maxArity + 1) + 1 + j]? =
      some (d.minSource l, (d.numInputs : Int) - 1 + l * d.nodesPerLayer) := by
  rw [bounds_get, CgpDecoder.minBounds, CgpDecoder.maxBounds]
  have h1 := get_grid (fun l => (0 : Int) :: (List.range d.maxArity).map fun _ => d.minSource l)
    ((List.range d.numOutputs).map fun _ => (0 : Int)) d.numLayers d.nodesPerLayer (d.maxArity + 1) (by simp) l n (1 + j) hl hn
    (by omega)
  have h2 := get_grid (fun (l : Nat) => ((d.primitives.length : Int) - 1) ::
      (List.range d.maxArity).map fun _ => (d.numInputs : Int) - 1 + l * d.nodesPerLayer)
    ((List.range d.numOutputs).map fun _ => (d.numCgpNodes : Int) - 1 - d.numOutputs)
    d.numLayers d.nodesPerLayer (d.maxArity + 1) (by simp) l n (1 + j) hl hn (by omega)
  rw [← Nat.add_assoc] at h1 h2
  rw [h1, h2, Nat.add_comm 1 j]
  simp [hj]

theorem bounds_output (d : CgpDecoder V) (o : Nat) (ho : o < d.numOutputs) :
    d.bounds[d.numLayers * d.nodesPerLayer * (d.maxArity + 1) + o]? =
      some (0, (d.numInputs : Int) + d.numLayers * d.nodesPerLayer - 1) := by
  rw [bounds_get, CgpDecoder.minBounds, CgpDecoder.maxBounds]
  have h1 := get_grid_tail (fun l => (0 : Int) :: (List.range d.maxArity).map fun _ => d.minSource l)
    ((List.range d.numOutputs).map fun _ => (0 : Int)) d.numLayers d.nodesPerLayer (d.maxArity + 1) (by simp) o
  have h2 := get_grid_tail (fun (l : Nat) => ((d.primitives.length : Int) - 1) ::
      (List.range d.maxArity).map fun _ => (d.numInputs : Int) - 1 + l * d.nodesPerLayer)
    ((List.range d.numOutputs).map fun _ => (d.numCgpNodes : Int) - 1 - d.numOutputs)
    d.numLayers d.nodesPerLayer (d.maxArity + 1) (by simp) o
  rw [h1, h2]
  simp [ho, CgpDecoder.numCgpNodes]
  ring

/-- The bounds of a source gene say exactly which sources are admissible. -/
theorem admissible_iff (d : CgpDecoder V) (l : Nat) (s : Int) (hnpl : 0 < d.nodesPerLayer) :
    (d.minSource l ≤ s ∧ s ≤ (d.numInputs : Int) - 1 + l * d.nodesPerLayer) ↔ Admissible d l s := by
  have hnpl' : (0 : Int) < d.nodesPerLayer := by exact_mod_cast hnpl
  have split : ∀ t : Int, 0 ≤ t → t < l * d.nodesPerLayer → ∃ l' n' : Nat, l' < l ∧ n' < d.nodesPerLayer ∧
      t = l' * d.nodesPerLayer + n' := by
    intro t h0 h1
    obtain ⟨t, rfl⟩ := Int.eq_ofNat_of_zero_le h0
    have h1' : t < l * d.nodesPerLayer := by exact_mod_cast h1
    refine ⟨t / d.nodesPerLayer, t % d.nodesPerLayer, (Nat.div_lt_iff_lt_mul hnpl).mpr h1', Nat.mod_lt _ hnpl, ?_⟩
    have := Nat.div_add_mod t d.nodesPerLayer
    rw [Nat.mul_comm] at this
    exact_mod_cast this.symm
  unfold CgpDecoder.minSource Admissible
  by_cases hc : l = 0 ∨ (l : Int) < d.levelsBack
  · rw [if_pos hc]
    constructor
    · rintro ⟨h0, h1⟩
      by_cases hs : s < d.numInputs
      · exact Or.inl ⟨h0, hs, hc⟩
      · right
        obtain ⟨l', n', hl, hn, e⟩ := split (s - d.numInputs) (by omega) (by omega)
        refine ⟨l', n', hl, hn, by omega, ?_⟩
        rcases hc with hc | hc
        · omega
        · omega
    · rintro (⟨h0, h1, -⟩ | ⟨l', n', hl, hn, e, -⟩)
      · refine ⟨h0, ?_⟩
        have : 0 ≤ (l : Int) * d.nodesPerLayer := by positivity
        omega
      · have h1 : 0 ≤ (l' : Int) * d.nodesPerLayer := by positivity
        have h2 : ((l' : Int) + 1) * d.nodesPerLayer ≤ l * d.nodesPerLayer :=
          mul_le_mul_of_nonneg_right (by omega) (by omega)
        have h3 : ((l' : Int) + 1) * d.nodesPerLayer = l' * d.nodesPerLayer + d.nodesPerLayer := by ring
        omega
  · rw [if_neg hc]
    push Not at hc
    constructor
    · rintro ⟨h0, h1⟩
      right
      have h2 : ((l : Int) - d.levelsBack) * d.nodesPerLayer ≥ 0 := mul_nonneg (by omega) (by omega)
      obtain ⟨l', n', hl, hn, e⟩ := split (s - d.numInputs) (by omega) (by omega)
      refine ⟨l', n', hl, hn, by omega, ?_⟩
      by_contra hcon
      have h3 : ((l' : Int) + 1) * d.nodesPerLayer ≤ (l - d.levelsBack) * d.nodesPerLayer :=
        mul_le_mul_of_nonneg_right (by omega) (by omega)
      have h4 : ((l' : Int) + 1) * d.nodesPerLayer = l' * d.nodesPerLayer + d.nodesPerLayer := by ring
      omega
    · rintro (⟨h0, h1, h⟩ | ⟨l', n', hl, hn, e, hb⟩)
      · rcases h with h | h
        · exact absurd h hc.1
        · omega
      · have h2 : ((l' : Int) + 1) * d.nodesPerLayer ≤ l * d.nodesPerLayer :=
          mul_le_mul_of_nonneg_right (by omega) (by omega)
        have h3 : ((l' : Int) + 1) * d.nodesPerLayer = l' * d.nodesPerLayer + d.nodesPerLayer := by ring
        have h4 : ((l : Int) - d.levelsBack) * d.nodesPerLayer ≤ l' * d.nodesPerLayer :=
          mul_le_mul_of_nonneg_right (by omega) (by omega)
        omega

/-- Every gene position is the primitive or a source of a node of the grid, or an output. -/
theorem gene_cases (d : CgpDecoder V) (i : Nat) (hi : i < d.numGenes) :
    (∃ l n : Nat, l < d.numLayers ∧ n < d.nodesPerLayer ∧ i = (l * d.nodesPerLayer + n) * (d.maxArity + 1)) ∨
    (∃ l n j : Nat, l < d.numLayers ∧ n < d.nodesPerLayer ∧ j < d.maxArity ∧
      i = (l * d.nodesPerLayer + n) * (d.maxArity + 1) + 1 + j) ∨
    (∃ o : Nat, o < d.numOutputs ∧ i = d.numLayers * d.nodesPerLayer * (d.maxArity + 1) + o) := by
  unfold CgpDecoder.numGenes at hi
  by_cases h : i < d.numLayers * d.nodesPerLayer * (d.maxArity + 1)
  · have hk : i / (d.maxArity + 1) < d.numLayers * d.nodesPerLayer := (Nat.div_lt_iff_lt_mul (by omega)).mpr h
    have hnpl : 0 < d.nodesPerLayer := by
      rcases Nat.eq_zero_or_pos d.nodesPerLayer with h0 | h0
      · rw [h0] at hk; simp at hk
      · exact h0
    have e1 := Nat.div_add_mod i (d.maxArity + 1)
    have e2 := Nat.div_add_mod (i / (d.maxArity + 1)) d.nodesPerLayer
    have hl : i / (d.maxArity + 1) / d.nodesPerLayer < d.numLayers := (Nat.div_lt_iff_lt_mul hnpl).mpr hk
    have hn := Nat.mod_lt (i / (d.maxArity + 1)) hnpl
    have hr := Nat.mod_lt i (Nat.succ_pos d.maxArity)
    rw [Nat.mul_comm] at e1 e2
    by_cases h0 : i % (d.maxArity + 1) = 0
    · left
      refine ⟨_, _, hl, hn, ?_⟩
      rw [e2]; omega
    · right; left
      have hr' : i % (d.maxArity + 1) < d.maxArity + 1 := hr
      refine ⟨_, _, i % (d.maxArity + 1) - 1, hl, hn, ?_, ?_⟩
      · generalize i % (d.maxArity + 1) = r at *
        omega
      · rw [e2]; omega
  · right; right
    exact ⟨i - d.numLayers * d.nodesPerLayer * (d.maxArity + 1), by omega, by omega⟩

/-- Within the bounds is the same as valid. -/
theorem within_bounds_iff (d : CgpDecoder V) (genome : List Int) (hnpl : 0 < d.nodesPerLayer) :
    List.Forall₂ (fun b g => b.1 ≤ g ∧ g ≤ b.2) d.bounds genome ↔ CgpValid d genome := by
  have key : List.Forall₂ (fun b g => b.1 ≤ g ∧ g ≤ b.2) d.bounds genome ↔
      genome.length = d.numGenes ∧ ∀ i < d.numGenes, ∃ b g, d.bounds[i]? = some b ∧ genome[i]? = some g ∧
        b.1 ≤ g ∧ g ≤ b.2 := by
    have hbl := bounds_length d
    rw [List.forall₂_iff_get]
    constructor
    · rintro ⟨h1, h2⟩
      refine ⟨by omega, fun i hi => ?_⟩
      have hb : i < d.bounds.length := by rw [bounds_length]; exact hi
      have hg : i < genome.length := by omega
      exact ⟨_, _, List.getElem?_eq_getElem hb, List.getElem?_eq_getElem hg, h2 i (by omega) hg⟩
    · rintro ⟨h1, h2⟩
      refine ⟨by omega, fun i hb hg => ?_⟩
      obtain ⟨b, g, e1, e2, h⟩ := h2 i (by omega)
      rw [List.getElem?_eq_getElem hb, Option.some.injEq] at e1
      rw [List.getElem?_eq_getElem hg, Option.some.injEq] at e2
      simp only [List.get_eq_getElem, e1, e2]
      exact h
  rw [key]
  constructor
  · rintro ⟨hlen, hall⟩
    have lt1 : ∀ l n r : Nat, l < d.numLayers → n < d.nodesPerLayer → r < d.maxArity + 1 →
        (l * d.nodesPerLayer + n) * (d.maxArity + 1) + r < d.numGenes := by
      intro l n r hl hn hr
      have h1 : (l + 1) * d.nodesPerLayer ≤ d.numLayers * d.nodesPerLayer := Nat.mul_le_mul_right _ hl
      have h2 : (l + 1) * d.nodesPerLayer = l * d.nodesPerLayer + d.nodesPerLayer := by ring
      have h3 : (l * d.nodesPerLayer + n + 1) * (d.maxArity + 1) ≤ d.numLayers * d.nodesPerLayer * (d.maxArity + 1) :=
        Nat.mul_le_mul_right _ (by omega)
      have h4 : (l * d.nodesPerLayer + n + 1) * (d.maxArity + 1) =
        (l * d.nodesPerLayer + n) * (d.maxArity + 1) + (d.maxArity + 1) := by ring
      unfold CgpDecoder.numGenes
      omega
    refine ⟨hlen, ?_, ?_, ?_⟩
    · intro l n hl hn
      obtain ⟨b, g, e1, e2, h1, h2⟩ := hall _ (lt1 l n 0 hl hn (by omega))
      rw [Nat.add_zero] at e1 e2
      rw [bounds_primitive d l n hl hn, Option.some.injEq] at e1
      subst e1
      simp only at h1 h2
      refine ⟨g.toNat, ?_, by omega⟩
      rw [e2, Int.toNat_of_nonneg h1]
    · intro l n j hl hn hj
      obtain ⟨b, g, e1, e2, h1, h2⟩ := hall _ (lt1 l n (1 + j) hl hn (by omega))
      rw [← Nat.add_assoc] at e1 e2
      rw [bounds_source d l n j hl hn hj, Option.some.injEq] at e1
      subst e1
      exact ⟨g, e2, (admissible_iff d l g hnpl).mp ⟨h1, h2⟩⟩
    · intro o ho
      obtain ⟨b, g, e1, e2, h1, h2⟩ := hall (d.numLayers * d.nodesPerLayer * (d.maxArity + 1) + o)
        (by unfold CgpDecoder.numGenes; omega)
      rw [bounds_output d o ho, Option.some.injEq] at e1
      subst e1
      exact ⟨g, e2, h1, by simp only at h2; omega⟩
  · rintro ⟨hlen, hp, hs, ho⟩
    refine ⟨hlen, fun i hi => ?_⟩
    rcases gene_cases d i hi with ⟨l, n, hl, hn, rfl⟩ | ⟨l, n, j, hl, hn, hj, rfl⟩ | ⟨o, ho', rfl⟩
    · obtain ⟨p, e, h⟩ := hp l n hl hn
      exact ⟨_, _, bounds_primitive d l n hl hn, e, by simp, by simp only; omega⟩
    · obtain ⟨s, e, h⟩ := hs l n j hl hn hj
      obtain ⟨h1, h2⟩ := (admissible_iff d l s hnpl).mpr h
      exact ⟨_, _, bounds_source d l n j hl hn hj, e, h1, h2⟩
    · obtain ⟨s, e, h1, h2⟩ := ho o ho'
      exact ⟨_, _, bounds_output d o ho', e, h1, by simp only; omega⟩

end Leap
