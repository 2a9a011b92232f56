import Mathlib.Tactic.Linarith
import Mathlib.Tactic.FieldSimp
import Mathlib.Tactic.Ring
import Mathlib.Tactic.NormNum
import Mathlib.Data.List.Forall2
import Verif.Model.Mutation
import Verif.Lemmas.Mask

/-!
# C20–C24: mutation
-/

namespace Leap

/-! ## C24 mutation rates -/

/-- Exactly one of the two rate arguments is given, and it determines the per-gene probability `p` of a
genome of length `len`: either directly, or as expected number of mutations divided by length. -/
def Spec.RateGives (expected probability : Option ℚ) (len : Nat) (p : ℚ) : Prop :=
  (expected = none ∧ probability = some p) ∨
  (probability = none ∧ len ≠ 0 ∧ ∃ e, expected = some e ∧ p = e / len)

open Spec

/-- C24: the operator-level check passes exactly when one of the two arguments is given, with the
probability (if given) in `[0, 1]`; otherwise it is `ValueError`. -/
theorem rate_check_exact (expected probability : Option ℚ) :
    (checkRateOp expected probability = .ok () ↔
      (∃ e, expected = some e ∧ probability = none) ∨
      (∃ p, expected = none ∧ probability = some p ∧ 0 ≤ p ∧ p ≤ 1)) ∧
    (checkRateOp expected probability = .ok () ∨
      checkRateOp expected probability = .error .valueError) := by
  cases expected with
  | none =>
    cases probability with
    | none => simp [checkRateOp]
    | some p =>
      by_cases h : p < 0 ∨ p > 1
      · have : ¬ (0 ≤ p ∧ p ≤ 1) := by
          rintro ⟨h1, h2⟩; rcases h with h | h <;> linarith
        simp [checkRateOp, h, this]
      · have : 0 ≤ p ∧ p ≤ 1 := by
          push Not at h; exact h
        simp [checkRateOp, h, this]
  | some e => cases probability <;> simp [checkRateOp]

/-- C24: `mutate_bitflip`, `mutate_randint` and `mutate_binomial` raise `ValueError` when first resumed if both
rate arguments are given, if neither is, or if the probability is out of range, before touching
any individual. -/
theorem bad_rate_raises {U φ : Type} (expected probability : Option ℚ)
    (bad : (expected.isSome ∧ probability.isSome) ∨ (expected = none ∧ probability = none) ∨
      (∃ p, probability = some p ∧ (p < 0 ∨ 1 < p)))
    (bounds : List (Int × Int)) (hb : HardBounds Int) (n : Nat) (std : ScalarOrList ℝ)
    (r1 : U → List ℚ × U) (r2 : U → (List ℚ × List Int) × U) (r3 : U → (List ℚ × List Nat) × U)
    (next : U → PyM (MInd (List Int) φ × U)) (u : U) :
    mutateBitflip expected probability r1 next false u = .error .valueError ∧
    mutateRandint bounds expected probability r2 next false u = .error .valueError ∧
    mutateBinomial n std hb expected probability r3 next false u = .error .valueError := by
  have h : checkRateOp expected probability = .error .valueError := by
    obtain ⟨h1, h2⟩ := rate_check_exact expected probability
    rcases h2 with h2 | h2
    · exfalso
      rcases h1.mp h2 with ⟨e, rfl, rfl⟩ | ⟨p, rfl, rfl, h3, h4⟩
      · rcases bad with h | h | ⟨p, h, -⟩
        · simp at h
        · simp at h
        · simp at h
      · rcases bad with h | h | ⟨q, h, hq⟩
        · simp at h
        · simp at h
        · simp only [Option.some.injEq] at h; subst h
          rcases hq with h | h <;> linarith
    · exact h2
  refine ⟨?_, ?_, ?_⟩
  · simp [mutateBitflip, mutationGen, h]
  · simp [mutateRandint, mutationGen, h]
  · simp [mutateBinomial, mutationGen, h]

example : ((some (1 : ℚ)).isSome = true ∧ (some (1 / 2 : ℚ)).isSome = true) := by simp

/-- C24: `mutate_gaussian` without a value for `expected_num_mutations` raises `ValueError`. -/
theorem gaussian_needs_rate {U φ : Type} (std : ScalarOrList ℚ) (bounds : HardBounds ℚ)
    (slope intercept : ℚ) (r : U → (List ℚ × List ℚ) × U) (next : U → PyM (MInd (List ℚ) φ × U))
    (u : U) :
    mutateGaussian std none bounds slope intercept r next false u = .error .valueError := by
  simp [mutateGaussian, mutationGen]

theorem mutationMask_ok {expected probability : Option ℚ} {len : Nat} {p : ℚ} {u : List ℚ}
    (hr : RateGives expected probability len p) (h0 : 0 ≤ p) (h1 : p ≤ 1) (hu : u.length = len) :
    checkRateGenome expected probability = .ok () ∧
    mutationMask expected probability u len = .ok (u.map fun x => decide (x < p)) := by
  have ht : u.take len = u := List.take_of_length_le (by omega)
  rcases hr with ⟨rfl, rfl⟩ | ⟨rfl, hl, e, rfl, rfl⟩
  · constructor
    · simp [checkRateGenome, h0, h1]
    · simp [mutationMask, geneProbability, ht, bernoulliVector_ok h0 h1]
  · constructor
    · simp [checkRateGenome]
    · have : 1 / (len : ℚ) * e = e / len := by ring
      simp only [mutationMask, geneProbability, computeExpectedProbability, if_neg hl, ht, this,
        bernoulliVector_ok h0 h1]

/-- C24: at genome level, an expected number of mutations larger than the genome (or negative) is
rejected with `AssertionError`, and any expected number on an empty genome with
`ZeroDivisionError`. -/
theorem expected_rate_out_of_range (e : ℚ) (u : List ℚ) (genome : List Int) :
    (genome = [] → genomeMutateBitflip (some e) none u genome = .error .zeroDivisionError) ∧
    (genome ≠ [] → (e < 0 ∨ (genome.length : ℚ) < e) →
      genomeMutateBitflip (some e) none u genome = .error .assertionError) := by
  constructor
  · rintro rfl
    simp [genomeMutateBitflip, checkRateGenome, mutationMask, geneProbability,
      computeExpectedProbability]
  · intro hne he
    have hl : genome.length ≠ 0 := by simpa using hne
    have hlq : (0 : ℚ) < genome.length := by exact_mod_cast Nat.pos_of_ne_zero hl
    have : ¬ (0 ≤ 1 / (genome.length : ℚ) * e ∧ 1 / (genome.length : ℚ) * e ≤ 1) := by
      have h1 : 1 / (genome.length : ℚ) * e = e / genome.length := by ring
      rw [h1, div_le_one hlq]
      rintro ⟨h2, h3⟩
      rcases he with h | h
      · have := div_neg_of_neg_of_pos h hlq; linarith
      · linarith
    simp only [genomeMutateBitflip, checkRateGenome, Option.isSome_some, Option.isSome_none,
      Bool.xor_false, if_true, mutationMask, geneProbability, computeExpectedProbability, if_neg hl,
      bernoulliVector, if_neg this]

/-! ## C20 bit-flip mutation -/

/-- C20: bit-flip mutation keeps the length and changes exactly the positions whose random number is
below the per-gene probability `p`, from `g` to `(g + 1) mod 2`. -/
theorem bitflip_flips_drawn (expected probability : Option ℚ) (u : List ℚ) (genome : List Int) (p : ℚ)
    (hr : RateGives expected probability genome.length p) (h0 : 0 ≤ p) (h1 : p ≤ 1)
    (hu : u.length = genome.length) :
    ∃ g', genomeMutateBitflip expected probability u genome = .ok g' ∧ g'.length = genome.length ∧
      ∀ (i : Nat) (x : ℚ) (g : Int), u[i]? = some x → genome[i]? = some g →
        g'[i]? = some (if x < p then (g + 1) % 2 else g) := by
  obtain ⟨hc, hm⟩ := mutationMask_ok hr h0 h1 hu
  set mask := u.map fun x => decide (x < p) with hmask
  have hml : mask.length = genome.length := by simp [hmask, hu]
  have hsl := maskSelect_length mask genome hml
  refine ⟨maskStore mask genome ((maskSelect mask genome).map fun g => (g + 1) % 2), ?_,
    maskStore_length _ _ _, ?_⟩
  · simp only [genomeMutateBitflip, hc, hm, boolIndex, if_pos hml, boolAssign, List.length_map,
      if_pos hsl]
  · intro i x g hx hg
    have hmi : mask[i]? = some (decide (x < p)) := by simp [hmask, hx]
    rw [maskStore_get mask genome _ hml (by simpa using hsl) i _ hmi]
    by_cases h : x < p
    · simp only [h, decide_true] at hmi
      simp only [h, decide_true, if_true, List.getElem?_map, maskSelect_get mask genome hml i hmi,
        hg, Option.map_some]
    · simp [h, hg]

example : genomeMutateBitflip (some 1) none [1 / 8, 3 / 4, 0] [1, 1, 0] = .ok [0, 1, 1] := by
  decide +kernel

/-- C20: a binary genome stays binary, with exactly the drawn bits inverted. -/
theorem bitflip_keeps_binary (expected probability : Option ℚ) (u : List ℚ) (genome g' : List Int)
    (p : ℚ) (hr : RateGives expected probability genome.length p) (h0 : 0 ≤ p) (h1 : p ≤ 1)
    (hu : u.length = genome.length) (hb : ∀ g ∈ genome, g = 0 ∨ g = 1)
    (h : genomeMutateBitflip expected probability u genome = .ok g') :
    (∀ g ∈ g', g = 0 ∨ g = 1) ∧
    ∀ (i : Nat) (x : ℚ) (g : Int), u[i]? = some x → genome[i]? = some g →
      g'[i]? = some (if x < p then 1 - g else g) := by
  obtain ⟨g'', h', hl, hs⟩ := bitflip_flips_drawn expected probability u genome p hr h0 h1 hu
  rw [h] at h'
  simp only [Except.ok.injEq] at h'
  subst h'
  have key : ∀ (i : Nat) (x : ℚ) (g : Int), u[i]? = some x → genome[i]? = some g →
      g'[i]? = some (if x < p then 1 - g else g) := by
    intro i x g hx hg
    rw [hs i x g hx hg]
    rcases hb g (List.mem_of_getElem? hg) with rfl | rfl <;> split <;> rfl
  refine ⟨?_, key⟩
  intro g hg
  obtain ⟨i, hi, rfl⟩ := List.getElem_of_mem hg
  have hiu : i < u.length := by omega
  have hig : i < genome.length := by omega
  have := key i u[i] genome[i] (List.getElem?_eq_getElem hiu) (List.getElem?_eq_getElem hig)
  rw [List.getElem?_eq_getElem hi, Option.some.injEq] at this
  rw [this]
  rcases hb genome[i] (List.getElem_mem hig) with h | h <;> rw [h] <;> split <;> simp

/-- C20: applying bit-flip mutation twice with the same random numbers restores a binary genome. -/
theorem bitflip_involutive (expected probability : Option ℚ) (u : List ℚ) (genome g' g'' : List Int)
    (p : ℚ) (hr : RateGives expected probability genome.length p) (h0 : 0 ≤ p) (h1 : p ≤ 1)
    (hu : u.length = genome.length) (hb : ∀ g ∈ genome, g = 0 ∨ g = 1)
    (h : genomeMutateBitflip expected probability u genome = .ok g')
    (h' : genomeMutateBitflip expected probability u g' = .ok g'') : g'' = genome := by
  obtain ⟨b1, k1⟩ := bitflip_keeps_binary expected probability u genome g' p hr h0 h1 hu hb h
  obtain ⟨g1, e1, l1, -⟩ := bitflip_flips_drawn expected probability u genome p hr h0 h1 hu
  rw [h] at e1
  simp only [Except.ok.injEq] at e1
  subst e1
  obtain ⟨b2, k2⟩ := bitflip_keeps_binary expected probability u g' g'' p (by rw [l1]; exact hr) h0 h1
    (by omega) b1 h'
  obtain ⟨g2, e2, l2, -⟩ := bitflip_flips_drawn expected probability u g' p (by rw [l1]; exact hr) h0 h1
    (by omega)
  rw [h'] at e2
  simp only [Except.ok.injEq] at e2
  subst e2
  apply List.ext_getElem?
  intro i
  rcases Nat.lt_or_ge i genome.length with hi | hi
  · have hiu : i < u.length := by omega
    have e1 := k1 i u[i] genome[i] (List.getElem?_eq_getElem hiu) (List.getElem?_eq_getElem hi)
    have e2 := k2 i u[i] _ (List.getElem?_eq_getElem hiu) e1
    rw [e2, List.getElem?_eq_getElem hi, Option.some.injEq]
    split <;> simp
  · rw [List.getElem?_eq_none (by omega), List.getElem?_eq_none hi]

/-! ## C21 integer resampling -/

theorem bounds_ok_of_valid {sel : List (Int × Int)} {draws : List Int} (h : ValidRandints sel draws) :
    npRandint (sel.map Prod.fst) (sel.map fun b => b.2 + 1) draws = .ok draws := by
  have : ((sel.map Prod.fst).zip (sel.map fun b => b.2 + 1)).all (fun b => decide (b.1 < b.2)) = true := by
    induction h with
    | nil => simp
    | cons hd _ ih =>
      simp only [List.map_cons, List.zip_cons_cons, List.all_cons, Bool.and_eq_true, ih, and_true,
        decide_eq_true_eq]
      omega
  simp [npRandint, this]

/-- C21: `mutate_randint` on a genome with one pair of bounds per gene. The genes with random number
below `p` are redrawn: `draws` are the integers drawn, each within the inclusive bounds of its own
gene. The result has the same length; an undrawn gene is unchanged; the drawn gene at position `i`
gets the draw made for it, which lies within its own bounds. -/
theorem randint_resamples (bounds : List (Int × Int)) (expected probability : Option ℚ) (u : List ℚ)
    (draws genome : List Int) (p : ℚ)
    (hr : RateGives expected probability genome.length p) (h0 : 0 ≤ p) (h1 : p ≤ 1)
    (hu : u.length = genome.length) (hb : bounds.length = genome.length) (hne : genome ≠ [])
    (hd : ValidRandints (((bounds.zip u).filter (fun q => decide (q.2 < p))).map Prod.fst) draws) :
    ∃ g', individualMutateRandint bounds expected probability u draws genome = .ok g' ∧
      g'.length = genome.length ∧
      ∀ (i : Nat) (x : ℚ) (g lo hi : Int), u[i]? = some x → genome[i]? = some g →
        bounds[i]? = some (lo, hi) →
        (p ≤ x → g'[i]? = some g) ∧
        (x < p → ∃ d, g'[i]? = some d ∧ draws[(u.take i).countP (fun y => decide (y < p))]? = some d ∧
          lo ≤ d ∧ d ≤ hi) := by
  obtain ⟨hc, hm⟩ := mutationMask_ok hr h0 h1 hu
  set mask := u.map fun x => decide (x < p) with hmask
  have hml : mask.length = genome.length := by simp [hmask, hu]
  have hmb : mask.length = bounds.length := by omega
  have hsel : maskSelect mask bounds =
      ((bounds.zip u).filter (fun q => decide (q.2 < p))).map Prod.fst := by
    rw [hmask]; exact maskSelect_eq_filter (fun x => decide (x < p)) u bounds (by omega)
  rw [← hsel] at hd
  have hdl : draws.length = mask.count true := by
    rw [← hd.length_eq, maskSelect_length mask bounds hmb]
  have hbne : bounds ≠ [] := by
    intro h; rw [h] at hb; exact hne (List.length_eq_zero_iff.mp (by simpa using hb.symm))
  refine ⟨maskStore mask genome draws, ?_, maskStore_length _ _ _, ?_⟩
  · simp only [individualMutateRandint, hc, hm, boolIndex, if_pos hmb, if_neg hbne,
      bounds_ok_of_valid hd, boolAssign, if_pos hml, if_pos hdl]
  · intro i x g lo hi hx hg hbi
    have hmi : mask[i]? = some (decide (x < p)) := by simp [hmask, hx]
    rw [maskStore_get mask genome _ hml hdl i _ hmi]
    constructor
    · intro h
      have : ¬ x < p := by linarith
      simp [this, hg]
    · intro h
      have hcnt : (mask.take i).count true = (u.take i).countP (fun y => decide (y < p)) := by
        rw [hmask, ← List.map_take, count_map_true]
      simp only [h, decide_true] at hmi
      have hs := maskSelect_get mask bounds hmb i hmi
      rw [hbi] at hs
      have hidx : (mask.take i).count true < draws.length := by
        rw [← hd.length_eq]
        by_contra hcon
        rw [List.getElem?_eq_none (by omega)] at hs
        simp at hs
      simp only [h, decide_true, if_true]
      refine ⟨draws[(mask.take i).count true], List.getElem?_eq_getElem hidx, ?_, ?_⟩
      · rw [← hcnt]; exact List.getElem?_eq_getElem hidx
      · have := hd.get (i := (mask.take i).count true) (by rw [hd.length_eq]; exact hidx) hidx
        rw [List.getElem?_eq_getElem (by rw [hd.length_eq]; exact hidx), Option.some.injEq] at hs
        simp only [List.get_eq_getElem] at this
        rw [hs] at this
        exact this

example : RateGives (some 1) none 2 (1 / 2) ∧
    ValidRandints (((([(0, 5), (-3, 3)] : List (Int × Int)).zip [(3 / 4 : ℚ), 1 / 4]).filter
      (fun q => decide (q.2 < 1 / 2))).map Prod.fst) [-2] ∧
    individualMutateRandint [(0, 5), (-3, 3)] (some 1) none [3 / 4, 1 / 4] [-2] [4, 1] =
      .ok [4, -2] := by
  refine ⟨Or.inr ⟨rfl, by decide, 1, rfl, by norm_num⟩, ?_, by decide +kernel⟩
  have : ((([(0, 5), (-3, 3)] : List (Int × Int)).zip [(3 / 4 : ℚ), 1 / 4]).filter
      (fun q => decide (q.2 < 1 / 2))).map Prod.fst = [(-3, 3)] := by decide +kernel
  rw [this]
  exact List.Forall₂.cons (by decide) List.Forall₂.nil

/-- C21: a genome whose genes are within their bounds stays within them. -/
theorem randint_stays_in_bounds (bounds : List (Int × Int)) (expected probability : Option ℚ)
    (u : List ℚ) (draws genome g' : List Int) (p : ℚ)
    (hr : RateGives expected probability genome.length p) (h0 : 0 ≤ p) (h1 : p ≤ 1)
    (hu : u.length = genome.length) (hb : bounds.length = genome.length) (hne : genome ≠ [])
    (hd : ValidRandints (((bounds.zip u).filter (fun q => decide (q.2 < p))).map Prod.fst) draws)
    (hin : List.Forall₂ (fun b g => b.1 ≤ g ∧ g ≤ b.2) bounds genome)
    (h : individualMutateRandint bounds expected probability u draws genome = .ok g') :
    List.Forall₂ (fun b g => b.1 ≤ g ∧ g ≤ b.2) bounds g' := by
  obtain ⟨g'', e, hl, hs⟩ := randint_resamples bounds expected probability u draws genome p hr h0 h1
    hu hb hne hd
  rw [h] at e
  simp only [Except.ok.injEq] at e
  subst e
  rw [List.forall₂_iff_get]
  refine ⟨by omega, ?_⟩
  intro i hib hig
  have hiu : i < u.length := by omega
  have higg : i < genome.length := by omega
  obtain ⟨k1, k2⟩ := hs i u[i] genome[i] bounds[i].1 bounds[i].2 (List.getElem?_eq_getElem hiu)
    (List.getElem?_eq_getElem higg) (List.getElem?_eq_getElem hib)
  have horig := hin.get (i := i) hib higg
  simp only [List.get_eq_getElem] at horig ⊢
  by_cases hx : u[i] < p
  · obtain ⟨d, hd1, -, hd2, hd3⟩ := k2 hx
    rw [List.getElem?_eq_getElem hig, Option.some.injEq] at hd1
    rw [hd1]; exact ⟨hd2, hd3⟩
  · have := k1 (by linarith)
    rw [List.getElem?_eq_getElem hig, Option.some.injEq] at this
    rw [this]; exact horig

/-- C21: a wrong number of bounds raises `IndexError`. -/
theorem randint_bounds_mismatch (bounds : List (Int × Int)) (expected probability : Option ℚ)
    (u : List ℚ) (draws genome : List Int) (p : ℚ)
    (hr : RateGives expected probability genome.length p) (h0 : 0 ≤ p) (h1 : p ≤ 1)
    (hu : u.length = genome.length) (hb : bounds.length ≠ genome.length) :
    individualMutateRandint bounds expected probability u draws genome = .error .indexError := by
  obtain ⟨hc, hm⟩ := mutationMask_ok hr h0 h1 hu
  have : ¬ (u.map fun x => decide (x < p)).length = bounds.length := by simp; omega
  simp only [individualMutateRandint, hc, hm, boolIndex, if_neg this]

/-- C21: without any bounds even an empty genome raises `IndexError`. -/
theorem randint_no_bounds (probability : ℚ) (h0 : 0 ≤ probability) (h1 : probability ≤ 1) (draws : List Int) :
    individualMutateRandint [] none (some probability) [] draws [] = .error .indexError := by
  obtain ⟨hc, hm⟩ := mutationMask_ok (expected := none) (probability := some probability) (u := []) (len := 0) (.inl ⟨rfl, rfl⟩) h0 h1 rfl
  simp [individualMutateRandint, hc, hm, boolIndex, maskSelect]

/-- C21: reversed bounds on a gene that is drawn raise `ValueError`. -/
theorem randint_reversed_bounds (bounds : List (Int × Int)) (expected probability : Option ℚ)
    (u : List ℚ) (draws genome : List Int) (p : ℚ)
    (hr : RateGives expected probability genome.length p) (h0 : 0 ≤ p) (h1 : p ≤ 1)
    (hu : u.length = genome.length) (hb : bounds.length = genome.length)
    (i : Nat) (x : ℚ) (lo hi : Int) (hx : u[i]? = some x) (hxp : x < p)
    (hbi : bounds[i]? = some (lo, hi)) (hrev : hi < lo) :
    individualMutateRandint bounds expected probability u draws genome = .error .valueError := by
  obtain ⟨hc, hm⟩ := mutationMask_ok hr h0 h1 hu
  set mask := u.map fun x => decide (x < p) with hmask
  have hmb : mask.length = bounds.length := by simp [hmask]; omega
  have hmi : mask[i]? = some true := by simp [hmask, hx, hxp]
  have hs := maskSelect_get mask bounds hmb i hmi
  rw [hbi] at hs
  have hmem : (lo, hi) ∈ maskSelect mask bounds := List.mem_of_getElem? hs
  have hbne : bounds ≠ [] := by rintro rfl; simp at hbi
  have : ((List.map Prod.fst (maskSelect mask bounds)).zip
      (List.map (fun b => b.2 + 1) (maskSelect mask bounds))).all (fun b => decide (b.1 < b.2)) = false := by
    rw [List.all_eq_false]
    refine ⟨(lo, hi + 1), ?_, by simp; omega⟩
    rw [List.zip_map']
    exact List.mem_map.mpr ⟨(lo, hi), hmem, rfl⟩
  simp only [individualMutateRandint, hc, hm, boolIndex, if_pos hmb, if_neg hbne, npRandint, this]
  rfl

/-! ## C23 hard bounds -/

section Bounds
variable {α : Type} [LinearOrder α]

/-- `x` is within the bounds (`none` = infinite). -/
def Spec.Within (b : Bound α) (x : α) : Prop :=
  (∀ lo, b.1 = some lo → lo ≤ x) ∧ (∀ hi, b.2 = some hi → x ≤ hi)

/-- The bounds are not reversed. -/
def Spec.Proper (b : Bound α) : Prop := ∀ lo hi, b.1 = some lo → b.2 = some hi → lo ≤ hi

/-- The bounds that apply to gene `i`. -/
def Spec.boundAt (hard : HardBounds α) (i : Nat) : Option (Bound α) :=
  match hard with
  | .all b => some b
  | .each bs => bs[i]?

/-- The bounds argument fits a genome of length `n`: one pair for all, or one (or more) per gene. -/
def Spec.Fits (hard : HardBounds α) (n : Nat) : Prop :=
  match hard with
  | .all _ => True
  | .each bs => bs.length = n ∧ bs ≠ []

theorem clip1_within {b : Bound α} (hp : Proper b) (x : α) : Within b (clip1 b x) := by
  obtain ⟨lo, hi⟩ := b
  cases lo <;> cases hi <;> simp [Within, clip1]
  rename_i l h
  exact Or.inl (hp l h rfl rfl) |>.elim (fun h1 => by simp [h1]) (fun h => h)

theorem clip1_of_within {b : Bound α} {x : α} (h : Within b x) : clip1 b x = x := by
  obtain ⟨lo, hi⟩ := b
  obtain ⟨h1, h2⟩ := h
  cases lo <;> cases hi <;> simp_all [clip1]

theorem clip1_mono (b : Bound α) {x y : α} (h : x ≤ y) : clip1 b x ≤ clip1 b y := by
  obtain ⟨lo, hi⟩ := b
  cases lo <;> cases hi <;> simp only [clip1]
  · exact h
  · exact min_le_min h le_rfl
  · exact max_le_max h le_rfl
  · exact min_le_min (max_le_max h le_rfl) le_rfl

theorem applyHardBounds_get {hard : HardBounds α} {genome : List α} (hf : Fits hard genome.length) :
    ∃ g', applyHardBounds genome hard = .ok g' ∧ g'.length = genome.length ∧
      ∀ (i : Nat) (x : α), genome[i]? = some x → ∃ b, boundAt hard i = some b ∧
        g'[i]? = some (clip1 b x) := by
  cases hard with
  | all b =>
    refine ⟨_, rfl, by simp, ?_⟩
    intro i x hx
    exact ⟨b, rfl, by simp [hx]⟩
  | each bs =>
    obtain ⟨hl, hne⟩ := hf
    cases bs with
    | nil => exact absurd rfl hne
    | cons b bs =>
      refine ⟨List.zipWith clip1 (b :: bs) genome, ?_, by simp only [List.length_zipWith]; omega, ?_⟩
      · simp only [applyHardBounds, if_pos hl]
      · intro i x hx
        have hi : i < (b :: bs).length := by
          rw [hl]
          rcases Nat.lt_or_ge i genome.length with h | h
          · exact h
          · rw [List.getElem?_eq_none h] at hx; simp at hx
        refine ⟨(b :: bs)[i], List.getElem?_eq_getElem hi, ?_⟩
        rw [List.getElem?_zipWith, List.getElem?_eq_getElem hi, hx]

/-- C23: `apply_hard_bounds` with bounds that fit the genome returns a genome of the same length in which
every gene lies within its bounds (if these are not reversed), and a gene already within its bounds
is unchanged. -/
theorem hard_bounds_enforced (hard : HardBounds α) (genome : List α) (hf : Fits hard genome.length)
    (hp : ∀ i b, boundAt hard i = some b → Proper b) :
    ∃ g', applyHardBounds genome hard = .ok g' ∧ g'.length = genome.length ∧
      ∀ (i : Nat) (x : α), genome[i]? = some x → ∃ b y, boundAt hard i = some b ∧ g'[i]? = some y ∧
        Within b y ∧ (Within b x → y = x) ∧
        (∀ lo, b.1 = some lo → x ≤ lo → y = lo) ∧ (∀ hi, b.2 = some hi → hi ≤ x → y = hi) := by
  obtain ⟨g', e, hl, hs⟩ := applyHardBounds_get hf
  refine ⟨g', e, hl, ?_⟩
  intro i x hx
  obtain ⟨b, hb, hg⟩ := hs i x hx
  have hpr := hp i b hb
  refine ⟨b, _, hb, hg, clip1_within hpr x, fun h => clip1_of_within h, ?_, ?_⟩
  · intro lo hlo hx
    obtain ⟨l, h⟩ := b
    simp only at hlo; subst hlo
    cases h with
    | none => simp [clip1, hx]
    | some h => simp [clip1, hx, hpr lo h rfl rfl]
  · intro hi hhi hx
    obtain ⟨l, h⟩ := b
    simp only at hhi; subst hhi
    cases l with
    | none => simp [clip1, hx]
    | some l => simp [clip1, hx]

/-- C23: applying hard bounds twice is the same as once. -/
theorem hard_bounds_idempotent (hard : HardBounds α) (genome g' : List α)
    (hf : Fits hard genome.length) (hp : ∀ i b, boundAt hard i = some b → Proper b)
    (h : applyHardBounds genome hard = .ok g') : applyHardBounds g' hard = .ok g' := by
  obtain ⟨g1, e1, l1, s1⟩ := applyHardBounds_get hf
  rw [h] at e1
  simp only [Except.ok.injEq] at e1
  subst e1
  obtain ⟨g2, e2, l2, s2⟩ := applyHardBounds_get (hard := hard) (genome := g') (by rw [l1]; exact hf)
  rw [e2]
  congr 1
  apply List.ext_getElem?
  intro i
  rcases Nat.lt_or_ge i genome.length with hi | hi
  · obtain ⟨b, hb, hg⟩ := s1 i genome[i] (List.getElem?_eq_getElem hi)
    obtain ⟨b', hb', hg'⟩ := s2 i _ hg
    rw [hb] at hb'
    simp only [Option.some.injEq] at hb'
    subst hb'
    rw [hg', hg, clip1_of_within (clip1_within (hp i b hb) _)]
  · rw [List.getElem?_eq_none (by omega), List.getElem?_eq_none (by omega)]

/-- C23: bounding is monotone: a gene that was not larger than another genome's gene at that position is
not larger afterwards. -/
theorem hard_bounds_monotone (hard : HardBounds α) (g1 g2 r1 r2 : List α)
    (hl : g1.length = g2.length) (hf : Fits hard g1.length)
    (h1 : applyHardBounds g1 hard = .ok r1) (h2 : applyHardBounds g2 hard = .ok r2)
    (i : Nat) (x y x' y' : α) (hx : g1[i]? = some x) (hy : g2[i]? = some y) (hxy : x ≤ y)
    (hx' : r1[i]? = some x') (hy' : r2[i]? = some y') : x' ≤ y' := by
  obtain ⟨a1, e1, -, s1⟩ := applyHardBounds_get hf
  obtain ⟨a2, e2, -, s2⟩ := applyHardBounds_get (hard := hard) (genome := g2) (by rw [← hl]; exact hf)
  rw [h1] at e1; rw [h2] at e2
  simp only [Except.ok.injEq] at e1 e2
  subst e1; subst e2
  obtain ⟨b, hb, hg⟩ := s1 i x hx
  obtain ⟨b', hb', hg'⟩ := s2 i y hy
  rw [hb] at hb'
  simp only [Option.some.injEq] at hb'
  subst hb'
  rw [hx'] at hg; rw [hy'] at hg'
  simp only [Option.some.injEq] at hg hg'
  rw [hg, hg']
  exact clip1_mono b hxy

/-- C23: bounds that do not fit are rejected, except that numpy silently stretches a single pair, or
a single gene (then the genome grows). -/
theorem hard_bounds_mismatch (bs : List (Bound α)) (genome : List α)
    (hl : bs.length ≠ genome.length) :
    (bs = [] → applyHardBounds genome (.each bs) = .error .indexError) ∧
    (1 < bs.length → genome.length ≠ 1 → applyHardBounds genome (.each bs) = .error .valueError) ∧
    (∀ b, bs = [b] → applyHardBounds genome (.each bs) = applyHardBounds genome (.all b)) := by
  refine ⟨?_, ?_, ?_⟩
  · rintro rfl; rfl
  · intro h1 h2
    match bs, genome, h1, h2, hl with
    | b :: b' :: bs, [], _, _, hl => simp [applyHardBounds]
    | b :: b' :: bs, [x], _, h2, _ => simp at h2
    | b :: b' :: bs, x :: y :: g, _, _, hl =>
      simp only [applyHardBounds, if_neg hl]
  · rintro b rfl
    simp only [applyHardBounds, if_neg hl]

end Bounds

example : applyHardBounds [0, 10, 20, 30, 40, 50] (.all (some 20, some 40)) =
    .ok [20, 20, 20, 30, 40, 40] ∧
    applyHardBounds [0, 10, 20] (.each [(some 0, some 1), (none, some 5), (some 50, none)]) =
      .ok [0, 5, 50] := by decide

/-- The value of a scalar-or-list argument for gene `i`. -/
def Spec.paramAt {α : Type} (a : ScalarOrList α) (i : Nat) : Option α :=
  match a with
  | .scalar x => some x
  | .list xs => xs[i]?

/-- A list argument has one entry per gene. -/
def Spec.PerGene {α : Type} (a : ScalarOrList α) (n : Nat) : Prop :=
  match a with
  | .scalar _ => True
  | .list xs => xs.length = n

/-- The probability that a gene is changed by Gaussian mutation. -/
def Spec.GaussRateGives (e : GaussRate) (n : Nat) (p : ℚ) : Prop :=
  match e with
  | .isotropic => p = 1
  | .num q => 0 < n ∧ p = q / n

/-! ## C22 binomial mutation -/

/-- C22: the binomial parameter computed for `n` coin flips and standard deviation `std` is in `[0, 1/2]`
and gives exactly that standard deviation: `n·p·(1-p) = std²`; it is rejected with `ValueError` exactly
when no such parameter exists. -/
theorem binomial_p_has_std (n : Nat) (hn : 0 < n) (std : ℝ) :
    (4 * std ^ 2 ≤ n → ∃ p, binomialPFromStd n std = .ok p ∧ 0 ≤ p ∧ p ≤ 1 / 2 ∧
      n * p * (1 - p) = std ^ 2) ∧
    ((n : ℝ) < 4 * std ^ 2 → binomialPFromStd n std = .error .valueError ∧
      ¬ ∃ p : ℝ, n * p * (1 - p) = std ^ 2) := by
  have hnr : (0 : ℝ) < n := by exact_mod_cast hn
  constructor
  · intro h
    have h1 : 4 * std ^ 2 / n ≤ 1 := by rw [div_le_one hnr]; exact h
    have h2 : 0 ≤ 4 * std ^ 2 / n := by positivity
    set s := Real.sqrt (1 - 4 * std ^ 2 / n) with hs
    have hs0 : 0 ≤ s := Real.sqrt_nonneg _
    have hs2 : s * s = 1 - 4 * std ^ 2 / n := Real.mul_self_sqrt (by linarith)
    have hs1 : s ≤ 1 := by
      rw [hs]; exact Real.sqrt_le_one.mpr (by linarith)
    refine ⟨(1 - s) / 2, ?_, by linarith, by linarith, ?_⟩
    · simp only [binomialPFromStd, if_neg hn.ne', gt_iff_lt, if_neg (not_lt.mpr h1), ← hs]
    · have e : (n : ℝ) * ((1 - s) / 2) * (1 - (1 - s) / 2) = n * (1 - s * s) / 4 := by ring
      rw [e, hs2]
      field_simp
      ring
  · intro h
    have h1 : 1 < 4 * std ^ 2 / n := by rw [lt_div_iff₀ hnr]; linarith
    refine ⟨by simp only [binomialPFromStd, if_neg hn.ne', gt_iff_lt, if_pos h1], ?_⟩
    rintro ⟨p, hp⟩
    nlinarith [mul_nonneg hnr.le (sq_nonneg (2 * p - 1))]

/-- C22: binomial mutation with bounds that fit and are not reversed. `offs` are the integers subtracted
from the coin-flip counts `flips` of the drawn genes (the floor of the binomial mean). The result has
the same length; every gene lies within its hard bounds; an undrawn gene already in bounds is
unchanged; a drawn gene `g` becomes `g + flips - offset`, moved to the nearest bound if outside. -/
theorem binomial_mutation_bounded (n : Nat) (std : ScalarOrList ℝ) (bounds : HardBounds Int)
    (expected probability : Option ℚ) (u : List ℚ) (flips : List Nat) (genome : List Int) (p : ℚ)
    (params : ScalarOrList ℝ)
    (hr : RateGives expected probability genome.length p) (h0 : 0 ≤ p) (h1 : p ≤ 1)
    (hu : u.length = genome.length) (hparams : binomialParams n std = .ok params)
    (hfit : PerGene params genome.length)
    (hflips : flips.length = u.countP (fun x => decide (x < p)))
    (hf : Fits bounds genome.length) (hp : ∀ i b, boundAt bounds i = some b → Proper b) :
    ∃ g', genomeMutateBinomial n std bounds expected probability u flips genome = .ok g' ∧
      g'.length = genome.length ∧
      ∀ (i : Nat) (x : ℚ) (g : Int), u[i]? = some x → genome[i]? = some g →
        ∃ b y, boundAt bounds i = some b ∧ g'[i]? = some y ∧ Within b y ∧
          (p ≤ x → y = clip1 b g ∧ (Within b g → y = g)) ∧
          (x < p → ∃ (k : Nat) (q : ℝ),
            flips[(u.take i).countP (fun v => decide (v < p))]? = some k ∧
            paramAt params i = some q ∧
            y = clip1 b (g + ((k : Int) - ⌊(n : ℝ) * q⌋))) := by
  obtain ⟨hc, hm⟩ := mutationMask_ok hr h0 h1 hu
  set mask := u.map fun x => decide (x < p) with hmask
  have hml : mask.length = genome.length := by simp [hmask, hu]
  have hcnt : mask.count true = u.countP (fun x => decide (x < p)) := by rw [hmask, count_map_true]
  -- the offsets: one per drawn gene, each the floor of the mean of its own parameter
  obtain ⟨offs, ho, hol, hog⟩ : ∃ offs, binomialOffsets n params mask = .ok offs ∧
      offs.length = mask.count true ∧
      ∀ i, mask[i]? = some true → ∃ q : ℝ, offs[(mask.take i).count true]? = some ⌊(n : ℝ) * q⌋ ∧
        paramAt params i = some q := by
    cases params with
    | scalar q =>
      refine ⟨_, rfl, by simp, ?_⟩
      intro i hi
      refine ⟨q, ?_, rfl⟩
      have hi' : i < mask.length := by
        rcases Nat.lt_or_ge i mask.length with h | h
        · exact h
        · rw [List.getElem?_eq_none h] at hi; simp at hi
      have : (mask.take i).count true < mask.count true := by
        have e := List.take_append_drop i mask
        have : mask.count true = (mask.take i).count true + (mask.drop i).count true := by
          conv_lhs => rw [← e]
          rw [List.count_append]
        rw [List.drop_eq_getElem_cons hi'] at this
        rw [List.getElem?_eq_getElem hi', Option.some.injEq] at hi
        rw [hi] at this
        simp only [List.count_cons_self] at this
        omega
      simp [List.getElem?_replicate, this]
    | list ps =>
      simp only [PerGene] at hfit
      have hmp : mask.length = ps.length := by omega
      refine ⟨(maskSelect mask ps).map fun p => ⌊(n : ℝ) * p⌋, ?_, ?_, ?_⟩
      · simp only [binomialOffsets, boolIndex, if_pos hmp]
      · simp [maskSelect_length mask ps hmp]
      · intro i hi
        have hs := maskSelect_get mask ps hmp i hi
        have hi' : i < ps.length := by
          rw [← hmp]
          rcases Nat.lt_or_ge i mask.length with h | h
          · exact h
          · rw [List.getElem?_eq_none h] at hi; simp at hi
        rw [List.getElem?_eq_getElem hi'] at hs
        exact ⟨ps[i], by simp [hs], List.getElem?_eq_getElem hi'⟩
  set vals := List.zipWith (· + ·) (maskSelect mask genome)
    (List.zipWith (fun (k : Nat) (o : Int) => (k : Int) - o) flips offs) with hvals
  have hvl : vals.length = mask.count true := by
    simp only [hvals, List.length_zipWith, maskSelect_length mask genome hml, hol, hflips, hcnt]
    omega
  obtain ⟨g', e, hl, hs⟩ := applyHardBounds_get (hard := bounds) (genome := maskStore mask genome vals)
    (by rw [maskStore_length]; exact hf)
  rw [maskStore_length] at hl
  refine ⟨g', ?_, hl, ?_⟩
  · simp only [genomeMutateBinomial, hc, hparams, hm, ho, boolIndex, if_pos hml, ← hvals, boolAssign,
      if_pos hvl, e]
  · intro i x g hx hg
    have hmi : mask[i]? = some (decide (x < p)) := by simp [hmask, hx]
    have hst := maskStore_get mask genome vals hml hvl i _ hmi
    by_cases hxp : x < p
    · simp only [hxp, decide_true] at hmi
      simp only [hxp, decide_true, if_true] at hst
      obtain ⟨q, hq1, hq2⟩ := hog i hmi
      have hsel := maskSelect_get mask genome hml i hmi
      rw [hg] at hsel
      have hidx : (mask.take i).count true < flips.length := by
        rw [hflips, ← hcnt, ← hol]
        by_contra hcon
        rw [List.getElem?_eq_none (by omega)] at hq1
        simp at hq1
      set r := (mask.take i).count true with hrd
      have hr' : r = (u.take i).countP (fun v => decide (v < p)) := by
        rw [hrd, hmask, ← List.map_take, count_map_true]
      have hv : vals[r]? = some (g + ((flips[r] : Int) - ⌊(n : ℝ) * q⌋)) := by
        simp only [hvals, List.getElem?_zipWith, hsel, hq1, List.getElem?_eq_getElem hidx]
      rw [hv] at hst
      obtain ⟨b, hb, hg'⟩ := hs i _ hst
      refine ⟨b, _, hb, hg', clip1_within (hp i b hb) _, fun h => absurd hxp (not_lt.mpr h), ?_⟩
      intro _
      exact ⟨flips[r], q, by rw [← hr']; exact List.getElem?_eq_getElem hidx, hq2, rfl⟩
    · simp only [hxp, decide_false, Bool.false_eq_true, if_false, hg] at hst
      obtain ⟨b, hb, hg'⟩ := hs i _ hst
      exact ⟨b, _, hb, hg', clip1_within (hp i b hb) _, fun _ => ⟨rfl, fun h => clip1_of_within h⟩,
        fun h => absurd h hxp⟩

/-- A concrete case: 16 coin flips, standard deviation 8/5 gives p = 1/5, so the offset is 3. -/
example : binomialPFromStd 16 (8 / 5) = .ok (1 / 5) := by
  have h : (1 - 4 * (8 / 5 : ℝ) ^ 2 / (16 : Nat)) = (3 / 5) ^ 2 := by norm_num
  have h2 : ¬ (4 * (8 / 5 : ℝ) ^ 2 / (16 : Nat) > 1) := by norm_num
  simp only [binomialPFromStd, if_neg h2, h, Real.sqrt_sq (show (0 : ℝ) ≤ 3 / 5 by norm_num)]
  norm_num

/-! ## C23 Gaussian mutation -/

/-- C23: Gaussian mutation. `p` is the per-gene probability (1 when isotropic); `z` are the standard normal
numbers for the drawn genes. The result has the same length, every gene lies within its bounds, an
undrawn gene within bounds is unchanged, and a drawn gene `g` becomes
`slope·(g + z·std) + intercept` moved to the nearest bound if outside. -/
theorem gaussian_mutation_bounded (std : ScalarOrList ℚ) (expected : GaussRate)
    (bounds : HardBounds ℚ) (slope intercept : ℚ) (u z genome : List ℚ) (p : ℚ)
    (hr : GaussRateGives expected genome.length p)
    (h0 : 0 ≤ p) (h1 : p ≤ 1) (hu : u.length = genome.length)
    (hz : z.length = u.countP (fun x => decide (x < p)))
    (hstd : PerGene std genome.length) (hnn : ∀ s, std = .scalar s → 0 ≤ s)
    (hf : Fits bounds genome.length) (hp : ∀ i b, boundAt bounds i = some b → Proper b) :
    ∃ g', genomeMutateGaussian std expected bounds slope intercept u z genome = .ok g' ∧
      g'.length = genome.length ∧
      ∀ (i : Nat) (x g : ℚ), u[i]? = some x → genome[i]? = some g →
        ∃ b y, boundAt bounds i = some b ∧ g'[i]? = some y ∧ Within b y ∧
          (p ≤ x → y = clip1 b g ∧ (Within b g → y = g)) ∧
          (x < p → ∃ k s, z[(u.take i).countP (fun v => decide (v < p))]? = some k ∧
            paramAt std i = some s ∧
            y = clip1 b (slope * (g + k * s) + intercept)) := by
  have ht : u.take genome.length = u := List.take_of_length_le (by omega)
  set mask := u.map fun x => decide (x < p) with hmask
  have hbv : bernoulliVector u p = .ok mask := bernoulliVector_ok h0 h1
  have hml : mask.length = genome.length := by simp [hmask, hu]
  have hcnt : mask.count true = u.countP (fun x => decide (x < p)) := by rw [hmask, count_map_true]
  obtain ⟨stds, ho, hol, hog⟩ : ∃ stds, gaussStd std mask = .ok stds ∧
      stds.length = mask.count true ∧
      ∀ i, mask[i]? = some true → ∃ s : ℚ, stds[(mask.take i).count true]? = some s ∧
        paramAt std i = some s := by
    cases std with
    | scalar s =>
      refine ⟨_, rfl, by simp, ?_⟩
      intro i hi
      refine ⟨s, ?_, rfl⟩
      have hi' : i < mask.length := by
        rcases Nat.lt_or_ge i mask.length with h | h
        · exact h
        · rw [List.getElem?_eq_none h] at hi; simp at hi
      have : (mask.take i).count true < mask.count true := by
        have e := List.take_append_drop i mask
        have : mask.count true = (mask.take i).count true + (mask.drop i).count true := by
          conv_lhs => rw [← e]
          rw [List.count_append]
        rw [List.drop_eq_getElem_cons hi'] at this
        rw [List.getElem?_eq_getElem hi', Option.some.injEq] at hi
        rw [hi] at this
        simp only [List.count_cons_self] at this
        omega
      simp [List.getElem?_replicate, this]
    | list ss =>
      simp only [PerGene] at hstd
      have hmp : mask.length = ss.length := by omega
      refine ⟨maskSelect mask ss, ?_, maskSelect_length mask ss hmp, ?_⟩
      · simp only [gaussStd, boolIndex, if_pos hmp]
      · intro i hi
        have hs := maskSelect_get mask ss hmp i hi
        have hi' : i < ss.length := by
          rw [← hmp]
          rcases Nat.lt_or_ge i mask.length with h | h
          · exact h
          · rw [List.getElem?_eq_none h] at hi; simp at hi
        rw [List.getElem?_eq_getElem hi'] at hs
        exact ⟨ss[i], hs, List.getElem?_eq_getElem hi'⟩
  set vals := List.zipWith (fun g zs => slope * (g + zs) + intercept) (maskSelect mask genome)
    (List.zipWith (· * ·) z stds) with hvals
  have hvl : vals.length = mask.count true := by
    simp only [hvals, List.length_zipWith, maskSelect_length mask genome hml, hol, hz, hcnt]
    omega
  obtain ⟨g', e, hl, hs⟩ := applyHardBounds_get (hard := bounds) (genome := maskStore mask genome vals)
    (by rw [maskStore_length]; exact hf)
  rw [maskStore_length] at hl
  refine ⟨g', ?_, hl, ?_⟩
  · have hprob : gaussProbability expected genome.length = .ok p := by
      cases expected with
      | isotropic => simp only [GaussRateGives] at hr; rw [hr]; rfl
      | num q =>
        simp only [GaussRateGives] at hr
        rw [gaussProbability, computeExpectedProbability, if_neg hr.1.ne', hr.2]
        congr 1; ring
    have hsk : stdAccepted std = true := by
      cases std with
      | scalar s => simpa [stdAccepted] using hnn s rfl
      | list ss => rfl
    simp only [genomeMutateGaussian, hsk, if_true, hprob, ht, hbv, ho, boolIndex, if_pos hml, ← hvals,
      boolAssign, if_pos hvl, e]
  · intro i x g hx hg
    have hmi : mask[i]? = some (decide (x < p)) := by simp [hmask, hx]
    have hst := maskStore_get mask genome vals hml hvl i _ hmi
    by_cases hxp : x < p
    · simp only [hxp, decide_true] at hmi
      simp only [hxp, decide_true, if_true] at hst
      obtain ⟨s, hq1, hq2⟩ := hog i hmi
      have hsel := maskSelect_get mask genome hml i hmi
      rw [hg] at hsel
      have hidx : (mask.take i).count true < z.length := by
        rw [hz, ← hcnt, ← hol]
        by_contra hcon
        rw [List.getElem?_eq_none (by omega)] at hq1
        simp at hq1
      set r := (mask.take i).count true with hrd
      have hr' : r = (u.take i).countP (fun v => decide (v < p)) := by
        rw [hrd, hmask, ← List.map_take, count_map_true]
      have hv : vals[r]? = some (slope * (g + z[r] * s) + intercept) := by
        simp only [hvals, List.getElem?_zipWith, hsel, hq1, List.getElem?_eq_getElem hidx]
      rw [hv] at hst
      obtain ⟨b, hb, hg'⟩ := hs i _ hst
      refine ⟨b, _, hb, hg', clip1_within (hp i b hb) _, fun h => absurd hxp (not_lt.mpr h), ?_⟩
      intro _
      exact ⟨z[r], s, by rw [← hr']; exact List.getElem?_eq_getElem hidx, hq2, rfl⟩
    · simp only [hxp, decide_false, Bool.false_eq_true, if_false, hg] at hst
      obtain ⟨b, hb, hg'⟩ := hs i _ hst
      exact ⟨b, _, hb, hg', clip1_within (hp i b hb) _, fun _ => ⟨rfl, fun h => clip1_of_within h⟩,
        fun h => absurd h hxp⟩

example : genomeMutateGaussian (.list [1, 2]) (.num 1) (.all (some (-3), some 3)) 1 0 [1 / 4, 3 / 4] [5]
    [1, 2] = .ok [3, 2] := by decide +kernel

/-- C23: a negative scalar standard deviation is an `AssertionError`, whatever the other arguments. -/
theorem gaussian_negative_std (s : ℚ) (hs : s < 0) (expected : GaussRate) (bounds : HardBounds ℚ)
    (slope intercept : ℚ) (u z genome : List ℚ) :
    genomeMutateGaussian (.scalar s) expected bounds slope intercept u z genome =
      .error .assertionError := by
  simp [genomeMutateGaussian, stdAccepted, not_le.mpr hs]

/-- C20–C23 at operator level: each mutation operator, once its arguments are accepted, takes exactly one
individual from upstream per individual yielded, gives it the mutated genome and clears its fitness;
an exhausted upstream ends the integer operators cleanly and is a `RuntimeError` in the others. -/
theorem mutation_operator_step {U γ φ : Type} (check : PyM Unit) (stopOk started : Bool)
    (next : U → PyM (MInd γ φ × U)) (mutate : U → γ → PyM (γ × U)) (u : U)
    (hc : started = true ∨ check = .ok ()) :
    (∀ ind u1 g u2, next u = .ok (ind, u1) → mutate u1 ind.genome = .ok (g, u2) →
      mutationGen check stopOk next mutate started u = .ok (⟨g, none⟩, true, u2)) ∧
    (next u = .error .stopIteration → mutationGen check stopOk next mutate started u =
      .error (if stopOk then .stopIteration else .runtimeError)) := by
  have hck : (if started then (.ok () : PyM Unit) else check) = .ok () := by
    rcases hc with rfl | rfl
    · rfl
    · simp
  constructor
  · intro ind u1 g u2 h1 h2
    simp only [mutationGen, hck, h1, h2]
  · intro h
    simp only [mutationGen, hck, h]
    cases stopOk <;> rfl

/-- What each operator does to an individual: the genome function, and nothing else but clearing the
fitness. -/
theorem mutate_bitflip_step {U φ : Type} (expected probability : Option ℚ) (rand : U → List ℚ × U)
    (next : U → PyM (MInd (List Int) φ × U)) (u u1 : U) (ind : MInd (List Int) φ) (g : List Int)
    (hn : next u = .ok (ind, u1))
    (hg : genomeMutateBitflip expected probability (rand u1).1 ind.genome = .ok g) :
    mutateBitflip expected probability rand next true u = .ok (⟨g, none⟩, true, (rand u1).2) := by
  simp [mutateBitflip, mutationGen, hn, hg]

theorem mutate_randint_step {U φ : Type} (bounds : List (Int × Int)) (expected probability : Option ℚ)
    (rand : U → (List ℚ × List Int) × U)
    (next : U → PyM (MInd (List Int) φ × U)) (u u1 : U) (ind : MInd (List Int) φ) (g : List Int)
    (hn : next u = .ok (ind, u1))
    (hg : individualMutateRandint bounds expected probability (rand u1).1.1 (rand u1).1.2 ind.genome =
      .ok g) :
    mutateRandint bounds expected probability rand next true u =
      .ok (⟨g, none⟩, true, (rand u1).2) := by
  simp [mutateRandint, mutationGen, hn, hg]

theorem mutate_gaussian_step {U φ : Type} (std : ScalarOrList ℚ) (expected : GaussRate)
    (bounds : HardBounds ℚ) (slope intercept : ℚ) (rand : U → (List ℚ × List ℚ) × U)
    (next : U → PyM (MInd (List ℚ) φ × U)) (u u1 : U) (ind : MInd (List ℚ) φ) (g : List ℚ)
    (hn : next u = .ok (ind, u1))
    (hg : genomeMutateGaussian std expected bounds slope intercept (rand u1).1.1 (rand u1).1.2
      ind.genome = .ok g) :
    mutateGaussian std (some expected) bounds slope intercept rand next true u =
      .ok (⟨g, none⟩, true, (rand u1).2) := by
  simp [mutateGaussian, mutationGen, hn, hg]

theorem mutate_binomial_step {U φ : Type} (n : Nat) (std : ScalarOrList ℝ) (bounds : HardBounds Int)
    (expected probability : Option ℚ) (rand : U → (List ℚ × List Nat) × U)
    (next : U → PyM (MInd (List Int) φ × U)) (u u1 : U) (ind : MInd (List Int) φ) (g : List Int)
    (hn : next u = .ok (ind, u1))
    (hg : genomeMutateBinomial n std bounds expected probability (rand u1).1.1 (rand u1).1.2
      ind.genome = .ok g) :
    mutateBinomial n std bounds expected probability rand next true u =
      .ok (⟨g, none⟩, true, (rand u1).2) := by
  simp [mutateBinomial, mutationGen, hn, hg]

/-- C06 for mutation: when upstream ends, `mutate_randint` and `mutate_binomial` end too;
`mutate_bitflip` and `mutate_gaussian` raise `RuntimeError`. -/
theorem mutation_upstream_exhausted {U φ : Type} (n : Nat) (std : ScalarOrList ℝ)
    (stdq : ScalarOrList ℚ) (rate : GaussRate) (slope intercept : ℚ) (hb : HardBounds ℚ)
    (bounds : HardBounds Int) (bs : List (Int × Int))
    (expected probability : Option ℚ) (r1 : U → List ℚ × U) (r2 : U → (List ℚ × List Int) × U)
    (r3 : U → (List ℚ × List Nat) × U) (r4 : U → (List ℚ × List ℚ) × U)
    (next : U → PyM (MInd (List Int) φ × U)) (nextq : U → PyM (MInd (List ℚ) φ × U)) (u : U)
    (hn : next u = .error .stopIteration) (hq : nextq u = .error .stopIteration) :
    mutateBitflip expected probability r1 next true u = .error .runtimeError ∧
    mutateRandint bs expected probability r2 next true u = .error .stopIteration ∧
    mutateBinomial n std bounds expected probability r3 next true u = .error .stopIteration ∧
    mutateGaussian stdq (some rate) hb slope intercept r4 nextq true u = .error .runtimeError := by
  simp [mutateBitflip, mutateRandint, mutateBinomial, mutateGaussian, mutationGen, hn, hq]

end Leap
