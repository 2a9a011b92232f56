import Mathlib.Order.Interval.Finset.Defs
import Mathlib.Data.Int.Interval
import Verif.Lemmas.Chance
import Verif.Props.Mutation
import Verif.Props.Crossover
import Verif.Model.Segmented

/-!
# C95: the random operators have the rates they are given

Chances are shares of equally likely outcomes, see `Spec/Chance.lean`.
-/

namespace Leap
open Spec

/-- **C95** (resolution). The chance of a random number being below `p` is `p`, rounded up to a multiple of the resolution `1/N` of the random
numbers (`N` is `2^53`). -/
theorem below_near (N : Nat) (hN : 0 < N) (p : ℚ) (h0 : 0 ≤ p) (h1 : p ≤ 1) :
    p ≤ below N p ∧ below N p < p + 1 / N ∧ below N p ≤ 1 ∧ ∀ k : Nat, p = k / N → below N p = p := by
  have hNq : (0 : ℚ) < N := by exact_mod_cast hN
  rw [below_eq N hN p h0 h1]
  refine ⟨?_, ?_, ?_, ?_⟩
  · rw [le_div_iff₀ hNq]; exact Int.le_ceil _
  · rw [div_lt_iff₀ hNq, add_mul, div_mul_cancel₀ _ hNq.ne']; exact Int.ceil_lt_add_one _
  · rw [div_le_one hNq]
    have : ⌈p * N⌉ ≤ (N : Int) := Int.ceil_le.2 (by push_cast; nlinarith)
    exact_mod_cast this
  · rintro k rfl
    rw [div_mul_cancel₀ _ hNq.ne']
    have : ⌈((k : Nat) : ℚ)⌉ = (k : Int) := Int.ceil_natCast k
    rw [this]
    norm_num

theorem fractions_length {n N : Nat} (v : Fin n → Fin N) : (fractions v).length = n := by simp [fractions]

theorem fractions_get {n N : Nat} (v : Fin n → Fin N) (i : Fin n) : (fractions v)[(i : Nat)]? = some (((v i : Nat) : ℚ) / N) := by
  simp [fractions, List.getElem?_ofFn, i.2]

theorem ofFn_get {γ : Type} {n : Nat} (g : Fin n → γ) (i : Fin n) : (List.ofFn g)[(i : Nat)]? = some (g i) := by
  simp [List.getElem?_ofFn, i.2]

theorem eq_ofFn_iff {γ : Type} {n : Nat} (l : List γ) (hl : l.length = n) (h : Fin n → γ) :
    l = List.ofFn h ↔ ∀ i : Fin n, l[(i : Nat)]? = some (h i) := by
  constructor
  · rintro rfl i; exact ofFn_get h i
  · intro hi
    apply List.ext_getElem?
    intro k
    by_cases hk : k < n
    · rw [hi ⟨k, hk⟩, ofFn_get h ⟨k, hk⟩]
    · rw [List.getElem?_eq_none (by omega), List.getElem?_eq_none (by simp; omega)]

/-- The chance of a random number being below `p` exactly when asked. -/
theorem chance_iff (N : Nat) (hN : 0 < N) (p : ℚ) (c : Prop) [Decidable c] :
    chance (fun x : Fin N => (((x : Nat) : ℚ) / N < p ↔ c)) = if c then below N p else 1 - below N p := by
  have : Nonempty (Fin N) := ⟨⟨0, hN⟩⟩
  by_cases hc : c
  · rw [if_pos hc]; exact chance_congr fun x => ⟨fun h => h.2 hc, fun h => ⟨fun _ => hc, fun _ => h⟩⟩
  · rw [if_neg hc]
    unfold below
    rw [← chance_not]
    exact chance_congr fun x => ⟨fun h h' => hc (h.1 h'), fun h => ⟨fun h' => absurd h' h, fun h' => absurd h' hc⟩⟩

theorem prod_pick (n : Nat) (c : Fin n → Prop) [DecidablePred c] (q : ℚ) :
    (∏ i, if c i then q else 1 - q) = q ^ Nat.card {i // c i} * (1 - q) ^ (n - Nat.card {i // c i}) := by
  rw [Finset.prod_ite, Finset.prod_const, Finset.prod_const, Nat.card_eq_fintype_card, Fintype.card_subtype]
  congr 2
  rw [Finset.filter_not, ← Finset.compl_eq_univ_sdiff, Finset.card_compl, Fintype.card_fin]

/-- The bits of a genome. -/
def Spec.bitGenome {n : Nat} (g : Fin n → Fin 2) : List Int := List.ofFn fun i => ((g i : Nat) : Int)

/-- How many positions of a result differ from the genome. -/
noncomputable def Spec.changes {γ : Type} {n : Nat} (g : Fin n → γ) (r : PyM (List γ)) : ℚ :=
  match r with
  | .ok l => Nat.card {i : Fin n // l[(i : Nat)]? ≠ some (g i)}
  | .error _ => 0

/-- **C95** (bit flips). Every bit is flipped independently with the chance asked for: each genome `h` of the same length is the result with
chance `q ^ d (1 - q) ^ (n - d)`, where `d` is the number of positions in which it differs. -/
theorem bitflip_chance (N : Nat) (hN : 0 < N) {n : Nat} (expected probability : Option ℚ) (p : ℚ) (hr : RateGives expected probability n p)
    (h0 : 0 ≤ p) (h1 : p ≤ 1) (g h : Fin n → Fin 2) :
    chance (fun v : Fin n → Fin N => genomeMutateBitflip expected probability (fractions v) (bitGenome g) = .ok (bitGenome h)) =
      below N p ^ Nat.card {i // g i ≠ h i} * (1 - below N p) ^ (n - Nat.card {i // g i ≠ h i}) := by
  rw [← prod_pick, Finset.prod_congr rfl fun i _ => (chance_iff N hN p (g i ≠ h i)).symm]
  rw [← chance_pi (fun i (x : Fin N) => (((x : Nat) : ℚ) / N < p ↔ g i ≠ h i))]
  apply chance_congr
  intro v
  obtain ⟨g', e, hl, hs⟩ := bitflip_flips_drawn expected probability (fractions v) (bitGenome g) p (by simpa [bitGenome] using hr) h0 h1
    (by simp [fractions, bitGenome])
  rw [e, Except.ok.injEq]
  rw [show bitGenome h = List.ofFn fun i => ((h i : Nat) : Int) from rfl, eq_ofFn_iff g' (by simpa [bitGenome] using hl)]
  apply forall_congr'
  intro i
  rw [hs i _ _ (fractions_get v i) (ofFn_get (fun i => ((g i : Nat) : Int)) i), Option.some.injEq]
  have hcase : ∀ a b : Fin 2, ((((a : Nat) : Int) + 1) % 2 = ((b : Nat) : Int) ↔ a ≠ b) ∧ (((a : Nat) : Int) = ((b : Nat) : Int) ↔ ¬ a ≠ b) := by
    decide
  split
  · rename_i hx; rw [(hcase _ _).1]; simp [hx]
  · rename_i hx; rw [(hcase _ _).2]; simp [hx]

/-- **C95** (number of flips). The mean number of bits flipped is `n` times the chance asked for. -/
theorem bitflip_mean (N : Nat) (hN : 0 < N) {n : Nat} (expected probability : Option ℚ) (p : ℚ) (hr : RateGives expected probability n p)
    (h0 : 0 ≤ p) (h1 : p ≤ 1) (g : Fin n → Fin 2) :
    mean (fun v : Fin n → Fin N => changes (fun i => ((g i : Nat) : Int)) (genomeMutateBitflip expected probability (fractions v) (bitGenome g))) =
      n * below N p := by
  have key : ∀ v : Fin n → Fin N, changes (fun i => ((g i : Nat) : Int)) (genomeMutateBitflip expected probability (fractions v) (bitGenome g)) =
      (Nat.card {i // ((v i : Nat) : ℚ) / N < p} : ℚ) := by
    intro v
    obtain ⟨g', e, hl, hs⟩ := bitflip_flips_drawn expected probability (fractions v) (bitGenome g) p (by simpa [bitGenome] using hr) h0 h1
      (by simp [fractions, bitGenome])
    rw [e]
    simp only [changes]
    rw [Nat.card_congr (Equiv.subtypeEquivRight fun i => ?_)]
    rw [hs i _ _ (fractions_get v i) (ofFn_get (fun i => ((g i : Nat) : Int)) i)]
    have hcase : ∀ a : Fin 2, (((a : Nat) : Int) + 1) % 2 ≠ ((a : Nat) : Int) := by decide
    split <;> rename_i hx <;> simp [hx, hcase]
  rw [mean_congr key, mean_count]
  rw [Finset.sum_congr rfl fun i _ => chance_coord hN i (fun x : Fin N => ((x : Nat) : ℚ) / N < p)]
  simp [below]

/-- **C95** (expected number of flips). With `expected_num_mutations = e` the mean number of bits flipped is `e`, up to the resolution of the random
numbers, whatever the genome. -/
theorem bitflip_expected (N : Nat) (hN : 0 < N) {n : Nat} (hn : 0 < n) (e : ℚ) (h0 : 0 ≤ e) (h1 : e ≤ n) (g : Fin n → Fin 2) :
    let m := mean (fun v : Fin n → Fin N => changes (fun i => ((g i : Nat) : Int)) (genomeMutateBitflip (some e) none (fractions v) (bitGenome g)))
    e ≤ m ∧ m < e + n / N := by
  have hnq : (0 : ℚ) < n := by exact_mod_cast hn
  have hp0 : 0 ≤ e / n := by positivity
  have hp1 : e / n ≤ 1 := by rw [div_le_one hnq]; exact h1
  intro m
  have hm : m = n * below N (e / n) := bitflip_mean N hN (some e) none (e / n) (.inr ⟨rfl, hn.ne', e, rfl, rfl⟩) hp0 hp1 g
  obtain ⟨b1, b2, -, -⟩ := below_near N hN (e / n) hp0 hp1
  have he : e = n * (e / n) := by field_simp
  rw [hm]
  constructor
  · conv_lhs => rw [he]
    exact mul_le_mul_of_nonneg_left b1 hnq.le
  · have := mul_lt_mul_of_pos_left b2 hnq
    rw [mul_add, ← he, mul_one_div] at this
    exact this

example : (RateGives (some 1) none 3 (1 / 3)) ∧ (RateGives none (some (1 / 4)) 3 (1 / 4)) :=
  ⟨.inr ⟨rfl, by decide, 1, rfl, by norm_num⟩, .inl ⟨rfl, rfl⟩⟩

/-- **C95** (integer resampling). Every gene is redrawn independently with chance `q`, and then takes each value within its inclusive bounds with the same
chance: the genome `y` is the result with the product of the genes' chances. For each gene `i` the number `(v i).1` decides whether it is
redrawn and `(v i).2` is what is drawn. -/
theorem randint_chance (N : Nat) (hN : 0 < N) {n : Nat} (hn : 0 < n) (expected probability : Option ℚ) (p : ℚ)
    (hr : RateGives expected probability n p) (h0 : 0 ≤ p) (h1 : p ≤ 1) (lo hi g y : Fin n → Int) (hlh : ∀ i, lo i ≤ hi i) :
    chance (fun v : (i : Fin n) → Fin N × Set.Icc (lo i) (hi i) =>
        individualMutateRandint (List.ofFn fun i => (lo i, hi i)) expected probability (fractions fun i => (v i).1)
          ((((List.ofFn fun i => ((v i).2 : Int)).zip (fractions fun i => (v i).1)).filter fun q => decide (q.2 < p)).map Prod.fst)
          (List.ofFn g) = .ok (List.ofFn y)) =
      ∏ i, (below N p * (if lo i ≤ y i ∧ y i ≤ hi i then 1 / ((hi i - lo i + 1 : Int) : ℚ) else 0) +
        (1 - below N p) * (if y i = g i then 1 else 0)) := by
  have hNe : Nonempty (Fin N) := ⟨⟨0, hN⟩⟩
  have hD : ∀ i, chance (fun d : Set.Icc (lo i) (hi i) => (d : Int) = y i) = if lo i ≤ y i ∧ y i ≤ hi i then 1 / ((hi i - lo i + 1 : Int) : ℚ) else 0 := by
    intro i
    have hcard : (Nat.card (Set.Icc (lo i) (hi i)) : ℚ) = ((hi i - lo i + 1 : Int) : ℚ) := by
      rw [Nat.card_eq_fintype_card]
      have h2 : Fintype.card (Set.Icc (lo i) (hi i)) = (hi i + 1 - lo i).toNat := by
        rw [Fintype.card_Icc, Int.card_Icc]
      have h3 : (((hi i + 1 - lo i).toNat : Int) : ℚ) = ((hi i - lo i + 1 : Int) : ℚ) := by
        rw [Int.toNat_of_nonneg (by have := hlh i; omega)]
        congr 1; ring
      rw [h2]
      exact_mod_cast h3
    by_cases hy : lo i ≤ y i ∧ y i ≤ hi i
    · rw [if_pos hy]
      unfold chance
      rw [hcard]
      have : Unique {d : Set.Icc (lo i) (hi i) // (d : Int) = y i} :=
        ⟨⟨⟨⟨y i, hy⟩, rfl⟩⟩, by rintro ⟨⟨d, hd⟩, h⟩; simp only at h; subst h; rfl⟩
      rw [Nat.card_unique]
      norm_num
    · rw [if_neg hy]
      apply chance_false
      rintro ⟨d, hd⟩ rfl
      exact hy hd
  have hE : ∀ i, chance (fun x : Fin N × Set.Icc (lo i) (hi i) =>
      (((x.1 : Nat) : ℚ) / N < p ∧ (x.2 : Int) = y i) ∨ (¬ ((x.1 : Nat) : ℚ) / N < p ∧ g i = y i)) =
      below N p * (if lo i ≤ y i ∧ y i ≤ hi i then 1 / ((hi i - lo i + 1 : Int) : ℚ) else 0) + (1 - below N p) * (if y i = g i then 1 else 0) := by
    intro i
    have hne : Nonempty (Set.Icc (lo i) (hi i)) := ⟨⟨lo i, le_refl _, hlh i⟩⟩
    rw [chance_or _ _ (fun ω ha hb => hb.1 ha.1)]
    rw [chance_and (fun x : Fin N => ((x : Nat) : ℚ) / N < p) (fun d : Set.Icc (lo i) (hi i) => (d : Int) = y i), hD]
    rw [chance_and (fun x : Fin N => ¬ ((x : Nat) : ℚ) / N < p) (fun _ : Set.Icc (lo i) (hi i) => g i = y i), chance_not]
    congr 2
    by_cases hg : y i = g i
    · rw [if_pos hg, chance_congr (F := fun _ => True) (fun _ => ⟨fun _ => trivial, fun _ => hg.symm⟩)]
      exact chance_true
    · rw [if_neg hg]
      exact chance_false fun _ h => hg h.symm
  rw [Finset.prod_congr rfl fun i _ => (hE i).symm]
  rw [← chance_pi (fun i (x : Fin N × Set.Icc (lo i) (hi i)) =>
      (((x.1 : Nat) : ℚ) / N < p ∧ (x.2 : Int) = y i) ∨ (¬ ((x.1 : Nat) : ℚ) / N < p ∧ g i = y i))]
  apply chance_congr
  intro v
  set u := fractions fun i => (v i).1 with hu
  have hul : u.length = n := fractions_length _
  set mask := u.map fun x => decide (x < p) with hmask
  have hml : mask.length = n := by simp [hmask, hul]
  have hsel : ∀ {β : Type} (w : Fin n → β), maskSelect mask (List.ofFn w) =
      (((List.ofFn w).zip u).filter fun q => decide (q.2 < p)).map Prod.fst := by
    intro β w
    rw [hmask]
    exact maskSelect_eq_filter (fun x => decide (x < p)) u (List.ofFn w) (by simp [hul])
  have hvalid : ValidRandints ((((List.ofFn fun i => (lo i, hi i)).zip u).filter fun q => decide (q.2 < p)).map Prod.fst)
      ((((List.ofFn fun i => ((v i).2 : Int)).zip u).filter fun q => decide (q.2 < p)).map Prod.fst) := by
    have gen : ∀ (us : List ℚ) (bs : List (Int × Int)) (ds : List Int), List.Forall₂ (fun b d => b.1 ≤ d ∧ d ≤ b.2) bs ds →
        ValidRandints (((bs.zip us).filter fun q => decide (q.2 < p)).map Prod.fst) (((ds.zip us).filter fun q => decide (q.2 < p)).map Prod.fst) := by
      intro us bs ds h
      induction h generalizing us with
      | nil => simp [ValidRandints]
      | cons hbd _ ih =>
        cases us with
        | nil => simp [ValidRandints]
        | cons x us =>
          by_cases hx : x < p
          · simp only [List.zip_cons_cons, List.filter_cons, hx, decide_true, if_true, List.map_cons]
            exact .cons hbd (ih us)
          · simp only [List.zip_cons_cons, List.filter_cons, hx, decide_false, Bool.false_eq_true, if_false]
            exact ih us
    apply gen
    rw [List.forall₂_iff_get]
    refine ⟨by simp, ?_⟩
    intro i h1 h2
    simp only [List.get_eq_getElem, List.getElem_ofFn]
    exact (v _).2.2
  obtain ⟨g', e, hl, hs⟩ := randint_resamples (List.ofFn fun i => (lo i, hi i)) expected probability u _ (List.ofFn g) p (by simpa using hr) h0 h1
    (by simp [hul]) (by simp) (by
      intro h
      have := congrArg List.length h
      simp at this
      omega) hvalid
  rw [e, Except.ok.injEq, eq_ofFn_iff g' (by simpa using hl)]
  apply forall_congr'
  intro i
  have hui : u[(i : Nat)]? = some ((((v i).1 : Nat) : ℚ) / N) := fractions_get (fun i => (v i).1) i
  obtain ⟨s1, s2⟩ := hs i _ _ _ _ hui (ofFn_get g i) (ofFn_get (fun i => (lo i, hi i)) i)
  by_cases hx : (((v i).1 : Nat) : ℚ) / N < p
  · obtain ⟨d, hd1, hd2, -⟩ := s2 hx
    have hmi : mask[(i : Nat)]? = some true := by simp [hmask, hui, hx]
    have hget := maskSelect_get mask (List.ofFn fun i => ((v i).2 : Int)) (by simp [hml]) i hmi
    rw [hsel, ofFn_get] at hget
    have hcnt : (mask.take i).count true = (u.take i).countP (fun y => decide (y < p)) := by
      rw [hmask, ← List.map_take, count_map_true]
    rw [hcnt, hd2, Option.some.injEq] at hget
    rw [hd1, hget, Option.some.injEq]
    simp [hx]
  · rw [s1 (not_lt.1 hx), Option.some.injEq]
    simp [hx]

/-- **C95** (Gaussian mutation). Noise is added to each gene independently with the chance asked for: with noise that is never zero and no bounds, the mean
number of genes changed is `n` times that chance. -/
theorem gaussian_mean (N : Nat) (hN : 0 < N) {n : Nat} (s : ℚ) (hs : 0 < s) (expected : GaussRate) (p : ℚ) (hr : GaussRateGives expected n p)
    (h0 : 0 ≤ p) (h1 : p ≤ 1) (g : Fin n → ℚ) (z : (Fin n → Fin N) → List ℚ)
    (hz : ∀ v, (z v).length = (fractions v).countP (fun x => decide (x < p)) ∧ ∀ x ∈ z v, x ≠ 0) :
    mean (fun v : Fin n → Fin N => changes g
        (genomeMutateGaussian (.scalar s) expected (.all (none, none)) 1 0 (fractions v) (z v) (List.ofFn g))) = n * below N p := by
  have key : ∀ v : Fin n → Fin N, changes g
      (genomeMutateGaussian (.scalar s) expected (.all (none, none)) 1 0 (fractions v) (z v) (List.ofFn g)) =
      (Nat.card {i // ((v i : Nat) : ℚ) / N < p} : ℚ) := by
    intro v
    obtain ⟨g', e, hl, hsp⟩ := gaussian_mutation_bounded (.scalar s) expected (.all (none, none)) 1 0 (fractions v) (z v) (List.ofFn g) p
      (by simpa using hr) h0 h1 (by simp [fractions]) (hz v).1 trivial (by intro t ht; cases ht; exact hs.le) trivial
      (by intro i b hb; simp only [boundAt, Option.some.injEq] at hb; subst hb; simp [Proper])
    rw [e]
    simp only [changes]
    rw [Nat.card_congr (Equiv.subtypeEquivRight fun i => ?_)]
    obtain ⟨b, y, hb, hy, -, c1, c2⟩ := hsp i _ _ (fractions_get v i) (ofFn_get g i)
    simp only [boundAt, Option.some.injEq] at hb
    subst hb
    rw [hy]
    by_cases hx : ((v i : Nat) : ℚ) / N < p
    · obtain ⟨k, t, hk, ht, hyv⟩ := c2 hx
      simp only [paramAt, Option.some.injEq] at ht
      subst ht
      have hk0 : k ≠ 0 := (hz v).2 k (List.mem_of_getElem? hk)
      simp only [clip1] at hyv
      simp only [hx, iff_true]
      intro hc
      rw [Option.some.injEq] at hc
      rw [hc] at hyv
      have : k * s = 0 := by linarith
      rcases mul_eq_zero.1 this with h | h
      · exact hk0 h
      · exact hs.ne' h
    · have := (c1 (not_lt.1 hx)).1
      simp only [clip1] at this
      simp [hx, this]
  rw [mean_congr key, mean_count]
  rw [Finset.sum_congr rfl fun i _ => chance_coord hN i (fun x : Fin N => ((x : Nat) : ℚ) / N < p)]
  simp [below]

/-- **C95** (binary initialisation). With an even number of random fractions every bit string of the length asked for is made with the same chance. -/
theorem binary_init_chance (N : Nat) (hN : 0 < N) (heven : 2 ∣ N) {n : Nat} (s : Fin n → Bool) :
    chance (fun v : Fin n → Fin N => createBinarySequence n (fractions v) = .ok (List.ofFn s)) = 1 / 2 ^ n := by
  have hb : below N (1 / 2) = 1 / 2 := by
    obtain ⟨k, rfl⟩ := heven
    refine (below_near _ hN (1 / 2) (by norm_num) (by norm_num)).2.2.2 k ?_
    have : (k : ℚ) ≠ 0 := by
      have : 0 < k := by omega
      positivity
    push_cast
    field_simp
  have hp : ∀ i, chance (fun x : Fin N => (((x : Nat) : ℚ) / N < 1 / 2 ↔ s i = true)) = 1 / 2 := by
    intro i
    rw [chance_iff N hN, hb]
    split <;> norm_num
  have hprod : (1 / 2 ^ n : ℚ) = ∏ i : Fin n, chance (fun x : Fin N => (((x : Nat) : ℚ) / N < 1 / 2 ↔ s i = true)) := by
    rw [Finset.prod_congr rfl fun i _ => hp i]
    simp
  rw [hprod, ← chance_pi (fun i (x : Fin N) => (((x : Nat) : ℚ) / N < 1 / 2 ↔ s i = true))]
  apply chance_congr
  intro v
  have ht : (fractions v).take n = fractions v := List.take_of_length_le (by simp [fractions])
  rw [createBinarySequence, ht, bernoulliVector_ok (by norm_num) (by norm_num), Except.ok.injEq, eq_ofFn_iff _ (by simp [fractions])]
  apply forall_congr'
  intro i
  rw [List.getElem?_map, fractions_get]
  simp only [Option.map_some, Option.some.injEq]
  cases s i <;> simp

/-- **C95** (uniform crossover). Every position is exchanged independently with chance `q`: with different genes everywhere, the children that have exchanged
exactly the positions in `s` come about with chance `q ^ |s| (1 - q) ^ (n - |s|)`. -/
theorem uniform_crossover_chance (N : Nat) (hN : 0 < N) {γ : Type} {n : Nat} (p : ℚ) (h0 : 0 ≤ p) (h1 : p ≤ 1) (a b : Fin n → γ)
    (hab : ∀ i, a i ≠ b i) (s : Fin n → Bool) :
    chance (fun v : Fin n → Fin N => uniformRecombine p (fractions v) (List.ofFn a) (List.ofFn b) =
        (.ok (), List.ofFn fun i => if s i then b i else a i, List.ofFn fun i => if s i then a i else b i)) =
      below N p ^ Nat.card {i // s i = true} * (1 - below N p) ^ (n - Nat.card {i // s i = true}) := by
  rw [← prod_pick, Finset.prod_congr rfl fun i _ => (chance_iff N hN p (s i = true)).symm]
  rw [← chance_pi (fun i (x : Fin N) => (((x : Nat) : ℚ) / N < p ↔ s i = true))]
  apply chance_congr
  intro v
  obtain ⟨a', b', e, hla, hlb, hs⟩ := uniform_crossover_swaps p h0 h1 (fractions v) (List.ofFn a) (List.ofFn b) (by simp) (by simp [fractions])
  rw [e]
  simp only [Prod.mk.injEq, true_and]
  rw [eq_ofFn_iff a' (by simpa using hla), eq_ofFn_iff b' (by simpa using hlb), ← forall_and]
  apply forall_congr'
  intro i
  obtain ⟨s1, s2⟩ := hs i _ (fractions_get v i)
  rw [ofFn_get, ofFn_get] at s1 s2
  by_cases hx : ((v i : Nat) : ℚ) / N < p
  · rw [(s1 hx).1, (s1 hx).2]
    simp only [hx, true_iff, Option.some.injEq]
    constructor
    · intro h
      by_contra hc
      rw [if_neg hc] at h
      exact hab i h.1.symm
    · intro h; simp [h]
  · rw [(s2 (not_lt.1 hx)).1, (s2 (not_lt.1 hx)).2]
    simp only [hx, false_iff, Option.some.injEq]
    constructor
    · intro h hc
      rw [if_pos hc] at h
      exact hab i h.1
    · intro h; simp [h]

/-- **C95** (one-point crossover). The cut is at each of the positions `0 .. n - 1` with the same chance, so the gene at position `i` of the first child
comes from the second parent with chance `(i + 1) / n`; with chance `1/n` the cut is at 0 and the whole genomes are exchanged. -/
theorem one_point_chance {γ : Type} {n : Nat} (hn : 0 < n) (a b : Fin n → γ) (hab : ∀ i, a i ≠ b i) (i : Fin n) :
    chance (fun v : Fin 1 → Fin n => ∃ c d, naryRecombine 1 (indices v) (List.ofFn a) (List.ofFn b) = .ok (c, d) ∧ c[(i : Nat)]? = some (b i)) =
      ((i : Nat) + 1 : ℚ) / n := by
  classical
  have hcond : ∀ v : Fin 1 → Fin n, (∃ c d, naryRecombine 1 (indices v) (List.ofFn a) (List.ofFn b) = .ok (c, d) ∧ c[(i : Nat)]? = some (b i)) ↔
      v 0 ≤ i := by
    intro v
    have hind : indices v = [(v 0 : Nat)] := by simp [indices]
    have hpts : pickCrossoverPoints [(v 0 : Nat)] n = [0, (v 0 : Nat), n] := rfl
    have hrec : naryRecombine 1 (indices v) (List.ofFn a) (List.ofFn b) =
        .ok ((List.ofFn a).take (v 0) ++ (List.ofFn b).drop (v 0), (List.ofFn b).take (v 0) ++ (List.ofFn a).drop (v 0)) := by
      have hlt : ¬ (n < 1 ∨ n < 1) := by omega
      have htake : ∀ l : List γ, l.length = n → (l.drop (v 0)).take (n - (v 0)) = l.drop (v 0) := by
        intro l hl; apply List.take_of_length_le; simp [hl]
      simp only [naryRecombine, List.length_ofFn, if_neg hlt, hind, hpts, naryLoop, pySlice, List.drop_zero, Nat.sub_zero, List.append_nil]
      rw [htake _ (by simp), htake _ (by simp)]
    rw [hrec]
    have hget : ((List.ofFn a).take (v 0) ++ (List.ofFn b).drop (v 0))[(i : Nat)]? = if v 0 ≤ i then some (b i) else some (a i) := by
      by_cases hle : v 0 ≤ i
      · have hle' : (v 0 : Nat) ≤ i := hle
        have hmin : min (v 0 : Nat) n = v 0 := by have := (v 0).2; omega
        rw [if_pos hle, List.getElem?_append_right (by simp; omega), List.getElem?_drop]
        simp only [List.length_take, List.length_ofFn, hmin]
        rw [show (v 0 : Nat) + ((i : Nat) - (v 0 : Nat)) = i by omega, ofFn_get]
      · have hlt : (i : Nat) < v 0 := by
          have : i < v 0 := not_le.1 hle
          exact this
        rw [if_neg hle, List.getElem?_append_left (by simp; omega), List.getElem?_take, if_pos hlt, ofFn_get]
    constructor
    · rintro ⟨c, d, hcd, hc⟩
      injection hcd with hcd
      injection hcd with h1 h2
      rw [← h1, hget] at hc
      by_contra hle
      rw [if_neg hle] at hc
      exact hab i (Option.some.inj hc)
    · intro hle
      exact ⟨_, _, rfl, by rw [hget, if_pos hle]⟩
  rw [chance_congr hcond]
  rw [chance_coord hn 0 (fun x : Fin n => x ≤ i), chance_fintype, Fintype.card_fin]
  congr 1
  have : (Finset.univ.filter fun x : Fin n => x ≤ i) = Finset.univ.filter fun x : Fin n => (x : Nat) < i + 1 := by
    apply Finset.filter_congr
    intro x _
    rw [Fin.le_def]; omega
  rw [this, Fin.card_filter_val_lt]
  have := i.2
  rw [min_eq_right (by omega)]
  push_cast
  rfl

/-- **C95** (binomial mutation). A mutated gene moves by the number of heads in `n` tosses of a coin with chance `q`, less the whole part of `n q`. So without
bounds its mean move is the fractional part of `n q`, which is never negative: the documentation says the distribution is centred on the old value,
and this holds only if `n q` is whole. -/
theorem binomial_mean (D : Nat) (hD : 0 < D) (n : Nat) (std : ℝ) (q : ℚ) (hq : binomialPFromStd n std = .ok (q : ℝ)) (k : Nat) (hk : q = k / D)
    (h0 : 0 ≤ q) (h1 : q ≤ 1) {L : Nat} (g : Fin L → Int) (u : List ℚ) (hu : u.length = L) (hlt : ∀ x ∈ u, x < 1) (others : Fin L → Nat) (i : Fin L) :
    let heads (toss : Fin n → Fin D) := Nat.card {c : Fin n // ((toss c : Nat) : ℚ) / D < q}
    ∃ after : (Fin n → Fin D) → Int,
      (∀ toss, ∃ g', genomeMutateBinomial n (.scalar std) (.all (none, none)) none (some 1) u (List.ofFn (Function.update others i (heads toss)))
          (List.ofFn g) = .ok g' ∧ g'[(i : Nat)]? = some (after toss)) ∧
      mean (fun toss => ((after toss - g i : Int) : ℚ)) = n * q - ⌊n * q⌋ := by
  intro heads
  refine ⟨fun toss => g i + ((heads toss : Int) - ⌊(n : ℚ) * q⌋), ?_, ?_⟩
  · intro toss
    have hall : ∀ l : List ℚ, (∀ x ∈ l, x < 1) → l.countP (fun x => decide (x < 1)) = l.length := by
      intro l hl
      rw [List.countP_eq_length]
      intro x hx; simpa using hl x hx
    obtain ⟨g', e, hl, hs⟩ := binomial_mutation_bounded n (.scalar std) (.all (none, none)) none (some 1) u
      (List.ofFn (Function.update others i (heads toss))) (List.ofFn g) 1 (.scalar (q : ℝ)) (.inl ⟨rfl, rfl⟩) (by norm_num) le_rfl (by simpa using hu)
      (by simp [binomialParams, hq]) trivial (by rw [hall u hlt]; simp [hu]) trivial
      (by intro i b hb; simp only [boundAt, Option.some.injEq] at hb; subst hb; simp [Proper])
    refine ⟨g', e, ?_⟩
    have hiu : (i : Nat) < u.length := by rw [hu]; exact i.2
    obtain ⟨b, y, hb, hy, -, -, c2⟩ := hs i _ _ (List.getElem?_eq_getElem hiu) (ofFn_get g i)
    obtain ⟨m, q', hm, hq', hyv⟩ := c2 (hlt _ (List.getElem_mem hiu))
    simp only [boundAt, Option.some.injEq] at hb
    subst hb
    simp only [paramAt, Option.some.injEq] at hq'
    subst hq'
    have hidx : (u.take i).countP (fun v => decide (v < 1)) = i := by
      rw [hall _ (fun x hx => hlt x (List.mem_of_mem_take hx)), List.length_take]; omega
    rw [hidx, ofFn_get, Function.update_self, Option.some.injEq] at hm
    subst hm
    have hfl : ⌊(n : ℝ) * (q : ℝ)⌋ = ⌊(n : ℚ) * q⌋ := by
      rw [show (n : ℝ) * (q : ℝ) = (((n : ℚ) * q : ℚ) : ℝ) by push_cast; ring]
      exact Rat.floor_cast _
    rw [hy, hyv, hfl]
    rfl
  · have hone : mean (fun toss : Fin n → Fin D => (heads toss : ℚ)) = n * q := by
      rw [mean_count (fun (c : Fin n) (toss : Fin n → Fin D) => ((toss c : Nat) : ℚ) / D < q)]
      have : ∀ c : Fin n, chance (fun toss : Fin n → Fin D => ((toss c : Nat) : ℚ) / D < q) = q := by
        intro c
        rw [chance_coord hD c (fun x : Fin D => ((x : Nat) : ℚ) / D < q)]
        exact (below_near D hD q h0 h1).2.2.2 k hk
      simp only [this]
      simp
    generalize hF : ⌊(n : ℚ) * q⌋ = F
    have hcard : (0 : ℚ) < (Nat.card (Fin n → Fin D) : ℚ) := by
      have : Nonempty (Fin D) := ⟨⟨0, hD⟩⟩
      exact_mod_cast Nat.card_pos
    have hsum : (∑ toss : Fin n → Fin D, (((g i + ((heads toss : Int) - F) - g i : Int)) : ℚ)) =
        (∑ toss : Fin n → Fin D, (heads toss : ℚ)) - Nat.card (Fin n → Fin D) * F := by
      have hc : (Nat.card (Fin n → Fin D) : ℚ) * F = ∑ _toss : Fin n → Fin D, (F : ℚ) := by
        rw [Finset.sum_const, Finset.card_univ, nsmul_eq_mul, Nat.card_eq_fintype_card]
      rw [hc, ← Finset.sum_sub_distrib]
      apply Finset.sum_congr rfl
      intro t _
      push_cast
      ring
    rw [← hone]
    unfold mean
    show (∑ toss : Fin n → Fin D, (((g i + ((heads toss : Int) - F) - g i : Int)) : ℚ)) / _ = _
    rw [hsum, sub_div, mul_div_cancel_left₀ _ hcard.ne']

/-- The documented claim: a mutated gene is centred on its old value. -/
def BinomialIsCentred : Prop :=
  ∀ (D n k : Nat) (std : ℝ) (q : ℚ), 0 < D → binomialPFromStd n std = .ok (q : ℝ) → q = k / D → 0 ≤ q → q ≤ 1 → ∀ g : Int,
    ∃ after : (Fin n → Fin D) → Int,
      (∀ toss, genomeMutateBinomial n (.scalar std) (.all (none, none)) none (some 1) [0] [Nat.card {c : Fin n // ((toss c : Nat) : ℚ) / D < q}] [g] =
        .ok [after toss]) ∧
      mean (fun toss => (after toss : ℚ)) = g

/-- **C95** (finding). With 9 tosses and a standard deviation of 3/2 (a fair coin) genes move up by 1/2 on average. -/
theorem binomial_not_centred : ¬ BinomialIsCentred := by
  intro h
  have hp : binomialPFromStd 9 (3 / 2) = .ok (((1 / 2 : ℚ)) : ℝ) := by
    have h1 : (1 - 4 * (3 / 2 : ℝ) ^ 2 / (9 : Nat)) = 0 := by norm_num
    have h2 : ¬ (4 * (3 / 2 : ℝ) ^ 2 / (9 : Nat) > 1) := by norm_num
    simp only [binomialPFromStd, if_neg h2, h1, Real.sqrt_zero]
    norm_num
  obtain ⟨after, ha, hm⟩ := h 2 9 1 (3 / 2) (1 / 2) (by decide) hp (by norm_num) (by norm_num) (by norm_num) 0
  obtain ⟨after', ha', hm'⟩ := binomial_mean 2 (by decide) 9 (3 / 2) (1 / 2) hp 1 (by norm_num) (by norm_num) (by norm_num) (L := 1) (fun _ => 0) [0] rfl
    (by simp) (fun _ => 0) 0
  have hsame : ∀ t, after t = after' t := by
    intro t
    obtain ⟨g', e, hg⟩ := ha' t
    have hl : List.ofFn (Function.update (fun _ : Fin 1 => 0) 0 (Nat.card {c : Fin 9 // ((t c : Nat) : ℚ) / (2 : Nat) < 1 / 2})) =
        [Nat.card {c : Fin 9 // ((t c : Nat) : ℚ) / (2 : Nat) < 1 / 2}] := by
      simp
    have hg0 : List.ofFn (fun _ : Fin 1 => (0 : Int)) = [0] := by simp
    rw [hl, hg0, ha t] at e
    injection e with e
    subst e
    simpa using hg
  have : mean (fun t => (after t : ℚ)) = mean (fun t => ((after' t - 0 : Int) : ℚ)) := mean_congr (fun t => by rw [hsame t]; simp)
  rw [this, hm'] at hm
  have hf : ⌊((9 : Nat) : ℚ) * (1 / 2)⌋ = 4 := by rw [Int.floor_eq_iff]; norm_num
  rw [hf] at hm
  norm_num at hm

end Leap
