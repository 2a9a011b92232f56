import Verif.Lemmas.Wheel
import Verif.Lemmas.Gen

/-!
# C15, C16: fitness-proportional selection and stochastic universal sampling
-/

namespace Leap
open Spec

variable {α : Type}

/-! ## C15 population values and proportional selection -/

/-- C15: with a numeric offset the value of each individual is `(key + offset) ^ exponent`. -/
theorem population_values_num (key : α → ℚ) (q : ℚ) (e : Nat) (population : List α) :
    computePopulationValues key (.num q) e population =
      .ok (population.map fun a => (key a + q) ^ e) := by
  simp [computePopulationValues]

/-- C15: with `offset='pop-min'` values are taken relative to the smallest key in the population,
so that none is negative and (for a positive exponent) the smallest is 0; an empty population
raises `ValueError`. -/
theorem population_values_pop_min (key : α → ℚ) (e : Nat) (population : List α) :
    (population = [] → computePopulationValues key .popMin e population = .error .valueError) ∧
    (population ≠ [] → ∃ low ∈ population, (∀ a ∈ population, key low ≤ key a) ∧
      computePopulationValues key .popMin e population =
        .ok (population.map fun a => (key a - key low) ^ e) ∧
      (∀ v ∈ population.map fun a => (key a - key low) ^ e, 0 ≤ v)) := by
  constructor
  · rintro rfl; rfl
  · intro hne
    cases hm : npMin (population.map key) with
    | error err =>
      cases population with
      | nil => exact absurd rfl hne
      | cons a as => simp [npMin] at hm
    | ok m =>
      obtain ⟨hmem, hle⟩ := npMin_spec hm
      obtain ⟨low, hlow, rfl⟩ := List.mem_map.mp hmem
      have hle' : ∀ a ∈ population, key low ≤ key a := fun a ha =>
        hle _ (List.mem_map_of_mem ha)
      refine ⟨low, hlow, hle', ?_, ?_⟩
      · simp [computePopulationValues, hm, sub_eq_add_neg]
      · intro v hv
        obtain ⟨a, ha, rfl⟩ := List.mem_map.mp hv
        exact pow_nonneg (by linarith [hle' a ha]) _

example : computePopulationValues (fun x : ℚ => x) .popMin 2 [3, 1, 2] = .ok [4, 0, 1] := by
  decide +kernel

/-- C15: with no negative value and a positive total, the selection weights are non-negative, sum
to one, and each is the individual's value divided by the total. -/
theorem proportional_weights_normalised (key : α → ℚ) (offset : Offset) (e : Nat)
    (population : List α) (values : List ℚ)
    (hv : computePopulationValues key offset e population = .ok values)
    (hnn : ∀ v ∈ values, 0 ≤ v) (hpos : 0 < values.sum) :
    ∃ weights, proportionalWeights key offset e population = .ok weights ∧
      weights.length = values.length ∧ (∀ w ∈ weights, 0 ≤ w) ∧ weights.sum = 1 ∧
      ∀ (i : Nat) (v : ℚ), values[i]? = some v → weights[i]? = some (v / values.sum) := by
  refine ⟨values.map fun v => v / values.sum, ?_, by simp, ?_, ?_, ?_⟩
  · have h1 : values.any (fun v => decide (v < 0)) = false := by
      rw [List.any_eq_false]; intro v hvm; simpa using hnn v hvm
    have h2 : values ≠ [] := by rintro rfl; simp at hpos
    simp [proportionalWeights, hv, h1, h2, hpos.ne']
  · intro w hw
    obtain ⟨v, hvm, rfl⟩ := List.mem_map.mp hw
    exact div_nonneg (hnn v hvm) hpos.le
  · rw [sum_map_div, div_self hpos.ne']
  · intro i v hi; simp [hi]

/-- C15: a negative value makes the selection raise `ValueError`; so does a total of zero; an empty
population raises `IndexError`. -/
theorem proportional_errors (key : α → ℚ) (offset : Offset) (e : Nat) (draw : Nat → ℚ)
    (population : List α) (values : List ℚ) (r : Nat)
    (hv : computePopulationValues key offset e population = .ok values) :
    ((∃ v ∈ values, v < 0) →
      proportionalSelection key offset e draw population r () = .error .valueError) ∧
    (population = [] →
      proportionalSelection key offset e draw population r () = .error .indexError) ∧
    (population ≠ [] → values.sum = 0 →
      proportionalSelection key offset e draw population r () = .error .valueError) := by
  have hlen : values.length = population.length := values_length hv
  refine ⟨?_, ?_, ?_⟩
  · rintro ⟨v, hvm, hneg⟩
    have h1 : values.any (fun v => decide (v < 0)) = true := by
      rw [List.any_eq_true]; exact ⟨v, hvm, by simpa using hneg⟩
    simp [proportionalSelection, proportionalWeights, hv, h1]
  · rintro rfl
    have : values = [] := List.length_eq_zero_iff.mp (by simpa using hlen)
    subst this
    simp [proportionalSelection, proportionalWeights, hv]
  · intro hne hz
    have h2 : values ≠ [] := by
      rintro rfl
      exact hne (List.length_eq_zero_iff.mp (by simpa using hlen.symm))
    by_cases h1 : values.any (fun v => decide (v < 0)) = true
    · simp [proportionalSelection, proportionalWeights, hv, h1]
    · simp [proportionalSelection, proportionalWeights, hv, h1, h2, hz]

/-- C15: which individual is yielded is decided by where the random number falls on the wheel:
individual `j` is chosen exactly for the `u` in `[S_j / T, S_{j+1} / T)`, an interval whose length is its
share `v_j / T` of the total. -/
theorem proportional_draw_interval (key : α → ℚ) (offset : Offset) (e : Nat) (draw : Nat → ℚ)
    (population : List α) (values : List ℚ) (r : Nat)
    (hv : computePopulationValues key offset e population = .ok values)
    (hnn : ∀ v ∈ values, 0 ≤ v) (hpos : 0 < values.sum)
    (hu0 : 0 ≤ draw r) (hu1 : draw r < 1) :
    ∃ i a, proportionalSelection key offset e draw population r () = .ok ((i, a), r + 1, ()) ∧
      population[i]? = some a ∧
      ∀ j, j < population.length →
        (i = j ↔ wheel values j / values.sum ≤ draw r ∧ draw r < wheel values (j + 1) / values.sum) := by
  have hlen : values.length = population.length := values_length hv
  have h1 : values.any (fun v => decide (v < 0)) = false := by
    rw [List.any_eq_false]; intro v hvm; simpa using hnn v hvm
  have h2 : values ≠ [] := by rintro rfl; simp at hpos
  have hw : proportionalWeights key offset e population =
      .ok (values.map fun v => v / values.sum) := by
    simp [proportionalWeights, hv, h1, h2, hpos.ne']
  set ws := values.map fun v => v / values.sum with hws
  have hsum : ws.sum = 1 := by rw [hws, sum_map_div, div_self hpos.ne']
  have hwne : ws ≠ [] := by simpa [hws] using h2
  have hwnn : ∀ w ∈ ws, 0 ≤ w := by
    intro w hwm
    obtain ⟨v, hvm, rfl⟩ := List.mem_map.mp hwm
    exact div_nonneg (hnn v hvm) hpos.le
  obtain ⟨hb1, hb2, hb3⟩ := bisect_spec ws 0 (draw r * ws.sum) hwne (by rw [hsum]; simpa using hu0)
    (by rw [hsum]; simpa using hu1)
  have hc : choicesIndex ws (draw r) = .ok (choicesIndex.bisect 0 (draw r * ws.sum) ws) := by
    cases hcw : ws with
    | nil => exact absurd hcw hwne
    | cons w t =>
      rw [hcw] at hsum
      simp only [choicesIndex]
      rw [if_neg (by rw [hsum]; norm_num)]
  set i := choicesIndex.bisect 0 (draw r * ws.sum) ws with hi
  have hil : i < population.length := by
    have : ws.length = population.length := by simp [hws, hlen]
    omega
  refine ⟨i, population[i], ?_, by simp, ?_⟩
  · simp [proportionalSelection, hw, hc, List.getElem?_eq_getElem hil]
  · intro j hj
    rw [hsum, mul_one, zero_add] at hb2 hb3
    have hwj : ∀ k, wheel values k / values.sum = wheel ws k := fun k => by
      rw [hws, wheel_map_div]
    rw [hwj, hwj]
    constructor
    · rintro rfl; exact ⟨hb2, hb3⟩
    · rintro ⟨h3, h4⟩; exact slice_unique hwnn hb2 hb3 h3 h4

example : proportionalSelection (fun x : ℚ => x) (.num 0) 1 (fun _ => 3 / 4) [1, 0, 2] 0 () =
    .ok ((2, 2), 1, ()) := by decide +kernel

/-! ## C16 stochastic universal sampling -/

/-- The English claim of C16 about one pass: every individual is chosen as often as its share of the
wheel allows, rounded down or up. `chosen` are the positions chosen. -/
def Spec.FairPass (values : List ℚ) (n : Nat) (chosen : List Nat) : Prop :=
  ∀ (i : Nat) (v : ℚ), values[i]? = some v →
    (chosen.count i : Int) = ⌊n * v / values.sum⌋ ∨ (chosen.count i : Int) = ⌈n * v / values.sum⌉

theorem sus_setup_ok (key : α → ℚ) (offset : Offset) (e : Nat) (n : Option Int) (N : Nat)
    (population : List α) (values : List ℚ)
    (hn : n.getD population.length = (N : Int)) (hN : 0 < N)
    (hv : computePopulationValues key offset e population = .ok values)
    (hnn : ∀ v ∈ values, 0 ≤ v) :
    susSetup key offset e n population = .ok (N, values, values.sum / N) := by
  have h1 : values.any (fun v => decide (v < 0)) = false := by
    rw [List.any_eq_false]; intro v hvm; simpa using hnn v hvm
  cases n with
  | none =>
    simp only [Option.getD_none] at hn
    simp only [susSetup, hv, h1, hn]
    rw [if_neg (by omega)]
    simp
  | some k =>
    simp only [Option.getD_some] at hn
    subst hn
    simp only [susSetup, hv, h1]
    rw [if_neg (by omega)]
    simp

/-- C16: `sus_selection` with `N` points never raises on non-negative values with a positive total.
Look at pass number `m`, i.e. at yields `m*N, …, m*N + N - 1`, and let `x ∈ [0, total/N)` be the random
start of that pass. Each yielded individual is the one at the position reported, and
* if `x > 0`, or the last individual has positive weight, the pass is fair: each individual is
  chosen `⌊N·v/total⌋` or `⌈N·v/total⌉` times;
* if `x > 0`, individuals are chosen in population order and none of weight 0 is chosen.
Missing from the full claim: the case `x = 0`, where it is false (see
`sus_zero_start_chooses_weightless`). -/
theorem sus_pass_fair_partial (key : α → ℚ) (offset : Offset) (e : Nat) (n : Option Int) (N : Nat)
    (shuffle : Bool) (start : Nat → ℚ) (population : List α) (values : List ℚ)
    (hn : n.getD population.length = (N : Int)) (hN : 0 < N)
    (hv : computePopulationValues key offset e population = .ok values)
    (hnn : ∀ v ∈ values, 0 ≤ v) (hpos : 0 < values.sum)
    (hstart : ∀ r, 0 ≤ start r ∧ start r < values.sum / N) (m : Nat) :
    ∃ before s pass s',
      pull (susSelection key offset e n shuffle start population) (m * N) none () =
        .ok (before, s, ()) ∧
      pull (susSelection key offset e n shuffle start population) N s () = .ok (pass, s', ()) ∧
      pass.length = N ∧
      (∀ y ∈ pass, population[y.1]? = some y.2) ∧
      (0 < start (if shuffle then m else 0) ∨ (∃ v, values.getLast? = some v ∧ 0 < v) →
        FairPass values N (pass.map Prod.fst)) ∧
      (0 < start (if shuffle then m else 0) →
        (pass.map Prod.fst).Pairwise (· ≤ ·) ∧
        ∀ y ∈ pass, ∃ v, values[y.1]? = some v ∧ 0 < v) := by
  have hlen : values.length = population.length := values_length hv
  have hne : population ≠ [] := by
    rintro rfl
    have : values = [] := List.length_eq_zero_iff.mp (by simpa using hlen)
    subst this; simp at hpos
  have hNq : (0 : ℚ) < N := by exact_mod_cast hN
  set sp := values.sum / N with hspd
  have hsp : 0 < sp := div_pos hpos hNq
  have hT : values.sum = N * sp := by rw [hspd]; field_simp
  have hgen : susSelection key offset e n shuffle start population =
      susGen start shuffle N values sp population := by
    funext s u
    simp only [susSelection, sus_setup_ok key offset e n N population values hn hN hv hnn, susGen]
    rfl
  rw [hgen]
  obtain ⟨before, s, pass, s', e1, e2, hl, hspec⟩ := susGen_passes (start := start)
    (shuffle := shuffle) (n := N) (vs := values) (sp := sp) hlen hne hN hsp.le (by
      intro r j hj
      have h1 := (hstart r).2
      have h2 : ((j : ℚ) + 1) ≤ N := by exact_mod_cast hj
      have h3 : ((j : ℚ) + 1) * sp ≤ N * sp := by exact mul_le_mul_of_nonneg_right h2 hsp.le
      rw [hT]; linarith) m
  obtain ⟨hx0, hx1⟩ := hstart (if shuffle then m else 0)
  set x := start (if shuffle then m else 0) with hxd
  have hlast : 0 < values.length := by
    rw [hlen]; exact List.length_pos_iff.mpr hne
  refine ⟨before, s, pass, s', e1, e2, hl, ?_, ?_, ?_⟩
  · intro y hy
    obtain ⟨t, ht, rfl⟩ := List.getElem_of_mem hy
    obtain ⟨i, a, h1, h2, -⟩ := hspec t (by omega)
    rw [List.getElem?_eq_getElem ht, Option.some.injEq] at h1
    rw [h1]; exact h2
  · intro hcase i v hi
    have hil : i < values.length := by
      rcases Nat.lt_or_ge i values.length with h | h
      · exact h
      · rw [List.getElem?_eq_none h] at hi; simp at hi
    have hvi : values[i] = v := by
      rw [List.getElem?_eq_getElem hil, Option.some.injEq] at hi; exact hi
    have hvnn : 0 ≤ v := by rw [← hvi]; exact hnn _ (List.getElem_mem hil)
    have hws : wheel values (i + 1) = wheel values i + v := by rw [wheel_succ hil, hvi]
    set a := (wheel values i - x) / sp with had
    set b := (wheel values (i + 1) - x) / sp with hbd
    have hb : b = a + N * v / values.sum := by
      rw [hbd, had, hws, hT]; field_simp; ring
    have hw0 : 0 ≤ wheel values i := by
      have := wheel_mono hnn (Nat.zero_le i); rwa [wheel_zero] at this
    have ha1 : -1 ≤ a := by
      rw [had, le_div_iff₀ hsp]; linarith
    have hab : a ≤ b := by
      rw [hb]
      have : 0 ≤ N * v / values.sum := by positivity
      linarith
    have hmem : ∀ t : Nat, (wheel values i < x + t * sp ∧ x + t * sp ≤ wheel values (i + 1)) ↔
        (a < (t : ℚ) ∧ (t : ℚ) ≤ b) := by
      intro t
      rw [had, hbd, div_lt_iff₀ hsp, le_div_iff₀ hsp]
      constructor <;> rintro ⟨h1, h2⟩ <;> constructor <;> linarith
    have hcount : ((pass.map Prod.fst).count i : Int) = ⌊b⌋ - ⌊a⌋ := by
      rw [List.count_eq_countP, List.countP_map]
      by_cases hx : 0 < x
      · rw [countP_of_pointwise pass N hl _
          (fun t : Nat => decide (a < (t : ℚ) ∧ (t : ℚ) ≤ b))]
        · apply countP_range_Ioc N a b ha1 hab
          rw [hbd, div_lt_iff₀ hsp, ← hT]
          have := wheel_le_sum hnn (i + 1)
          linarith
        · intro t y hy
          have htN : t < N := by
            rcases Nat.lt_or_ge t pass.length with h | h
            · omega
            · rw [List.getElem?_eq_none h] at hy; simp at hy
          obtain ⟨i', a', h1, h2, h3⟩ := hspec t htN
          rw [hy, Option.some.injEq] at h1
          subst h1
          have hpt : 0 < x + t * sp := by positivity
          rcases h3 with ⟨h3, -⟩ | ⟨-, h3, h4, h5⟩
          · linarith
          · rw [Bool.eq_iff_iff]
            simp only [Function.comp, beq_iff_eq, decide_eq_true_eq]
            rw [← hmem t]
            constructor
            · rintro rfl; exact ⟨h4, h5⟩
            · rintro ⟨h6, h7⟩; exact slice_unique' hnn h4 h5 h6 h7
      · have hx' : x = 0 := by linarith
        obtain ⟨lv, hlv, hlvpos⟩ : ∃ v, values.getLast? = some v ∧ 0 < v := by
          rcases hcase with h | h
          · exact absurd h hx
          · exact h
        have hlvi : values[values.length - 1]'(by omega) = lv := by
          rw [List.getLast?_eq_getElem?, List.getElem?_eq_getElem (by omega)] at hlv
          simpa using hlv
        have hwl : values.sum = wheel values (values.length - 1) + lv := by
          rw [← hlvi, ← wheel_succ (by omega), show values.length - 1 + 1 = values.length by omega,
            wheel_length]
        have ha0 : 0 ≤ a := by rw [had, hx']; apply div_nonneg _ hsp.le; linarith
        have hpt : ∀ (t : Nat) (y : Nat × α), pass[t]? = some y →
            ((t = 0 → y.1 + 1 = values.length) ∧
             (t ≠ 0 → (y.1 = i ↔ (a < (t : ℚ) ∧ (t : ℚ) ≤ b)))) := by
          intro t y hy
          have htN : t < N := by
            rcases Nat.lt_or_ge t pass.length with h | h
            · omega
            · rw [List.getElem?_eq_none h] at hy; simp at hy
          obtain ⟨i', a', h1, h2, h3⟩ := hspec t htN
          rw [hy, Option.some.injEq] at h1
          subst h1
          constructor
          · rintro rfl
            rcases h3 with ⟨-, h3⟩ | ⟨h3, -⟩
            · simpa [hlen] using h3
            · rw [hx'] at h3; simp at h3
          · intro ht
            have htp : (0 : ℚ) < t := by exact_mod_cast Nat.pos_of_ne_zero ht
            have : 0 < x + t * sp := by positivity
            rcases h3 with ⟨h3, -⟩ | ⟨-, h3, h4, h5⟩
            · linarith
            · rw [← hmem t]
              constructor
              · rintro rfl; exact ⟨h4, h5⟩
              · rintro ⟨h6, h7⟩; exact slice_unique' hnn h4 h5 h6 h7
        by_cases hil' : i + 1 = values.length
        · -- the last individual also gets the point 0, which stands for the missing point `total`
          have hbN : b = N := by
            rw [hbd, hil', wheel_length, hx', hT]; field_simp; ring
          have haN : a < N := by
            rw [had, div_lt_iff₀ hsp, ← hT, hx', hwl, show values.length - 1 = i by omega]
            linarith
          rw [countP_of_pointwise pass N hl _
            (fun t : Nat => decide (t < 1) || decide (a < (t : ℚ) ∧ (t : ℚ) ≤ b))]
          · rw [countP_split _ (fun t : Nat => decide (a < (t : ℚ) ∧ (t : ℚ) ≤ b)) _
              (by intro t _ h; simp only [h, Bool.or_true])]
            have e1 : (List.range N).countP (fun t : Nat =>
                (decide (t < 1) || decide (a < (t : ℚ) ∧ (t : ℚ) ≤ b)) &&
                  !decide (a < (t : ℚ) ∧ (t : ℚ) ≤ b)) = 1 := by
              have : (fun t : Nat =>
                (decide (t < 1) || decide (a < (t : ℚ) ∧ (t : ℚ) ≤ b)) &&
                  !decide (a < (t : ℚ) ∧ (t : ℚ) ≤ b)) = (fun t => decide (t < 1)) := by
                funext t
                by_cases ht : t < 1
                · have : t = 0 := by omega
                  subst this
                  simp [ha0]
                · simp only [ht, decide_false, Bool.false_or]
                  cases decide (a < (t : ℚ) ∧ (t : ℚ) ≤ b) <;> rfl
              rw [this, countP_range_lt]; omega
            have e2 := countP_range_Ioc (N + 1) a b ha1 hab (by rw [hbN]; push_cast; linarith)
            rw [List.range_succ, List.countP_append] at e2
            have e3 : (List.countP (fun t : Nat => decide (a < (t : ℚ) ∧ (t : ℚ) ≤ b)) [N]) = 1 := by
              simp [haN, hbN]
            rw [e1]
            push_cast at e2 ⊢
            omega
          · intro t y hy
            obtain ⟨h1, h2⟩ := hpt t y hy
            rw [Bool.eq_iff_iff]
            simp only [Function.comp, beq_iff_eq, Bool.or_eq_true, decide_eq_true_eq]
            by_cases ht : t = 0
            · have := h1 ht
              constructor
              · intro _; left; omega
              · intro _; omega
            · rw [h2 ht]
              constructor
              · intro h; exact Or.inr h
              · rintro (h | h)
                · omega
                · exact h
        · rw [countP_of_pointwise pass N hl _
            (fun t : Nat => decide (a < (t : ℚ) ∧ (t : ℚ) ≤ b))]
          · apply countP_range_Ioc N a b ha1 hab
            rw [hbd, div_lt_iff₀ hsp, ← hT, hwl, hx']
            have := wheel_mono hnn (show i + 1 ≤ values.length - 1 by omega)
            linarith
          · intro t y hy
            obtain ⟨h1, h2⟩ := hpt t y hy
            rw [Bool.eq_iff_iff]
            simp only [Function.comp, beq_iff_eq, decide_eq_true_eq]
            by_cases ht : t = 0
            · have := h1 ht
              constructor
              · intro h; omega
              · rintro ⟨h, -⟩
                rw [ht] at h; push_cast at h; linarith
            · exact h2 ht
    rw [hcount, hb]
    exact floor_diff a _
  · intro hx
    have hhit : ∀ (t : Nat) (y : Nat × α), pass[t]? = some y → y.1 < values.length ∧
        wheel values y.1 < x + t * sp ∧ x + t * sp ≤ wheel values (y.1 + 1) := by
      intro t y hy
      have htN : t < N := by
        rcases Nat.lt_or_ge t pass.length with h | h
        · omega
        · rw [List.getElem?_eq_none h] at hy; simp at hy
      obtain ⟨i', a', h1, h2, h3⟩ := hspec t htN
      rw [hy, Option.some.injEq] at h1
      subst h1
      have hpt : 0 < x + t * sp := by positivity
      rcases h3 with ⟨h3, -⟩ | ⟨-, h3, h4, h5⟩
      · linarith
      · exact ⟨by omega, h4, h5⟩
    constructor
    · rw [List.pairwise_iff_getElem]
      intro t t' ht ht' htt
      simp only [List.length_map] at ht ht'
      simp only [List.getElem_map]
      obtain ⟨-, h1, h2⟩ := hhit t pass[t] (List.getElem?_eq_getElem ht)
      obtain ⟨-, h3, h4⟩ := hhit t' pass[t'] (List.getElem?_eq_getElem ht')
      by_contra hcon
      have h5 := wheel_mono hnn (show pass[t'].1 + 1 ≤ pass[t].1 by omega)
      have h6 : (t : ℚ) ≤ t' := by exact_mod_cast htt.le
      have h7 : (t : ℚ) * sp ≤ t' * sp := mul_le_mul_of_nonneg_right h6 hsp.le
      linarith
    · intro y hy
      obtain ⟨t, ht, rfl⟩ := List.getElem_of_mem hy
      obtain ⟨h1, h2, h3⟩ := hhit t pass[t] (List.getElem?_eq_getElem ht)
      refine ⟨values[pass[t].1], List.getElem?_eq_getElem h1, ?_⟩
      rw [wheel_succ h1] at h3
      linarith

/-- A concrete pass: 4 points over the weights 1, 0, 3 with start 1/2. -/
example : (pull (susSelection (fun x : ℚ => x) (.num 0) 1 (some 4) true (fun _ => 1 / 2) [1, 0, 3])
    4 none ()).map (fun r => r.1.map Prod.fst) = .ok [0, 2, 2, 2] := by decide +kernel

/-- The full claim of C16 about the first pass, for every start that `np.random.uniform` may
return: fair, and nothing of weight 0 is chosen. -/
def SusNeverChoosesWeightless : Prop :=
  ∀ (population values : List ℚ) (start : Nat → ℚ) (n : Nat),
    computePopulationValues (fun x => x) (.num 0) 1 population = .ok values → 0 < n →
    (∀ v ∈ values, 0 ≤ v) → 0 < values.sum → (∀ r, 0 ≤ start r ∧ start r < values.sum / n) →
    ∀ pass s', pull (susSelection (fun x => x) (.num 0) 1 (some n) true start population) n none () =
      .ok (pass, s', ()) → ∀ y ∈ pass, values[y.1]? ≠ some 0

/-- C16, disagreement: the claim is false of the code. With values 1, 0 and a random start of exactly
0, the first individual chosen is the last one, whose weight is 0. -/
theorem sus_zero_start_chooses_weightless : ¬ SusNeverChoosesWeightless := by
  intro h
  have := h [1, 0] [1, 0] (fun _ => 0) 1 (by decide +kernel) (by decide) (by decide +kernel)
    (by decide +kernel) (by intro _; decide +kernel) [(1, 0)]
    (some ⟨[0], 1, 0, 0, 1⟩) (by decide +kernel) (1, 0) (by simp)
  simp at this

/-- C16: `sus_selection` rejects a non-positive number of points and negative values with
`ValueError`. -/
theorem sus_errors (key : α → ℚ) (offset : Offset) (e : Nat) (n : Option Int) (shuffle : Bool)
    (start : Nat → ℚ) (population : List α) (s : Option SusState) :
    (n.getD population.length ≤ 0 →
      susSelection key offset e n shuffle start population s () = .error .valueError) ∧
    (∀ values, 0 < n.getD population.length →
      computePopulationValues key offset e population = .ok values → (∃ v ∈ values, v < 0) →
      susSelection key offset e n shuffle start population s () = .error .valueError) := by
  constructor
  · intro h
    cases n with
    | none =>
      simp only [Option.getD_none] at h
      simp only [susSelection, susSetup]
      rw [if_pos h]
    | some k =>
      simp only [Option.getD_some] at h
      simp only [susSelection, susSetup]
      rw [if_pos h]
  · rintro values h hv ⟨v, hvm, hneg⟩
    have h1 : values.any (fun v => decide (v < 0)) = true := by
      rw [List.any_eq_true]; exact ⟨v, hvm, by simpa using hneg⟩
    cases n with
    | none =>
      simp only [Option.getD_none] at h
      simp only [susSelection, susSetup, hv, h1]
      rw [if_neg (by omega)]
      simp
    | some k =>
      simp only [Option.getD_some] at h
      simp only [susSelection, susSetup, hv, h1]
      rw [if_neg (by omega)]
      simp

end Leap
