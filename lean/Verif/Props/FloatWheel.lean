import Verif.Lemmas.FloatWheel
import Verif.Lemmas.Wheel
import Verif.Props.FloatDecode

/-!
# C99: proportional selection and stochastic universal sampling in floating point
-/

namespace Leap
open Spec

/-! ### Without rounding -/

theorem susAdvanceF_id (pt : ℚ) (vs : List ℚ) (r : ℚ) (i : Nat) : susAdvanceF id pt vs r i = susAdvance pt vs r i := by
  induction vs generalizing r i with
  | nil => rfl
  | cons v vs ih => simp only [susAdvanceF, susAdvance, id, ih]

theorem accumulateF_id (acc : ℚ) (ws : List ℚ) (i : Nat) (h : i < ws.length) : (accumulateF id acc ws)[i]? = some (acc + wheel ws (i + 1)) := by
  induction ws generalizing acc i with
  | nil => simp at h
  | cons w ws ih =>
    cases i with
    | zero => simp [accumulateF, wheel]
    | succ i =>
      simp only [accumulateF, List.getElem?_cons_succ, id]
      rw [ih _ _ (by simpa using h)]
      simp only [wheel, List.take_succ_cons, List.sum_cons]
      congr 1; ring

/-- Without rounding, one turn of sampling is the turn of the exact model, started at `spacing * u`. -/
theorem sus_step_exact {α : Type} (u : Nat → ℚ) (shuffle : Bool) (n : Nat) (values : List ℚ) (spacing : ℚ) (population : List α)
    (hlen : values.length = population.length) (s : SusState) :
    susStepF id u shuffle n values spacing s =
      (susStep (fun r => spacing * u r) shuffle n values spacing population s).map fun p => (p.1.1, p.2) := by
  have hp : ∀ x, susPointsF id x spacing n = susPoints x spacing n := fun x => rfl
  simp only [susStepF, susStep, hp, susAdvanceF_id, id]
  generalize (if s.selectionIdx = s.points.length then
      if shuffle = true then
        (⟨susPoints (spacing * u s.round) spacing n, 0, 0, 0, s.round + 1⟩ : SusState)
      else { s with selectionIdx := 0, runningSum := 0, populationIdx := 0 }
    else s) = s'
  cases s'.points[s'.selectionIdx]? with
  | none => rfl
  | some pt =>
    simp only
    cases susAdvance pt (values.drop s'.populationIdx) s'.runningSum s'.populationIdx with
    | error e => rfl
    | ok v =>
      obtain ⟨r, i⟩ := v
      simp only [hlen, pyIndex]
      cases hq : pyPos population.length ((i : Int) - 1) with
      | none => rfl
      | some j =>
        have hj : j < population.length := by
          unfold pyPos at hq
          split_ifs at hq <;> simp at hq <;> omega
        simp only [List.getElem?_eq_getElem hj]
        rfl

/-! ### Proportional selection -/

theorem shares_nonneg {values : List ℚ} {total : ℚ} (hv : ∀ v ∈ values, 0 ≤ v) (ht : 0 < total) : ∀ w ∈ values.map (fun v => fl64 (v / total)), 0 ≤ w := by
  intro w hw
  obtain ⟨v, h, rfl⟩ := List.mem_map.mp hw
  exact fl64_nonneg (div_nonneg (hv v h) ht.le)

/-- The sum is at least every summand. -/
theorem le_floatSum {vs : List ℚ} (hv : ∀ v ∈ vs, 0 ≤ v) {v : ℚ} (h : v ∈ vs) (hf : IsFloat v) : v ≤ floatSum vs := by
  obtain ⟨i, hi, rfl⟩ := List.mem_iff_getElem.mp h
  refine le_trans ?_ (floatWheel_le hv (i + 1))
  rw [floatWheel_succ hi]
  conv_lhs => rw [← fl_of_float hf]
  exact fl64_mono (by have := floatWheel_nonneg hv i; linarith)

/-- **C99** (proportional selection). In floating point, whatever was computed for the total, a draw picks an individual whose value is positive: the one on whose slice the
random point falls, where the slices are the computed shares added from left to right. -/
theorem float_proportional (values : List ℚ) (total u : ℚ) (hv : ∀ v ∈ values, 0 ≤ v) (ht : 0 < total)
    (hbig : ∃ v ∈ values, total * 2 ^ (-1000 : Int) ≤ v) (hu0 : 0 ≤ u) (hu1 : u ≤ 1 - 1 / 2 ^ 53) :
    ∃ (j : Nat) (h : j < values.length), proportionalF fl64 values total u = .ok j ∧ 0 < values[j] ∧
      floatWheel (values.map fun v => fl64 (v / total)) j ≤ fl64 (u * floatSum (values.map fun v => fl64 (v / total))) ∧
      fl64 (u * floatSum (values.map fun v => fl64 (v / total))) < floatWheel (values.map fun v => fl64 (v / total)) (j + 1) := by
  obtain ⟨ws, hws⟩ : ∃ ws, ws = values.map fun v => fl64 (v / total) := ⟨_, rfl⟩
  have hw0 : ∀ w ∈ ws, 0 ≤ w := by rw [hws]; exact shares_nonneg hv ht
  have hlen : ws.length = values.length := by rw [hws]; simp
  obtain ⟨v, hvm, hvb⟩ := hbig
  have hne : values ≠ [] := List.ne_nil_of_mem hvm
  have hnw : ws ≠ [] := by intro h; rw [h] at hlen; exact hne (List.eq_nil_of_length_eq_zero hlen.symm)
  have hC : (2 : ℚ) ^ (-1022 : Int) < floatSum ws := by
    have h1 : fl64 (v / total) ≤ floatSum ws := le_floatSum hw0 (by rw [hws]; exact List.mem_map_of_mem hvm) (isFloat_fl64 _)
    have h2 : (2 : ℚ) ^ (-1000 : Int) ≤ v / total := by rw [le_div_iff₀ ht, mul_comm]; exact hvb
    have h3 := fl64_mono h2
    rw [fl_of_float ⟨1, -1000, by norm_num, by norm_num, by simp⟩] at h3
    have h4 : (2 : ℚ) ^ (-1022 : Int) < 2 ^ (-1000 : Int) := zpow_lt_zpow_right₀ (by norm_num) (by norm_num)
    exact lt_of_lt_of_le h4 (h3.trans h1)
  have hx : fl64 (u * floatSum ws) < floatSum ws := by rw [mul_comm]; exact fl64_shrink hC hu1
  have hx0 : 0 ≤ fl64 (u * floatSum ws) := fl64_nonneg (mul_nonneg hu0 ((two_zpow_pos _).le.trans hC.le))
  have hwl : 0 < ws.length := List.length_pos_iff.mpr hnw
  have hlast : (accumulateF fl64 0 ws).getLast? = some (floatSum ws) := by
    rw [List.getLast?_eq_getElem?, accumulateF_length, accumulateF_get ws _ (by omega), show ws.length - 1 + 1 = ws.length by omega, floatWheel_length]
  have hsel : proportionalF fl64 values total u = .ok (bisectF (fl64 (u * floatSum ws)) (accumulateF fl64 0 ws)) := by
    have h1 : values.any (fun v => decide (v < 0)) = false := by
      rw [List.any_eq_false]; intro v hv'; simpa using hv v hv'
    simp only [proportionalF, h1, hne, ht.ne', choicesIndexF, ← hws, hlast, if_neg (not_le.2 ((two_zpow_pos _).trans hC)), Bool.false_eq_true, if_false]
  obtain ⟨j, hjs, hb, hb1, hb2⟩ : ∃ j, proportionalF fl64 values total u = .ok j ∧ ∃ h : j < (accumulateF fl64 0 ws).length,
      fl64 (u * floatSum ws) < (accumulateF fl64 0 ws)[j] ∧ ∀ i (hi : i < j), (accumulateF fl64 0 ws)[i] ≤ fl64 (u * floatSum ws) :=
    ⟨_, hsel, bisectF_spec _ _ _ hlast hx⟩
  have hj : j < ws.length := by rwa [accumulateF_length] at hb
  have hget : ∀ i (hi : i < (accumulateF fl64 0 ws).length), (accumulateF fl64 0 ws)[i] = floatWheel ws (i + 1) := by
    intro i hi
    have := accumulateF_get ws i (by rwa [accumulateF_length] at hi)
    rw [List.getElem?_eq_getElem hi] at this
    exact Option.some.inj this
  have hhi : fl64 (u * floatSum ws) < floatWheel ws (j + 1) := by rw [← hget j hb]; exact hb1
  have hlo : floatWheel ws j ≤ fl64 (u * floatSum ws) := by
    cases j with
    | zero => rw [floatWheel_zero]; exact hx0
    | succ j => rw [← hget j (by omega)]; exact hb2 j (by omega)
  refine ⟨j, by omega, hjs, ?_, by rw [← hws]; exact hlo, by rw [← hws]; exact hhi⟩
  by_contra hc
  have hz : values[j]'(by omega) = 0 := le_antisymm (not_lt.1 hc) (hv _ (List.getElem_mem _))
  have hwz : ws[j] = 0 := by
    have : ws[j] = fl64 ((values[j]'(by omega)) / total) := by simp [hws]
    rw [this, hz, zero_div, fl64_zero]
  have : floatWheel ws (j + 1) = floatWheel ws j := by
    rw [floatWheel_succ hj, hwz, add_zero, floatWheel, floatSum_float]
  linarith

/-- Refused values: a negative one, none at all, or only zeros. -/
theorem float_proportional_refuses (values : List ℚ) (total u : ℚ) :
    ((∃ v ∈ values, v < 0) → proportionalF fl64 values total u = .error .valueError) ∧
    proportionalF fl64 [] total u = .error .indexError ∧
    ((∀ v ∈ values, 0 ≤ v) → values ≠ [] → proportionalF fl64 values 0 u = .error .valueError) := by
  refine ⟨fun h => ?_, by simp [proportionalF], fun h hne => ?_⟩
  · have : values.any (fun v => decide (v < 0)) = true := by
      rw [List.any_eq_true]; obtain ⟨v, h1, h2⟩ := h; exact ⟨v, h1, by simpa using h2⟩
    simp only [proportionalF, this, if_true]
  · have : values.any (fun v => decide (v < 0)) = false := by
      rw [List.any_eq_false]; intro v hv'; simpa using h v hv'
    simp only [proportionalF, this, hne, Bool.false_eq_true, if_false, if_true]

example : proportionalF fl64 [1, 0, 3] 4 (1 - 1 / 2 ^ 53) = .ok 2 ∧ proportionalF fl64 [1, 0, 3] 4 (1 / 4) = .ok 2 ∧ proportionalF fl64 [1, 0, 3] 4 (1 / 5) = .ok 0 := by
  refine ⟨?_, ?_, ?_⟩ <;> decide +kernel

/-! ### Stochastic universal sampling -/

theorem susF_gen {values : List ℚ} {total : ℚ} {n : Int} {shuffle : Bool} {u : Nat → ℚ} (hn : 0 < n) (hv : ∀ v ∈ values, 0 ≤ v) :
    susF fl64 values total n shuffle u = susGenF u shuffle n.toNat values (fl64 (total / n)) := by
  have h1 : values.any (fun v => decide (v < 0)) = false := by
    rw [List.any_eq_false]; intro v hv'; simpa using hv v hv'
  funext s w
  simp only [susF, susGenF, if_neg (not_le.2 hn), h1, Bool.false_eq_true, if_false]
  rfl

/-- **C99** (sampling). In floating point, as long as the points of the passes so far and of this one lie on the wheel, pass number `m` yields `n` individuals, the `t`-th
being the one on whose slice the `t`-th point falls; slices and points as computed with rounding. -/
theorem float_sus_pass (values : List ℚ) (total : ℚ) (n : Nat) (shuffle : Bool) (u : Nat → ℚ) (hn : 0 < n) (hne : values ≠ [])
    (hv : ∀ v ∈ values, 0 ≤ v) (ht : 0 ≤ total) (m : Nat)
    (hle : ∀ r t : Nat, r ≤ (if shuffle then m else 0) → t < n → pointF (fl64 (fl64 (total / n) * u r)) (fl64 (total / n)) t ≤ floatSum values) :
    ∃ before s pass s', pull (susF fl64 values total n shuffle u) (m * n) none () = .ok (before, s, ()) ∧
      pull (susF fl64 values total n shuffle u) n s () = .ok (pass, s', ()) ∧ pass.length = n ∧
      ∀ t, t < n → ∃ i, pass[t]? = some i ∧ HitF values (pointF (fl64 (fl64 (total / n) * u (if shuffle then m else 0))) (fl64 (total / n)) t) i := by
  rw [susF_gen (by exact_mod_cast hn) hv]
  have hsp : 0 ≤ fl64 (total / n) := fl64_nonneg (div_nonneg ht (by positivity))
  simp only [Int.toNat_natCast, Int.cast_natCast]
  obtain ⟨before, s, e, -, hs⟩ := susGenF_passes (u := u) (shuffle := shuffle) hne hn hsp m (fun r t hr ht' => hle r t (by cases shuffle <;> simp_all; omega) ht')
  obtain ⟨out, k, e2, hl, -, hspec⟩ := susGenF_pass (u := u) (shuffle := shuffle) (n := n)
    (x := fl64 (fl64 (total / n) * u (if shuffle then m else 0))) hne hsp n 0 0
    (if shuffle then m + 1 else 1) (by omega) (by omega) (fun t _ h => hle _ t (le_refl _) (by omega)) (by omega)
  rw [floatWheel_zero, ← pull_congr_first hs hn] at e2
  exact ⟨before, s, out, _, e, e2, hl, by simpa using hspec⟩

/-- **C99** (sampling beyond the wheel). When a pass has a point beyond the rounded sum of the values, the generator raises `IndexError` at the first such point. -/
theorem float_sus_breaks (values : List ℚ) (total : ℚ) (n : Nat) (shuffle : Bool) (u : Nat → ℚ) (hne : values ≠ [])
    (hv : ∀ v ∈ values, 0 ≤ v) (ht : 0 ≤ total) (m t : Nat) (htn : t < n)
    (hle : ∀ r t : Nat, r < (if shuffle then m else min m 1) → t < n → pointF (fl64 (fl64 (total / n) * u r)) (fl64 (total / n)) t ≤ floatSum values)
    (hbefore : ∀ i, i < t → pointF (fl64 (fl64 (total / n) * u (if shuffle then m else 0))) (fl64 (total / n)) i ≤ floatSum values)
    (hat : floatSum values < pointF (fl64 (fl64 (total / n) * u (if shuffle then m else 0))) (fl64 (total / n)) t) :
    pull (susF fl64 values total n shuffle u) (m * n + t + 1) none () = .error .indexError := by
  have hn : 0 < n := by omega
  rw [susF_gen (by exact_mod_cast hn) hv]
  have hsp : 0 ≤ fl64 (total / n) := fl64_nonneg (div_nonneg ht (by positivity))
  simp only [Int.toNat_natCast, Int.cast_natCast]
  have hb := fun r => susGenF_breaks (u := u) (shuffle := shuffle) hne hv hsp r t htn hbefore hat
  obtain ⟨before, s, e, -, hs⟩ : ∃ before s, pull (susGenF u shuffle n values (fl64 (total / n))) (m * n) none () = .ok (before, s, ()) ∧ before.length = m * n ∧
      susGenF u shuffle n values (fl64 (total / n)) s () = susGenF u shuffle n values (fl64 (total / n))
        (some ⟨susPointsF fl64 (fl64 (fl64 (total / n) * u (if shuffle then m else 0))) (fl64 (total / n)) n, 0, 0, 0, if shuffle then m + 1 else 1⟩) () := by
    by_cases hm : m = 0
    · subst hm
      refine ⟨[], none, by simp [pull], by simp, ?_⟩
      cases shuffle <;> simp [susGenF]
    · exact susGenF_passes hne hn hsp m (fun r t hr ht' => hle r t (by cases shuffle <;> simp_all; omega) ht')
  rw [show m * n + t + 1 = m * n + (t + 1) by omega, pull_add_eq, e]
  have := hb (if shuffle then m + 1 else 1)
  rw [← pull_congr_first hs (by omega)] at this
  simp only [this]

/-- **C99** (disagreement). Fifteen individuals with fitnesses 1, 1, 1 and twelve zeros, sampled with the default number of points: with the largest random number the last
point is beyond the sum 3, and selection fails. The exact model never fails. -/
theorem float_sus_index_error :
    pull (susF fl64 ([1, 1, 1] ++ List.replicate 12 0) 3 15 true fun _ => 1 - 1 / 2 ^ 53) 15 none () = .error .indexError := by
  have h := float_sus_breaks ([1, 1, 1] ++ List.replicate 12 0) 3 15 true (fun _ => 1 - 1 / 2 ^ 53) (by simp) (by decide +kernel) (by norm_num) 0 14 (by norm_num)
    (by simp) (by decide +kernel) (by decide +kernel)
  simpa using h

/-! ### Whole-number fitness -/

theorem fl64_nat {k : Nat} (h : k ≤ 2 ^ 53) : fl64 (k : ℚ) = k := by
  have := fl64_int (k : Int) (by rw [abs_of_nonneg (Int.natCast_nonneg _)]; exact_mod_cast h)
  exact_mod_cast this

theorem floatSum_nat (vs : List Nat) (h : vs.sum ≤ 2 ^ 53) : floatSum (vs.map (fun k : Nat => (k : ℚ))) = (vs.sum : Nat) := by
  induction vs using List.reverseRecOn with
  | nil => simp [floatSum]
  | append_singleton l v ih =>
    simp only [List.sum_append, List.sum_cons, List.sum_nil, add_zero] at h ⊢
    rw [List.map_append, List.map_cons, List.map_nil, floatSum_concat, ih (by omega)]
    generalize l.sum = S at *
    rw [← Nat.cast_add]
    exact fl64_nat h

theorem floatWheel_nat (vs : List Nat) (h : vs.sum ≤ 2 ^ 53) (i : Nat) : floatWheel (vs.map (fun k : Nat => (k : ℚ))) i = wheel (vs.map (fun k : Nat => (k : ℚ))) i := by
  have hle : (vs.take i).sum ≤ vs.sum := by
    conv_rhs => rw [← List.take_append_drop i vs, List.sum_append]
    omega
  unfold floatWheel wheel
  rw [← List.map_take, floatSum_nat _ (by omega)]
  rw [Nat.cast_list_sum]

/-- `t` spacings of `S / 2^k` are a floating-point number. -/
theorem spacing_multiple {S k t : Nat} (h0 : 0 < S) (hsum : S * 2 ^ k ≤ 2 ^ 53) (ht : t ≤ 2 ^ k) :
    fl64 ((t : ℚ) * ((S : ℚ) / 2 ^ k)) = t * ((S : ℚ) / 2 ^ k) := by
  have hle : t * S ≤ 2 ^ 53 := by
    calc t * S ≤ 2 ^ k * S := Nat.mul_le_mul_right _ ht
      _ = S * 2 ^ k := Nat.mul_comm _ _
      _ ≤ _ := hsum
  have he : (t : ℚ) * ((S : ℚ) / 2 ^ k) = ((t * S : Nat) : ℚ) * 2 ^ (-(k : Int)) := by
    push_cast; rw [zpow_neg, zpow_natCast]; ring
  have hk53 : k ≤ 53 := by
    by_contra hc
    have h2 : 2 ^ 54 ≤ 2 ^ k := Nat.pow_le_pow_right (by norm_num) (by omega)
    have h3 : 1 * 2 ^ k ≤ S * 2 ^ k := Nat.mul_le_mul_right _ h0
    omega
  apply fl_of_float
  rcases Nat.lt_or_ge (t * S) (2 ^ 53) with h | h
  · refine ⟨((t * S : Nat) : Int), -(k : Int), ?_, by omega, ?_⟩
    · rw [abs_of_nonneg (Int.natCast_nonneg _)]; exact_mod_cast h
    · rw [he, Int.cast_natCast]
  · have : t * S = 2 ^ 53 := by omega
    refine ⟨1, 53 - (k : Int), by norm_num, by omega, ?_⟩
    rw [he, this, sub_eq_add_neg, zpow_add₀ (by norm_num)]
    push_cast; norm_num

/-- **C99** (sampling whole numbers). When the fitnesses are whole numbers, not all zero, and the number of points is a power of two, with `sum * n ≤ 2^53`, sampling never fails:
every pass yields `n` individuals, each the one on whose exact slice the point falls. -/
theorem float_sus_safe (vs : List Nat) (k : Nat) (shuffle : Bool) (u : Nat → ℚ) (hpos : 0 < vs.sum) (hsum : vs.sum * 2 ^ k ≤ 2 ^ 53)
    (hu : ∀ r, 0 ≤ u r ∧ u r ≤ 1) (m : Nat) :
    ∃ before s, ∃ pass : List Nat, ∃ s', pull (susF fl64 (vs.map (fun k : Nat => (k : ℚ))) (vs.sum : Nat) (2 ^ k : Nat) shuffle u) (m * 2 ^ k) none () = .ok (before, s, ()) ∧
      pull (susF fl64 (vs.map (fun k : Nat => (k : ℚ))) (vs.sum : Nat) (2 ^ k : Nat) shuffle u) (2 ^ k) s () = .ok (pass, s', ()) ∧ pass.length = 2 ^ k ∧
      ∀ t : Nat, t < 2 ^ k → ∃ i, pass[t]? = some i ∧ ∃ pt : ℚ,
        pt = fl64 (fl64 ((vs.sum : Nat) / 2 ^ k * u (if shuffle then m else 0)) + t * ((vs.sum : Nat) / 2 ^ k)) ∧
        (pt ≤ 0 ∧ i + 1 = vs.length ∨ 0 < pt ∧ i < vs.length ∧
          wheel (vs.map (fun k : Nat => (k : ℚ))) i < pt ∧ pt ≤ wheel (vs.map (fun k : Nat => (k : ℚ))) (i + 1)) := by
  have hp1 : 1 ≤ 2 ^ k := Nat.one_le_two_pow
  have hs53 : vs.sum ≤ 2 ^ 53 := le_trans (Nat.le_mul_of_pos_right _ hp1) hsum
  have hk53 : 2 ^ k ≤ 2 ^ 53 := le_trans (Nat.le_mul_of_pos_left _ hpos) hsum
  have hv : ∀ v ∈ vs.map (fun k : Nat => (k : ℚ)), 0 ≤ v := by
    intro v h
    obtain ⟨a, -, rfl⟩ := List.mem_map.mp h
    positivity
  have hne : vs.map (fun k : Nat => (k : ℚ)) ≠ [] := by
    intro h
    rw [List.map_eq_nil_iff] at h
    subst h
    simp at hpos
  have htot := floatSum_nat vs hs53
  have hw := floatWheel_nat vs hs53
  have hlen : (vs.map (fun k : Nat => (k : ℚ))).length = vs.length := by simp
  generalize vs.map (fun k : Nat => (k : ℚ)) = values at *
  generalize vs.sum = S at *
  have hsp : fl64 ((S : ℚ) / ((2 ^ k : Nat) : ℚ)) = (S : ℚ) / 2 ^ k := by
    have := spacing_multiple (t := 1) hpos hsum hp1
    simp only [Nat.cast_one, one_mul] at this
    push_cast
    exact this
  have hsp0 : 0 ≤ (S : ℚ) / 2 ^ k := by positivity
  have hpoint : ∀ x (t : Nat), t < 2 ^ k → pointF x ((S : ℚ) / 2 ^ k) t = fl64 (x + t * ((S : ℚ) / 2 ^ k)) := by
    intro x t ht
    unfold pointF
    rw [fl64_nat (by omega), spacing_multiple hpos hsum ht.le]
  obtain ⟨before, s, pass, s', e1, e2, hl, hspec⟩ := float_sus_pass values (S : ℚ) (2 ^ k) shuffle u hp1 hne hv (by positivity) m (by
    intro r t _ ht
    rw [hsp, hpoint _ _ ht, htot]
    have h1 : fl64 ((S : ℚ) / 2 ^ k * u r) ≤ (S : ℚ) / 2 ^ k := by
      have hf := spacing_multiple (t := 1) hpos hsum hp1
      simp only [Nat.cast_one, one_mul] at hf
      conv_rhs => rw [← hf]
      refine fl64_mono ?_
      calc (S : ℚ) / 2 ^ k * u r ≤ (S : ℚ) / 2 ^ k * 1 := mul_le_mul_of_nonneg_left (hu r).2 hsp0
        _ = _ := mul_one _
    have ht' : (t : ℚ) + 1 ≤ 2 ^ k := by exact_mod_cast ht
    have h2 : fl64 ((S : ℚ) / 2 ^ k * u r) + t * ((S : ℚ) / 2 ^ k) ≤ S := by
      calc fl64 ((S : ℚ) / 2 ^ k * u r) + t * ((S : ℚ) / 2 ^ k) ≤ (t + 1) * ((S : ℚ) / 2 ^ k) := by linarith
        _ ≤ 2 ^ k * ((S : ℚ) / 2 ^ k) := mul_le_mul_of_nonneg_right ht' hsp0
        _ = S := mul_div_cancel₀ _ (by positivity)
    exact (fl64_mono h2).trans (le_of_eq (fl64_nat hs53)))
  refine ⟨before, s, pass, s', e1, e2, hl, fun t ht => ?_⟩
  obtain ⟨i, hi, hit⟩ := hspec t ht
  rw [hsp, hpoint _ _ ht] at hit
  refine ⟨i, hi, _, rfl, ?_⟩
  unfold HitF at hit
  rwa [hw, hw, hlen] at hit

/-- Four individuals with 0, 1, 2 and 1 ones. -/
example : (pull (susF fl64 [0, 1, 2, 1] 4 4 true fun _ => 1 / 2) 4 none ()).map (·.1) = .ok [1, 2, 2, 3] := by decide +kernel

end Leap
