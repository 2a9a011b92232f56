import Mathlib.Algebra.Order.Ring.Pow
import Verif.Props.FloatWheel

/-!
# C99: how far rounding moves the slices of the wheel
-/

namespace Leap
open Spec

/-- Adding two floating-point numbers has a small relative error, even below the normal range. -/
theorem float_add_error {x y : ℚ} (hx : IsFloat x) (hy : IsFloat y) : |fl64 (x + y) - (x + y)| ≤ |x + y| * (1 / 2 ^ 53) := by
  by_cases hn : Normal (x + y)
  · exact fl64_normal hn
  · unfold Normal at hn
    rw [not_le] at hn
    by_cases h0 : x + y = 0
    · rw [h0, fl64_zero]; simp
    obtain ⟨k, hk⟩ := float_sub_multiple hx (isFloat_neg hy)
    rw [sub_neg_eq_add] at hk
    have : fl64 (x + y) = x + y := by
      refine fl64_multiple k (-1074) ?_ hk
      have h2 : (2 : ℚ) ^ Int.log 2 |x + y| < 2 ^ (-1022 : Int) := lt_of_le_of_lt (log_bounds h0).1 hn
      have h3 := (zpow_lt_zpow_iff_right₀ (show (1 : ℚ) < 2 by norm_num)).1 h2
      unfold lastDigit; omega
    rw [this, sub_self, abs_zero]
    positivity

/-- **C99** (sums). The sum of `n` floating-point numbers, none negative, added from left to right, is between `(1 - 2^-53)^n` and `(1 + 2^-53)^n` times the exact sum. -/
theorem float_sum_error (vs : List ℚ) (hv : ∀ v ∈ vs, 0 ≤ v ∧ IsFloat v) :
    (1 - 1 / 2 ^ 53) ^ vs.length * vs.sum ≤ floatSum vs ∧ floatSum vs ≤ (1 + 1 / 2 ^ 53) ^ vs.length * vs.sum := by
  induction vs using List.reverseRecOn with
  | nil => simp [floatSum]
  | append_singleton l v ih =>
    obtain ⟨h1, h2⟩ := ih (fun w hw => hv w (by simp [hw]))
    obtain ⟨hv0, hvf⟩ := hv v (by simp)
    have hl0 : 0 ≤ l.sum := List.sum_nonneg (fun w hw => (hv w (by simp [hw])).1)
    have hf0 : 0 ≤ floatSum l := by
      rw [← floatWheel_length]; exact floatWheel_nonneg (fun w hw => (hv w (by simp [hw])).1) _
    have e := float_add_error (x := floatSum l) (y := v) ((isFloat_iff _).2 (floatSum_float l)) hvf
    rw [abs_of_nonneg (show 0 ≤ floatSum l + v by linarith)] at e
    rw [floatSum_concat, List.sum_append, List.length_append]
    simp only [List.sum_cons, List.sum_nil, add_zero, List.length_cons, List.length_nil, zero_add]
    obtain ⟨U, hU⟩ : ∃ U : ℚ, U = 1 / 2 ^ 53 := ⟨_, rfl⟩
    have hU0 : 0 ≤ U := by rw [hU]; positivity
    have hU1 : U ≤ 1 := by rw [hU]; norm_num
    rw [← hU] at h1 h2 e ⊢
    obtain ⟨e1, e2⟩ := abs_le.1 e
    have a1 : (1 - U) ^ l.length ≤ 1 := pow_le_one₀ (by linarith) (by linarith)
    have a2 : 1 ≤ (1 + U) ^ l.length := one_le_pow₀ (by linarith)
    generalize floatSum l = F at *
    generalize l.sum = S at *
    constructor
    · calc (1 - U) ^ (l.length + 1) * (S + v) = ((1 - U) ^ l.length * S + (1 - U) ^ l.length * v) * (1 - U) := by ring
        _ ≤ (F + 1 * v) * (1 - U) := mul_le_mul_of_nonneg_right (add_le_add h1 (mul_le_mul_of_nonneg_right a1 hv0)) (by linarith)
        _ = F + v - (F + v) * U := by ring
        _ ≤ fl64 (F + v) := by linarith
    · calc fl64 (F + v) ≤ F + v + (F + v) * U := by linarith
        _ = (F + 1 * v) * (1 + U) := by ring
        _ ≤ ((1 + U) ^ l.length * S + (1 + U) ^ l.length * v) * (1 + U) :=
          mul_le_mul_of_nonneg_right (add_le_add h2 (mul_le_mul_of_nonneg_right a2 hv0)) (by linarith)
        _ = (1 + U) ^ (l.length + 1) * (S + v) := by ring

/-- The computed shares of values that are zero or not too small. -/
theorem shares_error {values : List ℚ} {total : ℚ} (ht : 0 < total) (hv : ∀ v ∈ values, v = 0 ∨ total * 2 ^ (-1000 : Int) ≤ v) :
    (1 - 1 / 2 ^ 53) * (values.sum / total) ≤ (values.map fun v => fl64 (v / total)).sum ∧
    (values.map fun v => fl64 (v / total)).sum ≤ (1 + 1 / 2 ^ 53) * (values.sum / total) := by
  induction values with
  | nil => simp
  | cons v vs ih =>
    obtain ⟨h1, h2⟩ := ih (fun w hw => hv w (List.mem_cons_of_mem _ hw))
    have e : |fl64 (v / total) - v / total| ≤ v / total * (1 / 2 ^ 53) := by
      rcases hv v (List.mem_cons_self ..) with h | h
      · rw [h, zero_div, fl64_zero]; simp
      · have h2 : (2 : ℚ) ^ (-1000 : Int) ≤ v / total := by rw [le_div_iff₀ ht, mul_comm]; exact h
        have h0 : 0 < v / total := lt_of_lt_of_le (two_zpow_pos _) h2
        have := fl64_normal (x := v / total) (by
          unfold Normal; rw [abs_of_pos h0]; exact (zpow_le_zpow_right₀ (by norm_num) (by norm_num)).trans h2)
        rwa [abs_of_pos h0] at this
    obtain ⟨e1, e2⟩ := abs_le.1 e
    simp only [List.map_cons, List.sum_cons, add_div]
    constructor <;> linarith

/-- The slices of the computed shares against the exact ones. -/
theorem share_wheel_error {values : List ℚ} {total : ℚ} (ht : 0 < total) (hv0 : ∀ v ∈ values, 0 ≤ v)
    (hv : ∀ v ∈ values, v = 0 ∨ total * 2 ^ (-1000 : Int) ≤ v) (i : Nat) (hi : i ≤ values.length) :
    (1 - 1 / 2 ^ 53) ^ (i + 1) * (wheel values i / total) ≤ floatWheel (values.map fun v => fl64 (v / total)) i ∧
    floatWheel (values.map fun v => fl64 (v / total)) i ≤ (1 + 1 / 2 ^ 53) ^ (i + 1) * (wheel values i / total) := by
  have hs := shares_error (values := values.take i) ht (fun v h => hv v (List.mem_of_mem_take h))
  have hf := float_sum_error ((values.take i).map fun v => fl64 (v / total)) (by
    intro w hw
    obtain ⟨v, h, rfl⟩ := List.mem_map.mp hw
    exact ⟨fl64_nonneg (div_nonneg (hv0 v (List.mem_of_mem_take h)) ht.le), isFloat_fl64 _⟩)
  rw [List.length_map, List.length_take, Nat.min_eq_left hi] at hf
  have hfw : floatWheel (values.map fun v => fl64 (v / total)) i = floatSum ((values.take i).map fun v => fl64 (v / total)) := by
    rw [floatWheel, List.map_take]
  rw [hfw]
  have hsum : wheel values i = (values.take i).sum := rfl
  rw [hsum]
  have hU1 : (0 : ℚ) ≤ 1 - 1 / 2 ^ 53 := by norm_num
  obtain ⟨U, hU⟩ : ∃ U : ℚ, U = 1 / 2 ^ 53 := ⟨_, rfl⟩
  have hU0 : 0 ≤ U := by rw [hU]; positivity
  rw [← hU] at hs hf hU1 ⊢
  constructor
  · calc (1 - U) ^ (i + 1) * ((values.take i).sum / total) = (1 - U) ^ i * ((1 - U) * ((values.take i).sum / total)) := by ring
      _ ≤ (1 - U) ^ i * _ := mul_le_mul_of_nonneg_left hs.1 (pow_nonneg hU1 _)
      _ ≤ _ := hf.1
  · calc _ ≤ (1 + U) ^ i * _ := hf.2
      _ ≤ (1 + U) ^ i * ((1 + U) * ((values.take i).sum / total)) := mul_le_mul_of_nonneg_left hs.2 (pow_nonneg (by linarith) _)
      _ = _ := by ring

/-- `((1 - U) / (1 + U))^m` is at least `1 - 2 m U`. -/
theorem ratio_pow {U : ℚ} (hU0 : 0 ≤ U) (hU1 : U ≤ 1 / 2) (m : Nat) : (1 - 2 * m * U) * (1 + U) ^ m ≤ (1 - U) ^ m := by
  have h := one_add_mul_le_pow (a := -(2 * U)) (by linarith) m
  have h2 : (1 + -(2 * U)) ^ m * (1 + U) ^ m ≤ (1 - U) ^ m := by
    rw [← mul_pow]
    apply pow_le_pow_left₀
    · exact mul_nonneg (by linarith) (by linarith)
    · nlinarith
  refine le_trans ?_ h2
  apply mul_le_mul_of_nonneg_right _ (by positivity)
  linarith

/-- **C99** (chances). Rounding moves a proportional pick by at most `(2 n + 5) 2^-53` of the wheel: the individual picked is one whose exact slice, stretched by that much at
both ends, contains the random number. -/
theorem float_proportional_near (values : List ℚ) (total u : ℚ) (ht : 0 < total) (hv : ∀ v ∈ values, v = 0 ∨ total * 2 ^ (-1000 : Int) ≤ v)
    (hpos : ∃ v ∈ values, v ≠ 0) (hu0 : 0 ≤ u) (hu1 : u ≤ 1 - 1 / 2 ^ 53) :
    ∃ j, proportionalF fl64 values total u = .ok j ∧ j < values.length ∧
      wheel values j / values.sum ≤ u + (2 * values.length + 5) * (1 / 2 ^ 53) ∧
      u ≤ wheel values (j + 1) / values.sum + (2 * values.length + 5) * (1 / 2 ^ 53) := by
  have h1000 := two_zpow_pos (-1000)
  have hv0 : ∀ v ∈ values, 0 ≤ v := by
    intro v h
    rcases hv v h with h1 | h1
    · exact h1.ge
    · exact (mul_nonneg ht.le h1000.le).trans h1
  obtain ⟨v, hvm, hvn⟩ := hpos
  have hvb : total * 2 ^ (-1000 : Int) ≤ v := (hv v hvm).resolve_left hvn
  obtain ⟨j, hj, hsel, -, hlo, hhi⟩ := float_proportional values total u hv0 ht ⟨v, hvm, hvb⟩ hu0 hu1
  refine ⟨j, hsel, hj, ?_⟩
  have hsum : total * 2 ^ (-1000 : Int) ≤ values.sum := hvb.trans (List.single_le_sum hv0 _ hvm)
  have hP : (2 : ℚ) ^ (-1000 : Int) ≤ values.sum / total := by rw [le_div_iff₀ ht, mul_comm]; exact hsum
  have hsum0 : 0 < values.sum := lt_of_lt_of_le (mul_pos ht h1000) hsum
  have c1 := share_wheel_error ht hv0 hv j hj.le
  have c2 := share_wheel_error ht hv0 hv (j + 1) hj
  have c3 := share_wheel_error ht hv0 hv values.length (le_refl _)
  rw [wheel_length] at c3
  have hC : floatWheel (values.map fun v => fl64 (v / total)) values.length = floatSum (values.map fun v => fl64 (v / total)) := by
    have := floatWheel_length (values.map fun v => fl64 (v / total))
    rwa [List.length_map] at this
  rw [hC] at c3
  have e := fl64_error (u * floatSum (values.map fun v => fl64 (v / total)))
  have hC0 : 0 ≤ floatSum (values.map fun v => fl64 (v / total)) := by
    rw [← hC]; exact floatWheel_nonneg (shares_nonneg hv0 ht) _
  have hS1 : wheel values j ≤ values.sum := wheel_le_sum hv0 j
  have hS2 : wheel values (j + 1) ≤ values.sum := wheel_le_sum hv0 (j + 1)
  have hS0 : 0 ≤ wheel values j := by have := wheel_mono hv0 (Nat.zero_le j); rwa [wheel_zero] at this
  have hS3 : 0 ≤ wheel values (j + 1) := by have := wheel_mono hv0 (Nat.zero_le (j + 1)); rwa [wheel_zero] at this
  generalize floatWheel (values.map fun v => fl64 (v / total)) j = cj at *
  generalize floatWheel (values.map fun v => fl64 (v / total)) (j + 1) = cj' at *
  generalize floatSum (values.map fun v => fl64 (v / total)) = C at *
  generalize wheel values j = wj at *
  generalize wheel values (j + 1) = wj' at *
  have hη : (2 : ℚ) ^ (-1075 : Int) ≤ 1 / 2 ^ 53 * (values.sum / total) := by
    calc (2 : ℚ) ^ (-1075 : Int) ≤ 2 ^ (-1053 : Int) := zpow_le_zpow_right₀ (by norm_num) (by norm_num)
      _ = 2 ^ (-53 : Int) * 2 ^ (-1000 : Int) := by rw [← zpow_add₀ (by norm_num)]; norm_num
      _ = 1 / 2 ^ 53 * 2 ^ (-1000 : Int) := by norm_num
      _ ≤ _ := mul_le_mul_of_nonneg_left hP (by norm_num)
  obtain ⟨U, hU⟩ : ∃ U : ℚ, U = 1 / 2 ^ 53 := ⟨_, rfl⟩
  have hUp : 0 < U := by rw [hU]; positivity
  have hUh : U ≤ 1 / 2 := by rw [hU]; norm_num
  rw [show ((2 : ℚ) ^ (-53 : Int)) = U by rw [hU]; norm_num] at e
  rw [← hU] at c1 c2 c3 hη hu1 ⊢
  generalize (2 : ℚ) ^ (-1075 : Int) = η at *
  rw [abs_of_nonneg (mul_nonneg hu0 hC0)] at e
  obtain ⟨e1, e2⟩ := abs_le.1 e
  generalize fl64 (u * C) = x at *
  obtain ⟨P, hPe⟩ : ∃ P, P = values.sum / total := ⟨_, rfl⟩
  have hP0 : 0 < P := by rw [hPe]; exact div_pos hsum0 ht
  have hWj : wj / total = wj / values.sum * P := by rw [hPe]; field_simp
  have hWj' : wj' / total = wj' / values.sum * P := by rw [hPe]; field_simp
  rw [hWj] at c1
  rw [hWj'] at c2
  rw [← hPe] at c3 hη
  have s0 : 0 ≤ wj / values.sum := div_nonneg hS0 hsum0.le
  have s1 : wj / values.sum ≤ 1 := by rw [div_le_one hsum0]; exact hS1
  have s2 : 0 ≤ wj' / values.sum := div_nonneg hS3 hsum0.le
  generalize wj / values.sum = sj at *
  generalize wj' / values.sum = sj' at *
  generalize values.length = N at *
  have hr := ratio_pow hUp.le hUh (N + 2)
  have hb1 : 1 ≤ (1 + U) ^ (N + 2) := one_le_pow₀ (by linarith)
  have hU1 : 0 ≤ 1 - U := by linarith
  have hB : 0 < (1 + U) ^ (N + 2) := by linarith
  have hη2 : η ≤ U * P * (1 + U) ^ (N + 2) := hη.trans (le_mul_of_one_le_right (mul_nonneg hUp.le hP0.le) hb1)
  have hu : u ≤ 1 := by linarith
  push_cast at hr
  constructor
  · -- the lower end of the slice
    have f1 : (1 - U) ^ (N + 2) * (sj * P) ≤ (1 - U) ^ (j + 1) * (sj * P) :=
      mul_le_mul_of_nonneg_right (pow_le_pow_of_le_one hU1 (by linarith) (by omega)) (mul_nonneg s0 hP0.le)
    have f2 : u * C * (1 + U) ≤ u * P * (1 + U) ^ (N + 2) := by
      calc u * C * (1 + U) ≤ u * ((1 + U) ^ (N + 1) * P) * (1 + U) :=
            mul_le_mul_of_nonneg_right (mul_le_mul_of_nonneg_left c3.2 hu0) (by linarith)
        _ = u * P * (1 + U) ^ (N + 2) := by ring
    have f3 : (1 - 2 * (N + 2) * U) * (1 + U) ^ (N + 2) * (sj * P) ≤ (1 - U) ^ (N + 2) * (sj * P) :=
      mul_le_mul_of_nonneg_right hr (mul_nonneg s0 hP0.le)
    have f4 : ((1 - 2 * (N + 2) * U) * sj) * (P * (1 + U) ^ (N + 2)) ≤ (u + U) * (P * (1 + U) ^ (N + 2)) := by
      have : (u + U) * (P * (1 + U) ^ (N + 2)) = u * P * (1 + U) ^ (N + 2) + U * P * (1 + U) ^ (N + 2) := by ring
      rw [this]
      have : ((1 - 2 * (N + 2) * U) * sj) * (P * (1 + U) ^ (N + 2)) = (1 - 2 * (N + 2) * U) * (1 + U) ^ (N + 2) * (sj * P) := by ring
      rw [this]
      linarith [c1.1]
    have f5 := le_of_mul_le_mul_right f4 (mul_pos hP0 hB)
    have f6 : 2 * ((N : ℚ) + 2) * U * sj ≤ 2 * (N + 2) * U * 1 := mul_le_mul_of_nonneg_left s1 (by positivity)
    linarith
  · -- the upper end
    have g1 : (1 + U) ^ (j + 1 + 1) * (sj' * P) ≤ (1 + U) ^ (N + 2) * (sj' * P) :=
      mul_le_mul_of_nonneg_right (pow_le_pow_right₀ (by linarith) (by omega)) (mul_nonneg s2 hP0.le)
    have g2 : u * P * (1 - U) ^ (N + 2) ≤ u * C * (1 - U) := by
      calc u * P * (1 - U) ^ (N + 2) = u * ((1 - U) ^ (N + 1) * P) * (1 - U) := by ring
        _ ≤ u * C * (1 - U) := mul_le_mul_of_nonneg_right (mul_le_mul_of_nonneg_left c3.1 hu0) hU1
    have g3 : (1 - 2 * (N + 2) * U) * (1 + U) ^ (N + 2) * (u * P) ≤ (1 - U) ^ (N + 2) * (u * P) :=
      mul_le_mul_of_nonneg_right hr (mul_nonneg hu0 hP0.le)
    have g4 : ((1 - 2 * (N + 2) * U) * u) * (P * (1 + U) ^ (N + 2)) ≤ (sj' + U) * (P * (1 + U) ^ (N + 2)) := by
      have : (sj' + U) * (P * (1 + U) ^ (N + 2)) = (1 + U) ^ (N + 2) * (sj' * P) + U * P * (1 + U) ^ (N + 2) := by ring
      rw [this]
      have : ((1 - 2 * (N + 2) * U) * u) * (P * (1 + U) ^ (N + 2)) = (1 - 2 * (N + 2) * U) * (1 + U) ^ (N + 2) * (u * P) := by ring
      rw [this]
      linarith [c2.2]
    have g5 := le_of_mul_le_mul_right g4 (mul_pos hP0 hB)
    have g6 : 2 * ((N : ℚ) + 2) * U * u ≤ 2 * (N + 2) * U * 1 := mul_le_mul_of_nonneg_left hu (by positivity)
    linarith

end Leap
