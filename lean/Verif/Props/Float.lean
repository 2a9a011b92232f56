import Verif.Spec.Float
import Verif.Lemmas.Float

/-!
# C97: the model of floating-point rounding is round to nearest, ties to even
-/

namespace Leap
open Spec

/-- A number is a floating-point number exactly when rounding leaves it alone. -/
theorem isFloat_iff (x : ℚ) : IsFloat x ↔ fl64 x = x := by
  constructor
  · rintro ⟨m, e, hm, he, hx⟩
    by_cases h0 : x = 0
    · rw [h0, fl64_zero]
    apply fl64_multiple m e _ hx
    have hlt : |x| < 2 ^ (e + 53) := by
      rw [hx, abs_mul, abs_of_pos (two_zpow_pos e), ← Int.cast_abs, add_comm, zpow_add₀ (by norm_num), ← two53]
      exact mul_lt_mul_of_pos_right (by exact_mod_cast hm) (two_zpow_pos e)
    have h1 := (log_bounds h0).1
    have : Int.log 2 |x| < e + 53 := by
      by_contra hc
      have := zpow_le_zpow_right₀ (show (1 : ℚ) ≤ 2 by norm_num) (not_lt.1 hc)
      linarith
    unfold lastDigit; omega
  · intro h
    by_cases h0 : x = 0
    · exact ⟨0, 0, by norm_num, by norm_num, by rw [h0]; simp⟩
    set e := lastDigit x with he
    set m := roundEven (x / 2 ^ e) with hm
    have hx : x = m * 2 ^ e := h.symm
    have he1 : -1074 ≤ e := by rw [he]; unfold lastDigit; omega
    refine ⟨m, e, ?_, he1, hx⟩
    have hlog := (log_bounds h0).2
    have h1 : |x| < 2 ^ (e + 53) := lt_of_lt_of_le hlog (zpow_le_zpow_right₀ (by norm_num) (by rw [he]; unfold lastDigit; omega))
    rw [hx, abs_mul, abs_of_pos (two_zpow_pos e), ← Int.cast_abs, add_comm, zpow_add₀ (by norm_num), ← two53] at h1
    have := lt_of_mul_lt_mul_right h1 (two_zpow_pos e).le
    exact_mod_cast this

theorem isFloat_fl64 (x : ℚ) : IsFloat (fl64 x) := (isFloat_iff _).2 (fl64_idem x)

theorem isFloat_neg {x : ℚ} (h : IsFloat x) : IsFloat (-x) := by
  rw [isFloat_iff] at h ⊢; rw [fl64_neg, h]

/-- No floating-point number lies strictly between the two neighbours of `x`. -/
theorem no_float_between {x y : ℚ} (hx : 0 < x) (hy : IsFloat y) :
    y ≤ (⌊x / 2 ^ lastDigit x⌋ : ℚ) * 2 ^ lastDigit x ∨ ((⌊x / 2 ^ lastDigit x⌋ : ℚ) + 1) * 2 ^ lastDigit x ≤ y := by
  set e := lastDigit x with he
  set k := ⌊x / 2 ^ e⌋ with hk
  by_contra hc
  push Not at hc
  obtain ⟨h1, h2⟩ := hc
  have pe := two_zpow_pos e
  have hxk : (k : ℚ) * 2 ^ e ≤ x := by rw [← le_div_iff₀ pe]; exact Int.floor_le _
  have hk0 : 0 ≤ k := Int.floor_nonneg.2 (div_nonneg hx.le pe.le)
  have hy0 : 0 < y := lt_of_le_of_lt (mul_nonneg (by exact_mod_cast hk0) pe.le) h1
  -- `y` is a multiple of the last digit of `x`
  have hmul : ∃ j : Int, y = j * 2 ^ e := by
    have hyfl := (isFloat_iff y).1 hy
    have hle : e ≤ lastDigit y := by
      by_cases h1074 : e = -1074
      · rw [h1074]; unfold lastDigit; omega
      · have hl : e = Int.log 2 x - 52 := by
          rw [he] at h1074 ⊢; unfold lastDigit at h1074 ⊢; rw [abs_of_pos hx] at h1074 ⊢; omega
        have hB : (2 : ℚ) ^ Int.log 2 x ≤ k * 2 ^ e := by
          have hx2 : (2 : ℚ) ^ Int.log 2 x ≤ x := by have := (log_bounds hx.ne').1; rwa [abs_of_pos hx] at this
          have h52 : ((2 ^ 52 : Int) : ℚ) * 2 ^ e = 2 ^ Int.log 2 x := by
            rw [show ((2 ^ 52 : Int) : ℚ) = 2 ^ (52 : Int) by norm_num, ← zpow_add₀ (by norm_num)]
            congr 1; omega
          have : (2 ^ 52 : Int) ≤ k := by
            rw [hk, Int.le_floor, le_div_iff₀ pe, h52]; exact hx2
          rw [← h52]
          exact mul_le_mul_of_nonneg_right (by exact_mod_cast this) pe.le
        have hlog : Int.log 2 x ≤ Int.log 2 y := by
          have := (log_bounds hy0.ne').2
          rw [abs_of_pos hy0] at this
          have h3 : (2 : ℚ) ^ Int.log 2 x < 2 ^ (Int.log 2 y + 1) := by linarith
          have := (zpow_lt_zpow_iff_right₀ (show (1 : ℚ) < 2 by norm_num)).1 h3
          omega
        unfold lastDigit; rw [abs_of_pos hy0]; omega
    obtain ⟨d, hd⟩ := Int.eq_ofNat_of_zero_le (sub_nonneg.2 hle)
    refine ⟨roundEven (y / 2 ^ lastDigit y) * 2 ^ d, ?_⟩
    conv_lhs => rw [← hyfl]
    unfold fl64
    push_cast
    rw [mul_assoc, ← zpow_natCast (2 : ℚ) d, ← zpow_add₀ (by norm_num)]
    congr 2
    omega
  obtain ⟨j, rfl⟩ := hmul
  have g1 := lt_of_mul_lt_mul_right h1 pe.le
  have g2 := lt_of_mul_lt_mul_right h2 pe.le
  have g1' : k < j := by exact_mod_cast g1
  have g2' : j < k + 1 := by exact_mod_cast g2
  omega

theorem nearest_pos {x : ℚ} (hx : 0 < x) (y : ℚ) (hy : IsFloat y) :
    |fl64 x - x| ≤ |y - x| ∧ (|y - x| = |fl64 x - x| → y ≠ fl64 x → ∃ m : Int, fl64 x = 2 * m * |y - fl64 x|) := by
  have hb := no_float_between hx hy
  set e := lastDigit x with he
  set k := ⌊x / 2 ^ e⌋ with hk
  have pe := two_zpow_pos e
  have f1 : (k : ℚ) ≤ x / 2 ^ e := Int.floor_le _
  have f2 : x / 2 ^ e < k + 1 := Int.lt_floor_add_one _
  have hxe : x = x / 2 ^ e * 2 ^ e := (div_mul_cancel₀ _ pe.ne').symm
  set q := x / 2 ^ e with hq
  have hfl : fl64 x = roundEven q * 2 ^ e := rfl
  have habs : ∀ a : ℚ, |a * 2 ^ e - q * 2 ^ e| = |a - q| * 2 ^ e := by
    intro a; rw [← sub_mul, abs_mul, abs_of_pos pe]
  have hnear := roundEven_near q
  -- distance of `y`, in units of the last digit
  obtain ⟨a, rfl⟩ : ∃ a : ℚ, y = a * 2 ^ e := ⟨y / 2 ^ e, (div_mul_cancel₀ _ pe.ne').symm⟩
  have ha : a ≤ k ∨ (k : ℚ) + 1 ≤ a := by
    rcases hb with h | h
    · exact .inl (le_of_mul_le_mul_right h pe)
    · exact .inr (le_of_mul_le_mul_right h pe)
  have hgoal : |(roundEven q : ℚ) - q| ≤ |a - q| ∧ (|a - q| = |(roundEven q : ℚ) - q| → a ≠ roundEven q →
      ∃ m : Int, roundEven q = 2 * m ∧ |a - roundEven q| = 1) := by
    have hR : roundEven q = if q - k < 1 / 2 then k else if 1 / 2 < q - k then k + 1 else if k % 2 = 0 then k else k + 1 := rfl
    rcases lt_trichotomy (q - k) (1 / 2) with h | h | h
    · rw [hR, if_pos h]
      rw [abs_of_nonpos (show (k : ℚ) - q ≤ 0 by linarith)]
      rcases ha with ha | ha
      · rw [abs_of_nonpos (show a - q ≤ 0 by linarith)]
        exact ⟨by linarith, fun h1 h2 => absurd (by linarith) h2⟩
      · rw [abs_of_nonneg (show 0 ≤ a - q by linarith)]
        exact ⟨by linarith, fun h1 h2 => by exfalso; linarith⟩
    · have hk2 : roundEven q = k ∧ k % 2 = 0 ∨ roundEven q = k + 1 ∧ (k + 1) % 2 = 0 := by
        rw [hR, if_neg (by linarith), if_neg (by linarith)]
        by_cases hk : k % 2 = 0
        · left; rw [if_pos hk]; exact ⟨rfl, hk⟩
        · right; rw [if_neg hk]; exact ⟨rfl, by omega⟩
      rcases hk2 with ⟨hr, hev⟩ | ⟨hr, hev⟩
      · rw [hr]
        rw [abs_of_nonpos (show (k : ℚ) - q ≤ 0 by linarith)]
        rcases ha with ha | ha
        · rw [abs_of_nonpos (show a - q ≤ 0 by linarith)]
          exact ⟨by linarith, fun h1 h2 => absurd (by linarith) h2⟩
        · rw [abs_of_nonneg (show 0 ≤ a - q by linarith)]
          refine ⟨by linarith, fun h1 h2 => ⟨k / 2, by omega, ?_⟩⟩
          have : a - k = 1 := by linarith
          rw [this]; norm_num
      · rw [hr]
        push_cast
        rw [abs_of_nonneg (show 0 ≤ (k : ℚ) + 1 - q by linarith)]
        rcases ha with ha | ha
        · rw [abs_of_nonpos (show a - q ≤ 0 by linarith)]
          refine ⟨by linarith, fun h1 h2 => ⟨(k + 1) / 2, by omega, ?_⟩⟩
          have : a - (k + 1) = -1 := by linarith
          rw [this]; norm_num
        · rw [abs_of_nonneg (show 0 ≤ a - q by linarith)]
          exact ⟨by linarith, fun h1 h2 => absurd (by linarith) h2⟩
    · rw [hR, if_neg (by linarith), if_pos h]
      push_cast
      rw [abs_of_nonneg (show 0 ≤ (k : ℚ) + 1 - q by linarith)]
      rcases ha with ha | ha
      · rw [abs_of_nonpos (show a - q ≤ 0 by linarith)]
        exact ⟨by linarith, fun h1 h2 => by exfalso; linarith⟩
      · rw [abs_of_nonneg (show 0 ≤ a - q by linarith)]
        exact ⟨by linarith, fun h1 h2 => absurd (by linarith) h2⟩
  rw [hfl]
  constructor
  · conv_lhs => rw [hxe]
    conv_rhs => rw [hxe]
    rw [habs, habs]
    exact mul_le_mul_of_nonneg_right hgoal.1 pe.le
  · intro h1 h2
    rw [hxe, habs, habs] at h1
    obtain ⟨m, hm, hd⟩ := hgoal.2 (mul_right_cancel₀ pe.ne' h1) (fun h => h2 (by rw [h]))
    refine ⟨m, ?_⟩
    rw [← sub_mul, abs_mul, hd, abs_of_pos pe, hm]
    push_cast; ring

/-- **C97** (rounding). The result of rounding is a floating-point number, none is nearer, and of two that are equally near it is the even one: an even multiple
of their distance. -/
theorem rounding_nearest (x : ℚ) : IsFloat (fl64 x) ∧ ∀ y, IsFloat y →
    |fl64 x - x| ≤ |y - x| ∧ (|y - x| = |fl64 x - x| → y ≠ fl64 x → ∃ m : Int, fl64 x = 2 * m * |y - fl64 x|) := by
  refine ⟨isFloat_fl64 x, fun y hy => ?_⟩
  rcases lt_trichotomy x 0 with hx | hx | hx
  · obtain ⟨h1, h2⟩ := nearest_pos (show 0 < -x by linarith) (-y) (isFloat_neg hy)
    rw [fl64_neg] at h1 h2
    have e1 : |-fl64 x - -x| = |fl64 x - x| := by rw [← abs_neg]; congr 1; ring
    have e2 : |-y - -x| = |y - x| := by rw [← abs_neg]; congr 1; ring
    have e3 : |-y - -fl64 x| = |y - fl64 x| := by rw [← abs_neg]; congr 1; ring
    rw [e1, e2] at h1 h2
    rw [e3] at h2
    refine ⟨h1, fun h3 h4 => ?_⟩
    obtain ⟨m, hm⟩ := h2 h3 (fun h => h4 (neg_injective h))
    refine ⟨-m, ?_⟩
    push_cast
    linarith
  · subst hx
    rw [fl64_zero]
    refine ⟨by simp, fun h1 h2 => ?_⟩
    simp at h1
    exact absurd h1 h2
  · exact nearest_pos hx y hy

/-- **C97** (order and error). Rounding keeps the order, changes nothing the second time, and has relative error at most `2^-53` on normal numbers. -/
theorem rounding_error : Monotone fl64 ∧ (∀ x, fl64 (fl64 x) = fl64 x) ∧ (∀ x, fl64 (-x) = -fl64 x) ∧
    (∀ x, Normal x → |fl64 x - x| ≤ |x| * 2 ^ (-53 : Int)) ∧ ∀ z : Int, |z| ≤ 2 ^ 53 → fl64 z = z := by
  refine ⟨fl64_mono, fl64_idem, fl64_neg, fun x hn => ?_, fl64_int⟩
  have hx : x ≠ 0 := by
    rintro rfl
    unfold Normal at hn
    rw [abs_zero] at hn
    exact absurd hn (not_le.2 (two_zpow_pos _))
  have h := fl64_half x
  have hl := (log_bounds hx).1
  have hlog : -1022 ≤ Int.log 2 |x| := by
    have h1 := (log_bounds hx).2
    have h2 : (2 : ℚ) ^ (-1022 : Int) < 2 ^ (Int.log 2 |x| + 1) := lt_of_le_of_lt hn h1
    have := (zpow_lt_zpow_iff_right₀ (show (1 : ℚ) < 2 by norm_num)).1 h2
    omega
  have hd : (2 : ℚ) ^ lastDigit x / 2 = 2 ^ (lastDigit x - 1) := by rw [zpow_sub_one₀ (by norm_num)]; rfl
  rw [hd] at h
  refine h.trans ?_
  have : lastDigit x - 1 = Int.log 2 |x| + (-53) := by unfold lastDigit; omega
  rw [this, zpow_add₀ (by norm_num)]
  exact mul_le_mul_of_nonneg_right hl (two_zpow_pos (-53)).le

/-- 0.1 as Python has it; 0.1 + 0.2 is not 0.3. -/
example : fl64 (1 / 10) = 3602879701896397 / 2 ^ 55 ∧ fl64 (fl64 (1 / 10) + fl64 (1 / 5)) ≠ fl64 (3 / 10) := by
  constructor <;> decide +kernel

end Leap
