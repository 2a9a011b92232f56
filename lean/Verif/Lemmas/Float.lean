import Mathlib.Tactic.Linarith
import Mathlib.Tactic.Ring
import Mathlib.Tactic.FieldSimp
import Mathlib.Tactic.NormNum
import Mathlib.Tactic.Positivity
import Mathlib.Tactic.GCongr
import Verif.Py.Float

/-!
# Facts about rounding
-/

namespace Leap

theorem roundEven_near (x : ℚ) : |(roundEven x : ℚ) - x| ≤ 1 / 2 := by
  have h1 := Int.floor_le x
  have h2 := Int.lt_floor_add_one x
  unfold roundEven
  split
  · rw [abs_le]; constructor <;> linarith
  · split
    · rw [abs_le]; push_cast; constructor <;> linarith
    · split
      · rw [abs_le]; constructor <;> linarith
      · rw [abs_le]; push_cast; constructor <;> linarith

theorem roundEven_int (z : Int) : roundEven (z : ℚ) = z := by
  unfold roundEven
  simp

theorem roundEven_floor (x : ℚ) : roundEven x = ⌊x⌋ ∨ roundEven x = ⌊x⌋ + 1 := by
  unfold roundEven
  split
  · exact .inl rfl
  · split
    · exact .inr rfl
    · split
      · exact .inl rfl
      · exact .inr rfl

theorem roundEven_mono : Monotone roundEven := by
  intro x y hxy
  have hf : ⌊x⌋ ≤ ⌊y⌋ := Int.floor_mono hxy
  rcases hf.lt_or_eq with hf | hf
  · rcases roundEven_floor x with h | h <;> rcases roundEven_floor y with h' | h' <;> omega
  · unfold roundEven
    rw [← hf]
    split_ifs <;> first | omega | (exfalso; linarith)

theorem roundEven_neg (x : ℚ) : roundEven (-x) = -roundEven x := by
  by_cases hz : x = ⌊x⌋
  · rw [hz, ← Int.cast_neg, roundEven_int, roundEven_int]
  · have hlt : (⌊x⌋ : ℚ) < x := lt_of_le_of_ne (Int.floor_le x) (Ne.symm hz)
    have hlt2 := Int.lt_floor_add_one x
    have hfl : ⌊-x⌋ = -⌊x⌋ - 1 := by
      rw [Int.floor_eq_iff]
      push_cast
      constructor <;> linarith
    unfold roundEven
    rw [hfl]
    push_cast
    have e : -x - (-(⌊x⌋ : ℚ) - 1) = 1 - (x - ⌊x⌋) := by ring
    rw [e]
    rcases lt_trichotomy (x - ⌊x⌋) (1 / 2) with h | h | h
    · rw [if_neg (by linarith), if_pos (by linarith), if_pos h]; omega
    · have n1 : ¬ (1 - (x - (⌊x⌋ : ℚ)) < 1 / 2) := by linarith
      have n2 : ¬ ((1 : ℚ) / 2 < 1 - (x - (⌊x⌋ : ℚ))) := by linarith
      have n3 : ¬ (x - (⌊x⌋ : ℚ) < 1 / 2) := by linarith
      have n4 : ¬ ((1 : ℚ) / 2 < x - (⌊x⌋ : ℚ)) := by linarith
      rw [if_neg n1, if_neg n2, if_neg n3, if_neg n4]
      split_ifs <;> omega
    · rw [if_pos (by linarith), if_neg (by linarith), if_pos (by linarith)]; omega

theorem two53 : ((2 ^ 53 : Int) : ℚ) = 2 ^ (53 : Int) := by norm_num

theorem two_zpow_pos (e : Int) : (0 : ℚ) < 2 ^ e := zpow_pos (by norm_num) e

/-- The binary digits of a nonzero number. -/
theorem log_bounds {x : ℚ} (hx : x ≠ 0) : (2 : ℚ) ^ Int.log 2 |x| ≤ |x| ∧ |x| < 2 ^ (Int.log 2 |x| + 1) := by
  have h := abs_pos.2 hx
  exact ⟨by exact_mod_cast Int.zpow_log_le_self (b := 2) (by norm_num) h, by exact_mod_cast Int.lt_zpow_succ_log_self (b := 2) (by norm_num) |x|⟩

theorem lastDigit_neg (x : ℚ) : lastDigit (-x) = lastDigit x := by rw [lastDigit, lastDigit, abs_neg]

theorem fl64_neg (x : ℚ) : fl64 (-x) = -fl64 x := by
  rw [fl64, fl64, lastDigit_neg, neg_div, roundEven_neg]; push_cast; ring

theorem fl64_zero : fl64 0 = 0 := by
  unfold fl64; rw [zero_div]
  have := roundEven_int 0
  rw [Int.cast_zero] at this
  rw [this]; simp

/-- Multiples of the last digit are not changed. -/
theorem fl64_multiple {x : ℚ} (k : Int) (e : Int) (he : lastDigit x ≤ e) (hx : x = k * 2 ^ e) : fl64 x = x := by
  obtain ⟨d, hd⟩ := Int.eq_ofNat_of_zero_le (sub_nonneg.2 he)
  have h : x / 2 ^ lastDigit x = ((k * 2 ^ d : Int) : ℚ) := by
    rw [div_eq_iff (two_zpow_pos _).ne']
    push_cast
    rw [mul_assoc, ← zpow_natCast (2 : ℚ) d, ← zpow_add₀ (by norm_num)]
    rw [show (d : Int) + lastDigit x = e by rw [← hd]; ring, ← hx]
  rw [fl64, h, roundEven_int, ← h, div_mul_cancel₀ _ (two_zpow_pos _).ne']

theorem lastDigit_mono {x y : ℚ} (hx : x ≠ 0) (h : |x| ≤ |y|) : lastDigit x ≤ lastDigit y := by
  have := Int.log_mono_right (b := 2) (abs_pos.2 hx) h
  unfold lastDigit; omega

theorem fl64_nonneg {x : ℚ} (h : 0 ≤ x) : 0 ≤ fl64 x := by
  have : 0 ≤ roundEven (x / 2 ^ lastDigit x) := by
    have h0 := roundEven_mono (show (0 : ℚ) ≤ x / 2 ^ lastDigit x from div_nonneg h (two_zpow_pos _).le)
    have h1 := roundEven_int 0
    rw [Int.cast_zero] at h1
    rwa [h1] at h0
  unfold fl64
  exact mul_nonneg (by exact_mod_cast this) (two_zpow_pos _).le

theorem fl64_mono_pos {x y : ℚ} (hx : 0 < x) (hxy : x ≤ y) : fl64 x ≤ fl64 y := by
  have hy : 0 < y := lt_of_lt_of_le hx hxy
  have ax : |x| = x := abs_of_pos hx
  have ay : |y| = y := abs_of_pos hy
  have hle := lastDigit_mono hx.ne' (show |x| ≤ |y| by rw [ax, ay]; exact hxy)
  rcases hle.lt_or_eq with hlt | heq
  · -- a power of two lies between
    have hylog : lastDigit y = Int.log 2 y - 52 := by
      unfold lastDigit at hlt ⊢; rw [ay] at hlt ⊢; omega
    have hxlog : Int.log 2 x < Int.log 2 y := by
      unfold lastDigit at hlt; rw [ax, ay] at hlt; omega
    set B : ℚ := 2 ^ Int.log 2 y with hB
    have hBy : B ≤ y := by have := (log_bounds hy.ne').1; rwa [ay] at this
    have hxB : x ≤ B := by
      have := (log_bounds hx.ne').2
      rw [ax] at this
      exact this.le.trans (zpow_le_zpow_right₀ (by norm_num) (by omega))
    have mult : ∀ z : ℚ, lastDigit z ≤ Int.log 2 y → ∃ m : Int, B / 2 ^ lastDigit z = m := by
      intro z hz
      obtain ⟨d, hd⟩ := Int.eq_ofNat_of_zero_le (sub_nonneg.2 hz)
      refine ⟨2 ^ d, ?_⟩
      rw [div_eq_iff (two_zpow_pos _).ne']
      push_cast
      rw [← zpow_natCast (2 : ℚ) d, ← zpow_add₀ (by norm_num), hB]
      congr 1
      omega
    have up : fl64 x ≤ B := by
      obtain ⟨m, hm⟩ := mult x (by omega)
      have h1 : roundEven (x / 2 ^ lastDigit x) ≤ m := by
        have := roundEven_mono (show x / 2 ^ lastDigit x ≤ (m : ℚ) by rw [← hm]; exact div_le_div_of_nonneg_right hxB (two_zpow_pos _).le)
        rwa [roundEven_int] at this
      have h2 : (roundEven (x / 2 ^ lastDigit x) : ℚ) ≤ m := by exact_mod_cast h1
      unfold fl64
      rw [← div_mul_cancel₀ B (two_zpow_pos (lastDigit x)).ne', hm]
      exact mul_le_mul_of_nonneg_right h2 (two_zpow_pos _).le
    have down : B ≤ fl64 y := by
      obtain ⟨m, hm⟩ := mult y (by omega)
      have h1 : m ≤ roundEven (y / 2 ^ lastDigit y) := by
        have := roundEven_mono (show (m : ℚ) ≤ y / 2 ^ lastDigit y by rw [← hm]; exact div_le_div_of_nonneg_right hBy (two_zpow_pos _).le)
        rwa [roundEven_int] at this
      have h2 : (m : ℚ) ≤ roundEven (y / 2 ^ lastDigit y) := by exact_mod_cast h1
      unfold fl64
      rw [← div_mul_cancel₀ B (two_zpow_pos (lastDigit y)).ne', hm]
      exact mul_le_mul_of_nonneg_right h2 (two_zpow_pos _).le
    exact up.trans down
  · unfold fl64
    rw [heq]
    apply mul_le_mul_of_nonneg_right _ (two_zpow_pos _).le
    have := roundEven_mono (show x / 2 ^ lastDigit y ≤ y / 2 ^ lastDigit y from div_le_div_of_nonneg_right hxy (two_zpow_pos _).le)
    exact_mod_cast this

/-- Rounding keeps the order. -/
theorem fl64_mono : Monotone fl64 := by
  intro x y hxy
  rcases lt_trichotomy x 0 with hx | hx | hx
  · rcases le_or_gt y 0 with hy | hy
    · rcases hy.lt_or_eq with hy | hy
      · have := fl64_mono_pos (show 0 < -y by linarith) (show -y ≤ -x by linarith)
        rw [fl64_neg, fl64_neg] at this
        linarith
      · rw [hy, fl64_zero]
        have := fl64_nonneg (show 0 ≤ -x by linarith)
        rw [fl64_neg] at this; linarith
    · have h1 := fl64_nonneg (show 0 ≤ -x by linarith)
      have h2 := fl64_nonneg hy.le
      rw [fl64_neg] at h1; linarith
  · rw [hx, fl64_zero]; exact fl64_nonneg (by linarith)
  · exact fl64_mono_pos hx hxy

/-- The error of a rounding: half a unit of the last digit. -/
theorem fl64_half (x : ℚ) : |fl64 x - x| ≤ 2 ^ lastDigit x / 2 := by
  have h := roundEven_near (x / 2 ^ lastDigit x)
  have e : fl64 x - x = ((roundEven (x / 2 ^ lastDigit x) : ℚ) - x / 2 ^ lastDigit x) * 2 ^ lastDigit x := by
    unfold fl64; rw [sub_mul, div_mul_cancel₀ _ (two_zpow_pos _).ne']
  rw [e, abs_mul, abs_of_pos (two_zpow_pos _)]
  have := mul_le_mul_of_nonneg_right h (two_zpow_pos (lastDigit x)).le
  linarith

/-- The error of a rounding: relative `2^-53`, and at most half the smallest number near zero. -/
theorem fl64_error (x : ℚ) : |fl64 x - x| ≤ |x| * 2 ^ (-53 : Int) + 2 ^ (-1075 : Int) := by
  by_cases hx : x = 0
  · subst hx; rw [fl64_zero]; simp [(two_zpow_pos _).le]
  have h := fl64_half x
  have hl := (log_bounds hx).1
  have hd : (2 : ℚ) ^ lastDigit x / 2 = 2 ^ (lastDigit x - 1) := by rw [zpow_sub_one₀ (by norm_num)]; rfl
  rw [hd] at h
  refine h.trans ?_
  have p1 : 0 ≤ |x| * 2 ^ (-53 : Int) := mul_nonneg (abs_nonneg _) (two_zpow_pos _).le
  have p2 := (two_zpow_pos (-1075)).le
  rcases le_total (Int.log 2 |x| - 52) (-1074) with hc | hc
  · have : lastDigit x = -1074 := by unfold lastDigit; omega
    rw [this]; norm_num only at *; linarith
  · have : lastDigit x - 1 = Int.log 2 |x| + (-53) := by unfold lastDigit; omega
    rw [this, zpow_add₀ (by norm_num)]
    have := mul_le_mul_of_nonneg_right hl (two_zpow_pos (-53)).le
    linarith

/-- A rounded number is a floating-point number: rounding it again changes nothing. -/
theorem fl64_idem (x : ℚ) : fl64 (fl64 x) = fl64 x := by
  by_cases hx : x = 0
  · subst hx; rw [fl64_zero, fl64_zero]
  set e := lastDigit x with he
  set m := roundEven (x / 2 ^ e) with hm
  have hfl : fl64 x = m * 2 ^ e := rfl
  have hmabs : |m| ≤ 2 ^ 53 := by
    have hlog := (log_bounds hx).2
    have hb : |x / 2 ^ e| ≤ ((2 ^ 53 : Int) : ℚ) := by
      rw [abs_div, abs_of_pos (two_zpow_pos e), div_le_iff₀ (two_zpow_pos e)]
      rw [two53, ← zpow_add₀ (by norm_num)]
      refine hlog.le.trans (zpow_le_zpow_right₀ (by norm_num) ?_)
      rw [he]; unfold lastDigit; push_cast; omega
    rw [abs_le] at hb
    rw [abs_le]
    constructor
    · have := roundEven_mono hb.1
      rw [← Int.cast_neg, roundEven_int] at this; exact this
    · have := roundEven_mono hb.2
      rw [roundEven_int] at this; exact this
  by_cases hm0 : m = 0
  · rw [hfl, hm0]; simp [fl64_zero]
  have hz : fl64 x ≠ 0 := by
    rw [hfl]; exact mul_ne_zero (by exact_mod_cast hm0) (two_zpow_pos e).ne'
  have he1074 : -1074 ≤ e := by rw [he]; unfold lastDigit; omega
  by_cases h53 : |m| = 2 ^ 53
  · -- the next power of two
    have habs : |fl64 x| = 2 ^ (e + 53) := by
      rw [hfl, abs_mul, abs_of_pos (two_zpow_pos e), ← Int.cast_abs, h53]
      rw [two53, ← zpow_add₀ (by norm_num)]
      congr 1; ring
    have hlog : Int.log 2 |fl64 x| = e + 53 := by
      rw [habs]
      have := Int.log_zpow (R := ℚ) (b := 2) (by norm_num) (e + 53)
      exact_mod_cast this
    rcases abs_eq (by norm_num) |>.1 h53 with h | h
    · apply fl64_multiple (2 ^ 52) (e + 1)
      · unfold lastDigit; rw [hlog]; omega
      · rw [hfl, h, zpow_add_one₀ (by norm_num)]; push_cast; ring
    · apply fl64_multiple (-2 ^ 52) (e + 1)
      · unfold lastDigit; rw [hlog]; omega
      · rw [hfl, h, zpow_add_one₀ (by norm_num)]; push_cast; ring
  · apply fl64_multiple m e _ hfl
    have hlt : |fl64 x| < 2 ^ (e + 53) := by
      rw [hfl, abs_mul, abs_of_pos (two_zpow_pos e), ← Int.cast_abs, add_comm, zpow_add₀ (by norm_num)]
      apply mul_lt_mul_of_pos_right _ (two_zpow_pos e)
      have : |m| < 2 ^ 53 := lt_of_le_of_ne hmabs h53
      have h' : ((|m| : Int) : ℚ) < ((2 ^ 53 : Int) : ℚ) := by exact_mod_cast this
      refine h'.trans_eq ?_
      norm_num
    have hlog : Int.log 2 |fl64 x| < e + 53 := by
      have h1 := (log_bounds hz).1
      by_contra hc
      have := zpow_le_zpow_right₀ (show (1 : ℚ) ≤ 2 by norm_num) (not_lt.1 hc)
      linarith
    unfold lastDigit; omega

/-- Integers up to `2^53` are floating-point numbers. -/
theorem fl64_int (z : Int) (h : |z| ≤ 2 ^ 53) : fl64 z = z := by
  by_cases hz : z = 0
  · subst hz; simp [fl64_zero]
  have hzq : (z : ℚ) ≠ 0 := by exact_mod_cast hz
  by_cases h53 : |z| = 2 ^ 53
  · have hlog : Int.log 2 |(z : ℚ)| = 53 := by
      rw [← Int.cast_abs, h53]
      have := Int.log_zpow (R := ℚ) (b := 2) (by norm_num) 53
      have e : (((2 ^ 53 : Int) : ℚ)) = ((2 : Nat) : ℚ) ^ (53 : Int) := by norm_num
      rw [e]; exact this
    rcases abs_eq (by norm_num) |>.1 h53 with h | h
    · apply fl64_multiple (2 ^ 52) 1
      · unfold lastDigit; rw [hlog]; omega
      · rw [h]; norm_num
    · apply fl64_multiple (-2 ^ 52) 1
      · unfold lastDigit; rw [hlog]; omega
      · rw [h]; norm_num
  · apply fl64_multiple z 0
    · have hlt : |(z : ℚ)| < 2 ^ (53 : Int) := by
        rw [← Int.cast_abs]
        have : |z| < 2 ^ 53 := lt_of_le_of_ne h h53
        have h' : ((|z| : Int) : ℚ) < ((2 ^ 53 : Int) : ℚ) := by exact_mod_cast this
        refine h'.trans_eq ?_
        norm_num
      have h1 := (log_bounds hzq).1
      have hlog : Int.log 2 |(z : ℚ)| < 53 := by
        by_contra hc
        have := zpow_le_zpow_right₀ (show (1 : ℚ) ≤ 2 by norm_num) (not_lt.1 hc)
        linarith
      unfold lastDigit; omega
    · simp

end Leap
