import Mathlib.Analysis.Real.Pi.Bounds
import Mathlib.Analysis.SpecialFunctions.Trigonometric.Bounds
import Mathlib.Tactic.NormNum
import Verif.Props.Benchmarks

/-!
# C72: the offset of Schwefel's function

The documentation says that the default `alpha` gives the global optimum fitness zero. In the traditional box the least value
is negative, but by less than `1e-6` per dimension.
-/

namespace Leap

/-- The polynomial that bounds `t² sin t` around its maximum. -/
theorem schwefel_polynomial (u : ℝ) (h0 : 0 ≤ u) (h1 : u ≤ 23 / 10) :
    (13 / 2 * 3.14159265359 + u) ^ 2 * (1 - 2 * (u / 2 - (u / 2) ^ 3 / 6) ^ 2) ≤ 418.982888 := by
  have hQ : 0 ≤ (10127031079493003974167060782516565183224520721291945591223525693375588249137 / 48000000000000000000000000000000000000000000000000000000000000000000000000) + (2461522250863341191356765689694758728824544347016347715931722701 / 144000000000000000000000000000000000000000000000000000000000000) * u + (-495248326579213850679462526891073960714254611064229 / 28800000000000000000000000000000000000000000000000) * u ^ 2 + (-78645129048206311083872020179913569973 / 48000000000000000000000000000000000000) * u ^ 3 + (47119518889982186620596859 / 144000000000000000000000000) * u ^ 4 + (5129380734197 / 144000000000000) * u ^ 5 + (1 / 1152) * u ^ 6 := by
    have h2 : u ^ 2 ≤ 529 / 100 := by nlinarith
    have h3 : u ^ 3 ≤ 12167 / 1000 := by nlinarith [pow_nonneg h0 2]
    have := pow_nonneg h0 4
    have := pow_nonneg h0 5
    have := pow_nonneg h0 6
    linarith
  have hid : 418.982888 - (13 / 2 * 3.14159265359 + u) ^ 2 * (1 - 2 * (u / 2 - (u / 2) ^ 3 / 6) ^ 2) =
      (u - (97170688453 / 1000000000000)) ^ 2 * ((10127031079493003974167060782516565183224520721291945591223525693375588249137 / 48000000000000000000000000000000000000000000000000000000000000000000000000) + (2461522250863341191356765689694758728824544347016347715931722701 / 144000000000000000000000000000000000000000000000000000000000000) * u + (-495248326579213850679462526891073960714254611064229 / 28800000000000000000000000000000000000000000000000) * u ^ 2 + (-78645129048206311083872020179913569973 / 48000000000000000000000000000000000000) * u ^ 3 + (47119518889982186620596859 / 144000000000000000000000000) * u ^ 4 + (5129380734197 / 144000000000000) * u ^ 5 + (1 / 1152) * u ^ 6) + ((16931642098283606381928816252432734281371837545553349473789370627722222012857 / 144000000000000000000000000000000000000000000000000000000000000000000000000000000000000) * u + (26064645805695536649131681963094905557211487278921433647265081958322436423141336294046909367 / 48000000000000000000000000000000000000000000000000000000000000000000000000000000000000000000000000)) := by
    ring
  have := mul_nonneg (sq_nonneg (u - (97170688453 / 1000000000000))) hQ
  have : (0 : ℝ) ≤ (16931642098283606381928816252432734281371837545553349473789370627722222012857 / 144000000000000000000000000000000000000000000000000000000000000000000000000000000000000) * u + (26064645805695536649131681963094905557211487278921433647265081958322436423141336294046909367 / 48000000000000000000000000000000000000000000000000000000000000000000000000000000000000000000000000) := by positivity
  linarith

/-- `cos u` from above, by the half angle. -/
theorem cos_le_half_angle (u : ℝ) (h0 : 0 ≤ u) (h1 : u ≤ 23 / 10) :
    Real.cos u ≤ 1 - 2 * (u / 2 - (u / 2) ^ 3 / 6) ^ 2 := by
  have h : Real.cos u = 1 - 2 * Real.sin (u / 2) ^ 2 := by
    have h2 := Real.sin_sq_add_cos_sq (u / 2)
    have h3 := Real.cos_two_mul (u / 2)
    have h4 : 2 * (u / 2) = u := by ring
    rw [h4] at h3
    linarith
  have hs : u / 2 - (u / 2) ^ 3 / 6 ≤ Real.sin (u / 2) := Real.sin_ge_sub_cube (by linarith)
  have hp : 0 ≤ u / 2 - (u / 2) ^ 3 / 6 := by
    have : u ^ 2 ≤ 529 / 100 := by nlinarith
    nlinarith
  rw [h]
  nlinarith

/-- `t² sin t` never exceeds `418.982888` for `0 ≤ t² ≤ 512`. -/
theorem schwefel_peak (t : ℝ) (ht : 0 ≤ t) (h : t ^ 2 ≤ 512) : t ^ 2 * Real.sin t ≤ 418.982888 := by
  have hpi := Real.pi_gt_d20
  have hpi' := Real.pi_lt_d20
  have hs1 := Real.sin_le_one t
  by_cases hc : t ≤ 13 / 2 * Real.pi
  · have : t ^ 2 ≤ 418 := by nlinarith
    nlinarith [sq_nonneg t]
  · rw [not_le] at hc
    set u := t - 13 / 2 * Real.pi with hu
    have hu0 : 0 ≤ u := by linarith
    have hu1 : u ≤ 23 / 10 := by
      by_contra hcon
      rw [not_le] at hcon
      nlinarith
    have htu : t = u + Real.pi / 2 + (3 : ℕ) * (2 * Real.pi) := by
      rw [hu]; push_cast; ring
    have hsin : Real.sin t = Real.cos u := by
      rw [htu, Real.sin_add_nat_mul_two_pi, Real.sin_add_pi_div_two]
    have hcos := cos_le_half_angle u hu0 hu1
    have hpoly := schwefel_polynomial u hu0 hu1
    have htle : t ≤ 13 / 2 * 3.14159265359 + u := by
      rw [hu]; nlinarith
    rw [hsin]
    by_cases hneg : Real.cos u ≤ 0
    · have := mul_nonpos_of_nonneg_of_nonpos (sq_nonneg t) hneg
      linarith
    · rw [not_le] at hneg
      calc t ^ 2 * Real.cos u ≤ (13 / 2 * 3.14159265359 + u) ^ 2 * Real.cos u := by
            apply mul_le_mul_of_nonneg_right _ hneg.le
            exact pow_le_pow_left₀ ht htle 2
        _ ≤ (13 / 2 * 3.14159265359 + u) ^ 2 * (1 - 2 * (u / 2 - (u / 2) ^ 3 / 6) ^ 2) :=
            mul_le_mul_of_nonneg_left hcos (sq_nonneg _)
        _ ≤ 418.982888 := hpoly

/-- `t² sin t` is not below `-418.982888` either. -/
theorem schwefel_trough (t : ℝ) (ht : 0 ≤ t) (h : t ^ 2 ≤ 512) : -418.982888 ≤ t ^ 2 * Real.sin t := by
  have hpi := Real.pi_gt_d20
  have hpi' := Real.pi_lt_d20
  have hs1 := Real.neg_one_le_sin t
  by_cases hc : t ≤ 13 / 2 * Real.pi
  · have : t ^ 2 ≤ 418 := by nlinarith
    nlinarith [sq_nonneg t]
  · rw [not_le] at hc
    have hper : Real.sin t = -Real.sin (t - 7 * Real.pi) := by
      have : t = t - 7 * Real.pi + Real.pi + (3 : ℕ) * (2 * Real.pi) := by push_cast; ring
      conv_lhs => rw [this, Real.sin_add_nat_mul_two_pi, Real.sin_add_pi]
    have hlt : t ≤ 22.63 := by
      by_contra hcon
      rw [not_le] at hcon
      nlinarith
    by_cases h7 : t ≤ 7 * Real.pi
    · have : 0 ≤ Real.sin t := by
        have e : t = t - 6 * Real.pi + (3 : ℕ) * (2 * Real.pi) := by push_cast; ring
        rw [e, Real.sin_add_nat_mul_two_pi]
        apply Real.sin_nonneg_of_nonneg_of_le_pi <;> linarith
      have := mul_nonneg (sq_nonneg t) this
      linarith
    · rw [not_le] at h7
      have hle := Real.sin_le (x := t - 7 * Real.pi) (by linarith)
      rw [hper]
      have : -Real.sin (t - 7 * Real.pi) ≥ -0.64 := by nlinarith
      nlinarith [sq_nonneg t]

/-- One doubling of the angle. -/
theorem cos_double_ge {z a b : ℝ} (h : a ≤ Real.cos z) (ha : 0 ≤ a) (hb : b ≤ 2 * a ^ 2 - 1) : b ≤ Real.cos (2 * z) := by
  rw [Real.cos_two_mul]
  nlinarith

theorem cos_at_peak : (49764135448559531 / 50000000000000000) ≤ Real.cos 0.09717 := by
  have h0 : (99999992796318893 / 100000000000000000) ≤ Real.cos (0.09717 / 256) := by
    have := Real.one_sub_sq_div_two_le_cos (x := 0.09717 / 256)
    refine le_trans ?_ this
    norm_num
  have h1 := cos_double_ge (b := (99999971185276609 / 100000000000000000)) h0 (by norm_num) (by norm_num)
  have h2 := cos_double_ge (b := (99999884741123041 / 100000000000000000)) h1 (by norm_num) (by norm_num)
  have h3 := cos_double_ge (b := (3124985592648683 / 3125000000000000)) h2 (by norm_num) (by norm_num)
  have h4 := cos_double_ge (b := (99998155863282493 / 100000000000000000)) h3 (by norm_num) (by norm_num)
  have h5 := cos_double_ge (b := (12499077940143347 / 12500000000000000)) h4 (by norm_num) (by norm_num)
  have h6 := cos_double_ge (b := (99970495172835909 / 100000000000000000)) h5 (by norm_num) (by norm_num)
  have h7 := cos_double_ge (b := (19976399620408031 / 20000000000000000)) h6 (by norm_num) (by norm_num)
  have h8 := cos_double_ge (b := (49764135448559531 / 50000000000000000)) h7 (by norm_num) (by norm_num)
  have e : (2 * (2 * (2 * (2 * (2 * (2 * (2 * (2 * (0.09717 / 256)))))))) : ℝ) = 0.09717 := by norm_num
  rwa [e] at h8

/-- **C72** (Schwefel, the offset). With the default offset no vector of the traditional box has fitness below `-1e-6` per
dimension, and some vector of the box has fitness below zero: the optimum is zero up to rounding of the offset. -/
theorem schwefel_default_optimum (n : Nat) :
    (∀ x : Fin n → ℝ, (∀ i, |x i| ≤ 512) →
      ∃ v, schwefel 418.982887 (.array (List.ofFn x)) = .ok v ∧ -(1e-6) * n ≤ v) ∧
    (0 < n → ∃ x : Fin n → ℝ, (∀ i, |x i| ≤ 512) ∧
      ∃ v, schwefel 418.982887 (.array (List.ofFn x)) = .ok v ∧ v < 0) := by
  constructor
  · intro x hx
    obtain ⟨v, hv, h, -⟩ := schwefel_spec (418.982887) x
    refine ⟨v, h, ?_⟩
    have hterm : ∀ i, -418.982888 ≤ -(x i) * Real.sin (Real.sqrt |x i|) := by
      intro i
      have hsq : Real.sqrt |x i| ^ 2 = |x i| := Real.sq_sqrt (abs_nonneg _)
      have h1 := schwefel_peak (Real.sqrt |x i|) (Real.sqrt_nonneg _) (by rw [hsq]; exact hx i)
      have h2 := schwefel_trough (Real.sqrt |x i|) (Real.sqrt_nonneg _) (by rw [hsq]; exact hx i)
      rw [hsq] at h1 h2
      rcases abs_cases (x i) with ⟨e, -⟩ | ⟨e, -⟩
      · rw [e] at h1 h2 ⊢; linarith
      · rw [e] at h1 h2 ⊢; linarith
    have hsum : ∑ _i : Fin n, (-418.982888 : ℝ) ≤ ∑ i, (-(x i) * Real.sin (Real.sqrt |x i|)) :=
      Finset.sum_le_sum fun i _ => hterm i
    simp only [Finset.sum_const, Finset.card_univ, Fintype.card_fin, nsmul_eq_mul] at hsum
    rw [hv]
    linarith
  · intro hn
    have hpi := Real.pi_gt_d20
    have hpi' := Real.pi_lt_d20
    set t : ℝ := 0.09717 + Real.pi / 2 + (3 : ℕ) * (2 * Real.pi) with ht
    have ht' : t = 0.09717 + 13 / 2 * Real.pi := by rw [ht]; push_cast; ring
    have ht0 : 0 ≤ t := by rw [ht']; positivity
    have habs : |t ^ 2| = t ^ 2 := abs_of_nonneg (sq_nonneg t)
    refine ⟨fun _ => t ^ 2, ?_, ?_⟩
    · intro _
      rw [habs, ht']
      nlinarith
    · obtain ⟨v, hv, h, -⟩ := schwefel_spec (n := n) (418.982887) (fun _ => t ^ 2)
      refine ⟨v, h, ?_⟩
      have hsin : Real.sin t = Real.cos 0.09717 := by
        rw [ht, Real.sin_add_nat_mul_two_pi, Real.sin_add_pi_div_two]
      have hcos := cos_at_peak
      have hlow2 : (0.09717 + 13 / 2 * 3.14159265358) ^ 2 ≤ t ^ 2 := by
        apply pow_le_pow_left₀ (by norm_num)
        rw [ht']; linarith
      have hval : 418.982887 < t ^ 2 * Real.sin t := by
        rw [hsin]
        calc (418.982887 : ℝ) < (0.09717 + 13 / 2 * 3.14159265358) ^ 2 * (49764135448559531 / 50000000000000000) := by norm_num
          _ ≤ t ^ 2 * (49764135448559531 / 50000000000000000) := mul_le_mul_of_nonneg_right hlow2 (by norm_num)
          _ ≤ t ^ 2 * Real.cos 0.09717 := mul_le_mul_of_nonneg_left hcos (sq_nonneg t)
      simp only [habs, Real.sqrt_sq ht0, Finset.sum_const, Finset.card_univ, Fintype.card_fin, nsmul_eq_mul] at hv
      have hnpos : (0 : ℝ) < n := by exact_mod_cast hn
      rw [hv]
      nlinarith

example : ∃ v, schwefel 418.982887 (.array [420, -300]) = .ok v ∧ -(1e-6) * (2 : ℕ) ≤ v := by
  have := (schwefel_default_optimum 2).1 ![420, -300] (by
    intro i; fin_cases i <;> norm_num [abs_of_nonneg, abs_of_neg])
  simpa using this

end Leap
