import Verif.Model.Gaussian
import Mathlib.Algebra.BigOperators.Group.List.Basic
import Mathlib.Algebra.Order.BigOperators.Group.List
import Mathlib.Algebra.BigOperators.Ring.List
import Mathlib.Tactic.FieldSimp
import Mathlib.Tactic.Linarith
import Mathlib.Tactic.Ring
import Mathlib.Tactic.Positivity
import Mathlib.Tactic.NormNum

/-! # The t-test helper (C105) -/

namespace Leap

namespace Spec

/-- What is used of the two-sided p-value of the t distribution: 1 at 0, less further out, never negative. -/
structure TwoSided (pval : ℕ → ℚ → ℝ) : Prop where
  zero : ∀ df, 0 < df → pval df 0 = 1
  anti : ∀ df, 0 < df → ∀ a b, 0 ≤ a → a < b → pval df b < pval df a
  nonneg : ∀ df q, 0 ≤ pval df q

/-- The mean of the samples. -/
def sampleMean (xs : List ℚ) : ℚ := xs.sum / xs.length

/-- The sum of the squared distances from the mean. -/
def squaredDeviations (xs : List ℚ) : ℚ := (xs.map fun x => (x - sampleMean xs) ^ 2).sum

/-- The square of Student's t for two samples with equal variances, given the variance estimate of the first. -/
def studentSq (meanX varX : ℚ) (n : ℕ) (meanY varY : ℚ) (m : ℕ) : ℚ :=
  (meanX - meanY) ^ 2 / ((((n : ℚ) - 1) * varX + ((m : ℚ) - 1) * varY) / (n + m - 2) * (1 / n + 1 / m))

/-- The textbook test: the samples' variance is estimated with `n - 1`. -/
def textbookAccepts (pval : ℕ → ℚ → ℝ) (xs : List ℚ) (refMean refStd : ℚ) (m : ℕ) (p : ℝ) : Prop :=
  p < pval (xs.length + m - 2) (studentSq (sampleMean xs) (squaredDeviations xs / (xs.length - 1)) xs.length refMean (refStd ^ 2) m)

/-- Something varies: the samples differ, or there are at least two reference observations with a standard deviation above 0. -/
def Varies (xs : List ℚ) (refStd : ℚ) (m : ℕ) : Prop := (∃ x ∈ xs, ∃ y ∈ xs, x ≠ y) ∨ (2 ≤ m ∧ refStd ≠ 0)

end Spec

open Spec

theorem npVar_eq (xs : List ℚ) : npVar xs = squaredDeviations xs / xs.length := by
  simp [npVar, squaredDeviations, npMean, sampleMean, pow_two]

theorem squaredDeviations_nonneg (xs : List ℚ) : 0 ≤ squaredDeviations xs := by
  apply List.sum_nonneg
  intro q hq
  obtain ⟨x, -, rfl⟩ := List.mem_map.1 hq
  positivity

/-- Samples that differ deviate from their mean. -/
theorem squaredDeviations_pos {xs : List ℚ} (h : ∃ x ∈ xs, ∃ y ∈ xs, x ≠ y) : 0 < squaredDeviations xs := by
  obtain ⟨x, hx, y, hy, hne⟩ := h
  have key : ∃ z ∈ xs, z ≠ sampleMean xs := by
    by_cases e : x = sampleMean xs
    · exact ⟨y, hy, fun e' => hne (e.trans e'.symm)⟩
    · exact ⟨x, hx, e⟩
  obtain ⟨z, hz, hzm⟩ := key
  have h1 : (z - sampleMean xs) ^ 2 ≤ squaredDeviations xs := by
    apply List.single_le_sum
    · intro q hq
      obtain ⟨w, -, rfl⟩ := List.mem_map.1 hq
      positivity
    · exact List.mem_map.2 ⟨z, hz, rfl⟩
  have h2 : 0 < (z - sampleMean xs) ^ 2 := by
    have : z - sampleMean xs ≠ 0 := sub_ne_zero.2 hzm
    positivity
  linarith

theorem sum_const (xs : List ℚ) (c : ℚ) (h : ∀ x ∈ xs, x = c) : xs.sum = xs.length * c := by
  induction xs with
  | nil => simp
  | cons x xs ih =>
    rw [List.sum_cons, h x (by simp), ih fun y hy => h y (by simp [hy]), List.length_cons]
    push_cast; ring

theorem squaredDeviations_zero {xs : List ℚ} (h : ¬ ∃ x ∈ xs, ∃ y ∈ xs, x ≠ y) : squaredDeviations xs = 0 := by
  apply List.sum_eq_zero
  intro q hq
  obtain ⟨x, hx, rfl⟩ := List.mem_map.1 hq
  have hc : ∀ y ∈ xs, y = x := by
    intro y hy
    by_contra hne
    exact h ⟨y, hy, x, hx, hne⟩
  have hlen : (xs.length : ℚ) ≠ 0 := by
    have := List.length_pos_of_mem hx
    positivity
  rw [sampleMean, sum_const xs x hc, mul_div_cancel_left₀ _ hlen, sub_self]; norm_num

theorem length_two {xs : List ℚ} (h : ∃ x ∈ xs, ∃ y ∈ xs, x ≠ y) : 2 ≤ xs.length := by
  obtain ⟨x, hx, y, hy, hne⟩ := h
  match xs, hx, hy with
  | [z], hx, hy =>
    simp only [List.mem_singleton] at hx hy
    exact absurd (hx.trans hy.symm) hne
  | _ :: _ :: _, _, _ => simp

/-- The pooled variance is positive exactly when something varies. -/
theorem pooled_pos_iff (xs : List ℚ) (hne : xs ≠ []) (refStd : ℚ) (m : ℕ) (hm : 1 ≤ m) (v : ℚ)
    (hv : (0 < v ↔ 0 < squaredDeviations xs) ∧ 0 ≤ v) :
    0 < ((xs.length : ℚ) - 1) * v + ((m : ℚ) - 1) * (refStd * refStd) ↔ Varies xs refStd m := by
  have hn : 1 ≤ xs.length := List.length_pos_iff.2 hne
  have hn' : (0 : ℚ) ≤ (xs.length : ℚ) - 1 := by
    have : (1 : ℚ) ≤ xs.length := by exact_mod_cast hn
    linarith
  have hm' : (0 : ℚ) ≤ (m : ℚ) - 1 := by
    have : (1 : ℚ) ≤ m := by exact_mod_cast hm
    linarith
  have h1 := mul_nonneg hn' hv.2
  have h2 := mul_nonneg hm' (mul_self_nonneg refStd)
  constructor
  · intro h
    by_cases hx : ∃ x ∈ xs, ∃ y ∈ xs, x ≠ y
    · exact Or.inl hx
    · right
      have hv0 : v = 0 := by
        have : ¬ 0 < v := by rw [hv.1, squaredDeviations_zero hx]; simp
        linarith [hv.2]
      rw [hv0] at h
      constructor
      · by_contra hm2
        obtain rfl : m = 1 := by omega
        norm_num at h
      · rintro rfl
        norm_num at h
  · rintro (hx | ⟨hm2, hr⟩)
    · have hvp : 0 < v := hv.1.2 (squaredDeviations_pos hx)
      have : (0 : ℚ) < (xs.length : ℚ) - 1 := by
        have : (2 : ℚ) ≤ xs.length := by exact_mod_cast length_two hx
        linarith
      have := mul_pos this hvp
      linarith
    · have hr2 : 0 < refStd * refStd := mul_self_pos.2 hr
      have : (0 : ℚ) < (m : ℚ) - 1 := by
        have : (2 : ℚ) ≤ m := by exact_mod_cast hm2
        linarith
      have := mul_pos this hr2
      linarith

theorem npVar_sign {xs : List ℚ} (hne : xs ≠ []) : (0 < npVar xs ↔ 0 < squaredDeviations xs) ∧ 0 ≤ npVar xs := by
  have hn : (0 : ℚ) < xs.length := by exact_mod_cast List.length_pos_iff.2 hne
  rw [npVar_eq]
  exact ⟨div_pos_iff_of_pos_right hn, div_nonneg (squaredDeviations_nonneg xs) hn.le⟩

/-- C105: if something varies, `equals_gaussian` is true exactly when the p-value of Student's t exceeds the threshold, the variance of the samples
being estimated with the number of samples in the denominator. -/
theorem equals_gaussian_exact (pval : ℕ → ℚ → ℝ) (xs : List ℚ) (hne : xs ≠ []) (refMean refStd : ℚ) (m : ℕ) (hm : 1 ≤ m) (p : ℝ)
    (hv : Varies xs refStd m) :
    equalsGaussian pval xs refMean refStd m p = true ↔
      p < pval (xs.length + m - 2)
        (studentSq (sampleMean xs) (squaredDeviations xs / xs.length) xs.length refMean (refStd ^ 2) m) := by
  have hn : 1 ≤ xs.length := List.length_pos_iff.2 hne
  have hpos := (pooled_pos_iff xs hne refStd m hm (npVar xs) (npVar_sign hne)).2 hv
  have hdf : (0 : ℚ) < (xs.length : ℚ) + m - 2 := by
    have : 3 ≤ xs.length + m := by
      rcases hv with h | h
      · have := length_two h; omega
      · omega
    have : (3 : ℚ) ≤ (xs.length : ℚ) + m := by exact_mod_cast this
    linarith
  have hx : (0 : ℚ) < xs.length := by exact_mod_cast hn
  have hmq : (0 : ℚ) < m := by exact_mod_cast hm
  have hden : ((xs.length - 1) * npVar xs + (m - 1) * (refStd * refStd)) / (xs.length + m - 2) * (1 / (xs.length : ℚ) + 1 / m) ≠ 0 := by
    positivity
  have ht : tSquare (npMean xs) (npVar xs) xs.length refMean (refStd * refStd) m =
      .val (studentSq (sampleMean xs) (squaredDeviations xs / xs.length) xs.length refMean (refStd ^ 2) m) := by
    simp only [tSquare]
    rw [if_neg hdf.ne', if_neg hden]
    simp only [studentSq, npMean, sampleMean, npVar_eq, pow_two]
  simp only [equalsGaussian]
  rw [if_neg (by omega), ht]
  simp

/-- C105: if nothing varies on either side, the answer is false for every threshold that is not negative, even if the samples equal the reference. -/
theorem constant_samples_rejected (pval : ℕ → ℚ → ℝ) (xs : List ℚ) (refMean refStd : ℚ) (m : ℕ) (hm : 1 ≤ m) (p : ℝ) (hp : 0 ≤ p)
    (hv : ¬ Varies xs refStd m) : equalsGaussian pval xs refMean refStd m p = false := by
  by_cases hne : xs = []
  · simp [equalsGaussian, hne]
  have hn : xs.length ≠ 0 := fun h => hne (List.length_eq_zero_iff.1 h)
  have h1 := (npVar_sign hne).2
  have hnn : ¬ 0 < ((xs.length : ℚ) - 1) * npVar xs + ((m : ℚ) - 1) * (refStd * refStd) := by
    rw [pooled_pos_iff xs hne refStd m hm (npVar xs) (npVar_sign hne)]; exact hv
  have hn1 : (1 : ℚ) ≤ xs.length := by exact_mod_cast Nat.one_le_iff_ne_zero.2 hn
  have hm1 : (1 : ℚ) ≤ m := by exact_mod_cast hm
  have h2 := mul_nonneg (show (0 : ℚ) ≤ xs.length - 1 by linarith) h1
  have h3 := mul_nonneg (show (0 : ℚ) ≤ m - 1 by linarith) (mul_self_nonneg refStd)
  have h0 : ((xs.length : ℚ) - 1) * npVar xs + ((m : ℚ) - 1) * (refStd * refStd) = 0 := by linarith
  simp only [equalsGaussian, if_neg hn, tSquare, h0, zero_div, zero_mul, if_true]
  by_cases hdf : (xs.length : ℚ) + m - 2 = 0
  · simp [hdf]
  · rw [if_neg hdf]
    by_cases hd : npMean xs - refMean = 0
    · simp [hd]
    · simp [hd, hp]

/-- C105: samples whose mean is the reference mean are accepted at every threshold below 1, if something varies. -/
theorem equal_means_accepted (pval : ℕ → ℚ → ℝ) (hp : TwoSided pval) (xs : List ℚ) (hne : xs ≠ []) (refStd : ℚ) (m : ℕ) (hm : 1 ≤ m) (p : ℝ)
    (hp1 : p < 1) (hv : Varies xs refStd m) : equalsGaussian pval xs (sampleMean xs) refStd m p = true := by
  rw [equals_gaussian_exact pval xs hne _ refStd m hm p hv]
  have : 0 < xs.length + m - 2 := by
    have := List.length_pos_iff.2 hne
    rcases hv with h | h
    · have := length_two h; omega
    · omega
  rw [studentSq, sub_self, show ((0 : ℚ) ^ 2) = 0 by norm_num, zero_div, hp.zero _ this]
  exact hp1

theorem sampleMean_affine (xs : List ℚ) (hne : xs ≠ []) (s c : ℚ) : sampleMean (xs.map fun x => s * x + c) = s * sampleMean xs + c := by
  have hn : (xs.length : ℚ) ≠ 0 := by
    have := List.length_pos_iff.2 hne
    positivity
  have : (xs.map fun x => s * x + c).sum = s * xs.sum + xs.length * c := by
    clear hne hn
    induction xs with
    | nil => simp
    | cons x xs ih => simp only [List.map_cons, List.sum_cons, ih, List.length_cons]; push_cast; ring
  rw [sampleMean, this, sampleMean, List.length_map]
  field_simp

theorem squaredDeviations_affine (xs : List ℚ) (hne : xs ≠ []) (s c : ℚ) :
    squaredDeviations (xs.map fun x => s * x + c) = s ^ 2 * squaredDeviations xs := by
  rw [squaredDeviations, sampleMean_affine xs hne, squaredDeviations, ← List.sum_map_mul_left, List.map_map]
  congr 1
  apply List.map_congr_left
  intro x _
  simp only [Function.comp]; ring

/-- C105: the order of the samples does not matter, nor does the unit or the origin in which everything is measured. -/
theorem equals_gaussian_invariant (pval : ℕ → ℚ → ℝ) (xs : List ℚ) (hne : xs ≠ []) (refMean refStd : ℚ) (m : ℕ) (hm : 1 ≤ m) (p : ℝ)
    (hv : Varies xs refStd m) :
    (∀ ys, ys.Perm xs → equalsGaussian pval ys refMean refStd m p = equalsGaussian pval xs refMean refStd m p) ∧
    ∀ s c : ℚ, s ≠ 0 → equalsGaussian pval (xs.map fun x => s * x + c) (s * refMean + c) (|s| * refStd) m p =
      equalsGaussian pval xs refMean refStd m p := by
  constructor
  · intro ys hperm
    have hne' : ys ≠ [] := fun h => hne (by rw [h] at hperm; exact hperm.symm.eq_nil)
    have hv' : Varies ys refStd m := by
      rcases hv with ⟨x, hx, y, hy, h⟩ | h
      · exact Or.inl ⟨x, hperm.mem_iff.2 hx, y, hperm.mem_iff.2 hy, h⟩
      · exact Or.inr h
    have hmean : sampleMean ys = sampleMean xs := by rw [sampleMean, sampleMean, hperm.sum_eq, hperm.length_eq]
    have hdev : squaredDeviations ys = squaredDeviations xs := by
      rw [squaredDeviations, squaredDeviations, hmean]
      exact (hperm.map _).sum_eq
    rw [Bool.eq_iff_iff, equals_gaussian_exact pval ys hne' _ _ _ hm _ hv', equals_gaussian_exact pval xs hne _ _ _ hm _ hv, hmean, hdev,
      hperm.length_eq]
  · intro s c hs
    have hne' : (xs.map fun x => s * x + c) ≠ [] := by simpa using hne
    have hv' : Varies (xs.map fun x => s * x + c) (|s| * refStd) m := by
      rcases hv with ⟨x, hx, y, hy, h⟩ | h
      · refine Or.inl ⟨_, List.mem_map.2 ⟨x, hx, rfl⟩, _, List.mem_map.2 ⟨y, hy, rfl⟩, fun e => h ?_⟩
        exact mul_left_cancel₀ hs (add_right_cancel e)
      · exact Or.inr ⟨h.1, mul_ne_zero (abs_ne_zero.2 hs) h.2⟩
    rw [Bool.eq_iff_iff, equals_gaussian_exact pval _ hne' _ _ _ hm _ hv', equals_gaussian_exact pval xs hne _ _ _ hm _ hv,
      sampleMean_affine xs hne, squaredDeviations_affine xs hne, List.length_map]
    have e : studentSq (s * sampleMean xs + c) (s ^ 2 * squaredDeviations xs / xs.length) xs.length (s * refMean + c) ((|s| * refStd) ^ 2) m =
        studentSq (sampleMean xs) (squaredDeviations xs / xs.length) xs.length refMean (refStd ^ 2) m := by
      have hs2 : s ^ 2 ≠ 0 := pow_ne_zero 2 hs
      simp only [studentSq, mul_pow, sq_abs]
      rw [show (s * sampleMean xs + c - (s * refMean + c)) ^ 2 = s ^ 2 * (sampleMean xs - refMean) ^ 2 by ring,
        show (((xs.length : ℚ) - 1) * (s ^ 2 * squaredDeviations xs / xs.length) + ((m : ℚ) - 1) * (s ^ 2 * refStd ^ 2)) / (xs.length + m - 2) *
          (1 / xs.length + 1 / m) = s ^ 2 * ((((xs.length : ℚ) - 1) * (squaredDeviations xs / xs.length) + ((m : ℚ) - 1) * refStd ^ 2) /
          (xs.length + m - 2) * (1 / xs.length + 1 / m)) by ring,
        mul_div_mul_left _ _ hs2]
    rw [e]

/-- C105: moving the samples' mean further from the reference mean, on the same side or the other, or raising the threshold never turns a rejection
into an acceptance. -/
theorem equals_gaussian_monotone (pval : ℕ → ℚ → ℝ) (hp : TwoSided pval) (xs : List ℚ) (hne : xs ≠ []) (near far refStd : ℚ) (m : ℕ) (hm : 1 ≤ m)
    (p q : ℝ) (hpq : q ≤ p) (hv : Varies xs refStd m) (hd : |sampleMean xs - near| ≤ |sampleMean xs - far|)
    (h : equalsGaussian pval xs far refStd m p = true) : equalsGaussian pval xs near refStd m q = true := by
  rw [equals_gaussian_exact pval xs hne _ _ _ hm _ hv] at h ⊢
  have hn : 1 ≤ xs.length := List.length_pos_iff.2 hne
  have hdf : 0 < xs.length + m - 2 := by
    rcases hv with h | h
    · have := length_two h; omega
    · omega
  have hle : studentSq (sampleMean xs) (squaredDeviations xs / xs.length) xs.length near (refStd ^ 2) m ≤
      studentSq (sampleMean xs) (squaredDeviations xs / xs.length) xs.length far (refStd ^ 2) m := by
    have hpos := (pooled_pos_iff xs hne refStd m hm (npVar xs) (npVar_sign hne)).2 hv
    rw [npVar_eq, ← pow_two] at hpos
    have hdf' : (0 : ℚ) < (xs.length : ℚ) + m - 2 := by
      have : (3 : ℚ) ≤ (xs.length : ℚ) + m := by exact_mod_cast (by omega : 3 ≤ xs.length + m)
      linarith
    have hx : (0 : ℚ) < xs.length := by exact_mod_cast hn
    have hmq : (0 : ℚ) < m := by exact_mod_cast hm
    have hsq : (sampleMean xs - near) ^ 2 ≤ (sampleMean xs - far) ^ 2 := sq_le_sq.2 hd
    simp only [studentSq]
    gcongr
  have h0 : 0 ≤ studentSq (sampleMean xs) (squaredDeviations xs / xs.length) xs.length near (refStd ^ 2) m := by
    have hpos := (pooled_pos_iff xs hne refStd m hm (npVar xs) (npVar_sign hne)).2 hv
    rw [npVar_eq, ← pow_two] at hpos
    have hdf' : (0 : ℚ) < (xs.length : ℚ) + m - 2 := by
      have : (3 : ℚ) ≤ (xs.length : ℚ) + m := by exact_mod_cast (by omega : 3 ≤ xs.length + m)
      linarith
    simp only [studentSq]
    positivity
  rcases hle.lt_or_eq with hlt | heq
  · have := hp.anti _ hdf _ _ h0 hlt
    linarith
  · rw [heq]; linarith

/-- C105: the helper is not the textbook t-test. It accepts only what the textbook test accepts; but for all samples that differ and whose mean is
not the reference mean there is a threshold at which the textbook test accepts and the helper rejects. -/
theorem equals_gaussian_not_textbook (pval : ℕ → ℚ → ℝ) (hp : TwoSided pval) (xs : List ℚ) (refMean refStd : ℚ) (m : ℕ) (hm : 1 ≤ m)
    (hx : ∃ x ∈ xs, ∃ y ∈ xs, x ≠ y) (hd : sampleMean xs ≠ refMean) :
    (∀ p, equalsGaussian pval xs refMean refStd m p = true → textbookAccepts pval xs refMean refStd m p) ∧
    ∃ p, 0 ≤ p ∧ textbookAccepts pval xs refMean refStd m p ∧ equalsGaussian pval xs refMean refStd m p = false := by
  have hlen := length_two hx
  have hne : xs ≠ [] := by rintro rfl; simp at hlen
  have hv : Varies xs refStd m := Or.inl hx
  have hdev := squaredDeviations_pos hx
  have hxq : (2 : ℚ) ≤ xs.length := by exact_mod_cast hlen
  have hmq : (1 : ℚ) ≤ m := by exact_mod_cast hm
  have hlt : studentSq (sampleMean xs) (squaredDeviations xs / (xs.length - 1)) xs.length refMean (refStd ^ 2) m <
      studentSq (sampleMean xs) (squaredDeviations xs / xs.length) xs.length refMean (refStd ^ 2) m := by
    have hd2 : 0 < (sampleMean xs - refMean) ^ 2 := by
      have : sampleMean xs - refMean ≠ 0 := sub_ne_zero.2 hd
      positivity
    have hr : (0 : ℚ) ≤ (m - 1) * refStd ^ 2 := mul_nonneg (by linarith) (by positivity)
    have hn1 : (0 : ℚ) < (xs.length : ℚ) - 1 := by linarith
    have hn0 : (0 : ℚ) < (xs.length : ℚ) := by linarith
    have hv1 : (0 : ℚ) < squaredDeviations xs / xs.length := by positivity
    have hv2 : squaredDeviations xs / xs.length < squaredDeviations xs / ((xs.length : ℚ) - 1) := by
      apply div_lt_div_of_pos_left hdev hn1; linarith
    have hA : (0 : ℚ) < ((xs.length : ℚ) - 1) * (squaredDeviations xs / xs.length) := mul_pos hn1 hv1
    have hB := mul_lt_mul_of_pos_left hv2 hn1
    have hdf : (0 : ℚ) < (xs.length : ℚ) + m - 2 := by linarith
    have hC : (0 : ℚ) < 1 / (xs.length : ℚ) + 1 / m := by positivity
    simp only [studentSq]
    apply div_lt_div_of_pos_left hd2
    · exact mul_pos (div_pos (by linarith) hdf) hC
    · apply mul_lt_mul_of_pos_right _ hC
      apply div_lt_div_of_pos_right _ hdf
      linarith
  have h0 : 0 ≤ studentSq (sampleMean xs) (squaredDeviations xs / (xs.length - 1)) xs.length refMean (refStd ^ 2) m := by
    have h1 : (0 : ℚ) ≤ (xs.length : ℚ) - 1 := by linarith
    have h2 : (0 : ℚ) ≤ (m : ℚ) - 1 := by linarith
    have h3 : (0 : ℚ) ≤ (xs.length : ℚ) + m - 2 := by linarith
    have h4 := squaredDeviations_nonneg xs
    simp only [studentSq]
    positivity
  have hanti := hp.anti (xs.length + m - 2) (by omega) _ _ h0 hlt
  constructor
  · intro p h
    rw [equals_gaussian_exact pval xs hne _ _ _ hm _ hv] at h
    exact h.trans hanti
  · refine ⟨_, hp.nonneg _ _, hanti, ?_⟩
    rw [Bool.eq_false_iff, Ne, equals_gaussian_exact pval xs hne _ _ _ hm _ hv]
    exact lt_irrefl _

/-! ### A case that meets the hypotheses -/

/-- A function with the assumed shape. -/
noncomputable def exPval (_ : ℕ) (q : ℚ) : ℝ := 1 / (1 + |(q : ℝ)|)

theorem exPval_two_sided : TwoSided exPval := by
  refine ⟨fun _ _ => by simp [exPval], fun _ _ a b ha hab => ?_, fun _ q => ?_⟩
  · have ha' : (0 : ℝ) ≤ a := by exact_mod_cast ha
    have hab' : (a : ℝ) < b := by exact_mod_cast hab
    simp only [exPval, abs_of_nonneg ha', abs_of_nonneg (ha'.trans hab'.le)]
    apply one_div_lt_one_div_of_lt <;> linarith
  · simp only [exPval]; positivity

example : (∃ x ∈ ([1, 2, 6] : List ℚ), ∃ y ∈ ([1, 2, 6] : List ℚ), x ≠ y) ∧ sampleMean [1, 2, 6] = 3 ∧ squaredDeviations [1, 2, 6] = 14 ∧
    Varies [1, 2, 6] 1 5 := by
  refine ⟨⟨1, by simp, 2, by simp, by norm_num⟩, by norm_num [sampleMean], by norm_num [squaredDeviations, sampleMean], Or.inr ⟨by norm_num, by norm_num⟩⟩
example : ¬ Varies [2, 2] 0 7 := by
  rintro (⟨x, hx, y, hy, h⟩ | ⟨_, h⟩)
  · simp at hx hy; exact h (hx.trans hy.symm)
  · exact h rfl

end Leap
