import Mathlib.Tactic.Linarith
import Verif.Props.Binary
import Verif.Props.Segmented
import Verif.Props.Float
import Verif.Model.FloatOps

/-!
# C97, C98: decoding, rates and initial vectors in floating point
-/

namespace Leap
open Spec

/-- Without rounding the floating-point models are the exact models. -/
theorem float_models_exact : (∀ k lo hi, realDimF id k lo hi = realDim k lo hi) ∧ (∀ dims vs, realDecodeF id dims vs = realDecode dims vs) ∧
    (∀ e L, expectedProbabilityF id e L = computeExpectedProbability e L) ∧ (∀ b u, createRealVectorF id b u = createRealVector b u) := by
  refine ⟨fun _ _ _ => rfl, fun _ _ => rfl, fun _ _ => rfl, fun _ _ => rfl⟩

theorem fl_of_float {x : ℚ} (h : IsFloat x) : fl64 x = x := (isFloat_iff x).1 h

theorem realDimF_increment {k : Nat} (h0 : 0 < k) (h1 : k ≤ 53) (lo hi : ℚ) :
    (realDimF fl64 k lo hi).increment = some (fl64 (fl64 (hi - lo) / (2 ^ k - 1))) := by
  have hp : (2 : Int) ^ k ≤ 2 ^ 53 := pow_le_pow_right₀ (by norm_num) h1
  have hp1 : (2 : Int) ^ 1 ≤ 2 ^ k := pow_le_pow_right₀ (by norm_num) h0
  have hk : wrap64 (wrap64 (2 ^ k) - 1) = 2 ^ k - 1 := by
    generalize (2 : Int) ^ k = y at *
    simp only [wrap64]
    omega
  have hne : ¬ ((2 : Int) ^ k - 1 = 0) := by
    intro h; simp at hp1; omega
  have hc : fl64 (((2 : Int) ^ k - 1 : Int) : ℚ) = 2 ^ k - 1 := by
    rw [fl64_int _ (by rw [abs_le]; simp at hp1; omega)]; push_cast; ring
  simp only [realDimF, hk, if_neg hne, hc]

/-- The value decoded from the integer `v`. -/
def Spec.decoded (k : Nat) (lo hi : ℚ) (v : Int) : ℚ := fl64 (lo + fl64 (fl64 v * fl64 (fl64 (hi - lo) / (2 ^ k - 1))))

theorem fl64_normal {x : ℚ} (h : Normal x) : |fl64 x - x| ≤ |x| * (1 / 2 ^ 53) := by
  have := rounding_error.2.2.2.1 x h
  rwa [show ((2 : ℚ) ^ (-53 : Int)) = 1 / 2 ^ 53 by norm_num] at this

/-- Errors of the four roundings, added up. -/
theorem decode_errors {d w x t s U lo hi M g η : ℚ} (hd0 : 0 < d) (hU0 : 0 < U) (hU : U ≤ 1 / 1000) (hs0 : 0 ≤ s) (hs1 : s ≤ 1)
    (e1 : |w - d| ≤ d * U) (e3 : |x - s * w| ≤ s * w * U) (e4 : |t - x| ≤ x * U) (hx : 0 ≤ x)
    (hd : hi = lo + d) (hM1 : |lo| ≤ M) (hM2 : |hi| ≤ M) (e5 : |g - (lo + t)| ≤ |lo + t| * U + η) (hη : η ≤ M * U * (1 / 2)) :
    |g - (lo + s * d)| ≤ M * U * 8 := by
  have hM0 : 0 ≤ M := (abs_nonneg _).trans hM1
  have hdU : 0 ≤ d * U := mul_nonneg hd0.le hU0.le
  have hMU : 0 ≤ M * U := mul_nonneg hM0 hU0.le
  have hdM : d ≤ 2 * M := by
    have a1 := (abs_le.1 hM1).1
    have a2 := (abs_le.1 hM2).2
    linarith
  have hdU4 : d * U ≤ d * (1 / 1000) := mul_le_mul_of_nonneg_left hU hd0.le
  obtain ⟨w1, w2⟩ := abs_le.1 e1
  have hw0 : 0 ≤ w := by linarith
  have hw4 : w ≤ d * (1001 / 1000) := by linarith
  have hsw0 : 0 ≤ s * w := mul_nonneg hs0 hw0
  have hsw4 : s * w ≤ d * (1001 / 1000) := by
    calc s * w ≤ 1 * w := mul_le_mul_of_nonneg_right hs1 hw0
      _ ≤ d * (1001 / 1000) := by linarith
  have b1 : |s * w - s * d| ≤ d * U := by
    rw [← mul_sub, abs_mul, abs_of_nonneg hs0]
    calc s * |w - d| ≤ 1 * (d * U) := mul_le_mul hs1 e1 (abs_nonneg _) (by norm_num)
      _ = d * U := one_mul _
  have b2 : |x - s * w| ≤ d * U * (1001 / 1000) :=
    e3.trans ((mul_le_mul_of_nonneg_right hsw4 hU0.le).trans (le_of_eq (by ring)))
  have hx4 : x ≤ d * (1003 / 1000) := by
    have h2 := (abs_le.1 b2).2
    linarith
  have b3 : |t - x| ≤ d * U * (1003 / 1000) :=
    e4.trans ((mul_le_mul_of_nonneg_right hx4 hU0.le).trans (le_of_eq (by ring)))
  have hts : |t - s * d| ≤ d * U * (31 / 10) := by
    have htri : t - s * d = (t - x) + (x - s * w) + (s * w - s * d) := by ring
    rw [htri]
    have := abs_add_three (t - x) (x - s * w) (s * w - s * d)
    linarith
  have hexact : |lo + s * d| ≤ M := by
    have a1 := abs_le.1 hM1
    have a2 := abs_le.1 hM2
    have p1 : 0 ≤ s * d := mul_nonneg hs0 hd0.le
    have p2 : s * d ≤ 1 * d := mul_le_mul_of_nonneg_right hs1 hd0.le
    rw [abs_le]; constructor <;> linarith
  have hlt : |lo + t| ≤ M + d * U * (31 / 10) := by
    have : lo + t = (lo + s * d) + (t - s * d) := by ring
    rw [this]; exact (abs_add_le _ _).trans (add_le_add hexact hts)
  have hdU2 : d * U ≤ M * U * 2 := (mul_le_mul_of_nonneg_right hdM hU0.le).trans (le_of_eq (by ring))
  have h3 : |lo + t| * U ≤ M * U + d * U * (31 / 10) * (1 / 1000) := by
    calc |lo + t| * U ≤ (M + d * U * (31 / 10)) * U := mul_le_mul_of_nonneg_right hlt hU0.le
      _ = M * U + d * U * (31 / 10) * U := by ring
      _ ≤ _ := add_le_add le_rfl (mul_le_mul_of_nonneg_left hU (by linarith))
  have htri : g - (lo + s * d) = (g - (lo + t)) + (t - s * d) := by ring
  rw [htri]
  refine (abs_add_le _ _).trans ?_
  linarith

theorem near_half {x y U : ℚ} (hy : 0 < y) (hU : U ≤ 1 / 1000) (h : |x - y| ≤ y * U) : y / 2 ≤ x := by
  have : y * U ≤ y * (1 / 1000) := mul_le_mul_of_nonneg_left hU hy.le
  have := (abs_le.1 h).1
  linarith

/-- **C97** (one segment). In floating point, the value decoded from a segment of `k` bits (1 to 53) holding `v` is the lower bound for all zeros, never decreases as
`v` grows, and is within `2^-50` times the larger bound of the exact value. -/
theorem float_decode_segment (k : Nat) (h0 : 0 < k) (h1 : k ≤ 53) (lo hi : ℚ) (hlo : IsFloat lo) (hlh : lo ≤ hi) :
    ∃ f : Int → ℚ, (∀ v, realDecodeF fl64 [realDimF fl64 k lo hi] [v] = [some (f v)]) ∧ (∀ v, IsFloat (f v)) ∧
      f 0 = lo ∧ (∀ v w, v ≤ w → f v ≤ f w) ∧
      ((2 : ℚ) ^ (-900 : Int) ≤ hi - lo → ∀ v, 0 ≤ v → v ≤ 2 ^ k - 1 →
        |f v - (lo + v * ((hi - lo) / (2 ^ k - 1)))| ≤ max |lo| |hi| * (1 / 2 ^ 50)) := by
  have hpos : (0 : ℚ) < 2 ^ k - 1 := by
    have : (2 : ℚ) ^ 1 ≤ 2 ^ k := pow_le_pow_right₀ (by norm_num) h0
    simp at this; linarith
  have hw0 : 0 ≤ fl64 (hi - lo) := fl64_nonneg (by linarith)
  have hi0 : 0 ≤ fl64 (fl64 (hi - lo) / (2 ^ k - 1)) := fl64_nonneg (div_nonneg hw0 hpos.le)
  refine ⟨decoded k lo hi, ?_, fun v => isFloat_fl64 _, ?_, ?_, ?_⟩
  · intro v
    simp only [realDecodeF, List.zipWith_cons_cons, List.zipWith_nil_left, realDimF_increment h0 h1, Option.map_some]
    rfl
  · simp [decoded, fl64_zero, fl_of_float hlo]
  · intro v w hvw
    have : fl64 (v : ℚ) ≤ fl64 (w : ℚ) := fl64_mono (by exact_mod_cast hvw)
    exact fl64_mono (add_le_add le_rfl (fl64_mono (mul_le_mul_of_nonneg_right this hi0)))
  · intro hd v v0 v1
    obtain ⟨d, hdd⟩ : ∃ d, hi = lo + d := ⟨hi - lo, by ring⟩
    obtain ⟨c, hc⟩ : ∃ c : ℚ, c = 2 ^ k - 1 := ⟨_, rfl⟩
    obtain ⟨U, hU⟩ : ∃ U : ℚ, U = 1 / 2 ^ 53 := ⟨_, rfl⟩
    have hsub : hi - lo = d := by rw [hdd]; ring
    rw [hsub] at hd hw0 hi0
    rw [← hc] at hpos hi0
    rw [hsub, ← hc]
    have hU0 : 0 < U := by rw [hU]; positivity
    have hU4 : U ≤ 1 / 1000 := by rw [hU]; norm_num
    have norm : ∀ x : ℚ, 0 < x → (2 : ℚ) ^ (-1022 : Int) ≤ x → |fl64 x - x| ≤ x * U := by
      intro x hx0 hx
      have := fl64_normal (x := x) (by unfold Normal; rwa [abs_of_pos hx0])
      rwa [abs_of_pos hx0, ← hU] at this
    have hcle : c ≤ 2 ^ 53 := by
      have : (2 : ℚ) ^ k ≤ 2 ^ 53 := pow_le_pow_right₀ (by norm_num) h1
      rw [hc]; linarith
    have hd0 : 0 < d := lt_of_lt_of_le (two_zpow_pos _) hd
    have hvc : (v : ℚ) ≤ c := by rw [hc]; exact_mod_cast v1
    have hvq : (0 : ℚ) ≤ v := by exact_mod_cast v0
    have hflv : fl64 (v : ℚ) = v := fl64_int v (by
      have hp : (2 : Int) ^ k ≤ 2 ^ 53 := pow_le_pow_right₀ (by norm_num) h1
      rw [abs_le]; omega)
    have e1 := norm d hd0 ((zpow_le_zpow_right₀ (by norm_num) (by norm_num)).trans hd)
    have hval : decoded k lo hi v = fl64 (lo + fl64 (v * fl64 (fl64 d / c))) := by
      unfold decoded; rw [hflv, hsub, hc]
    rw [hval]
    generalize fl64 d = w at *
    have hwpos := near_half hd0 hU4 e1
    have hwc : (2 : ℚ) ^ (-1000 : Int) ≤ w / c := by
      rw [le_div_iff₀ hpos]
      calc (2 : ℚ) ^ (-1000 : Int) * c ≤ 2 ^ (-1000 : Int) * 2 ^ 53 := mul_le_mul_of_nonneg_left hcle (two_zpow_pos _).le
        _ = 2 ^ (-947 : Int) := by rw [← zpow_natCast (2 : ℚ) 53, ← zpow_add₀ (by norm_num)]; norm_num
        _ ≤ 2 ^ (-901 : Int) := zpow_le_zpow_right₀ (by norm_num) (by norm_num)
        _ = 2 ^ (-900 : Int) / 2 := by rw [show (-901 : Int) = -900 - 1 by norm_num, zpow_sub_one₀ (by norm_num)]; rfl
        _ ≤ d / 2 := div_le_div_of_nonneg_right hd (by norm_num)
        _ ≤ w := hwpos
    have hwc0 : 0 < w / c := lt_of_lt_of_le (two_zpow_pos _) hwc
    have e2 := norm _ hwc0 ((zpow_le_zpow_right₀ (by norm_num) (by norm_num)).trans hwc)
    generalize fl64 (w / c) = inc at *
    have hincl := near_half hwc0 hU4 e2
    have hinc0 : 0 < inc := lt_of_lt_of_le (half_pos hwc0) hincl
    obtain ⟨s, hs⟩ : ∃ s : ℚ, s = v / c := ⟨_, rfl⟩
    have hs0 : 0 ≤ s := by rw [hs]; exact div_nonneg hvq hpos.le
    have hs1 : s ≤ 1 := by rw [hs, div_le_one hpos]; exact hvc
    have hvs : (v : ℚ) = s * c := by rw [hs, div_mul_cancel₀ _ hpos.ne']
    have e3 : |v * inc - s * w| ≤ s * w * U := by
      have : v * inc - s * w = v * (inc - w / c) := by rw [hvs]; field_simp
      rw [this, abs_mul, abs_of_nonneg hvq]
      calc (v : ℚ) * |inc - w / c| ≤ v * (w / c * U) := mul_le_mul_of_nonneg_left e2 hvq
        _ = s * w * U := by rw [hvs]; field_simp
    have e4 : |fl64 (v * inc) - v * inc| ≤ v * inc * U := by
      by_cases hv : v = 0
      · rw [hv]; simp [fl64_zero]
      · have hv1' : (1 : ℚ) ≤ v := by
          have : (1 : Int) ≤ v := by omega
          exact_mod_cast this
        have hle : 1 * inc ≤ v * inc := mul_le_mul_of_nonneg_right hv1' hinc0.le
        rw [one_mul] at hle
        refine norm _ (lt_of_lt_of_le hinc0 hle) ?_
        calc (2 : ℚ) ^ (-1022 : Int) ≤ 2 ^ (-1001 : Int) := zpow_le_zpow_right₀ (by norm_num) (by norm_num)
            _ = 2 ^ (-1000 : Int) / 2 := by rw [show (-1001 : Int) = -1000 - 1 by norm_num, zpow_sub_one₀ (by norm_num)]; rfl
            _ ≤ w / c / 2 := div_le_div_of_nonneg_right hwc (by norm_num)
            _ ≤ v * inc := hincl.trans hle
    have hM1 : |lo| ≤ max |lo| |hi| := le_max_left _ _
    have hM2 : |hi| ≤ max |lo| |hi| := le_max_right _ _
    generalize max |lo| |hi| = M at *
    have heta : (2 : ℚ) ^ (-1075 : Int) ≤ M * U * (1 / 2) := by
      have m1 : (2 : ℚ) ^ (-901 : Int) ≤ M := by
        have h9 : (2 : ℚ) ^ (-900 : Int) = 2 * 2 ^ (-901 : Int) := by
          rw [show (-900 : Int) = -901 + 1 by norm_num, zpow_add_one₀ (by norm_num)]; ring
        have a1 := (abs_le.1 hM1).1
        have a2 := (abs_le.1 hM2).2
        generalize (2 : ℚ) ^ (-901 : Int) = y at *
        rw [h9] at hd
        linarith
      calc (2 : ℚ) ^ (-1075 : Int) ≤ 2 ^ (-955 : Int) := zpow_le_zpow_right₀ (by norm_num) (by norm_num)
        _ = 2 ^ (-901 : Int) * (2 ^ (-53 : Int) * 2 ^ (-1 : Int)) := by
            rw [← zpow_add₀ (by norm_num), ← zpow_add₀ (by norm_num)]; norm_num
        _ = 2 ^ (-901 : Int) * (U * (1 / 2)) := by rw [hU]; norm_num
        _ ≤ M * (U * (1 / 2)) := mul_le_mul_of_nonneg_right m1 (by positivity)
        _ = M * U * (1 / 2) := by ring
    have e5 := fl64_error (lo + fl64 (v * inc))
    rw [show ((2 : ℚ) ^ (-53 : Int)) = U by rw [hU]; norm_num] at e5
    have hgoal : (lo + v * (d / c)) = lo + s * d := by rw [hs]; field_simp
    rw [hgoal, show M * (1 / 2 ^ 50) = M * U * 8 by rw [hU]; ring]
    exact decode_errors hd0 hU0 hU4 hs0 hs1 e1 e3 e4 (mul_nonneg hvq hinc0.le) hdd hM1 hM2 e5 heta

/-- **C97** (whole genome). Decoding a binary genome in floating point gives one value per segment, not below its lower bound and above its upper bound by at most
`2^-50` times the larger bound; whatever was decoded before. -/
theorem float_decode_genome (segs : List (Nat × ℚ × ℚ)) (history : List (List Int)) (genome : List Int) (hb : Binary genome)
    (hs : ∀ t ∈ segs, 0 < t.1 ∧ t.1 ≤ 53 ∧ IsFloat t.2.1 ∧ (2 : ℚ) ^ (-900 : Int) ≤ t.2.2 - t.2.1)
    (hlen : (segs.map (·.1)).sum ≤ genome.length) :
    ∃ xs : List ℚ, binaryToRealF fl64 (segs.map fun t => realDimF fl64 t.1 t.2.1 t.2.2) (cacheAfter (segs.map (·.1)) history) genome = .ok (xs.map some) ∧
      List.Forall₂ (fun t x => t.2.1 ≤ x ∧ x ≤ t.2.2 + max |t.2.1| |t.2.2| * (1 / 2 ^ 50)) segs xs ∧
      ∃ ys : List ℚ, binaryToReal (segs.map fun t => realDim t.1 t.2.1 t.2.2) (cacheAfter (segs.map (·.1)) history) genome = .ok (ys.map some) ∧
        List.Forall₂ (fun t (p : ℚ × ℚ) => |p.1 - p.2| ≤ max |t.2.1| |t.2.2| * (1 / 2 ^ 50)) segs (xs.zip ys) := by
  have hle : ∀ t ∈ segs, t.2.1 ≤ t.2.2 := fun t ht => by
    have := (hs t ht).2.2.2
    have := two_zpow_pos (-900)
    linarith
  have hbits : (segs.map fun t => realDimF fl64 t.1 t.2.1 t.2.2).map (·.bits) = segs.map (·.1) := by
    simp only [List.map_map]
    apply List.map_congr_left
    intro t _
    rfl
  have hbits' : (segs.map fun t => realDim t.1 t.2.1 t.2.2).map (·.bits) = segs.map (·.1) := by
    simp only [List.map_map]
    apply List.map_congr_left
    intro t _
    rfl
  have hd : ∀ d ∈ segs.map (·.1), 0 < d ∧ d ≤ 63 := by
    intro d hd
    obtain ⟨t, ht, rfl⟩ := List.mem_map.mp hd
    exact ⟨(hs t ht).1, le_trans (hs t ht).2.1 (by norm_num)⟩
  have key : ∀ vs : List Int, List.Forall₂ (fun t v => 0 ≤ v ∧ v ≤ 2 ^ (t : Nat × ℚ × ℚ).1 - 1) segs vs →
      ∃ xs ys : List ℚ, realDecodeF fl64 (segs.map fun t => realDimF fl64 t.1 t.2.1 t.2.2) vs = xs.map some ∧
        realDecode (segs.map fun t => realDim t.1 t.2.1 t.2.2) vs = ys.map some ∧
        List.Forall₂ (fun t x => t.2.1 ≤ x ∧ x ≤ t.2.2 + max |t.2.1| |t.2.2| * (1 / 2 ^ 50)) segs xs ∧
        List.Forall₂ (fun t (p : ℚ × ℚ) => |p.1 - p.2| ≤ max |t.2.1| |t.2.2| * (1 / 2 ^ 50)) segs (xs.zip ys) := by
    intro vs hv
    clear hbits hbits' hd hlen
    induction hv with
    | nil => exact ⟨[], [], rfl, rfl, .nil, .nil⟩
    | @cons t v segs vs h _ ih =>
      obtain ⟨xs, ys, ex, ey, hx, hy⟩ := ih (fun t ht => hs t (List.mem_cons_of_mem _ ht)) (fun t ht => hle t (List.mem_cons_of_mem _ ht))
      obtain ⟨a, b, c, d⟩ := hs t (List.mem_cons_self ..)
      have e := hle t (List.mem_cons_self ..)
      obtain ⟨f, f1, -, f2, f3, f4⟩ := float_decode_segment t.1 a b t.2.1 t.2.2 c e
      obtain ⟨g, g1, g2, -⟩ := real_decode_interval t.1 a (b.trans (by norm_num)) t.2.1 t.2.2 e
      have g3 : g v = t.2.1 + v * ((t.2.2 - t.2.1) / (2 ^ t.1 - 1)) := by
        have := g1 v
        simp only [realDecode, List.zipWith_cons_cons, List.zipWith_nil_left, realDim_increment a (b.trans (by norm_num)), Option.map_some, List.cons.injEq, Option.some.injEq,
          and_true] at this
        rw [← this]; rfl
      have herr := f4 d v h.1 h.2
      rw [← g3] at herr
      refine ⟨f v :: xs, g v :: ys, ?_, ?_, .cons ⟨?_, ?_⟩ hx, .cons herr hy⟩
      · have := f1 v
        simp only [realDecodeF, List.zipWith_cons_cons, List.zipWith_nil_left, List.cons.injEq, and_true] at this
        simp only [realDecodeF] at ex
        simp only [realDecodeF, List.map_cons, List.zipWith_cons_cons, this, ex]
      · have := g1 v
        simp only [realDecode, List.zipWith_cons_cons, List.zipWith_nil_left, List.cons.injEq, and_true] at this
        simp only [realDecode] at ey
        simp only [realDecode, List.map_cons, List.zipWith_cons_cons, this, ey]
      · rw [← f2]; exact f3 0 v h.1
      · have := (abs_le.1 herr).2
        have := (g2 v h.1 h.2).2
        linarith
  have hpl : List.Forall₂ (fun (t : Nat × ℚ × ℚ) s => s.length = t.1 ∧ Binary s) segs (pieces (segs.map (·.1)) genome) := by
    clear hd key hbits hbits' hs hle
    induction segs generalizing genome with
    | nil => exact .nil
    | cons t segs ih =>
      simp only [List.map_cons, List.sum_cons] at hlen
      refine .cons ⟨by simp; omega, binary_take hb _⟩ (ih _ (binary_drop hb _) (by simp; omega))
  obtain ⟨xs, ys, ex, ey, hx, hy⟩ := key ((pieces (segs.map (·.1)) genome).map bigEndian) (by
    rw [List.forall₂_map_right_iff]
    exact hpl.imp fun t s hts => binary_to_int_range t.1 s hts.2 hts.1)
  refine ⟨xs, ?_, hx, ys, ?_, hy⟩
  · simp only [binaryToRealF, hbits]
    rw [binary_to_int_value_partial _ history genome hb hd hlen]
    simp only [ex]
  · simp only [binaryToReal, hbits']
    rw [binary_to_int_value_partial _ history genome hb hd hlen]
    simp only [ey]

/-- **C97** (disagreement). In floating point a decoded value can exceed the upper bound given by the user: four ones in `[-500, 500]` decode to `500 + 2^-43`. -/
theorem decoded_above_bound : binaryToRealF fl64 [realDimF fl64 4 (-500) 500] none [1, 1, 1, 1] = .ok [some (500 + 1 / 2 ^ 43)] ∧
    binaryToReal [realDim 4 (-500) 500] none [1, 1, 1, 1] = .ok [some 500] := by
  constructor <;> decide +kernel

/-- The example of the documentation: `(4, -5.12, 5.12)`, where the bounds are met exactly. -/
example : binaryToRealF fl64 [realDimF fl64 4 (-fl64 (128 / 25)) (fl64 (128 / 25)), realDimF fl64 4 (-fl64 (128 / 25)) (fl64 (128 / 25))] none
    [0, 0, 0, 0, 1, 1, 1, 1] = .ok [some (-fl64 (128 / 25)), some (fl64 (128 / 25))] := by decide +kernel

/-! ### Rates -/

/-- **C98** (rates). For a genome of 1 to `2^53` genes and an expected number of mutations from 0 to that length, the computed chance per gene is from 0 to 1, and within
`2^-51` of the exact one. -/
theorem float_rate (L : Nat) (h0 : 0 < L) (h1 : L ≤ 2 ^ 53) (e : ℚ) (he : 0 ≤ e) (hL : e ≤ L) :
    ∃ p, expectedProbabilityF fl64 e L = .ok p ∧ 0 ≤ p ∧ p ≤ 1 ∧ |p - e / L| ≤ 1 / 2 ^ 51 := by
  have hLq : (1 : ℚ) ≤ L := by exact_mod_cast h0
  have hLq2 : (L : ℚ) ≤ 2 ^ 53 := by exact_mod_cast h1
  have hL0 : (0 : ℚ) < L := by linarith
  obtain ⟨U, hU⟩ : ∃ U : ℚ, U = 1 / 2 ^ 53 := ⟨_, rfl⟩
  have hU0 : 0 < U := by rw [hU]; positivity
  have hinv : U ≤ 1 / L := by rw [hU]; exact one_div_le_one_div_of_le hL0 hLq2
  have hinv1 : 0 < 1 / (L : ℚ) := by positivity
  have e1 := fl64_normal (x := 1 / (L : ℚ)) (by
    unfold Normal; rw [abs_of_pos hinv1]
    refine le_trans ?_ hinv
    rw [hU, show (1 : ℚ) / 2 ^ 53 = 2 ^ (-53 : Int) by norm_num]
    exact zpow_le_zpow_right₀ (by norm_num) (by norm_num))
  rw [abs_of_pos hinv1, ← hU] at e1
  have hr0 := fl64_nonneg hinv1.le
  have hq : 1 / (L : ℚ) * e ≤ 1 := by rw [one_div_mul_eq_div, div_le_one hL0]; exact hL
  have hq0 : 0 ≤ 1 / (L : ℚ) * e := mul_nonneg hinv1.le he
  have e2 : |fl64 (1 / (L : ℚ)) * e - 1 / (L : ℚ) * e| ≤ U := by
    rw [← sub_mul, abs_mul, abs_of_nonneg he]
    calc |fl64 (1 / (L : ℚ)) - 1 / L| * e ≤ 1 / L * U * e := mul_le_mul_of_nonneg_right e1 he
      _ = (1 / L * e) * U := by ring
      _ ≤ 1 * U := mul_le_mul_of_nonneg_right hq hU0.le
      _ = U := one_mul _
  refine ⟨fl64 (fl64 (1 / (L : ℚ)) * e), by simp only [expectedProbabilityF]; rw [if_neg (by omega)],
    fl64_nonneg (mul_nonneg hr0 he), ?_, ?_⟩
  · have : fl64 (1 / (L : ℚ)) * e ≤ 1 + U := by have := (abs_le.1 e2).2; linarith
    refine (fl64_mono this).trans (le_of_eq ?_)
    rw [hU]; decide +kernel
  · have e3 := fl64_error (fl64 (1 / (L : ℚ)) * e)
    rw [show ((2 : ℚ) ^ (-53 : Int)) = U by rw [hU]; norm_num] at e3
    have heta : (2 : ℚ) ^ (-1075 : Int) ≤ U := by
      rw [hU, show (1 : ℚ) / 2 ^ 53 = 2 ^ (-53 : Int) by norm_num]
      exact zpow_le_zpow_right₀ (by norm_num) (by norm_num)
    have hU4 : U ≤ 1 / 1000 := by rw [hU]; norm_num
    rw [show (1 : ℚ) / 2 ^ 51 = 4 * U by rw [hU]; norm_num, show e / (L : ℚ) = 1 / L * e by ring]
    generalize fl64 (1 / (L : ℚ)) * e = y at *
    generalize 1 / (L : ℚ) * e = z at *
    have hy : |y| ≤ 1 + U := by
      rw [abs_le] at e2 ⊢
      constructor <;> linarith
    have hyU : |y| * U ≤ U * (1001 / 1000) := by
      calc |y| * U ≤ (1 + U) * U := mul_le_mul_of_nonneg_right hy hU0.le
        _ ≤ (1001 / 1000) * U := mul_le_mul_of_nonneg_right (by linarith) hU0.le
        _ = U * (1001 / 1000) := by ring
    have htri : fl64 y - z = (fl64 y - y) + (y - z) := by ring
    rw [htri]
    refine (abs_add_le _ _).trans ?_
    linarith

/-- **C98** (disagreement). Asking for 49 mutations of 49 genes gives a chance below 1, so that a gene whose random number is the largest, `1 - 2^-53`, is not mutated; with
exact arithmetic, or with 48 genes, the chance is 1. -/
theorem full_rate_below_one : expectedProbabilityF fl64 49 49 = .ok (1 - 1 / 2 ^ 53) ∧ computeExpectedProbability 49 49 = .ok 1 ∧
    expectedProbabilityF fl64 48 48 = .ok 1 := by
  refine ⟨?_, ?_, ?_⟩ <;> decide +kernel

/-! ### Initial vectors -/

/-- The difference of two floating-point numbers is a multiple of the smallest one. -/
theorem float_sub_multiple {x y : ℚ} (hx : IsFloat x) (hy : IsFloat y) : ∃ k : Int, x - y = k * 2 ^ (-1074 : Int) := by
  have key : ∀ {z : ℚ}, IsFloat z → ∃ k : Int, z = k * 2 ^ (-1074 : Int) := by
    rintro z ⟨m, e, -, he, rfl⟩
    obtain ⟨d, hd⟩ := Int.eq_ofNat_of_zero_le (show 0 ≤ e + 1074 by omega)
    refine ⟨m * 2 ^ d, ?_⟩
    push_cast
    rw [mul_assoc, ← zpow_natCast (2 : ℚ) d, ← zpow_add₀ (by norm_num)]
    congr 2
    omega
  obtain ⟨a, rfl⟩ := key hx
  obtain ⟨b, rfl⟩ := key hy
  exact ⟨a - b, by push_cast; ring⟩

/-- Multiplying a normal number by a random number makes it smaller. -/
theorem fl64_shrink {w u : ℚ} (hw : (2 : ℚ) ^ (-1022 : Int) < w) (hu1 : u ≤ 1 - 1 / 2 ^ 53) : fl64 (w * u) < w := by
  have hm : IsFloat ((2 : ℚ) ^ (-1022 : Int)) := ⟨1, -1022, by norm_num, by norm_num, by simp⟩
  have hw0 : 0 < w := (two_zpow_pos _).trans hw
  by_cases h : w * u < 2 ^ (-1022 : Int)
  · exact lt_of_le_of_lt ((fl64_mono h.le).trans (le_of_eq (fl_of_float hm))) hw
  · have hpos : 0 < w * u := lt_of_lt_of_le (two_zpow_pos _) (not_lt.1 h)
    have e := fl64_normal (x := w * u) (by unfold Normal; rw [abs_of_pos hpos]; exact not_lt.1 h)
    rw [abs_of_pos hpos] at e
    have e' := (abs_le.1 e).2
    have h2 : w * u ≤ w * (1 - 1 / 2 ^ 53) := mul_le_mul_of_nonneg_left hu1 hw0.le
    have h3 : w * u * (1 + 1 / 2 ^ 53) ≤ w * (1 - 1 / 2 ^ 53) * (1 + 1 / 2 ^ 53) := mul_le_mul_of_nonneg_right h2 (by norm_num)
    have h4 : w * (1 - 1 / 2 ^ 53) * (1 + 1 / 2 ^ 53) < w := by
      rw [mul_assoc]
      have : (1 - 1 / 2 ^ 53 : ℚ) * (1 + 1 / 2 ^ 53) < 1 := by norm_num
      calc w * ((1 - 1 / 2 ^ 53) * (1 + 1 / 2 ^ 53)) < w * 1 := mul_lt_mul_of_pos_left this hw0
        _ = w := mul_one _
    linarith

/-- One number drawn uniformly between two floating-point numbers is between them. -/
theorem float_uniform_between {lo hi u : ℚ} (hlo : IsFloat lo) (hhi : IsFloat hi) (hlh : lo ≤ hi) (hu0 : 0 ≤ u) (hu1 : u ≤ 1 - 1 / 2 ^ 53) :
    lo ≤ fl64 (lo + fl64 (fl64 (hi - lo) * u)) ∧ fl64 (lo + fl64 (fl64 (hi - lo) * u)) ≤ hi := by
  have hd0 : 0 ≤ hi - lo := by linarith
  have hw0 := fl64_nonneg hd0
  have hu : u ≤ 1 := hu1.trans (by norm_num)
  have hp0 : 0 ≤ fl64 (fl64 (hi - lo) * u) := fl64_nonneg (mul_nonneg hw0 hu0)
  constructor
  · conv_lhs => rw [← fl_of_float hlo]
    exact fl64_mono (by linarith)
  · have hpd : fl64 (fl64 (hi - lo) * u) ≤ hi - lo := by
      have hpw : fl64 (fl64 (hi - lo) * u) ≤ fl64 (hi - lo) := by
        have h := fl64_mono (show fl64 (hi - lo) * u ≤ fl64 (hi - lo) by nlinarith)
        rwa [fl64_idem] at h
      rcases le_or_gt (fl64 (hi - lo)) (hi - lo) with h | h
      · exact hpw.trans h
      · -- the width was rounded up, so it is large
        have hbig : (2 : ℚ) ^ (-1022 : Int) < fl64 (hi - lo) := by
          by_contra hc
          rw [not_lt] at hc
          obtain ⟨k, hk⟩ := float_sub_multiple hhi hlo
          have hlt : hi - lo < 2 ^ (-1022 : Int) := lt_of_lt_of_le h hc
          have hpos : 0 < hi - lo := by
            rcases hd0.lt_or_eq with h1 | h1
            · exact h1
            · rw [← h1, fl64_zero] at h; exact absurd h (lt_irrefl _)
          have : fl64 (hi - lo) = hi - lo := by
            refine fl64_multiple k (-1074) ?_ hk
            have h1 := (log_bounds hpos.ne').1
            rw [abs_of_pos hpos] at h1
            have h2 : (2 : ℚ) ^ Int.log 2 (hi - lo) < 2 ^ (-1022 : Int) := lt_of_le_of_lt h1 hlt
            have h3 := (zpow_lt_zpow_iff_right₀ (show (1 : ℚ) < 2 by norm_num)).1 h2
            unfold lastDigit; rw [abs_of_pos hpos]; omega
          rw [this] at h; exact lt_irrefl _ h
        have hsh := fl64_shrink (u := u) hbig hu1
        by_contra hc
        rw [not_le] at hc
        -- a floating-point number between the width and its rounding
        have hn := ((rounding_nearest (hi - lo)).2 _ (isFloat_fl64 (fl64 (hi - lo) * u))).1
        rw [abs_of_pos (by linarith), abs_of_pos (by linarith)] at hn
        linarith
    have h := fl64_mono (show lo + fl64 (fl64 (hi - lo) * u) ≤ hi by linarith)
    rwa [fl_of_float hhi] at h

/-- **C98** (initial vectors). In floating point every gene of a random real vector lies between its bounds, both included. -/
theorem float_vector_in_bounds (bounds : List (ℚ × ℚ)) (u : List ℚ) (hb : ∀ b ∈ bounds, IsFloat b.1 ∧ IsFloat b.2 ∧ b.1 ≤ b.2)
    (hu : ∀ x ∈ u, 0 ≤ x ∧ x ≤ 1 - 1 / 2 ^ 53) (hlen : u.length = bounds.length) :
    List.Forall₂ (fun b g => b.1 ≤ g ∧ g ≤ b.2 ∧ IsFloat g) bounds (createRealVectorF fl64 bounds u) := by
  induction bounds generalizing u with
  | nil => exact .nil
  | cons b bs ih =>
    cases u with
    | nil => simp at hlen
    | cons x us =>
      obtain ⟨b1, b2, b3⟩ := hb b (List.mem_cons_self ..)
      obtain ⟨x1, x2⟩ := hu x (List.mem_cons_self ..)
      have h := float_uniform_between b1 b2 b3 x1 x2
      exact .cons ⟨h.1, h.2, isFloat_fl64 _⟩ (ih us (fun c hc => hb c (List.mem_cons_of_mem _ hc))
        (fun y hy => hu y (List.mem_cons_of_mem _ hy)) (by simpa using hlen))

/-- The upper bound can be reached, although the random numbers stay below 1. -/
theorem float_vector_upper : createRealVectorF fl64 [(1, 2)] [1 - 1 / 2 ^ 53] = [2] ∧ createRealVector [(1, 2)] [1 - 1 / 2 ^ 53] ≠ [2] := by
  constructor <;> decide +kernel

end Leap
