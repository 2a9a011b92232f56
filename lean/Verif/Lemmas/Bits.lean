import Mathlib.Tactic.Ring
import Mathlib.Tactic.Linarith
import Mathlib.Data.Nat.Bitwise
import Verif.Model.Binary
import Verif.Spec.Bits

namespace Leap
open Spec

theorem wrap64_of_mem {x : Int} (h1 : -2 ^ 63 ≤ x) (h2 : x < 2 ^ 63) : wrap64 x = x := by
  simp only [wrap64]; omega

theorem bigEndian_cons (x : Int) (l : List Int) :
    bigEndian (x :: l) = x * 2 ^ l.length + bigEndian l := by
  have h : ∀ (l : List Int) (a : Int),
      l.foldl (fun a b => 2 * a + b) a = a * 2 ^ l.length + l.foldl (fun a b => 2 * a + b) 0 := by
    intro l
    induction l with
    | nil => intro a; simp
    | cons y l ih =>
      intro a
      simp only [List.foldl_cons, List.length_cons]
      rw [ih (2 * a + y), ih (2 * 0 + y)]
      ring
  simp only [bigEndian, List.foldl_cons]
  rw [h l]
  simp

theorem bigEndian_bounds {l : List Int} (hb : Binary l) :
    0 ≤ bigEndian l ∧ bigEndian l < 2 ^ l.length := by
  induction l with
  | nil => simp [bigEndian]
  | cons x l ih =>
    obtain ⟨h1, h2⟩ := ih (fun g hg => hb g (List.mem_cons_of_mem _ hg))
    rw [bigEndian_cons, List.length_cons, pow_succ]
    have hp : (0 : Int) < 2 ^ l.length := by positivity
    rcases hb x (List.mem_cons_self ..) with rfl | rfl <;> constructor <;> linarith

theorem powers2_length (n : Nat) : (powers2 n).length = n := by simp [powers2]

theorem powers2_succ (n : Nat) : powers2 (n + 1) = wrap64 (2 ^ n) :: powers2 n := by
  simp [powers2, List.range_succ]

theorem powers2_drop {n k : Nat} (h : k ≤ n) : (powers2 n).drop (n - k) = powers2 k := by
  induction n with
  | zero => obtain rfl : k = 0 := by omega
            rfl
  | succ n ih =>
    rcases Nat.lt_or_ge n k with hk | hk
    · obtain rfl : k = n + 1 := by omega
      simp
    · rw [show n + 1 - k = (n - k) + 1 by omega, powers2_succ, List.drop_succ_cons, ih hk]

theorem lastSlice_powers2 {n k : Nat} (hk : 0 < k) (h : k ≤ n) : lastSlice (powers2 n) k = powers2 k := by
  rw [lastSlice, if_neg (by omega), powers2_length, powers2_drop h]

theorem sum_zip_powers2 (b : List Int) (h : b.length ≤ 63) :
    (List.zipWith (· * ·) b (powers2 b.length)).sum = bigEndian b := by
  induction b with
  | nil => simp [bigEndian]
  | cons x l ih =>
    simp only [List.length_cons] at h
    rw [List.length_cons, powers2_succ, List.zipWith_cons_cons, List.sum_cons, ih (by omega),
      bigEndian_cons]
    have hp : (2 : Int) ^ l.length ≤ 2 ^ 62 := pow_le_pow_right₀ (by norm_num) (by omega)
    have h0 : (0 : Int) < 2 ^ l.length := by positivity
    rw [wrap64_of_mem (by linarith [show (0 : Int) < 2 ^ 63 by norm_num]) (by
      have : (2 : Int) ^ 62 < 2 ^ 63 := by norm_num
      linarith)]

/-- What the cache can be: empty or the powers of two up to some length. -/
def CacheOk (c : Option (List Int)) : Prop := c = none ∨ ∃ n, c = some (powers2 n)

theorem updateCache_ok {c : Option (List Int)} (h : CacheOk c) (b : List Int) :
    ∃ n, b.length ≤ n ∧ updateCache b c = some (powers2 n) := by
  rcases h with rfl | ⟨n, rfl⟩
  · exact ⟨_, le_rfl, rfl⟩
  · simp only [updateCache, powers2_length]
    by_cases hb : b.length > n
    · exact ⟨_, le_rfl, by rw [if_pos hb]⟩
    · exact ⟨n, by omega, by rw [if_neg hb]⟩

theorem decodeIntLoop_cache (genome : List Int) (ds : List Nat) (off : Nat) (c : Option (List Int))
    (h : CacheOk c) : CacheOk (decodeIntLoop genome ds off c).2 := by
  induction ds generalizing off c with
  | nil => exact h
  | cons d ds ih =>
    simp only [decodeIntLoop]
    obtain ⟨n, -, hn⟩ := updateCache_ok h (pySlice genome off (off + d))
    rw [hn]
    have hc : CacheOk (some (powers2 n)) := Or.inr ⟨n, rfl⟩
    cases binaryToInt (pySlice genome off (off + d)) (some (powers2 n)) with
    | error e => exact hc
    | ok v =>
      have := ih (off + d) _ hc
      cases e : decodeIntLoop genome ds (off + d) (some (powers2 n)) with
      | mk r c' =>
        rw [e] at this
        cases r <;> exact this

theorem cacheAfter_ok (ds : List Nat) (history : List (List Int)) : CacheOk (cacheAfter ds history) := by
  have h : ∀ (l : List (List Int)) (c : Option (List Int)), CacheOk c →
      CacheOk (l.foldl (fun c g => (decodeInt ds c g).2) c) := by
    intro l
    induction l with
    | nil => intro c hc; exact hc
    | cons g l ih => intro c hc; exact ih _ (decodeIntLoop_cache g ds 0 c hc)
  exact h history none (Or.inl rfl)

theorem binary_take {l : List Int} (hb : Binary l) (n : Nat) : Binary (l.take n) :=
  fun g hg => hb g (List.mem_of_mem_take hg)

theorem binary_drop {l : List Int} (hb : Binary l) (n : Nat) : Binary (l.drop n) :=
  fun g hg => hb g (List.mem_of_mem_drop hg)

theorem decodeIntLoop_value (genome : List Int) (hb : Binary genome) (ds : List Nat) (off : Nat)
    (c : Option (List Int)) (hc : CacheOk c) (hds : ∀ d ∈ ds, 0 < d ∧ d ≤ 63)
    (hlen : off + ds.sum ≤ genome.length) :
    (decodeIntLoop genome ds off c).1 = .ok ((pieces ds (genome.drop off)).map bigEndian) := by
  induction ds generalizing off c with
  | nil => rfl
  | cons d ds ih =>
    simp only [List.sum_cons] at hlen
    obtain ⟨hd0, hd⟩ := hds d (List.mem_cons_self ..)
    set cur := pySlice genome off (off + d) with hcur
    have hcl : cur.length = d := by
      simp only [hcur, pySlice, List.length_take, List.length_drop]; omega
    have hce : cur = (genome.drop off).take d := by
      simp only [hcur, pySlice]; congr 1; omega
    have hcb : Binary cur := by rw [hce]; exact binary_take (binary_drop hb off) d
    obtain ⟨n, hn1, hn⟩ := updateCache_ok hc cur
    have hbi : binaryToInt cur (some (powers2 n)) = .ok (bigEndian cur) := by
      simp only [binaryToInt, powers2_length, gt_iff_lt, if_neg (not_lt.mpr hn1)]
      rw [lastSlice_powers2 (by omega) hn1, dot64, if_pos (powers2_length _).symm,
        sum_zip_powers2 cur (by omega)]
      obtain ⟨b1, b2⟩ := bigEndian_bounds hcb
      have hp : (2 : Int) ^ cur.length ≤ 2 ^ 63 := pow_le_pow_right₀ (by norm_num) (by omega)
      rw [wrap64_of_mem (by linarith [show (0 : Int) < 2 ^ 63 by norm_num]) (by linarith)]
    have hrec := ih (off + d) (some (powers2 n)) (Or.inr ⟨n, rfl⟩)
      (fun x hx => hds x (List.mem_cons_of_mem _ hx)) (by omega)
    simp only [decodeIntLoop, ← hcur, hn, hbi]
    cases e : decodeIntLoop genome ds (off + d) (some (powers2 n)) with
    | mk r c' =>
      rw [e] at hrec
      simp only at hrec
      subst hrec
      simp only [pieces, List.map_cons, ← hce, List.drop_drop]

/-- The number with given binary digits determines them. -/
theorem bigEndian_injective {a b : List Int} (ha : Binary a) (hb : Binary b)
    (hl : a.length = b.length) (h : bigEndian a = bigEndian b) : a = b := by
  induction a generalizing b with
  | nil => cases b with
    | nil => rfl
    | cons y b => simp at hl
  | cons x a ih =>
    cases b with
    | nil => simp at hl
    | cons y b =>
      simp only [List.length_cons, Nat.add_right_cancel_iff] at hl
      rw [bigEndian_cons, bigEndian_cons, hl] at h
      have ha' : Binary a := fun g hg => ha g (List.mem_cons_of_mem _ hg)
      have hb' : Binary b := fun g hg => hb g (List.mem_cons_of_mem _ hg)
      obtain ⟨a1, a2⟩ := bigEndian_bounds ha'
      obtain ⟨b1, b2⟩ := bigEndian_bounds hb'
      rw [hl] at a2
      have hx := ha x (List.mem_cons_self ..)
      have hy := hb y (List.mem_cons_self ..)
      have hxy : x = y := by
        rcases hx with rfl | rfl <;> rcases hy with rfl | rfl
        · rfl
        · exfalso; linarith
        · exfalso; linarith
        · rfl
      subst hxy
      rw [ih ha' hb' hl (by linarith)]

theorem bigEndian_surjective (k : Nat) (v : Int) (h0 : 0 ≤ v) (h1 : v < 2 ^ k) :
    ∃ l, Binary l ∧ l.length = k ∧ bigEndian l = v := by
  induction k generalizing v with
  | zero => exact ⟨[], by simp [Binary], rfl, by simp [bigEndian] at *; omega⟩
  | succ k ih =>
    rw [pow_succ] at h1
    by_cases hv : v < 2 ^ k
    · obtain ⟨l, lb, ll, lv⟩ := ih v h0 hv
      refine ⟨0 :: l, ?_, by simp [ll], by rw [bigEndian_cons, lv]; ring⟩
      intro g hg
      rcases List.mem_cons.mp hg with rfl | hg
      · exact Or.inl rfl
      · exact lb g hg
    · obtain ⟨l, lb, ll, lv⟩ := ih (v - 2 ^ k) (by linarith) (by linarith)
      refine ⟨1 :: l, ?_, by simp [ll], by rw [bigEndian_cons, lv, ll]; ring⟩
      intro g hg
      rcases List.mem_cons.mp hg with rfl | hg
      · exact Or.inr rfl
      · exact lb g hg

/-! ### Gray code -/

theorem grayLoop_zero (n : Nat) : grayLoop n 0 = n := by rw [grayLoop]; simp

theorem grayLoop_xor (n m : Nat) : grayLoop n m = n ^^^ grayLoop 0 m := by
  induction m using Nat.strong_induction_on generalizing n with
  | _ m ih =>
    by_cases hm : m = 0
    · subst hm; simp [grayLoop_zero]
    · have hlt : m >>> 1 < m := by
        simp only [Nat.shiftRight_succ, Nat.shiftRight_zero]; omega
      rw [grayLoop, dif_neg hm, ih _ hlt]
      conv_rhs => rw [grayLoop, dif_neg hm, ih _ hlt]
      simp [Nat.xor_assoc]

theorem grayLoop_unfold (m : Nat) : grayLoop 0 m = m ^^^ grayLoop 0 (m >>> 1) := by
  by_cases hm : m = 0
  · subst hm; simp [grayLoop_zero]
  · rw [grayLoop, dif_neg hm, grayLoop_xor]; simp

theorem grayLoop_self (m : Nat) : grayLoop m (m >>> 1) = grayLoop 0 m := by
  rw [grayLoop_xor, ← grayLoop_unfold]

/-- The loop inverts the reflected binary code. -/
theorem grayLoop_gray (x : Nat) : grayLoop 0 (gray x) = x := by
  induction x using Nat.strong_induction_on with
  | _ x ih =>
    by_cases hx : x = 0
    · subst hx; simp [gray, grayLoop_zero]
    · rw [grayLoop_unfold]
      have hlt : x >>> 1 < x := by
        simp only [Nat.shiftRight_succ, Nat.shiftRight_zero]; omega
      have : gray x >>> 1 = gray (x >>> 1) := by
        simp only [gray, Nat.shiftRight_xor_distrib]
      rw [this, ih _ hlt]
      simp [gray, Nat.xor_assoc]

theorem grayLoop_shift (m : Nat) : grayLoop 0 m >>> 1 = grayLoop 0 (m >>> 1) := by
  induction m using Nat.strong_induction_on with
  | _ m ih =>
    by_cases hm : m = 0
    · subst hm; simp [grayLoop_zero]
    · have hlt : m >>> 1 < m := by
        simp only [Nat.shiftRight_succ, Nat.shiftRight_zero]; omega
      rw [grayLoop_unfold m, Nat.shiftRight_xor_distrib, ih _ hlt, ← grayLoop_unfold]

theorem gray_grayLoop (m : Nat) : gray (grayLoop 0 m) = m := by
  rw [gray, grayLoop_shift, grayLoop_unfold m]
  simp [Nat.xor_assoc]

theorem grayLoop_lt {m k : Nat} (h : m < 2 ^ k) : grayLoop 0 m < 2 ^ k := by
  induction m using Nat.strong_induction_on with
  | _ m ih =>
    by_cases hm : m = 0
    · subst hm; rw [grayLoop_zero]; exact h
    · have hlt : m >>> 1 < m := by
        simp only [Nat.shiftRight_succ, Nat.shiftRight_zero]; omega
      rw [grayLoop_unfold]
      exact Nat.xor_lt_two_pow h (ih _ hlt (by omega))

theorem xor_succ (x : Nat) : ∃ k, x ^^^ (x + 1) = 2 ^ (k + 1) - 1 := by
  induction x using Nat.strong_induction_on with
  | _ x ih =>
    rcases Nat.even_or_odd' x with ⟨a, rfl | rfl⟩
    · refine ⟨0, ?_⟩
      apply Nat.eq_of_testBit_eq
      intro i
      cases i with
      | zero => simp [Nat.testBit_zero]
      | succ i =>
        rw [Nat.testBit_xor, Nat.testBit_succ, Nat.testBit_succ, Nat.testBit_succ]
        rw [show 2 * a / 2 = a by omega, show (2 * a + 1) / 2 = a by omega]
        simp
    · obtain ⟨k, hk⟩ := ih a (by omega)
      refine ⟨k + 1, ?_⟩
      apply Nat.eq_of_testBit_eq
      intro i
      cases i with
      | zero =>
        have h2 : (2 * a + 1 + 1) % 2 = 0 := by omega
        have h3 : (2 * a + 1) % 2 = 1 := by omega
        rw [Nat.testBit_xor, Nat.testBit_two_pow_sub_one]
        simp [Nat.testBit_zero, h2, h3]
      | succ i =>
        rw [Nat.testBit_xor, Nat.testBit_succ, Nat.testBit_succ,
          show (2 * a + 1) / 2 = a by omega, show (2 * a + 1 + 1) / 2 = a + 1 by omega,
          ← Nat.testBit_xor, hk, Nat.testBit_two_pow_sub_one, Nat.testBit_two_pow_sub_one]
        simp

/-- The codes of consecutive numbers differ by exactly one power of two. -/
theorem gray_succ (x : Nat) : ∃ k, gray x ^^^ gray (x + 1) = 2 ^ k := by
  obtain ⟨k, hk⟩ := xor_succ x
  refine ⟨k, ?_⟩
  have h : gray x ^^^ gray (x + 1) = (x ^^^ (x + 1)) ^^^ ((x ^^^ (x + 1)) >>> 1) := by
    simp only [gray, Nat.shiftRight_xor_distrib]
    ac_rfl
  rw [h, hk]
  apply Nat.eq_of_testBit_eq
  intro i
  rw [Nat.testBit_xor, Nat.testBit_shiftRight, Nat.testBit_two_pow_sub_one,
    Nat.testBit_two_pow_sub_one, Nat.testBit_two_pow]
  by_cases h1 : i < k
  · simp [show i < k + 1 by omega, show 1 + i < k + 1 by omega, show k ≠ i by omega]
  · by_cases h2 : k = i
    · subst h2; simp; omega
    · simp [show ¬ i < k + 1 by omega, show ¬ 1 + i < k + 1 by omega, h2]

/-- Digit `i` of the string is the corresponding bit of its value. -/
theorem bigEndian_testBit {l : List Int} (hb : Binary l) (i : Nat) (hi : i < l.length) :
    (bigEndian l).toNat.testBit (l.length - 1 - i) = (l[i] == 1) := by
  induction l generalizing i with
  | nil => simp at hi
  | cons x l ih =>
    have hb' : Binary l := fun g hg => hb g (List.mem_cons_of_mem _ hg)
    obtain ⟨b1, b2⟩ := bigEndian_bounds hb'
    have hnat : (bigEndian (x :: l)).toNat = x.toNat * 2 ^ l.length + (bigEndian l).toNat := by
      rw [bigEndian_cons]
      rcases hb x (List.mem_cons_self ..) with rfl | rfl
      · simp
      · zify
        rw [Int.toNat_of_nonneg (by positivity), Int.toNat_of_nonneg b1]; simp
    have hlt : (bigEndian l).toNat < 2 ^ l.length := by
      zify; rw [Int.toNat_of_nonneg b1]; exact b2
    rw [hnat, Nat.mul_comm]
    cases i with
    | zero =>
      simp only [List.length_cons, List.getElem_cons_zero]
      rw [show l.length + 1 - 1 - 0 = l.length by omega,
        Nat.testBit_two_pow_mul_add _ hlt]
      rcases hb x (List.mem_cons_self ..) with rfl | rfl <;> simp
    | succ i =>
      simp only [List.length_cons, List.getElem_cons_succ] at hi ⊢
      rw [Nat.testBit_two_pow_mul_add _ hlt, if_pos (by omega),
        show l.length + 1 - 1 - (i + 1) = l.length - 1 - i by omega, ih hb' i (by omega)]

theorem differAtOne_of_xor {a b : List Int} (ha : Binary a) (hb : Binary b)
    (hl : a.length = b.length) {k : Nat}
    (h : (bigEndian a).toNat ^^^ (bigEndian b).toNat = 2 ^ k) : DifferAtOne a b := by
  obtain ⟨a1, a2⟩ := bigEndian_bounds ha
  obtain ⟨b1, b2⟩ := bigEndian_bounds hb
  have hk : k < a.length := by
    have h1 : (bigEndian a).toNat < 2 ^ a.length := by
      zify; rw [Int.toNat_of_nonneg a1]; exact a2
    have h2 : (bigEndian b).toNat < 2 ^ a.length := by
      zify; rw [Int.toNat_of_nonneg b1, hl]; exact b2
    have := Nat.xor_lt_two_pow h1 h2
    rw [h] at this
    exact (Nat.pow_lt_pow_iff_right (by norm_num)).mp this
  have key : ∀ i (hi : i < a.length), ((a[i] == 1) ^^ (b[i]'(hl ▸ hi) == 1)) =
      decide (k = a.length - 1 - i) := by
    intro i hi
    rw [← bigEndian_testBit ha i hi, ← bigEndian_testBit hb i (hl ▸ hi), ← hl, ← Nat.testBit_xor, h,
      Nat.testBit_two_pow]
  refine ⟨hl, a.length - 1 - k, by omega, ?_, ?_⟩
  · have hi : a.length - 1 - k < a.length := by omega
    have := key _ hi
    rw [List.getElem?_eq_getElem hi, List.getElem?_eq_getElem (hl ▸ hi)]
    intro hcon
    simp only [Option.some.injEq] at hcon
    rw [hcon] at this
    simp only [Bool.xor_self, Bool.false_eq, decide_eq_false_iff_not] at this
    omega
  · intro j hj
    rcases Nat.lt_or_ge j a.length with hja | hja
    · have := key j hja
      rw [List.getElem?_eq_getElem hja, List.getElem?_eq_getElem (hl ▸ hja)]
      have hne : ¬ k = a.length - 1 - j := by omega
      simp only [hne, decide_false] at this
      have hx := ha a[j] (List.getElem_mem _)
      have hy := hb (b[j]'(hl ▸ hja)) (List.getElem_mem _)
      congr 1
      rcases hx with hx | hx <;> rcases hy with hy | hy <;> rw [hx, hy] at this ⊢ <;> simp at this
    · rw [List.getElem?_eq_none hja, List.getElem?_eq_none (by omega)]

end Leap
