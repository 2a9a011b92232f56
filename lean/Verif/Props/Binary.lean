import Verif.Lemmas.Bits

/-!
# C26–C29: binary decoders and binary benchmark problems
-/

namespace Leap
open Spec

/-! ## C26 binary to integer -/

/-- C26: whatever was decoded before, decoding a binary genome gives for each segment (1 to 63 bits)
the number it writes in base two, most significant bit first. -/
theorem binary_to_int_value_partial (descriptors : List Nat) (history : List (List Int)) (genome : List Int)
    (hb : Binary genome) (hd : ∀ d ∈ descriptors, 0 < d ∧ d ≤ 63)
    (hlen : descriptors.sum ≤ genome.length) :
    (decodeInt descriptors (cacheAfter descriptors history) genome).1 =
      .ok ((pieces descriptors genome).map bigEndian) := by
  have := decodeIntLoop_value genome hb descriptors 0 _ (cacheAfter_ok descriptors history) hd
    (by omega)
  simpa [decodeInt] using this

example : Binary [0, 0, 0, 1, 1, 1, 0] ∧ (decodeInt [4, 3] (cacheAfter [4, 3] [[1, 0], [1, 1, 1]])
    [0, 0, 0, 1, 1, 1, 0]).1 = .ok [1, 6] ∧ cacheAfter [4, 3] [[1, 0], [1, 1, 1]] = some [4, 2, 1] := by
  refine ⟨by simp [Binary], by decide, by decide⟩

/-- C26: each decoded value is between 0 and `2^k - 1`. -/
theorem binary_to_int_range (k : Nat) (seg : List Int) (hb : Binary seg) (hl : seg.length = k) :
    0 ≤ bigEndian seg ∧ bigEndian seg ≤ 2 ^ k - 1 := by
  obtain ⟨h1, h2⟩ := bigEndian_bounds hb
  rw [hl] at h2
  exact ⟨h1, by linarith⟩

theorem pieces_length {α : Type} (ds : List Nat) (l : List α) : (pieces ds l).length = ds.length := by
  induction ds generalizing l with
  | nil => rfl
  | cons d ds ih => simp [pieces, ih]

theorem pieces_flatten {α : Type} (ds : List Nat) (l : List α) (h : ds.sum = l.length) :
    (pieces ds l).flatten = l := by
  induction ds generalizing l with
  | nil => simp at h; simp [pieces]; exact List.eq_nil_of_length_eq_zero h.symm
  | cons d ds ih =>
    simp only [List.sum_cons] at h
    simp only [pieces, List.flatten_cons]
    rw [ih (l.drop d) (by simp; omega), List.take_append_drop]

/-- C26: decoding is one-to-one: two binary genomes of the full length with the same decoding are the
same genome, whatever either decoder instance decoded before. -/
theorem binary_to_int_injective (descriptors : List Nat) (h1 h2 : List (List Int)) (a b : List Int)
    (ha : Binary a) (hb : Binary b) (hd : ∀ d ∈ descriptors, 0 < d ∧ d ≤ 63)
    (hla : a.length = descriptors.sum) (hlb : b.length = descriptors.sum)
    (h : (decodeInt descriptors (cacheAfter descriptors h1) a).1 =
      (decodeInt descriptors (cacheAfter descriptors h2) b).1) : a = b := by
  rw [binary_to_int_value_partial descriptors h1 a ha hd (by omega),
    binary_to_int_value_partial descriptors h2 b hb hd (by omega), Except.ok.injEq] at h
  clear h1 h2 hd
  induction descriptors generalizing a b with
  | nil =>
    simp only [List.sum_nil] at hla hlb
    rw [List.eq_nil_of_length_eq_zero hla, List.eq_nil_of_length_eq_zero hlb]
  | cons d ds ih =>
    simp only [List.sum_cons] at hla hlb
    simp only [pieces, List.map_cons, List.cons.injEq] at h
    have e1 := bigEndian_injective (binary_take ha d) (binary_take hb d) (by simp; omega) h.1
    have e2 := ih (a.drop d) (b.drop d) (binary_drop ha d) (binary_drop hb d) (by simp; omega)
      (by simp; omega) h.2
    rw [← List.take_append_drop d a, ← List.take_append_drop d b, e1, e2]

/-- C26: decoding reaches every vector of values in range. -/
theorem binary_to_int_surjective (descriptors : List Nat) (history : List (List Int))
    (values : List Int) (hd : ∀ d ∈ descriptors, 0 < d ∧ d ≤ 63)
    (hv : List.Forall₂ (fun d v => 0 ≤ v ∧ v ≤ 2 ^ d - 1) descriptors values) :
    ∃ genome, Binary genome ∧ genome.length = descriptors.sum ∧
      (decodeInt descriptors (cacheAfter descriptors history) genome).1 = .ok values := by
  obtain ⟨genome, hb, hl, he⟩ : ∃ genome, Binary genome ∧ genome.length = descriptors.sum ∧
      (pieces descriptors genome).map bigEndian = values := by
    clear hd history
    induction hv with
    | nil => exact ⟨[], by simp [Binary], rfl, rfl⟩
    | @cons d v ds vs h _ ih =>
      obtain ⟨g, gb, gl, ge⟩ := ih
      obtain ⟨s, sb, sl, se⟩ := bigEndian_surjective d v h.1 (by linarith [h.2])
      refine ⟨s ++ g, ?_, by simp [sl, gl], ?_⟩
      · intro x hx
        rcases List.mem_append.mp hx with hx | hx
        · exact sb x hx
        · exact gb x hx
      · simp only [pieces, ← sl, List.take_left, List.drop_left, List.map_cons, se, ge]
  exact ⟨genome, hb, hl, by
    rw [binary_to_int_value_partial descriptors history genome hb hd (by omega), he]⟩

example : List.Forall₂ (fun d v => 0 ≤ v ∧ v ≤ (2 : Int) ^ d - 1) [4, 3] [9, 7] := by
  refine .cons ?_ (.cons ?_ .nil) <;> norm_num

/-- C26, history dependence: with a zero-length segment the first decoding succeeds and decoding the same
genome again raises `ValueError`. -/
theorem binary_to_int_zero_segment_depends_on_history :
    (decodeInt [0, 2] (cacheAfter [0, 2] []) [1, 0]).1 = .ok [0, 2] ∧
    (decodeInt [0, 2] (cacheAfter [0, 2] [[1, 0]]) [1, 0]).1 = .error .valueError := by
  decide

/-- C26: a genome too short for its segments is not rejected: the last segment is read from
the bits that are there, so different genomes can decode alike. -/
theorem binary_to_int_short_genome :
    (decodeInt [2, 3] none [1, 0, 1, 1]).1 = .ok [2, 3] ∧
    (decodeInt [2, 3] none [1, 0, 0, 1, 1]).1 = .ok [2, 3] := by
  decide

/-- C26: the 63-bit limit is sharp: sixty-four ones decode to -1. -/
theorem binary_to_int_overflow :
    (decodeInt [64] none (List.replicate 64 1)).1 = .ok [-1] := by
  decide +kernel

/-! ## C27 Gray code -/

theorem grayEncode_nonneg {v : Int} (h : 0 ≤ v) : grayEncode v = some ((grayLoop 0 v.toNat : Nat) : Int) := by
  rw [grayEncode, if_neg (by omega), grayLoop_self]

/-- C27: the Gray decoding of a segment that holds the reflected binary code of `x` is `x`; this also
says the decoder terminates. -/
theorem gray_decode_inverts (x : Nat) : grayEncode ((gray x : Nat) : Int) = some (x : Int) := by
  rw [grayEncode_nonneg (by omega), Int.toNat_natCast, grayLoop_gray]

theorem mapM_grayEncode {vs : List Int} (h : ∀ v ∈ vs, 0 ≤ v) :
    vs.mapM grayEncode = some (vs.map fun v => ((grayLoop 0 v.toNat : Nat) : Int)) := by
  induction vs with
  | nil => rfl
  | cons v vs ih =>
    rw [List.mapM_cons, grayEncode_nonneg (h v (List.mem_cons_self ..)),
      ih fun x hx => h x (List.mem_cons_of_mem _ hx)]
    rfl

theorem binary_of_mem_pieces {ds : List Nat} {g s : List Int} (hg : Binary g) (hs : s ∈ pieces ds g) :
    Binary s := by
  induction ds generalizing g with
  | nil => simp [pieces] at hs
  | cons d ds ih =>
    simp only [pieces, List.mem_cons] at hs
    rcases hs with rfl | hs
    · exact binary_take hg d
    · exact ih (binary_drop hg d) hs

theorem decodeGrey_value (descriptors : List Nat) (history : List (List Int)) (genome : List Int)
    (hb : Binary genome) (hd : ∀ d ∈ descriptors, 0 < d ∧ d ≤ 63)
    (hlen : descriptors.sum ≤ genome.length) :
    (decodeGrey descriptors (cacheAfter descriptors history) genome).1 =
      .ok (some ((pieces descriptors genome).map fun s =>
        ((grayLoop 0 (bigEndian s).toNat : Nat) : Int))) := by
  have h := binary_to_int_value_partial descriptors history genome hb hd hlen
  simp only [decodeGrey]
  cases e : decodeInt descriptors (cacheAfter descriptors history) genome with
  | mk r c =>
    rw [e] at h
    simp only at h
    subst h
    simp only
    rw [mapM_grayEncode, List.map_map]
    · rfl
    · intro v hv
      obtain ⟨s, hs, rfl⟩ := List.mem_map.mp hv
      exact (bigEndian_bounds (binary_of_mem_pieces hb hs)).1

/-- C27: the Gray decoder reads each segment as the reflected binary code: the value `v` it returns for a
segment of `k` bits is the one in `[0, 2^k)` whose code the segment writes. -/
theorem gray_decode_value (descriptors : List Nat) (history : List (List Int)) (genome : List Int)
    (hb : Binary genome) (hd : ∀ d ∈ descriptors, 0 < d ∧ d ≤ 63)
    (hlen : descriptors.sum ≤ genome.length) :
    ∃ vs : List Nat,
      (decodeGrey descriptors (cacheAfter descriptors history) genome).1 =
        .ok (some (vs.map fun v : Nat => (v : Int))) ∧
      List.Forall₂ (fun s v => bigEndian s = (gray v : Nat) ∧ v < 2 ^ s.length)
        (pieces descriptors genome) vs := by
  refine ⟨(pieces descriptors genome).map fun s => grayLoop 0 (bigEndian s).toNat, ?_, ?_⟩
  · rw [decodeGrey_value descriptors history genome hb hd hlen, List.map_map]
    rfl
  · rw [List.forall₂_map_right_iff, List.forall₂_same]
    intro s hs
    obtain ⟨h1, h2⟩ := bigEndian_bounds (binary_of_mem_pieces hb hs)
    rw [gray_grayLoop]
    refine ⟨by rw [Int.toNat_of_nonneg h1], grayLoop_lt ?_⟩
    zify
    rw [Int.toNat_of_nonneg h1]
    exact h2

example : (decodeGrey [4, 4, 4] none [0, 0, 0, 1, 1, 1, 0, 0, 0, 1, 1, 0]).1 = .ok (some [1, 8, 4]) := by
  have h := decodeGrey_value [4, 4, 4] [] [0, 0, 0, 1, 1, 1, 0, 0, 0, 1, 1, 0]
    (by simp [Binary]) (by simp) (by simp)
  have g1 := grayLoop_gray 1
  have g2 := grayLoop_gray 8
  have g3 := grayLoop_gray 4
  simp only [gray] at g1 g2 g3
  rw [show cacheAfter [4, 4, 4] [] = none from rfl] at h
  rw [h]
  simp only [pieces, bigEndian, List.map_cons, List.map_nil, List.take_succ_cons, List.take_zero,
    List.drop_succ_cons, List.drop_zero, List.foldl_cons, List.foldl_nil]
  have k1 : grayLoop 0 1 = 1 := g1
  have k2 : grayLoop 0 12 = 8 := g2
  have k3 : grayLoop 0 6 = 4 := g3
  norm_num
  exact ⟨by exact_mod_cast k1, by exact_mod_cast k2, by exact_mod_cast k3⟩

/-- C27: Gray decoding is one-to-one on binary segments of a given length. -/
theorem gray_decode_injective {a b : List Int} (ha : Binary a) (hb : Binary b)
    (hl : a.length = b.length) (h : grayEncode (bigEndian a) = grayEncode (bigEndian b)) : a = b := by
  obtain ⟨a1, -⟩ := bigEndian_bounds ha
  obtain ⟨b1, -⟩ := bigEndian_bounds hb
  rw [grayEncode_nonneg a1, grayEncode_nonneg b1] at h
  simp only [Option.some.injEq, Nat.cast_inj] at h
  have := congrArg gray h
  rw [gray_grayLoop, gray_grayLoop] at this
  exact bigEndian_injective ha hb hl (by omega)

/-- C27: adjacency: segments of the same length that decode to consecutive integers differ at exactly one
position. -/
theorem gray_adjacent {a b : List Int} (ha : Binary a) (hb : Binary b) (hl : a.length = b.length)
    (v : Int) (h1 : grayEncode (bigEndian a) = some v) (h2 : grayEncode (bigEndian b) = some (v + 1)) :
    DifferAtOne a b := by
  obtain ⟨a1, -⟩ := bigEndian_bounds ha
  obtain ⟨b1, -⟩ := bigEndian_bounds hb
  rw [grayEncode_nonneg a1, Option.some.injEq] at h1
  rw [grayEncode_nonneg b1, Option.some.injEq] at h2
  have h3 : grayLoop 0 (bigEndian b).toNat = grayLoop 0 (bigEndian a).toNat + 1 := by omega
  obtain ⟨k, hk⟩ := gray_succ (grayLoop 0 (bigEndian a).toNat)
  rw [← h3, gray_grayLoop, gray_grayLoop] at hk
  exact differAtOne_of_xor ha hb hl hk

/-- 7 and 8 are coded 0100 and 1100. -/
example : grayEncode (bigEndian [0, 1, 0, 0]) = some 7 ∧ grayEncode (bigEndian [1, 1, 0, 0]) = some 8 ∧
    DifferAtOne [0, 1, 0, 0] [1, 1, 0, 0] := by
  have h1 : grayEncode (bigEndian [0, 1, 0, 0]) = some 7 := gray_decode_inverts 7
  have h2 : grayEncode (bigEndian [1, 1, 0, 0]) = some 8 := gray_decode_inverts 8
  exact ⟨h1, h2, gray_adjacent (by simp [Binary]) (by simp [Binary]) rfl 7 h1 h2⟩

/-! ## C28 binary to real -/

/-- C28: a segment descriptor that is not a triple is a `ValueError`; well-formed ones are accepted. -/
theorem real_init_checks (segs : List RealSeg) :
    (.malformed ∈ segs → realInit segs = .error .valueError) ∧
    (∀ triples : List (Nat × ℚ × ℚ), triples ≠ [] →
      segs = triples.map (fun t => .triple t.1 t.2.1 t.2.2) →
      realInit segs = .ok (triples.map fun t => realDim t.1 t.2.1 t.2.2)) := by
  constructor
  · intro h
    have : segs.any (· == .malformed) = true := by
      rw [List.any_eq_true]; exact ⟨_, h, by simp⟩
    simp [realInit, this]
  · rintro triples hne rfl
    have h1 : (triples.map fun t : Nat × ℚ × ℚ => RealSeg.triple t.1 t.2.1 t.2.2).any
        (· == .malformed) = false := by
      rw [List.any_eq_false]
      intro x hx
      obtain ⟨t, -, rfl⟩ := List.mem_map.mp hx
      simp
    have h2 : (triples.map fun t : Nat × ℚ × ℚ => RealSeg.triple t.1 t.2.1 t.2.2).isEmpty = false := by
      cases triples with
      | nil => exact absurd rfl hne
      | cons t ts => rfl
    simp only [realInit, h1, h2, Bool.false_eq_true, if_false]
    congr 1
    rw [List.filterMap_map]
    simp [Function.comp_def]

theorem realDim_increment {k : Nat} (h0 : 0 < k) (h1 : k ≤ 63) (lo hi : ℚ) :
    (realDim k lo hi).increment = some ((hi - lo) / (2 ^ k - 1)) := by
  have hk : wrap64 (wrap64 (2 ^ k) - 1) = 2 ^ k - 1 := by
    have hp : (2 : Int) ^ k ≤ 2 ^ 63 := pow_le_pow_right₀ (by norm_num) h1
    have hp1 : (2 : Int) ^ 1 ≤ 2 ^ k := pow_le_pow_right₀ (by norm_num) h0
    generalize (2 : Int) ^ k = y at *
    simp only [wrap64]
    omega
  have hp1 : (2 : Int) ^ 1 ≤ 2 ^ k := pow_le_pow_right₀ (by norm_num) h0
  have hne : ¬ ((2 : Int) ^ k - 1 = 0) := by
    intro h; simp at hp1; omega
  have hc : (((2 : Int) ^ k - 1 : Int) : ℚ) = 2 ^ k - 1 := by push_cast; ring
  simp only [realDim, hk, if_neg hne, hc]

/-- C28: the real value decoded from a segment of `k` bits (1 to 63) holding the integer `v` lies in the
interval, is the lower bound for all zeros and the upper bound for all ones, and the next integer is
exactly `(hi - lo)/(2^k - 1)` further. -/
theorem real_decode_interval (k : Nat) (h0 : 0 < k) (h1 : k ≤ 63) (lo hi : ℚ) (hlh : lo ≤ hi) :
    ∃ f : Int → ℚ, (∀ v, realDecode [realDim k lo hi] [v] = [some (f v)]) ∧
      (∀ v, 0 ≤ v → v ≤ 2 ^ k - 1 → lo ≤ f v ∧ f v ≤ hi) ∧
      f 0 = lo ∧ f (2 ^ k - 1) = hi ∧ (∀ v, f (v + 1) - f v = (hi - lo) / (2 ^ k - 1)) := by
  have hpos : (0 : ℚ) < 2 ^ k - 1 := by
    have : (2 : ℚ) ^ 1 ≤ 2 ^ k := pow_le_pow_right₀ (by norm_num) h0
    simp at this; linarith
  refine ⟨fun v => lo + (v : ℚ) * ((hi - lo) / (2 ^ k - 1)), ?_, ?_, ?_, ?_, ?_⟩
  · intro v
    simp only [realDecode, List.zipWith_cons_cons, List.zipWith_nil_left, realDim_increment h0 h1,
      Option.map_some]
    rfl
  · intro v v0 v1
    have hv0 : (0 : ℚ) ≤ v := by exact_mod_cast v0
    have hv1 : (v : ℚ) ≤ 2 ^ k - 1 := by exact_mod_cast v1
    have hd : 0 ≤ (hi - lo) / (2 ^ k - 1) := div_nonneg (by linarith) hpos.le
    constructor
    · nlinarith [mul_nonneg hv0 hd]
    · have : (v : ℚ) * ((hi - lo) / (2 ^ k - 1)) ≤ (2 ^ k - 1) * ((hi - lo) / (2 ^ k - 1)) :=
        mul_le_mul_of_nonneg_right hv1 hd
      rw [mul_div_cancel₀ _ hpos.ne'] at this
      show lo + (v : ℚ) * _ ≤ hi
      linarith
  · simp
  · show lo + (((2 : Int) ^ k - 1 : Int) : ℚ) * _ = hi
    push_cast
    rw [mul_div_cancel₀ _ hpos.ne']; ring
  · intro v
    show lo + ((v + 1 : Int) : ℚ) * _ - (lo + (v : ℚ) * _) = _
    push_cast
    ring

/-- C28 for whole genomes: decoding a binary genome of the right length gives one value per segment,
each within its own bounds, from both the plain and the Gray decoder, whatever was decoded before. -/
theorem real_decode_in_bounds (segs : List (Nat × ℚ × ℚ)) (history : List (List Int))
    (genome : List Int) (hb : Binary genome)
    (hs : ∀ t ∈ segs, 0 < t.1 ∧ t.1 ≤ 63 ∧ t.2.1 ≤ t.2.2)
    (hlen : (segs.map (·.1)).sum ≤ genome.length) :
    let dims := segs.map fun t => realDim t.1 t.2.1 t.2.2
    (∃ xs : List ℚ, binaryToReal dims (cacheAfter (segs.map (·.1)) history) genome = .ok (xs.map some) ∧
      List.Forall₂ (fun t x => t.2.1 ≤ x ∧ x ≤ t.2.2) segs xs) ∧
    (∃ xs : List ℚ, binaryToRealGrey dims (cacheAfter (segs.map (·.1)) history) genome =
        .ok (some (xs.map some)) ∧
      List.Forall₂ (fun t x => t.2.1 ≤ x ∧ x ≤ t.2.2) segs xs) := by
  intro dims
  have hbits : dims.map (·.bits) = segs.map (·.1) := by
    simp only [dims, List.map_map]
    apply List.map_congr_left
    intro t _
    rfl
  have hd : ∀ d ∈ segs.map (·.1), 0 < d ∧ d ≤ 63 := by
    intro d hd
    obtain ⟨t, ht, rfl⟩ := List.mem_map.mp hd
    exact ⟨(hs t ht).1, (hs t ht).2.1⟩
  have key : ∀ vs : List Int, List.Forall₂ (fun t v => 0 ≤ v ∧ v ≤ 2 ^ (t : Nat × ℚ × ℚ).1 - 1) segs vs →
      ∃ xs : List ℚ, realDecode dims vs = xs.map some ∧
        List.Forall₂ (fun t x => t.2.1 ≤ x ∧ x ≤ t.2.2) segs xs := by
    intro vs hv
    clear hbits hd hlen
    induction hv with
    | nil => exact ⟨[], rfl, .nil⟩
    | @cons t v segs vs h _ ih =>
      obtain ⟨xs, e, hx⟩ := ih (fun t ht => hs t (List.mem_cons_of_mem _ ht))
      obtain ⟨a, b, c⟩ := hs t (List.mem_cons_self ..)
      obtain ⟨f, f1, f2, -⟩ := real_decode_interval t.1 a b t.2.1 t.2.2 c
      refine ⟨f v :: xs, ?_, .cons (f2 v h.1 h.2) hx⟩
      have := f1 v
      simp only [realDecode, List.zipWith_cons_cons, List.zipWith_nil_left, List.cons.injEq,
        and_true] at this
      simp only [realDecode] at e
      simp only [dims, realDecode, List.map_cons, List.zipWith_cons_cons, this, e]
  have hpl : List.Forall₂ (fun (t : Nat × ℚ × ℚ) s => s.length = t.1 ∧ Binary s) segs
      (pieces (segs.map (·.1)) genome) := by
    clear hd key hbits hs dims
    induction segs generalizing genome with
    | nil => exact .nil
    | cons t segs ih =>
      simp only [List.map_cons, List.sum_cons] at hlen
      refine .cons ⟨by simp; omega, binary_take hb _⟩ (ih _ (binary_drop hb _) (by simp; omega))
  constructor
  · obtain ⟨xs, e, hx⟩ := key ((pieces (segs.map (·.1)) genome).map bigEndian) (by
      rw [List.forall₂_map_right_iff]
      exact hpl.imp fun t s hts => binary_to_int_range t.1 s hts.2 hts.1)
    refine ⟨xs, ?_, hx⟩
    simp only [binaryToReal, hbits]
    rw [binary_to_int_value_partial _ history genome hb hd hlen]
    simp only [e]
  · obtain ⟨xs, e, hx⟩ := key ((pieces (segs.map (·.1)) genome).map fun s =>
        ((grayLoop 0 (bigEndian s).toNat : Nat) : Int)) (by
      rw [List.forall₂_map_right_iff]
      refine hpl.imp fun t s hts => ?_
      obtain ⟨b1, b2⟩ := bigEndian_bounds hts.2
      rw [hts.1] at b2
      have : grayLoop 0 (bigEndian s).toNat < 2 ^ t.1 := grayLoop_lt (by
        zify; rw [Int.toNat_of_nonneg b1]; exact b2)
      refine ⟨Int.natCast_nonneg _, ?_⟩
      have h2 : ((grayLoop 0 (bigEndian s).toNat : Nat) : Int) < 2 ^ t.1 := by exact_mod_cast this
      linarith)
    refine ⟨xs, ?_, hx⟩
    simp only [binaryToRealGrey, hbits]
    rw [decodeGrey_value _ history genome hb hd hlen]
    simp only [Option.map_some, e]

example : binaryToReal [realDim 4 (-128/25) (128/25), realDim 4 (-128/25) (128/25)] none
    [0, 0, 0, 0, 1, 1, 1, 1] = .ok [some (-128/25), some (128/25)] := by decide +kernel

/-! ## C29 binary benchmark problems -/

/-- How many entries equal 1. -/
def Spec.ones (l : List Int) : Nat := l.countP (· == 1)

/-- At how many positions the two strings agree. -/
def Spec.agreements (l t : List Int) : Nat := (l.zip t).countP (fun p => p.1 == p.2)

theorem count_map_eq_ones (l : List Int) : (l.map (· == 1)).count true = ones l := by
  induction l with
  | nil => rfl
  | cons x l ih => simp only [ones, List.map_cons, List.count_cons, List.countP_cons] at *; simp [ih]

theorem count_matches (l t : List Int) : (matches' l t).count true = agreements l t := by
  induction l generalizing t with
  | nil => simp [matches', agreements]
  | cons x l ih =>
    cases t with
    | nil => simp [matches', agreements]
    | cons y t =>
      have := ih t
      simp only [agreements, matches', List.zipWith_cons_cons, List.count_cons, List.zip_cons_cons,
        List.countP_cons] at *
      simp [this]

theorem ones_le (l : List Int) : ones l ≤ l.length := List.countP_le_length

theorem ones_eq_length (l : List Int) : ones l = l.length ↔ ∀ x ∈ l, x = 1 := by
  rw [ones, List.countP_eq_length]; simp

theorem agreements_self {l t : List Int} (hl : l.length = t.length) :
    agreements l t ≤ t.length ∧ (agreements l t = t.length ↔ l = t) := by
  induction l generalizing t with
  | nil =>
    cases t with
    | nil => simp [agreements]
    | cons y t => simp at hl
  | cons x l ih =>
    cases t with
    | nil => simp at hl
    | cons y t =>
      simp only [List.length_cons, Nat.add_right_cancel_iff] at hl
      obtain ⟨h1, h2⟩ := ih hl
      have e : agreements (x :: l) (y :: t) = agreements l t + if x = y then 1 else 0 := by
        simp [agreements, List.countP_cons]
      rw [e, List.length_cons]
      by_cases hxy : x = y
      · simp only [hxy, if_true, List.cons.injEq, true_and]
        exact ⟨by omega, by rw [← h2]; omega⟩
      · simp only [hxy, if_false, List.cons.injEq, false_and, iff_false]
        exact ⟨by omega, by omega⟩

/-- C29: MaxOnes without a target counts the ones; it is at most the length, with equality exactly at all
ones. -/
theorem max_ones_value (l : List Int) :
    maxOnes none l = .ok (ones l) ∧ ones l ≤ l.length ∧ (ones l = l.length ↔ ∀ x ∈ l, x = 1) :=
  ⟨by rw [maxOnes, count_map_eq_ones], ones_le l, ones_eq_length l⟩

/-- C29: MaxOnes with a target counts the agreements, at most the length, equal to it exactly at the target;
a phenome of another length raises. -/
theorem max_ones_target (l t : List Int) :
    (l.length = t.length → maxOnes (some t) l = .ok (agreements l t) ∧
      agreements l t ≤ t.length ∧ (agreements l t = t.length ↔ l = t)) ∧
    (l.length ≠ t.length → maxOnes (some t) l = .error .nameError) := by
  constructor
  · intro h
    exact ⟨by rw [maxOnes, if_pos h, count_matches], agreements_self h⟩
  · intro h; rw [maxOnes, if_neg h]

example : maxOnes (some [1, 1, 1, 1, 1, 0, 0, 0, 0]) [0, 0, 1, 1, 0, 1, 0, 1, 1] = .ok 3 ∧
    maxOnes none [0, 0, 1, 1, 0, 1, 0, 1, 1] = .ok 5 := by decide

/-- `k` is the length of the longest prefix on which `P` holds. -/
def Spec.LongestPrefix {α : Type} (P : α → Prop) (l : List α) (k : Nat) : Prop :=
  k ≤ l.length ∧ (∀ i x, i < k → l[i]? = some x → P x) ∧ (∀ x, l[k]? = some x → ¬ P x)

theorem firstGroup_count {b : Bool} {l : List Bool} :
    ∃ g, firstGroup (b :: l) = .ok g ∧
      LongestPrefix (fun x => x = true) (b :: l) (g.count true) := by
  refine ⟨_, rfl, ?_⟩
  cases b with
  | false =>
    have : ((false :: l).takeWhile (· == false)).count true = 0 := by
      rw [List.count_eq_zero]
      intro h
      have := List.all_takeWhile (p := fun x => x == false) (l := false :: l)
      rw [List.all_eq_true] at this
      simpa using this _ h
    rw [this]
    exact ⟨by simp, by intro i x hi; omega, by intro x hx; simpa using hx.symm⟩
  | true =>
    have key : ∀ l : List Bool, LongestPrefix (fun x => x = true) l ((l.takeWhile (· == true)).count true) := by
      intro l
      induction l with
      | nil => exact ⟨by simp, by simp, by simp⟩
      | cons c l ih =>
        cases c with
        | false => exact ⟨by simp, by simp, by simp⟩
        | true =>
          obtain ⟨h1, h2, h3⟩ := ih
          have e : ((true :: l).takeWhile (· == true)).count true =
              (l.takeWhile (· == true)).count true + 1 := by simp
          rw [e]
          refine ⟨by simpa using h1, ?_, ?_⟩
          · intro i x hi hx
            cases i with
            | zero => simpa using hx.symm
            | succ i => exact h2 i x (by omega) (by simpa using hx)
          · intro x hx
            exact h3 x (by simpa using hx)
    exact key _

/-- C29: LeadingOnes of a non-empty phenome is the length of its longest prefix of ones; of an empty phenome
it raises `StopIteration`. -/
theorem leading_ones_value (l : List Int) :
    (l ≠ [] → ∃ k, leadingOnes none l = .ok k ∧ LongestPrefix (fun x => x = 1) l k) ∧
    (l = [] → leadingOnes none l = .error .stopIteration) := by
  constructor
  · intro h
    cases l with
    | nil => exact absurd rfl h
    | cons x l =>
      obtain ⟨g, hg, h1, h2, h3⟩ := firstGroup_count (b := x == 1) (l := l.map (· == 1))
      refine ⟨g.count true, ?_, ?_, ?_, ?_⟩
      · simp only [leadingOnes, List.map_cons, hg]
      · simpa using h1
      · intro i y hi hy
        have := h2 i (y == 1) hi (by
          rw [← List.map_cons (f := fun z : Int => z == 1), List.getElem?_map, hy]; rfl)
        simpa using this
      · intro y hy hcon
        refine h3 true ?_ rfl
        rw [← List.map_cons (f := fun z : Int => z == 1), List.getElem?_map, hy]
        simp [hcon]
  · rintro rfl; rfl

/-- C29: LeadingOnes with a target is the length of the longest prefix that agrees with the target. -/
theorem leading_ones_target (l t : List Int) (hne : l ≠ []) :
    (l.length = t.length → ∃ k, leadingOnes (some t) l = .ok k ∧
      LongestPrefix (fun p : Int × Int => p.1 = p.2) (l.zip t) k) ∧
    (l.length ≠ t.length → leadingOnes (some t) l = .error .nameError) := by
  constructor
  · intro h
    cases l with
    | nil => exact absurd rfl hne
    | cons x l =>
      cases t with
      | nil => simp at h
      | cons y t =>
        obtain ⟨g, hg, h1, h2, h3⟩ := firstGroup_count (b := x == y) (l := matches' l t)
        have em : (x == y) :: matches' l t = ((x :: l).zip (y :: t)).map (fun p => p.1 == p.2) := by
          simp only [matches', List.zip_cons_cons, List.map_cons, List.map_zip_eq_zipWith]; rfl
        rw [em] at h1 h2 h3
        refine ⟨g.count true, ?_, ?_, ?_, ?_⟩
        · simp only [leadingOnes, if_pos h]
          rw [show matches' (x :: l) (y :: t) = (x == y) :: matches' l t by simp [matches']]
          simp only [hg]
        · simpa using h1
        · intro i p hi hp
          have := h2 i (p.1 == p.2) hi (by rw [List.getElem?_map, hp]; rfl)
          simpa using this
        · intro p hp hcon
          refine h3 true ?_ rfl
          rw [List.getElem?_map, hp]
          simp [hcon]
  · intro h
    simp only [leadingOnes, if_neg h]

example : leadingOnes none [1, 1, 1, 1, 0, 1, 0, 1, 1] = .ok 4 ∧
    leadingOnes (some [1, 1, 0, 1, 1, 0, 0, 0, 0]) [1, 1, 1, 1, 0, 1, 0, 1, 1] = .ok 2 := by decide

/-- C29: the deceptive trap. All ones gives the length, and this is the only phenome that reaches it
(when there is a gene at all). Otherwise the value falls by one with each further one; so among the
others the best value is `length - 1`, reached exactly when there are no ones. -/
theorem deceptive_trap_shape (l : List Int) :
    ((∀ x ∈ l, x = 1) → deceptiveTrap l = l.length) ∧
    ((¬ ∀ x ∈ l, x = 1) → deceptiveTrap l = (l.length : Int) - ones l - 1 ∧
      deceptiveTrap l < l.length ∧ 0 ≤ deceptiveTrap l ∧ deceptiveTrap l ≤ l.length - 1 ∧
      (deceptiveTrap l = l.length - 1 ↔ ∀ x ∈ l, x ≠ 1)) := by
  have e : deceptiveTrap l = if (ones l : Int) = l.length then (l.length : Int)
      else l.length - ones l - 1 := by
    simp only [deceptiveTrap, count_map_eq_ones]
  constructor
  · intro h
    rw [← ones_eq_length] at h
    rw [e, if_pos (by exact_mod_cast h)]
  · intro h
    rw [← ones_eq_length] at h
    have hne : ¬ ((ones l : Int) = l.length) := by exact_mod_cast h
    rw [e, if_neg hne]
    have hle : (ones l : Int) ≤ l.length := by exact_mod_cast ones_le l
    have h0 : (0 : Int) ≤ ones l := by positivity
    have hz : ones l = 0 ↔ ∀ x ∈ l, x ≠ 1 := by
      rw [ones, List.countP_eq_zero]; simp
    refine ⟨rfl, by linarith, by omega, by linarith, ?_⟩
    rw [← hz]
    omega

example : deceptiveTrap [1, 1, 1] = 3 ∧ deceptiveTrap [1, 0, 1] = 0 ∧ deceptiveTrap [0, 0, 0] = 2 := by
  decide

/-- C29: TwoMax of a binary phenome is the larger of the number of ones and the number of zeros; it equals
the length exactly for all ones and all zeros. -/
theorem two_max_value (l : List Int) (hb : Binary l) :
    twoMax l = max (ones l) (l.countP (· == 0)) ∧ twoMax l ≤ l.length ∧
      (twoMax l = l.length ↔ (∀ x ∈ l, x = 1) ∨ (∀ x ∈ l, x = 0)) := by
  have hcount : l.countP (· == 0) = l.length - ones l := by
    rw [ones, List.length_eq_countP_add_countP (fun x : Int => x == 1) (l := l)]
    rw [Nat.add_sub_cancel_left]
    apply List.countP_congr
    intro x hx
    rcases hb x hx with rfl | rfl <;> simp
  have hle := ones_le l
  have e : twoMax l = max (ones l) (l.countP (· == 0)) := by
    simp only [twoMax, count_map_eq_ones, hcount]
    rcases le_total (2 * ones l) l.length with h | h
    · have hq : (2 : ℚ) * ones l ≤ l.length := by exact_mod_cast h
      rw [abs_of_nonneg (by linarith),
        show (l.length : ℚ) / 2 - ones l + l.length / 2 = ((l.length - ones l : Int) : ℚ) by
          push_cast; ring, Int.floor_intCast]
      omega
    · have hq : (l.length : ℚ) ≤ 2 * ones l := by exact_mod_cast h
      rw [abs_of_nonpos (by linarith),
        show -((l.length : ℚ) / 2 - ones l) + l.length / 2 = ((ones l : Int) : ℚ) by
          push_cast; ring, Int.floor_intCast]
      omega
  have hz : l.countP (· == 0) = l.length ↔ ∀ x ∈ l, x = 0 := by
    rw [List.countP_eq_length]; simp
  refine ⟨e, by rw [e, hcount]; omega, ?_⟩
  rw [← ones_eq_length, ← hz, e, hcount]
  omega

example : twoMax [1, 1, 1, 1, 1, 1, 1, 0, 0, 0] = 7 ∧ twoMax [0, 0, 0, 1, 0, 0, 0, 1, 1, 1] = 6 := by
  decide +kernel

end Leap
