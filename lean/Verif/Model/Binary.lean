import Mathlib.Data.Rat.Floor
import Verif.Py.Numpy

/-!
# Binary decoders and binary benchmark problems
(leap_ec/binary_rep/decoders.py, leap_ec/binary_rep/problems.py)

Genomes are lists of integers (numpy boolean or integer arrays). The check that the genome is a numpy
array is not modelled: genomes are arrays here.
-/

namespace Leap

/-- numpy's 64-bit integers: the representative of `x` modulo `2^64` in `[-2^63, 2^63)`.
For leap_ec/binary_rep/decoders.py:75, 93. -/
def wrap64 (x : Int) : Int := (x + 2 ^ 63) % 2 ^ 64 - 2 ^ 63

/-- `1 << np.arange(n)[::-1]` (leap_ec/binary_rep/decoders.py:75, 93): the powers of two, largest first, as
64-bit integers (numpy shifts by 64 or more give 0). -/
def powers2 (n : Nat) : List Int := ((List.range n).map fun i : Nat => wrap64 (2 ^ i)).reverse

/-- `b.dot(p)` on 64-bit integer vectors; `ValueError` when the lengths differ. For leap_ec/binary_rep/decoders.py:82-96. -/
def dot64 (b p : List Int) : PyM Int :=
  if b.length = p.length then .ok (wrap64 (List.zipWith (· * ·) b p).sum) else .error .valueError

/-- `p[-k:]`: the last `k` entries, but the whole of `p` when `k = 0`. For leap_ec/binary_rep/decoders.py:82-96. -/
def lastSlice (p : List Int) (k : Nat) : List Int := if k = 0 then p else p.drop (p.length - k)

/-- `BinaryToIntDecoder.__binary_to_int` (leap_ec/binary_rep/decoders.py:82-96). -/
def binaryToInt (b : List Int) (cache : Option (List Int)) : PyM Int :=
  let p := match cache with
    | none => powers2 b.length
    | some p => if b.length > p.length then powers2 b.length else p
  dot64 b (lastSlice p b.length)

/-- The cache update in `decode` (leap_ec/binary_rep/decoders.py:74-75). -/
def updateCache (b : List Int) (cache : Option (List Int)) : Option (List Int) :=
  match cache with
  | none => some (powers2 b.length)
  | some p => if b.length > p.length then some (powers2 b.length) else some p

/-- The loop of `BinaryToIntDecoder.decode` (leap_ec/binary_rep/decoders.py:68-80), for segment lengths that
are not negative. `cache` is the decoder's attribute `powers_2`; the second result is its value
afterwards, also when an exception was raised. -/
def decodeIntLoop (genome : List Int) :
    List Nat → Nat → Option (List Int) → PyM (List Int) × Option (List Int)
  | [], _, cache => (.ok [], cache)
  | d :: ds, offset, cache =>
    let cur := pySlice genome offset (offset + d)
    let cache := updateCache cur cache
    match binaryToInt cur cache with
    | .error e => (.error e, cache)
    | .ok v =>
      match decodeIntLoop genome ds (offset + d) cache with
      | (.error e, c) => (.error e, c)
      | (.ok vs, c) => (.ok (v :: vs), c)

/-- `BinaryToIntDecoder.decode` (leap_ec/binary_rep/decoders.py:45-80). -/
def decodeInt (descriptors : List Nat) (cache : Option (List Int)) (genome : List Int) :
    PyM (List Int) × Option (List Int) :=
  decodeIntLoop genome descriptors 0 cache

/-- The decoder's cache after decoding each genome of `history`, from the state set by `__init__`
(leap_ec/binary_rep/decoders.py:42-43). -/
def cacheAfter (descriptors : List Nat) (history : List (List Int)) : Option (List Int) :=
  history.foldl (fun c g => (decodeInt descriptors c g).2) none

/-- The loop of `__gray_encode` (leap_ec/binary_rep/decoders.py:239-243) on a non-negative number. -/
def grayLoop (num mask : Nat) : Nat :=
  if h : mask = 0 then num else grayLoop (num ^^^ mask) (mask >>> 1)
termination_by mask
decreasing_by
  simp only [Nat.shiftRight_succ, Nat.shiftRight_zero]
  omega

/-- `BinaryToIntGreyDecoder.__gray_encode` (leap_ec/binary_rep/decoders.py:229-243). `none`: the loop
never ends, because a negative number shifted right stays negative. -/
def grayEncode (num : Int) : Option Int :=
  if num < 0 then none
  else some ((grayLoop num.toNat (num.toNat >>> 1) : Nat) : Int)

/-- `BinaryToIntGreyDecoder.decode` (leap_ec/binary_rep/decoders.py:245-254). `none` = does not terminate. -/
def decodeGrey (descriptors : List Nat) (cache : Option (List Int)) (genome : List Int) :
    PyM (Option (List Int)) × Option (List Int) :=
  match decodeInt descriptors cache genome with
  | (.error e, c) => (.error e, c)
  | (.ok vs, c) => (.ok (vs.mapM grayEncode), c)

/-- A segment descriptor given to the real-valued decoders: a triple, or a tuple of another length.
For leap_ec/binary_rep/decoders.py:125-165. -/
inductive RealSeg where
  | triple (bits : Nat) (lo hi : ℚ)
  | malformed
deriving DecidableEq

/-- What `BinaryToRealDecoderCommon.__init__` stores for one segment
(leap_ec/binary_rep/decoders.py:147-165): bits, lower bound, upper bound, increment. The increment is `none`
when it is a division by zero (a numpy infinity or NaN). -/
structure RealDim where
  bits : Nat
  lo : ℚ
  hi : ℚ
  increment : Option ℚ
deriving DecidableEq

/-- One column of the vectors computed in `__init__` (leap_ec/binary_rep/decoders.py:147-165). -/
def realDim (bits : Nat) (lo hi : ℚ) : RealDim :=
  let card1 := wrap64 (wrap64 (2 ^ bits) - 1)
  ⟨bits, lo, hi, if card1 = 0 then none else some ((hi - lo) / card1)⟩

/-- `BinaryToRealDecoderCommon.__init__` (leap_ec/binary_rep/decoders.py:125-165). With no segments
the shift of an empty float array is a `TypeError`. -/
def realInit (segs : List RealSeg) : PyM (List RealDim) :=
  if segs.any (· == .malformed) then .error .valueError
  else if segs.isEmpty then .error .typeError
  else .ok (segs.filterMap fun
    | .triple b lo hi => some (realDim b lo hi)
    | .malformed => none)

/-- `BinaryToRealDecoderCommon.decode` (leap_ec/binary_rep/decoders.py:167-171) on the integers from the
underlying decoder. An entry is `none` when the increment is not a number. -/
def realDecode (dims : List RealDim) (ints : List Int) : List (Option ℚ) :=
  List.zipWith (fun d (v : Int) => d.increment.map fun inc => d.lo + (v : ℚ) * inc) dims ints

/-- `BinaryToRealDecoder` (leap_ec/binary_rep/decoders.py:177-204): init and decode. -/
def binaryToReal (dims : List RealDim) (cache : Option (List Int)) (genome : List Int) :
    PyM (List (Option ℚ)) :=
  match (decodeInt (dims.map (·.bits)) cache genome).1 with
  | .error e => .error e
  | .ok vs => .ok (realDecode dims vs)

/-- `BinaryToRealGreyDecoder` (leap_ec/binary_rep/decoders.py:260-285). `none` = does not terminate. -/
def binaryToRealGrey (dims : List RealDim) (cache : Option (List Int)) (genome : List Int) :
    PyM (Option (List (Option ℚ))) :=
  match (decodeGrey (dims.map (·.bits)) cache genome).1 with
  | .error e => .error e
  | .ok vs => .ok (vs.map (realDecode dims))

/-! ### Problems -/

/-- `phenome == target` elementwise, for equal lengths. For leap_ec/binary_rep/problems.py:35-61. -/
def matches' (phenome target : List Int) : List Bool := List.zipWith (· == ·) phenome target

/-- `MaxOnes.evaluate` (leap_ec/binary_rep/problems.py:35-61). A length mismatch fails the assertion, whose
message mentions an undefined name: `NameError`. -/
def maxOnes (target : Option (List Int)) (phenome : List Int) : PyM Nat :=
  match target with
  | some t =>
    if phenome.length = t.length then .ok ((matches' phenome t).count true) else .error .nameError
  | none => .ok ((phenome.map (· == 1)).count true)

/-- The first group of `itertools.groupby(l)`; `StopIteration` from `next` if there is none.
For leap_ec/binary_rep/problems.py:88-116. -/
def firstGroup (l : List Bool) : PyM (List Bool) :=
  match l with
  | [] => .error .stopIteration
  | b :: _ => .ok (l.takeWhile (· == b))

/-- `LeadingOnes.evaluate` (leap_ec/binary_rep/problems.py:88-116). -/
def leadingOnes (target : Option (List Int)) (phenome : List Int) : PyM Nat :=
  let m : PyM (List Bool) := match target with
    | some t =>
      if phenome.length = t.length then .ok (matches' phenome t) else .error .nameError
    | none => .ok (phenome.map (· == 1))
  match m with
  | .error e => .error e
  | .ok m =>
    match firstGroup m with
    | .error e => .error e
    | .ok g => .ok (g.count true)

/-- `DeceptiveTrap.evaluate` (leap_ec/binary_rep/problems.py:132-157). -/
def deceptiveTrap (phenome : List Int) : Int :=
  let dimensions : Int := phenome.length
  let ones : Int := (phenome.map (· == 1)).count true
  if ones = dimensions then dimensions else dimensions - ones - 1

/-- `TwoMax.evaluate` (leap_ec/binary_rep/problems.py:173-191). -/
def twoMax (phenome : List Int) : Int :=
  let dimensions : ℚ := phenome.length
  let ones : ℚ := ((phenome.map (· == 1)).count true : Nat)
  ⌊|dimensions / 2 - ones| + dimensions / 2⌋

end Leap
