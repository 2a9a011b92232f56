import Verif.Py.Basic
import Mathlib.Data.Real.Sqrt
import Mathlib.Data.Int.Bitwise

/-!
# Problems defined by images (leap_ec/binary_rep/problems.py, leap_ec/executable_rep/problems.py)

Loading and resizing an image file is not modelled: an image is its pixels.
-/

namespace Leap

/-- `ImageProblem.evaluate(phenome)` (leap_ec/binary_rep/problems.py:214-219). The target is the flattened
black-and-white image; `phenome ^ self.flat_img` is numpy's exclusive or of integers with truth values taken as 0
and 1. -/
def imageEvaluate (flatImg : List Bool) (phenome : List Int) : PyM Nat :=
  if phenome.length = flatImg.length then
    .ok (((List.zipWith (fun (p : Int) (t : Bool) => Int.xor p (if t then 1 else 0)) phenome flatImg).map
      fun d => decide (d = 0)).countP id)
  else .error .assertionError

/-- The lists of coordinates in `ImageXYProblem.generate_image` (leap_ec/executable_rep/problems.py:234-239): the loop over
`y` outside, the loop over `x` inside. -/
def xyInputs (width height : Nat) : List Int × List Int :=
  (List.range height).foldl (fun acc (y : Nat) =>
    (List.range width).foldl (fun acc (x : Nat) => (acc.1 ++ [(x : Int)], acc.2 ++ [(y : Int)])) acc) ([], [])

/-- Conversion to `int` truncates towards zero (leap_ec/executable_rep/problems.py:242). -/
def truncateRat (q : ℚ) : Int := Int.tdiv q.num q.den

/-- A two-dimensional array of integers: the number of columns and the rows. For leap_ec/executable_rep/problems.py:242. -/
structure IntTable where
  cols : Nat
  rows : List (List Int)
deriving DecidableEq, Repr

/-- `np.stack(output, axis=1).astype(int)` (leap_ec/executable_rep/problems.py:242): row `i` collects the `i`-th entry of
each output. No outputs or outputs of different lengths raise `ValueError`. -/
def stackColumns (outputs : List (List ℚ)) : PyM IntTable :=
  match outputs with
  | [] => .error .valueError
  | o :: os =>
    if os.all fun o' => o'.length = o.length then
      .ok ⟨os.length + 1, (List.range o.length).map fun i => (o :: os).map fun c => truncateRat (c.getD i 0)⟩
    else .error .valueError

/-- `ImageXYProblem.generate_image(executable, width, height)` (leap_ec/executable_rep/problems.py:227-241). The executable
takes the arrays of x and y coordinates and returns its list of output arrays. -/
def generateImage (executable : List (List Int) → PyM (List (List ℚ))) (width height : Nat) : PyM IntTable :=
  match executable [(xyInputs width height).1, (xyInputs width height).2] with
  | .error e => .error e
  | .ok outputs => stackColumns outputs

/-- An RGB image: `pixel x y` is `im.load()[x, y]`, a red, a green and a blue value. For leap_ec/executable_rep/problems.py:224. -/
structure RgbImage where
  width : Nat
  height : Nat
  pixel : Nat → Nat → Int × Int × Int

/-- `self.img_array` (leap_ec/executable_rep/problems.py:224), the pixels row by row, and the same collected by the loops of
`evaluate` (leap_ec/executable_rep/problems.py:250-256); their equality is asserted by the code. -/
def RgbImage.data (im : RgbImage) : IntTable :=
  ⟨3, (List.range im.height).flatMap fun y => (List.range im.width).map fun x =>
    let (r, g, b) := im.pixel x y
    [r, g, b]⟩

/-- The common size of two sizes under numpy's broadcasting: equal, or one of them is 1.
For leap_ec/executable_rep/problems.py:262. -/
def broadcastSize (n m : Nat) : Option Nat :=
  if n = m then some n else if n = 1 then some m else if m = 1 then some n else none

/-- The entry used for position `i` of the common shape in an array of size `n`. For leap_ec/executable_rep/problems.py:262. -/
def broadcastIndex (n i : Nat) : Nat := if n = 1 then 0 else i

/-- An entry of a table. For leap_ec/executable_rep/problems.py:262. -/
def IntTable.get (t : IntTable) (i j : Nat) : Int := (t.rows.getD i []).getD j 0

/-- `a - b` squared and summed: the square of `np.linalg.norm(a - b)` (leap_ec/executable_rep/problems.py:262). Shapes that
do not fit raise `ValueError`. -/
def rgbSquaredDistance (a b : IntTable) : PyM Int :=
  match broadcastSize a.rows.length b.rows.length, broadcastSize a.cols b.cols with
  | some n, some k => .ok ((List.range n).map fun i => ((List.range k).map fun j =>
      (a.get (broadcastIndex a.rows.length i) (broadcastIndex a.cols j) -
        b.get (broadcastIndex b.rows.length i) (broadcastIndex b.cols j)) ^ 2).sum).sum
  | _, _ => .error .valueError

/-- `ImageXYProblem.evaluate(phenome)` (leap_ec/executable_rep/problems.py:245-263) for an RGB image; `none` is `None`.
`np.linalg.norm` is the square root of the sum of squares. -/
noncomputable def imageXYEvaluate (im : RgbImage) (executable : Option (List (List Int) → PyM (List (List ℚ)))) : PyM ℝ :=
  match executable with
  | none => .error .assertionError
  | some ex =>
    match generateImage ex im.width im.height with
    | .error e => .error e
    | .ok f =>
      match rgbSquaredDistance im.data f with
      | .error e => .error e
      | .ok d => .ok (Real.sqrt d)

end Leap
