import Mathlib.Analysis.SpecialFunctions.Exp
import Mathlib.Analysis.SpecialFunctions.Pow.Real
import Verif.Py.Basic

/-!
# Activation functions

Models the activation functions of `leap_ec/executable_rep/neural_network.py`, over the real numbers
(no rounding).
-/

namespace Leap

/-- `sigmoid` on one element (leap_ec/executable_rep/neural_network.py:15-22). -/
noncomputable def sigmoid (x : ℝ) : ℝ := Real.exp (min 0 x) / (1 + Real.exp (-|x|))

/-- `relu` on one element (leap_ec/executable_rep/neural_network.py:28-31). -/
noncomputable def relu (x : ℝ) : ℝ := max 0 x

/-- `np.max` of a vector: `ValueError` when it is empty. For leap_ec/executable_rep/neural_network.py:37-42. -/
noncomputable def npMaxReal : List ℝ → PyM ℝ
  | [] => .error .valueError
  | x :: xs => .ok (xs.foldl max x)

/-- `softmax` (leap_ec/executable_rep/neural_network.py:37-42). -/
noncomputable def softmax (x : List ℝ) : PyM (List ℝ) :=
  match npMaxReal x with
  | .error e => .error e
  | .ok m =>
    let safeExp := x.map fun a => Real.exp (a - m)
    .ok (safeExp.map fun a => a / safeExp.sum)

end Leap
