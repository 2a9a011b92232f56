import Mathlib.Algebra.Order.Field.Rat
import Mathlib.Data.Real.Basic

/-!
# The t-test helper (leap_ec/statistical_helpers.py:174-189)

Numbers are exact. Standard deviations enter only through their squares, so the square of the t statistic is rational.
-/

namespace Leap

/-- The square of a t statistic, which numpy may make NaN or infinite. For leap_ec/statistical_helpers.py:186-187. -/
inductive TSquare where
  | nan
  | inf
  | val (q : ℚ)
deriving DecidableEq

/-- `np.mean` (leap_ec/statistical_helpers.py:185). -/
def npMean (xs : List ℚ) : ℚ := xs.sum / xs.length

/-- The square of `np.std`, which divides by the number of samples (leap_ec/statistical_helpers.py:185). -/
def npVar (xs : List ℚ) : ℚ := (xs.map fun x => (x - npMean xs) * (x - npMean xs)).sum / xs.length

/-- The square of the statistic of `scipy.stats.ttest_ind_from_stats` with equal variances (called at
leap_ec/statistical_helpers.py:186-187), for `n1 + n2 > 1` observations: the difference of the means over the pooled standard error.
With one observation on each side the pooled variance is 0/0. -/
def tSquare (mean1 var1 : ℚ) (n1 : ℕ) (mean2 var2 : ℚ) (n2 : ℕ) : TSquare :=
  let df : ℚ := n1 + n2 - 2
  if df = 0 then .nan
  else
    let pooled := ((n1 - 1) * var1 + (n2 - 1) * var2) / df
    let denomSq := pooled * (1 / n1 + 1 / n2)
    let d := mean1 - mean2
    if denomSq = 0 then (if d = 0 then .nan else .inf) else .val (d * d / denomSq)

/-- `equals_gaussian` (leap_ec/statistical_helpers.py:174-189). `pval df q` is the two-sided p-value of the t distribution with `df` degrees of
freedom at a statistic whose square is `q`. The mean of no samples is NaN; comparing NaN gives `False`; an infinite statistic has p-value
0. At least one reference observation. -/
noncomputable def equalsGaussian (pval : ℕ → ℚ → ℝ) (samples : List ℚ) (refMean refStd : ℚ) (numRef : ℕ) (p : ℝ) : Bool :=
  if samples.length = 0 then false
  else match tSquare (npMean samples) (npVar samples) samples.length refMean (refStd * refStd) numRef with
  | .nan => false
  | .inf => decide (0 > p)
  | .val q => decide (pval (samples.length + numRef - 2) q > p)

end Leap
