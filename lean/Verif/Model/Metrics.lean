import Verif.Model.Probe

/-!
# Diversity metrics

Models the three metrics of `leap_ec/probe.py`. Genes are exact rationals, so the square root and the square of
`np.linalg.norm`/`np.std` followed by squaring cancel.
-/

namespace Leap

/-- `np.stack(genomes)`: `ValueError` for no genomes or genomes of different lengths. For leap_ec/probe.py:691-711. -/
def npStack (genomes : List (List ℚ)) : PyM (List (List ℚ)) :=
  match genomes with
  | [] => .error .valueError
  | g :: gs => if gs.all (fun h => h.length == g.length) then .ok (g :: gs) else .error .valueError

/-- The columns of a matrix. For leap_ec/probe.py:691-711. -/
def matrixColumns (rows : List (List ℚ)) : List (List ℚ) :=
  (List.range (rows.headD []).length).map fun i => rows.map fun r => r.getD i 0

/-- `pairwise_squared_distance_metric` (leap_ec/probe.py:691-711). -/
def pairwiseSquaredDistance (genomes : List (List ℚ)) : PyM ℚ := do
  let rows ← npStack genomes
  let centroid := (matrixColumns rows).map statMean
  let distances := rows.map fun r => List.zipWith (fun x c => x - c) r centroid
  let sqNorms := distances.map fun d => (d.map fun x => x ^ 2).sum
  .ok (2 * genomes.length * sqNorms.sum)

/-- `sum_of_variances_metric` (leap_ec/probe.py:717-734). -/
def sumOfVariances (genomes : List (List ℚ)) : PyM ℚ := do
  let rows ← npStack genomes
  let variances := (matrixColumns rows).map statVariance
  .ok variances.sum

/-- `np.isclose(v, 0)` with the default absolute tolerance 1e-8. For leap_ec/probe.py:740-754. -/
def npCloseToZero (v : ℚ) : Bool := decide (|v| ≤ 1 / 100000000)

/-- `num_fixated_metric` (leap_ec/probe.py:740-754). -/
def numFixated (genomes : List (List ℚ)) : PyM Nat := do
  let rows ← npStack genomes
  let variances := (matrixColumns rows).map statVariance
  .ok (variances.countP npCloseToZero)

end Leap
