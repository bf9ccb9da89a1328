/-
The order in which NumPy adds the elements of an array.
-/
import Verif.Model.Rounding

namespace Dcor

/-- The loop over blocks of eight elements of NumPy's pairwise summation, for the accumulators `r`: once fewer than eight
elements are left, the accumulators are added as a balanced tree and then the remaining elements from left to right. The
recursion depth is bounded by the number of elements. -/
def pairwiseBlocks : ℕ → List ℚ → List ℚ → ℚ
  | 0, _, _ => 0
  | fuel + 1, r, l =>
    if 8 ≤ l.length then pairwiseBlocks fuel (List.zipWith (fun a b => round64 (a + b)) r (l.take 8)) (l.drop 8)
    else
      let g k := r.getD k 0
      l.foldl (fun s b => round64 (s + b))
        (round64 (round64 (round64 (g 0 + g 1) + round64 (g 2 + g 3)) + round64 (round64 (g 4 + g 5) + round64 (g 6 + g 7))))

/-- `np.sum` of a contiguous array of `float64`, called in dcor/_dcor_internals.py:84-85, 389 and 460, directly or through
`np.mean`. This is not code of the package but NumPy's documented algorithm (`pairwise_sum` in its source): fewer
than eight elements are added from left to right, up to 128 with eight accumulators, and more are split into halves whose
first length is a multiple of eight. It is only used to show that the disagreements found for sums from left to right are
also disagreements of the real order; theorems hold for every order. -/
def pairwiseSum : ℕ → List ℚ → ℚ
  | 0, _ => 0
  | fuel + 1, l =>
    if l.length < 8 then seqSum64 l
    else if l.length ≤ 128 then pairwiseBlocks l.length (l.take 8) (l.drop 8)
    else
      let half := l.length / 2 - l.length / 2 % 8
      round64 (pairwiseSum fuel (l.take half) + pairwiseSum fuel (l.drop half))

/-- `np.sum`, with enough recursion depth for any list. -/
def numpySum (l : List ℚ) : ℚ := pairwiseSum (l.length + 1) l

end Dcor
