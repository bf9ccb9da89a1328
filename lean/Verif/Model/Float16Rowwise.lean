/-
The row-wise covariance of arrays of dtype `float16`.
-/
import Verif.Model.Float16
import Verif.Model.RoundingRowwise
import Mathlib.Analysis.Real.Sqrt

namespace Dcor

/-- One entry of the row-wise covariance of two arrays of dtype `float16`, dcor/_fast_dcov_avl.py:563-641. The generalised universal
function has only a `float64` loop (575-587): NumPy converts the rows, which is exact, and converts the result to the dtype of `res`,
that of `x` (632). Simplification: overflow and underflow are modelled for the conversion only; the `float64` numbers of the loop are
far from the limits of their format. -/
def Arith.rowCovarianceHalf {n : ℕ} (D : Arith ℚ) (unbiased : Bool) (argsort : (Fin n → ℚ) → Equiv.Perm (Fin n)) (x y : Fin n → ℚ) :
    Except PyErr F64 := do
  let r ← D.rowCovariance unbiased argsort x y
  pure (F16.round r)

/-- `float16` arithmetic with a square root. -/
def ieee16s (sqrt : F64 → F64) : Arith F64 := { ieee16 F16.sumSeq with sqrt := sqrt }

/-- What is assumed of `np.sqrt` for `float16` numbers: a relative error of at most `2 ** -10`. NumPy computes the root in `float32`
and rounds it to `float16`; the roots of positive `float16` numbers are at least `2 ** -12` and at most 256. -/
structure F16.IsSqrt (sqrt : F64 → F64) : Prop where
  top : sqrt (.inf false) = .inf false
  close : ∀ q : ℚ, 0 ≤ q → ∃ s : ℚ, sqrt (.fin q) = .fin s ∧ |(s : ℝ) - Real.sqrt q| ≤ Real.sqrt q / 2 ^ 10

/-- One entry of `rowwise_distance_correlation_sqr`, dcor/_rowwise.py:57-80, for arrays of dtype `float16`: the covariances of the
rows of `concat_x` and `concat_y` do not depend on each other, and the square roots and quotients are `float16` numbers. `np.sqrt` is a
parameter; no sums are computed here. -/
def Arith.rowCorrelationHalf {n : ℕ} (D : Arith ℚ) (sqrt : F64 → F64) (unbiased : Bool) (argsort : (Fin n → ℚ) → Equiv.Perm (Fin n))
    (x y : Fin n → ℚ) : Except PyErr F64 := do
  let cov ← D.rowCovarianceHalf unbiased argsort x y
  let varX ← D.rowCovarianceHalf unbiased argsort x x
  let varY ← D.rowCovarianceHalf unbiased argsort y y
  pure ((ieee16s sqrt).rowQuotient cov varX varY)

end Dcor
