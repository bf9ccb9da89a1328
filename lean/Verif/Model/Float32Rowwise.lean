/-
The row-wise correlation of arrays of dtype `float32`.
-/
import Verif.Model.Float32
import Verif.Model.RoundingRowwise
import Mathlib.Analysis.Real.Sqrt

namespace Dcor

/-- What is assumed of `np.sqrt` for `float32` numbers: a relative error of at most `2 ** -23`. -/
def IsSqrt32 (sqrt : ℚ → ℚ) : Prop := ∀ q : ℚ, 0 ≤ q → |(sqrt q : ℝ) - Real.sqrt q| ≤ Real.sqrt q / 2 ^ 23

/-- `float32` arithmetic with a square root. -/
def binary32s (sqrt : ℚ → ℚ) : Arith ℚ := { binary32 seqSum32 with sqrt := sqrt }

/-- One entry of `rowwise_distance_correlation_sqr`, dcor/_rowwise.py:57-80, for arrays of dtype `float32`: the covariances of the
rows of `concat_x` and `concat_y` do not depend on each other, and the square roots and quotients are `float32` numbers. `np.sqrt` is a
parameter; no sums are computed here. Simplifications: numbers of any size are in the range of `float32`, and a quotient by zero is zero
(in the code it is NaN, replaced by zero, or infinite): the theorems are for variances that are not zero. -/
def Arith.rowCorrelationSingle {n : ℕ} (D : Arith ℚ) (sqrt : ℚ → ℚ) (unbiased : Bool) (argsort : (Fin n → ℚ) → Equiv.Perm (Fin n))
    (x y : Fin n → ℚ) : Except PyErr ℚ := do
  let cov ← D.rowCovarianceSingle round32 unbiased argsort x y
  let varX ← D.rowCovarianceSingle round32 unbiased argsort x x
  let varY ← D.rowCovarianceSingle round32 unbiased argsort y y
  pure ((binary32s sqrt).rowQuotient cov varX varY)

end Dcor
