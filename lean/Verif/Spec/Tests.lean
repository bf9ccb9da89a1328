/-
Specification: which calls of the independence tests are supposed to return, and the statistics they
are based on.
-/
import Verif.Spec.Calls
import Verif.Spec.Dcov
import Verif.Spec.Partial

namespace Dcor

/-- A supported call of `distance_covariance_test` on samples of `n > 0` observations: any dtype except
`Decimal` and a non-negative exponent. -/
structure DcovTestCall (x y : Arr) (α : ℝ) {n p q : ℕ} (X : Fin n → Fin p → ℝ)
    (Y : Fin n → Fin q → ℝ) : Prop where
  hn : 0 < n
  hx : Holds x.data n p X
  hy : Holds y.data n q Y
  exponent_nonneg : 0 ≤ α
  dx : x.dtype ≠ .decimal
  dy : y.dtype ≠ .decimal

/-- A supported call of `partial_distance_covariance_test` on samples of `n > 3` observations: no object
arrays, and a non-negative exponent. -/
structure PartialTestCall (x y z : Arr) (α : ℝ) {n p q r : ℕ} (X : Fin n → Fin p → ℝ)
    (Y : Fin n → Fin q → ℝ) (Z : Fin n → Fin r → ℝ) : Prop where
  hn : 3 < n
  hx : Holds x.data n p X
  hy : Holds y.data n q Y
  hz : Holds z.data n r Z
  exponent_nonneg : 0 ≤ α
  dx : x.dtype.isObject = false
  dy : y.dtype.isObject = false
  dz : z.dtype.isObject = false

namespace Spec

variable {n p q r : ℕ}

/-- Test statistic `n · dCov²(X, Y)`. -/
noncomputable def dcovStat (α : ℝ) (X : Fin n → Fin p → ℝ) (Y : Fin n → Fin q → ℝ) : ℝ :=
  n * dcovSqr (distMat α X) (distMat α Y)

/-- The part of the U-centred distance matrix of `X` orthogonal to that of `Z`. -/
noncomputable def residualMat (α : ℝ) (Z : Fin n → Fin r → ℝ) (X : Fin n → Fin p → ℝ) :
    Fin n → Fin n → ℝ :=
  uResidual (uCentre (distMat α Z)) (uCentre (distMat α X))

end Spec

end Dcor
