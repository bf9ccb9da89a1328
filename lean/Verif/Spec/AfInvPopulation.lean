/-
Covariance matrices of distributions.
-/
import Mathlib.MeasureTheory.Integral.Bochner.Basic
import Verif.Spec.Dcov

namespace Dcor.Spec

open MeasureTheory

variable {p : ℕ}

/-- Covariance of the components `k` and `l` of a random vector with distribution `μ`. -/
noncomputable def popCov (μ : Measure (Fin p → ℝ)) (k l : Fin p) : ℝ :=
  ∫ x, (x k - ∫ x', x' k ∂μ) * (x l - ∫ x', x' l ∂μ) ∂μ

/-- The components are uncorrelated with unit variance. -/
def PopWhite (μ : Measure (Fin p → ℝ)) : Prop := ∀ k l, popCov μ k l = if k = l then 1 else 0

end Dcor.Spec
