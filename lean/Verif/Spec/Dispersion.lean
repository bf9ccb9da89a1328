/-
Specification: classical measures of dispersion.
-/
import Verif.Spec.Dcov
import Verif.Spec.ClosedForms

namespace Dcor.Spec

variable {n p : ℕ}

/-- Gini's mean difference, with repetitions: the average of `‖X_i - X_j‖^α` over all pairs. -/
noncomputable def gini (α : ℝ) (X : Fin n → Fin p → ℝ) : ℝ := (∑ i, ∑ j, dist α (X i) (X j)) / n ^ 2

/-- The sum of the variances of the components, with divisor `n`. -/
noncomputable def totalVar (X : Fin n → Fin p → ℝ) : ℝ := ∑ c, cov (fun i => X i c) (fun i => X i c)

end Dcor.Spec
