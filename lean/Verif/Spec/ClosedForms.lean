/-
Specification: elementary statistics that the distance statistics reduce to in special cases.
-/
import Mathlib.Analysis.SpecialFunctions.Pow.Real
import Mathlib.Algebra.BigOperators.Fin

namespace Dcor.Spec

variable {n : ℕ}

/-- Arithmetic mean. -/
noncomputable def avg (v : Fin n → ℝ) : ℝ := (∑ i, v i) / n

/-- Covariance of two samples of numbers, with divisor `n`. -/
noncomputable def cov (v w : Fin n → ℝ) : ℝ := (∑ i, (v i - avg v) * (w i - avg w)) / n

/-- Pearson's correlation coefficient; zero if one of the samples is constant. -/
noncomputable def pearson (v w : Fin n → ℝ) : ℝ := cov v w / Real.sqrt (cov v v * cov w w)

end Dcor.Spec
