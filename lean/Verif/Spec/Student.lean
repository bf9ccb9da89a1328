/-
Specification: Student's t-distribution.
-/
import Mathlib.MeasureTheory.Integral.Bochner.Set
import Mathlib.MeasureTheory.Measure.Lebesgue.Basic
import Mathlib.Analysis.SpecialFunctions.Pow.Real

namespace Dcor.Spec

open MeasureTheory Set

/-- Density of Student's t-distribution with `ν` degrees of freedom, without the normalising factor. -/
noncomputable def studentWeight (ν s : ℝ) : ℝ :=
  (1 + s ^ 2 / ν) ^ (-(ν + 1) / 2)

/-- Distribution function of Student's t-distribution with `ν` degrees of freedom: what `scipy.stats.t.cdf` is documented to
compute. -/
noncomputable def studentCdf (ν t : ℝ) : ℝ :=
  (∫ s in Iic t, studentWeight ν s) / ∫ s, studentWeight ν s

end Dcor.Spec
