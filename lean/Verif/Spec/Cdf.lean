/-
Specification: empirical distribution functions.
-/
import Mathlib.Algebra.BigOperators.Fin
import Mathlib.Data.Real.Basic

namespace Dcor.Spec

open Finset

variable {n : ℕ}

/-- Empirical distribution function: the proportion of observations that are at most `t`. -/
noncomputable def ecdf (x : Fin n → ℝ) (t : ℝ) : ℝ := #{i | x i ≤ t} / n

/-- Joint empirical distribution function of paired observations. -/
noncomputable def jointCdf (x y : Fin n → ℝ) (s t : ℝ) : ℝ := #{i | x i ≤ s ∧ y i ≤ t} / n

end Dcor.Spec
