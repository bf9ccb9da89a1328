/-
Specification: the energy distance (Székely, Rizzo 2013) between two samples, written without
reference to the model of the code.
-/
import Verif.Spec.Dcov

namespace Dcor.Spec

open Finset

variable {n m p : ℕ}

/-- Average of `‖X_i - Y_j‖^α` over all pairs `(i, j)`. -/
noncomputable def crossMean (α : ℝ) (X : Fin n → Fin p → ℝ) (Y : Fin m → Fin p → ℝ) : ℝ :=
  (∑ i, ∑ j, dist α (X i) (Y j)) / (n * m)

/-- Average of `‖X_i - X_j‖^α` over the ordered pairs of different observations. -/
noncomputable def pairMean (α : ℝ) (X : Fin n → Fin p → ℝ) : ℝ :=
  (∑ i, ∑ j ∈ univ.filter (· ≠ i), dist α (X i) (X j)) / (n * (n - 1))

/-- Energy distance, V-statistic. -/
noncomputable def energyV (α : ℝ) (X : Fin n → Fin p → ℝ) (Y : Fin m → Fin p → ℝ) : ℝ :=
  2 * crossMean α X Y - crossMean α X X - crossMean α Y Y

/-- Energy distance, U-statistic. -/
noncomputable def energyU (α : ℝ) (X : Fin n → Fin p → ℝ) (Y : Fin m → Fin p → ℝ) : ℝ :=
  2 * crossMean α X Y - pairMean α X - pairMean α Y

end Dcor.Spec
