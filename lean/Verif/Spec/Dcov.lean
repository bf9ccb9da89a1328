/-
Specification: textbook definitions of the distance statistics (Székely, Rizzo, Bakirov 2007;
Székely, Rizzo 2013/2014), written without reference to the model of the code.
-/
import Mathlib.Analysis.SpecialFunctions.Pow.Real
import Mathlib.Algebra.BigOperators.Fin

namespace Dcor.Spec

open Finset

/-- `‖u - v‖^α` for the Euclidean norm of `ℝ^p`. -/
noncomputable def dist {p : ℕ} (α : ℝ) (u v : Fin p → ℝ) : ℝ :=
  (Real.sqrt (∑ c, (u c - v c) ^ 2)) ^ α

/-- Matrix of the distances `‖X_i - X_j‖^α` between the rows of a sample. -/
noncomputable def distMat {n p : ℕ} (α : ℝ) (X : Fin n → Fin p → ℝ) (i j : Fin n) : ℝ :=
  dist α (X i) (X j)

/-- Double centring: subtract row and column means and add the grand mean. -/
noncomputable def centre {n : ℕ} (a : Fin n → Fin n → ℝ) (i j : Fin n) : ℝ :=
  a i j - (∑ k, a i k) / n - (∑ k, a k j) / n + (∑ k, ∑ l, a k l) / n ^ 2

/-- Sample distance covariance, squared: `n⁻² ∑ᵢⱼ Aᵢⱼ Bᵢⱼ` with centred `A`, `B`. -/
noncomputable def dcovSqr {n : ℕ} (a b : Fin n → Fin n → ℝ) : ℝ :=
  (∑ i, ∑ j, centre a i j * centre b i j) / n ^ 2

/-- U-centring. -/
noncomputable def uCentre {n : ℕ} (a : Fin n → Fin n → ℝ) (i j : Fin n) : ℝ :=
  if i = j then 0
  else a i j - (∑ k, a i k) / (n - 2) - (∑ k, a k j) / (n - 2)
    + (∑ k, ∑ l, a k l) / ((n - 1) * (n - 2))

/-- Inner product of U-centred matrices, `1/(n(n-3)) ∑_{i≠j} Aᵢⱼ Bᵢⱼ`. -/
noncomputable def uInner {n : ℕ} (a b : Fin n → Fin n → ℝ) : ℝ :=
  (∑ i, ∑ j ∈ univ.filter (· ≠ i), a i j * b i j) / (n * (n - 3))

/-- Bias-corrected squared distance covariance. -/
noncomputable def uDcovSqr {n : ℕ} (a b : Fin n → Fin n → ℝ) : ℝ :=
  uInner (uCentre a) (uCentre b)

/-- A covariance-like number divided by the geometric mean of two variances; zero if that
vanishes. -/
noncomputable def ratio (cov vx vy : ℝ) : ℝ :=
  if vx * vy = 0 then 0 else cov / Real.sqrt |vx * vy|

/-- Squared distance correlation. -/
noncomputable def dcorSqr {n : ℕ} (a b : Fin n → Fin n → ℝ) : ℝ :=
  ratio (dcovSqr a b) (dcovSqr a a) (dcovSqr b b)

/-- Bias-corrected squared distance correlation. -/
noncomputable def uDcorSqr {n : ℕ} (a b : Fin n → Fin n → ℝ) : ℝ :=
  ratio (uDcovSqr a b) (uDcovSqr a a) (uDcovSqr b b)

end Dcor.Spec
