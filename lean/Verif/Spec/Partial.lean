/-
Specification: partial distance covariance and correlation (Székely, Rizzo 2014).
-/
import Verif.Spec.Dcov

namespace Dcor.Spec

/-- The part of `a` orthogonal to `c` for the inner product of U-centred matrices. -/
noncomputable def uResidual {n : ℕ} (c a : Fin n → Fin n → ℝ) : Fin n → Fin n → ℝ :=
  if uInner c c = 0 then a else fun i j => a i j - uInner a c / uInner c c * c i j

/-- U-centred distance matrix of a sample, exponent 1. -/
noncomputable def uMat {n p : ℕ} (X : Fin n → Fin p → ℝ) : Fin n → Fin n → ℝ :=
  uCentre (distMat 1 X)

/-- Partial distance covariance: inner product of the residuals. -/
noncomputable def partialDcov {n p q r : ℕ} (X : Fin n → Fin p → ℝ) (Y : Fin n → Fin q → ℝ)
    (Z : Fin n → Fin r → ℝ) : ℝ :=
  uInner (uResidual (uMat Z) (uMat X)) (uResidual (uMat Z) (uMat Y))

/-- Partial distance correlation: cosine of the angle between the residuals, zero if one of them
vanishes. -/
noncomputable def partialDcor {n p q r : ℕ} (X : Fin n → Fin p → ℝ) (Y : Fin n → Fin q → ℝ)
    (Z : Fin n → Fin r → ℝ) : ℝ :=
  ratio (partialDcov X Y Z) (partialDcov X X Z) (partialDcov Y Y Z)

end Dcor.Spec
