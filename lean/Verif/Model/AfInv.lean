/-
Model of the affinely invariant distance correlation: dcor/_dcor_internals.py:703-735 and
dcor/_dcor.py:1042-1171.

Samples with fewer than two observations (division by `x.shape[0] - 1 ≤ 0`) are not modelled: the
outcome is `undefinedBehaviour`. The arithmetic is exact, so a singular covariance matrix has an
eigenvalue which is exactly zero.
-/
import Verif.Model.Dcor
import Mathlib.Data.Matrix.Mul
import Mathlib.LinearAlgebra.Matrix.Symmetric

namespace Dcor

/-- `xp.linalg.eigh`: some orthonormal eigendecomposition of every symmetric matrix. Nothing is
assumed about the order of the eigenvalues or about which eigenvectors are returned, nor about the
result for other matrices. -/
structure Eigh where
  /-- eigenvalues and matrix with the eigenvectors as columns -/
  eig : {p : ℕ} → Matrix (Fin p) (Fin p) ℝ → (Fin p → ℝ) × Matrix (Fin p) (Fin p) ℝ
  orthonormal : ∀ {p : ℕ} (A : Matrix (Fin p) (Fin p) ℝ), A.IsSymm →
    (eig A).2.transpose * (eig A).2 = 1
  decomposition : ∀ {p : ℕ} (A : Matrix (Fin p) (Fin p) ℝ), A.IsSymm →
    (eig A).2 * Matrix.diagonal (eig A).1 * (eig A).2.transpose = A

/-- Lines 709-710 of `_mat_sqrt_inv`: `eigenvalues[eigenvalues <= 0] = inf` and `1 / sqrt(·)`, which
maps infinity to zero. -/
noncomputable def sqrtInvEigenvalue (l : ℝ) : ℝ := if l ≤ 0 then 0 else 1 / Real.sqrt l

/-- `_mat_sqrt_inv`, dcor/_dcor_internals.py:703-712. `eigenvectors * v` multiplies the columns by
the entries of `v`. -/
noncomputable def matSqrtInv (eg : Eigh) {p : ℕ} (A : Matrix (Fin p) (Fin p) ℝ) :
    Matrix (Fin p) (Fin p) ℝ :=
  let eigenvalues := (eg.eig A).1
  let eigenvectors := (eg.eig A).2
  let scaled : Matrix (Fin p) (Fin p) ℝ :=
    fun i j => eigenvectors i j * sqrtInvEigenvalue (eigenvalues j)
  scaled * eigenvectors.transpose

/-- `x_centered` of `_cov`, dcor/_dcor_internals.py:721-722. -/
noncomputable def centredColumns {n p : ℕ} (X : Fin n → Fin p → ℝ) : Matrix (Fin n) (Fin p) ℝ :=
  fun i j => X i j - (∑ k, X k j) / n

/-- `_cov`, dcor/_dcor_internals.py:715-724. -/
noncomputable def covMatrix {n p : ℕ} (X : Fin n → Fin p → ℝ) : Matrix (Fin p) (Fin p) ℝ :=
  fun i j => ((centredColumns X).transpose * centredColumns X) i j / ((n : ℝ) - 1)

/-- The contents of the array returned by `_af_inv_scaled`, dcor/_dcor_internals.py:731-735. -/
noncomputable def afInvRows (eg : Eigh) {n p : ℕ} (X : Fin n → Fin p → ℝ) : Fin n → Fin p → ℝ :=
  fun i j => (Matrix.of X * matSqrtInv eg (covMatrix X)) i j / ((n : ℝ) - 1)

/-- Element type of the scaled sample: means and quotients of integers are `float64`. -/
def DType.scaled : DType → DType
  | .float32 => .float32
  | _ => .float64

/-- `_af_inv_scaled`, dcor/_dcor_internals.py:727-735. `eigh` raises `TypeError` for object arrays. -/
noncomputable def afInvScaled (eg : Eigh) (x : Arr) : Except PyErr Arr := do
  let X ← transformTo2d x.data
  if X.n < 2 then .error .undefinedBehaviour
  else if x.dtype.isObject then .error .typeError
  else .ok ⟨x.ns, x.dtype.scaled, .mat X.n X.p (afInvRows eg X.m)⟩

open Classical in
/-- `distance_correlation_af_inv_sqr`, dcor/_dcor.py:1042-1106. The function has no `exponent`
argument. -/
noncomputable def distanceCorrelationAfInvSqr (eg : Eigh) (env : Env) (x y : Arr)
    (method : MethodLike := .enum .auto) (cm : CompileMode := .auto) : PyM (FP ℝ) := do
  let x ← PyM.lift (afInvScaled eg x)
  let y ← PyM.lift (afInvScaled eg y)
  let correlation ← distanceCorrelationSqr env x y { method := method, compileMode := cm }
  -- dcor/_dcor.py:1102-1106
  PyM.pure (if correlation = .nan then .fin 0 else correlation)

/-- `distance_correlation_af_inv`, dcor/_dcor.py:1109-1171. -/
noncomputable def distanceCorrelationAfInv (eg : Eigh) (env : Env) (x y : Arr)
    (method : MethodLike := .enum .auto) (cm : CompileMode := .auto) : PyM (FP ℝ) := do
  let c ← distanceCorrelationAfInvSqr eg env x y method cm
  PyM.pure (sqrtClip c)

end Dcor
