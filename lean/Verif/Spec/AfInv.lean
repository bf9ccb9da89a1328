/-
Specification of the affinely invariant distance correlation.
-/
import Verif.Model.AfInv
import Verif.Spec.Calls

namespace Dcor

/-- Image of a sample under the affine map `x ↦ x M + b`. -/
def affineRows {n p q : ℕ} (X : Fin n → Fin p → ℝ) (M : Matrix (Fin p) (Fin q) ℝ) (b : Fin q → ℝ) :
    Fin n → Fin q → ℝ := fun i j => (∑ k, X i k * M k j) + b j

/-- Sample covariance of the components `k` and `l`. -/
noncomputable def Spec.sampleCov {n p : ℕ} (X : Fin n → Fin p → ℝ) (k l : Fin p) : ℝ :=
  (∑ i, (X i k - (∑ r, X r k) / n) * (X i l - (∑ r, X r l) / n)) / ((n : ℝ) - 1)

/-- The components of the sample are uncorrelated with unit variance. -/
def Spec.White {n p : ℕ} (X : Fin n → Fin p → ℝ) : Prop :=
  ∀ k l, Spec.sampleCov X k l = if k = l then 1 else 0

/-- A supported call of the affinely invariant functions: at least two observations, no object
arrays, and a method that handles floating point samples with the shapes of `x` and `y`. -/
structure AfSupported (env : Env) (x y : Arr) (method : MethodLike) (cm : CompileMode) {n p q : ℕ}
    (X : Fin n → Fin p → ℝ) (Y : Fin n → Fin q → ℝ) : Prop where
  hx : Holds x.data n p X
  hy : Holds y.data n q Y
  two : 2 ≤ n
  xprim : x.dtype.isObject = false
  yprim : y.dtype.isObject = false
  method : ∃ m, toAlgorithm env method = .ok m ∧
    CallOk m ⟨x.ns, x.dtype.scaled, x.data⟩ ⟨y.ns, y.dtype.scaled, y.data⟩ n p q 1 cm

end Dcor
