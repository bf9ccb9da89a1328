/-
Model of dcor/_partial_dcor.py and of the centred distance matrices it uses
(dcor/_dcor_internals.py:675-700).

Square matrices of different sizes are combined with NumPy broadcasting: a 1×1 matrix is extended
to any size, other sizes must agree. Simplification: combining arrays of `Decimal` with arrays of
another dtype (a `TypeError`) is not modelled here; the theorems exclude it.
-/
import Verif.Model.Dcor

namespace Dcor

/-- A square matrix with its size; `kind` says whether its elements are Python numbers (object
dtype). -/
structure FSq where
  n : ℕ
  kind : NumKind
  e : FMat n

/-- Kind of the result of an operation on two arrays. -/
def NumKind.join : NumKind → NumKind → NumKind
  | .numpy, .numpy => .numpy
  | _, _ => .python

/-- Elementwise operation with broadcasting. -/
def FSq.zipWith (f : FP ℝ → FP ℝ → FP ℝ) (a b : FSq) : Except PyErr FSq :=
  if h : a.n = b.n then
    .ok ⟨a.n, a.kind.join b.kind, fun i j => f (a.e i j) (b.e (Fin.cast h i) (Fin.cast h j))⟩
  else if h : a.n = 1 then
    .ok ⟨b.n, a.kind.join b.kind,
      fun i j => f (a.e (Fin.cast h.symm 0) (Fin.cast h.symm 0)) (b.e i j)⟩
  else if h : b.n = 1 then
    .ok ⟨a.n, a.kind.join b.kind,
      fun i j => f (a.e i j) (b.e (Fin.cast h.symm 0) (Fin.cast h.symm 0))⟩
  else .error .valueError

/-- `_u_distance_matrix(x, exponent=...)`, dcor/_dcor_internals.py:675-700. Dividing
by zero in `u_centered` (lines 336-337) is an exception for Python numbers. -/
noncomputable def uDistanceMatrix (env : Env) (x : Arr) (exponent : ℝ := 1) : PyM FSq := do
  checkValidDcovExponent exponent
  let x2 ← PyM.lift (transformTo2d x.data)
  let a ← PyM.lift (pdist env x.ns x.dtype x2 exponent)
  if objKind x x = .python ∧ ((x2.n : ℤ) - 1) * ((x2.n : ℤ) - 2) = 0 then
    PyM.throw .zeroDivisionError
  else PyM.pure ⟨x2.n, objKind x x, uCentered (FMat.ofReal a)⟩

/-- `u_product` with broadcasting, dcor/_dcor_internals.py:455-460; the size is taken from the
first argument. -/
noncomputable def uProductB (a b : FSq) : Except PyErr (FP ℝ) := do
  let p ← FSq.zipWith (· * ·) a b
  npDiv p.kind (∑ i, ∑ j, p.e i j) ((a.n : ℤ) * ((a.n : ℤ) - 3))

/-- The function returned by `u_projection(c)`, dcor/_dcor_internals.py:542-568. -/
noncomputable def uProjectionB (c : FSq) (denominator : FP ℝ) (a : FSq) : Except PyErr FSq :=
  if denominator.IsZero then .ok ⟨c.n, c.kind, fun _ _ => .fin 0⟩
  else do
    let ac ← uProductB a c
    pure ⟨c.n, a.kind.join c.kind, fun i j => ac / denominator * c.e i j⟩

/-- The function returned by `u_complementary_projection(c)`,
dcor/_dcor_internals.py:638-654. -/
noncomputable def uComplementaryProjectionB (c : FSq) (denominator : FP ℝ) (a : FSq) :
    Except PyErr FSq := do
  let p ← uProjectionB c denominator a
  FSq.zipWith (· - ·) a p

/-- `partial_distance_covariance`, dcor/_partial_dcor.py:81-87. -/
noncomputable def partialDistanceCovariance (env : Env) (x y z : Arr) : PyM (FP ℝ) := do
  let a ← uDistanceMatrix env x
  let b ← uDistanceMatrix env y
  let c ← uDistanceMatrix env z
  let denominator ← PyM.lift (uProductB c c)
  let pa ← PyM.lift (uComplementaryProjectionB c denominator a)
  let pb ← PyM.lift (uComplementaryProjectionB c denominator b)
  PyM.lift (uProductB pa pb)

/-- `np.clip(r, -1, 1)`. -/
noncomputable def FP.clip1 : FP ℝ → FP ℝ
  | .fin r => .fin (max (-1) (min r 1))
  | .pinf => .fin 1
  | .ninf => .fin (-1)
  | .nan => .nan

/-- `num / _sqrt(denom_sqr) if denom_sqr != 0 else denom_sqr`, clipped;
dcor/_partial_dcor.py:160-170. The divisor is a NumPy number. -/
noncomputable def clippedCorrelation (num denomSqr : FP ℝ) : FP ℝ :=
  FP.clip1 (if denomSqr.IsZero then denomSqr else num / sqrtClip denomSqr)

/-- Last two statements of `partial_distance_correlation`, dcor/_partial_dcor.py:172-174. -/
noncomputable def partialFromCorrelations (rxy rxz ryz : FP ℝ) : FP ℝ :=
  let denom := sqrtClip (.fin 1 - rxz * rxz) * sqrtClip (.fin 1 - ryz * ryz)
  if denom.IsZero then denom else (rxy - rxz * ryz) / denom

/-- `partial_distance_correlation`, dcor/_partial_dcor.py:149-174. -/
noncomputable def partialDistanceCorrelation (env : Env) (x y z : Arr) : PyM (FP ℝ) := do
  let a ← uDistanceMatrix env x
  let b ← uDistanceMatrix env y
  let c ← uDistanceMatrix env z
  let aa ← PyM.lift (uProductB a a)
  let bb ← PyM.lift (uProductB b b)
  let cc ← PyM.lift (uProductB c c)
  let ab ← PyM.lift (uProductB a b)
  let ac ← PyM.lift (uProductB a c)
  let bc ← PyM.lift (uProductB b c)
  let rxy := clippedCorrelation ab (aa * bb)
  let rxz := clippedCorrelation ac (aa * cc)
  let ryz := clippedCorrelation bc (bb * cc)
  PyM.pure (partialFromCorrelations rxy rxz ryz)

end Dcor
