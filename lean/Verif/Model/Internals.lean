/-
Model of the matrix part of dcor/_dcor_internals.py and of `_sqrt` in dcor/_utils.py.

Matrices are square `Fin n → Fin n → FP ℝ`.
-/
import Verif.Model.Py

namespace Dcor

/-- Does dividing by zero follow NumPy (inf / NaN) or raise `ZeroDivisionError` (Python floats,
elements of object arrays)? -/
inductive NumKind where
  | numpy
  | python
  deriving DecidableEq, Repr

/-- Square matrix of floats. -/
abbrev FMat (n : ℕ) := Fin n → Fin n → FP ℝ

/-- Embed a matrix of reals. -/
def FMat.ofReal {n : ℕ} (a : Fin n → Fin n → ℝ) : FMat n := fun i j => .fin (a i j)

/-- `_sqrt`, dcor/_utils.py:89-111: negative values are replaced by zero first. -/
noncomputable def sqrtClip : FP ℝ → FP ℝ
  | .fin a => if a < 0 then .fin (Real.sqrt 0) else .fin (Real.sqrt a)
  | .pinf => .pinf
  | .ninf => .fin (Real.sqrt 0)
  | .nan => .nan

/-- `x == 0` on floats. -/
def FP.IsZero : FP ℝ → Prop
  | .fin a => a = 0
  | _ => False

noncomputable instance : DecidablePred FP.IsZero := fun _ => Classical.propDecidable _

/-- `_symmetric_matrix_sums`, dcor/_dcor_internals.py:75-87: sums along axis 1 and total. -/
noncomputable def symmetricMatrixSums {n : ℕ} (a : FMat n) : (Fin n → FP ℝ) × FP ℝ :=
  let axisSum := fun i => ∑ j, a i j
  (axisSum, ∑ i, axisSum i)

/-- Values computed by `double_centered`, dcor/_dcor_internals.py:254-267 (where they are written
is modelled in `Verif/Model/Heap.lean`). Both the row and the column means are taken from the
sums along axis 1. -/
noncomputable def doubleCentered {n : ℕ} (a : FMat n) : FMat n :=
  let sums := symmetricMatrixSums a
  let totalMean := sums.2 / .fin ((n : ℝ) ^ 2)
  let axisMean := fun i => sums.1 i / .fin (n : ℝ)
  fun i j => ((a i j - axisMean j) - axisMean i) + totalMean

/-- Values computed by `u_centered`, dcor/_dcor_internals.py:330-348. -/
noncomputable def uCentered {n : ℕ} (a : FMat n) : FMat n :=
  let sums := symmetricMatrixSums a
  let totalUMean := sums.2 / .fin (((n : ℝ) - 1) * ((n : ℝ) - 2))
  let axisUMean := fun i => sums.1 i / .fin ((n : ℝ) - 2)
  fun i j => if i = j then .fin 0 else ((a i j - axisUMean j) - axisUMean i) + totalUMean

/-- `mean_product`, dcor/_dcor_internals.py:351-389, for two matrices of the same shape. -/
noncomputable def meanProduct {n m : ℕ} (a b : Fin n → Fin m → FP ℝ) : FP ℝ :=
  (∑ i, ∑ j, a i j * b i j) / .fin ((n : ℝ) * (m : ℝ))

/-- `u_product`, dcor/_dcor_internals.py:392-460, for two square matrices of the same size. -/
noncomputable def uProduct {n : ℕ} (a b : FMat n) : FP ℝ :=
  (∑ i, ∑ j, a i j * b i j) / .fin ((n : ℝ) * ((n : ℝ) - 3))

/-- `u_projection`, dcor/_dcor_internals.py:542-568. -/
noncomputable def uProjection {n : ℕ} (c : FMat n) : FMat n → FMat n :=
  let denominator := uProduct c c
  if denominator.IsZero then fun _ _ _ => .fin 0
  else fun a i j => uProduct a c / denominator * c i j

/-- `u_complementary_projection`, dcor/_dcor_internals.py:638-654. -/
noncomputable def uComplementaryProjection {n : ℕ} (c : FMat n) : FMat n → FMat n :=
  let proj := uProjection c
  fun a i j => a i j - proj a i j

/-- How each of the terms behaves when divided by zero. -/
structure Kinds where
  mean : NumKind
  axis : NumKind
  total : NumKind
  var : NumKind

/-- Division of a scalar by a Python integer. -/
noncomputable def npDiv (k : NumKind) (a : FP ℝ) (d : ℤ) : Except PyErr (FP ℝ) :=
  if k = .python ∧ d = 0 then .error .zeroDivisionError else .ok (a / .fin (d : ℝ))

/-- `_dcov_from_terms`, dcor/_dcor_internals.py:176-199. -/
noncomputable def dcovFromTerms (kMean kAxis kTotal : NumKind) {n : ℕ} (meanProd : ℝ)
    (aAxis : Fin n → ℝ) (aTotal : ℝ) (bAxis : Fin n → ℝ) (bTotal : ℝ) (biasCorrected : Bool) :
    Except PyErr (FP ℝ) := do
  let first ← npDiv kMean (.fin meanProd) n
  let second : FP ℝ := ∑ i, (.fin (aAxis i) / .fin (n : ℝ)) * .fin (bAxis i)
  let third0 ← npDiv kTotal (.fin aTotal) n
  let third := third0 * .fin bTotal
  if biasCorrected then do
    let first ← npDiv kMean first ((n : ℤ) - 3)
    let second ← npDiv kAxis second (((n : ℤ) - 2) * ((n : ℤ) - 3))
    let third ← npDiv kTotal third (((n : ℤ) - 1) * ((n : ℤ) - 2) * ((n : ℤ) - 3))
    pure (first - .fin 2 * second + third)
  else do
    let first ← npDiv kMean first (n : ℤ)
    let second ← npDiv kAxis second ((n : ℤ) ^ 2)
    let third ← npDiv kTotal third ((n : ℤ) ^ 3)
    pure (first - .fin 2 * second + third)

end Dcor
