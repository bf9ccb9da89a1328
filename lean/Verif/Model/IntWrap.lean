/-
Arithmetic on NumPy integer arrays, which wraps around silently.

`int64` values are `BitVec 64` read with `toInt`; unsigned values of `w` bits are `BitVec w` read with
`toNat`. Everywhere else in the model arithmetic on `int64` arrays is exact; here it is what NumPy does.
-/
import Verif.Model.Dcor
import Mathlib.Data.BitVec

namespace Dcor

variable {n p l : ℕ}

/-- The two fast methods. -/
inductive FastMethod where
  | avl
  | mergesort
  deriving DecidableEq

/-- `_distance_covariance_sqr_terms_avl_impl`, dcor/_fast_dcov_avl.py:314-414, and
`_distance_covariance_sqr_terms_mergesort_impl`, dcor/_fast_dcov_mergesort.py:215-264, not compiled, on
two `int64` arrays of the same length. All the arrays have that dtype: `c` (line 235), `s` and `gamma`
(lines 261 and 267), `weights` and `weight_sums` (lines 156 and 47); sums, cumulative sums and matrix
products too. -/
def int64Terms (m : FastMethod) (argsort : (Fin n → BitVec 64) → Equiv.Perm (Fin n))
    (x y : Fin n → BitVec 64) : Except PyErr (CoreTerms (BitVec 64) n) :=
  match m with
  | .avl => avlTermsImpl false argsort x y
  | .mergesort => do
    let r ← mergesortTermsImpl (fun a b : BitVec 64 => decide (a.toInt ≥ b.toInt)) argsort x y
    pure r.1

/-- Conversion to floats, made by the divisions of dcor/_dcor_internals.py:186-188. -/
def CoreTerms.int64ToReal (t : CoreTerms (BitVec 64) n) : CoreTerms ℝ n where
  meanProd := (t.meanProd.toInt : ℝ)
  aAxis := fun i => ((t.aAxis i).toInt : ℝ)
  aTotal := (t.aTotal.toInt : ℝ)
  bAxis := fun i => ((t.bAxis i).toInt : ℝ)
  bTotal := (t.bTotal.toInt : ℝ)

/-- Kind of the scalars: `d.item()` is a Python number (dcor/_fast_dcov_mergesort.py:174). -/
def FastMethod.meanKind : FastMethod → NumKind
  | .avl => .numpy
  | .mergesort => .python

/-- `_DcovAlgorithmInternals.dcov_sqr`, dcor/_dcor.py:217-238, for the fast methods on `int64`
arrays. -/
noncomputable def dcovSqrInt64 (m : FastMethod)
    (argsort : (Fin n → BitVec 64) → Equiv.Perm (Fin n)) (x y : Fin n → BitVec 64)
    (biasCorrected : Bool) : Except PyErr (FP ℝ) := do
  let t ← int64Terms m argsort x y
  let c := t.int64ToReal
  dcovFromTerms m.meanKind .numpy .numpy c.meanProd c.aAxis c.aTotal c.bAxis c.bTotal biasCorrected

/-- `_DcovAlgorithmInternals.stats_sqr`, dcor/_dcor.py:240-313, for the fast methods on `int64` arrays.
The variance terms are computed with floats by `np.var` (dcor/_fast_dcov_avl.py:410-411,
dcor/_fast_dcov_mergesort.py:260-261). -/
noncomputable def statsSqrInt64 (m : FastMethod)
    (argsort : (Fin n → BitVec 64) → Equiv.Perm (Fin n)) (x y : Fin n → BitVec 64)
    (biasCorrected : Bool) : Except PyErr Stats := do
  let t ← int64Terms m argsort x y
  let c := t.int64ToReal
  let va : ℝ := varTerm fun i => ((x i).toInt : ℝ)
  let vb : ℝ := varTerm fun i => ((y i).toInt : ℝ)
  let cov ← dcovFromTerms m.meanKind .numpy .numpy c.meanProd c.aAxis c.aTotal c.bAxis c.bTotal
    biasCorrected
  let vx ← dcovFromTerms .numpy .numpy .numpy va c.aAxis c.aTotal c.aAxis c.aTotal biasCorrected
  let vy ← dcovFromTerms .numpy .numpy .numpy vb c.bAxis c.bTotal c.bAxis c.bTotal biasCorrected
  let denominator := sqrtClip (FP.abs (vx * vy))
  let corr := if denominator.IsZero then .fin 0 else cov / denominator
  pure ⟨cov, corr, vx, vy⟩

/-- `np.sum` of unsigned integers of at most 64 bits: they are added as `uint64`. -/
def sumUnsigned {w : ℕ} (v : Fin p → BitVec w) : BitVec 64 := ∑ c, (v c).setWidth 64

/-- `_cdist_naive`, dcor/distances.py:23-38, on unsigned integers (`_can_be_numpy_double`,
dcor/_utils.py:147-167, is false for them) with the same number of columns: the subtraction and the
square (line 33) wrap around; the power has a floating point exponent, so its result is a float.
Entry `(k, i)` is for `y[k]` and `x[i]`. -/
noncomputable def cdistNaiveUnsigned {w : ℕ} (x : Fin n → Fin p → BitVec w)
    (y : Fin l → Fin p → BitVec w) (exponent : ℝ) : Fin l → Fin n → ℝ :=
  fun k i => ((sumUnsigned fun c => (x i c - y k c) ^ 2).toNat : ℝ) ^ (exponent / 2)

/-- `pairwise_distances(x)`, dcor/distances.py:156-158, on unsigned integers. -/
noncomputable def pairwiseDistancesUnsigned {w : ℕ} (x : Fin n → Fin p → BitVec w)
    (exponent : ℝ) : Fin n → Fin n → ℝ :=
  cdistNaiveUnsigned x x exponent

/-- `squared_norms ** 0.5`, dcor/distances.py:36, on `int64`: NaN for negative numbers. -/
noncomputable def powHalfInt64 (s : BitVec 64) : FP ℝ :=
  if s.toInt < 0 then .nan else .fin (Real.sqrt (s.toInt : ℝ))

/-- `_cdist_naive`, dcor/distances.py:23-38, on `int64` arrays with the same number of columns, with
exponent 1. It is used when the NumPy arrays do not pass the test of dcor/_utils.py:156 and for arrays
of other libraries. -/
noncomputable def cdistNaiveInt64 (x : Fin n → Fin p → BitVec 64) (y : Fin l → Fin p → BitVec 64) :
    Fin l → Fin n → FP ℝ :=
  fun k i => powHalfInt64 (∑ c, (x i c - y k c) ^ 2)

end Dcor
