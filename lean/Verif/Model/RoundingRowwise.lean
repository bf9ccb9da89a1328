/-
The optimised row-wise functions in a given arithmetic, dcor/_rowwise.py:17-102.

The inputs are the rows, as `float64` vectors of the same length: dispatch, shapes and other types of data are in
`Verif/Model/Rowwise.lean`. The loops of numba over the rows, which may run in parallel, write every entry of the result
once; they are modelled by a map.
-/
import Verif.Model.Rounding

namespace Dcor

variable {R : Type} (A : Arith R)

namespace Arith

/-- One entry of `_rowwise_distance_covariance_sqr_avl_generic`, dcor/_fast_dcov_avl.py:567-574 (numba calls it for every
row), with `_distance_covariance_sqr_from_terms_impl`, dcor/_dcor_internals_numba.py:49-89. Only compiled code is used. -/
def rowCovariance {n : ℕ} (unbiased : Bool) (argsort : (Fin n → R) → Equiv.Perm (Fin n)) (x y : Fin n → R) :
    Except PyErr R := do
  let t ← A.avlTerms true argsort x y
  pure (A.covFromTerms unbiased t)

/-- `_rowwise_distance_covariance_sqr_avl_generic`, dcor/_fast_dcov_avl.py:606-641: numba runs over the pairs of rows. An
error of any row is reported, here the first one. -/
def rowwiseCovariance {n : ℕ} (unbiased : Bool) (argsort : (Fin n → R) → Equiv.Perm (Fin n)) (xs ys : List (Fin n → R)) :
    Except PyErr (List R) :=
  (xs.zip ys).mapM fun p => A.rowCovariance unbiased argsort p.1 p.2

/-- `np.isnan`. -/
def isNan (a : R) : Bool := !A.eq a a

/-- One entry of `cov / x_std / y_std` with NaN replaced by zero, dcor/_rowwise.py:72-78. -/
def rowQuotient (cov varX varY : R) : R :=
  let corr := A.div (A.div cov (A.sqrtClip varX)) (A.sqrtClip varY)
  if A.isNan corr then A.ofInt 0 else corr

/-- `rowwise_distance_correlation_sqr`, dcor/_rowwise.py:57-80. -/
def rowwiseCorrelation {n : ℕ} (unbiased : Bool) (argsort : (Fin n → R) → Equiv.Perm (Fin n)) (xs ys : List (Fin n → R)) :
    Except PyErr (List R) := do
  let nComps := xs.length
  let resCovs ← A.rowwiseCovariance unbiased argsort (xs ++ xs ++ ys) (ys ++ xs ++ ys)
  let cov := resCovs.take nComps
  let varX := (resCovs.drop nComps).take nComps
  let varY := resCovs.drop (2 * nComps)
  pure ((cov.zip (varX.zip varY)).map fun p => A.rowQuotient p.1 p.2.1 p.2.2)

/-- `_rowwise_distance_correlation` and `_rowwise_distance_covariance`, dcor/_rowwise.py:44-50 and 92-99: the square roots
of the squared statistics. -/
def rowwiseRoots (res : Except PyErr (List R)) : Except PyErr (List R) := do
  let r ← res
  pure (r.map A.sqrtClip)

end Arith

end Dcor
